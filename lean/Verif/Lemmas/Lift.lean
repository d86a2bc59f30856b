import Verif.Lemmas.AddDel
import Verif.Spec.Api
/-!
# The allocated size of the tag array is not observable

`up d s` is `s` with another array size.  Every operation that does not look at the size commutes
with `up d`; the others give the same result in a larger array.
-/
set_option autoImplicit false
namespace Dax

def up (d : Nat) (s : Server) : Server := { s with dbsize := d }

def upR {α : Type} (d : Nat) : C (Server × α) → C (Server × α)
  | .ok (s, r) => .ok (up d s, r)
  | .ub w => .ub w

def upS (d : Nat) : C Server → C Server
  | .ok s => .ok (up d s)
  | .ub w => .ub w

variable {α β : Type} (d : Nat) (s : Server)

theorem upR_pure {d : Nat} {x : C β} {k k' : β → C (Server × α)} (h : ∀ b, k b = upR d (k' b)) :
    x >>= k = upR d (x >>= k') := by
  cases x <;> simp [h]; rfl

theorem upR_bind {d : Nat} {x x' : C (Server × β)} {k k' : Server × β → C (Server × α)}
    (hx : x = upR d x') (h : ∀ s r, k (up d s, r) = upR d (k' (s, r))) :
    x >>= k = upR d (x' >>= k') := by
  subst hx
  cases x' with
  | ok p => obtain ⟨s, r⟩ := p; exact h s r
  | ub w => rfl

theorem upR_bindS {d : Nat} {x x' : C Server} {k k' : Server → C (Server × α)}
    (hx : x = upS d x') (h : ∀ s, k (up d s) = upR d (k' s)) :
    x >>= k = upR d (x' >>= k') := by
  subst hx
  cases x' with
  | ok p => exact h p
  | ub w => rfl

theorem upS_pure {d : Nat} {x : C β} {k k' : β → C Server} (h : ∀ b, k b = upS d (k' b)) :
    x >>= k = upS d (x >>= k') := by
  cases x <;> simp [h]; rfl

theorem upS_bind {d : Nat} {x x' : C (Server × β)} {k k' : Server × β → C Server}
    (hx : x = upR d x') (h : ∀ s r, k (up d s, r) = upS d (k' (s, r))) :
    x >>= k = upS d (x' >>= k') := by
  subst hx
  cases x' with
  | ok p => obtain ⟨s, r⟩ := p; exact h s r
  | ub w => rfl

theorem upS_bindS {d : Nat} {x x' : C Server} {k k' : Server → C Server}
    (hx : x = upS d x') (h : ∀ s, k (up d s) = upS d (k' s)) :
    x >>= k = upS d (x' >>= k') := by
  subst hx
  cases x' with
  | ok p => exact h p
  | ub w => rfl

theorem upR_ite {d : Nat} {c c' : Prop} [Decidable c] [Decidable c'] {x y : C (Server × α)}
    {x' y' : C (Server × α)} (hc : c = c') (hx : x = upR d x') (hy : y = upR d y') :
    (if c then x else y) = upR d (if c' then x' else y') := by
  subst hc; split <;> assumption

theorem upS_ite {d : Nat} {c c' : Prop} [Decidable c] [Decidable c'] {x y : C Server}
    {x' y' : C Server} (hc : c = c') (hx : x = upS d x') (hy : y = upS d y') :
    (if c then x else y) = upS d (if c' then x' else y') := by
  subst hc; split <;> assumption

theorem up_ok {d : Nat} {s s' : Server} (hu : s' = up d s) : C.ok s' = upS d (C.ok s) := by
  subst hu; rfl

theorem up_tag? (i : Int) : (up d s).tag? i = s.tag? i := rfl
theorem up_modByFd (i : Int) : (up d s).modByFd i = s.modByFd i := rfl
theorem up_modByUid (i : Nat) : (up d s).modByUid i = s.modByUid i := rfl
theorem up_env : (up d s).env = s.env := rfl
theorem up_cdts : (up d s).cdts = s.cdts := rfl
theorem up_db : (up d s).db = s.db := rfl
theorem up_index : (up d s).index = s.index := rfl
theorem up_ret : (up d s).ret = s.ret := rfl
theorem up_mods : (up d s).mods = s.mods := rfl

theorem up_eventCheck (idx : Int) (b : List Byte) (off n : Int) (evs : List Ev) :
    eventCheck (up d s) idx b off n evs = eventCheck s idx b off n evs := by
  induction evs with
  | nil => rfl
  | cons e es ih => unfold eventCheck; rw [ih]; rfl

theorem up_eventDelCheck (idx : Int) (b : List Byte) (evs : List Ev) :
    eventDelCheck (up d s) idx b evs = eventDelCheck s idx b evs := by
  induction evs with
  | nil => rfl
  | cons e es ih => unfold eventDelCheck; rw [ih]; rfl

theorem up_specialWrite (t : Tag) (fd idx off : Int) (n : Nat) :
    specialWrite (up d s) t fd idx off n = specialWrite s t fd idx off n := rfl

/-- Push `up` through the body of an operation; the arguments are the lemmas for the operations
called. -/
syntax "lift" "[" term,* "]" : tactic
macro_rules
  | `(tactic| lift [$ts,*]) => do
    let alts ← ts.getElems.mapM fun t => `(tacticSeq| exact $t)
    `(tactic| (
      repeat' first
        | rfl
        $[| $alts]*
        | (refine upR_ite rfl ?_ ?_)
        | (refine upS_ite rfl ?_ ?_)
        | (refine upR_bind ?_ fun _ _ => ?_; focus (first $[| $alts]*))
        | (refine upR_bindS ?_ fun _ => ?_; focus (first $[| $alts]*))
        | (refine upS_bind ?_ fun _ _ => ?_; focus (first $[| $alts]*))
        | (refine upS_bindS ?_ fun _ => ?_; focus (first $[| $alts]*))
        | (refine upR_pure fun _ => ?_)
        | (refine upS_pure fun _ => ?_)
        | (simp only [up_tag?, up_modByFd, up_modByUid, up_env, up_cdts, up_db, up_index, up_ret, up_mods,
            up_eventCheck, up_eventDelCheck, up_specialWrite])
        | split))

theorem up_retTagWrite {d : Nat} {s s' : Server} (hu : s' = up d s) (i : Int) :
    retTagWrite s' i = upS d (retTagWrite s i) := by
  subst hu
  unfold retTagWrite
  lift []

theorem up_retAddTag {d : Nat} {s s' : Server} (hu : s' = up d s) (i : Nat) :
    retAddTag s' i = upS d (retAddTag s i) := by
  subst hu
  unfold retAddTag
  lift []

theorem up_commitWrite {d : Nat} {s s' : Server} (hu : s' = up d s) (idx : Int) (t : Tag) (b : List Byte) (off : Int) (n : Nat) :
    commitWrite s' idx t b off n = upR d (commitWrite s idx t b off n) := by
  subst hu
  unfold commitWrite
  lift [up_retTagWrite (by rfl) ..]

theorem up_virtWrite {d : Nat} {s s' : Server} (hu : s' = up d s) (t : Tag) (idx off : Int) (b : List Byte) :
    virtWrite s' t idx off b = upR d (virtWrite s t idx off b) := by
  subst hu
  unfold virtWrite
  lift []

theorem up_tagWrite {d : Nat} {s s' : Server} (hu : s' = up d s) (fd idx off : Int) (b : List Byte) :
    tagWrite s' fd idx off b = upR d (tagWrite s fd idx off b) := by
  subst hu
  unfold tagWrite
  lift [up_virtWrite (by rfl) .., up_commitWrite (by rfl) ..]

theorem up_virtRead {d : Nat} {s s' : Server} (hu : s' = up d s) (t : Tag) (fd idx n : Int) :
    virtRead s' t fd idx n = upR d (virtRead s t fd idx n) := by
  subst hu
  unfold virtRead
  lift []

theorem up_tagRead {d : Nat} {s s' : Server} (hu : s' = up d s) (fd idx off n : Int) :
    tagRead s' fd idx off n = upR d (tagRead s fd idx off n) := by
  subst hu
  unfold tagRead
  lift [up_virtRead (by rfl) ..]

theorem up_setAttribute {d : Nat} {s s' : Server} (hu : s' = up d s) (i a : Nat) :
    setAttribute s' i a = upS d (setAttribute s i a) := by
  subst hu
  unfold setAttribute
  lift [up_retAddTag (by rfl) ..]

theorem up_statusWrite {d : Nat} {s s' : Server} (hu : s' = up d s) (i v : Int) :
    statusWrite s' i v = upS d (statusWrite s i v) := by
  subst hu
  unfold statusWrite
  lift [up_tagWrite (by rfl) ..]

theorem up_tagAddOld {d : Nat} {s s' : Server} (hu : s' = up d s) (fd : Int) (n type count attr size : Nat) :
    tagAddOld s' fd n type count attr size = upR d (tagAddOld s fd n type count attr size) := by
  subst hu
  unfold tagAddOld
  lift [up_setAttribute (by rfl) .., up_tagWrite (by rfl) ..]

theorem up_tagDel {d : Nat} {s s' : Server} (hu : s' = up d s) (idx : Int) :
    tagDel s' idx = upR d (tagDel s idx) := by
  subst hu
  unfold tagDel
  lift [up_tagWrite (by rfl) .., up_statusWrite (by rfl) ..]

theorem up_eventAdd {d : Nat} {s s' : Server} (hu : s' = up d s) (h : Handle) (etype : Int) (arg : List Byte) (m : Module) :
    eventAdd s' h etype arg m = upR d (eventAdd s h etype arg m) := by
  subst hu
  unfold eventAdd
  lift []

theorem up_eventDel {d : Nat} {s s' : Server} (hu : s' = up d s) (idx id : Int) (m : Option Nat) :
    eventDel s' idx id m = upR d (eventDel s idx id m) := by
  subst hu
  unfold eventDel
  lift []

theorem up_eventOpt {d : Nat} {s s' : Server} (hu : s' = up d s) (idx id : Int) (opts : Nat) (m : Option Nat) :
    eventOpt s' idx id opts m = upR d (eventOpt s idx id opts m) := by
  subst hu
  unfold eventOpt
  lift []

theorem up_overrideAdd {d : Nat} {s s' : Server} (hu : s' = up d s) (idx off : Int) (b m : List Byte) :
    overrideAdd s' idx off b m = upR d (overrideAdd s idx off b m) := by
  subst hu
  unfold overrideAdd
  lift [up_statusWrite (by rfl) .., up_ok (by rfl) ..]

theorem up_overrideDel {d : Nat} {s s' : Server} (hu : s' = up d s) (idx off : Int) (m : List Byte) :
    overrideDel s' idx off m = upR d (overrideDel s idx off m) := by
  subst hu
  unfold overrideDel
  lift [up_statusWrite (by rfl) ..]

theorem up_overrideSet {d : Nat} {s s' : Server} (hu : s' = up d s) (idx : Int) (flag : Bool) :
    overrideSet s' idx flag = upR d (overrideSet s idx flag) := by
  subst hu
  unfold overrideSet
  lift [up_statusWrite (by rfl) ..]

theorem up_mapAdd {d : Nat} {s s' : Server} (hu : s' = up d s) (a b : Handle) :
    mapAdd s' a b = upR d (mapAdd s a b) := by
  subst hu
  unfold mapAdd
  lift []

theorem up_mapDel {d : Nat} {s s' : Server} (hu : s' = up d s) (idx id : Int) :
    mapDel s' idx id = upR d (mapDel s idx id) := by
  subst hu
  unfold mapDel
  lift []

theorem up_atomicOp {d : Nat} {s s' : Server} (hu : s' = up d s) (h : Handle) (b : List Byte) (op : Nat) :
    atomicOp s' h b op = upR d (atomicOp s h b op) := by
  subst hu
  unfold atomicOp
  lift [up_commitWrite (by rfl) ..]

theorem up_cleanupTag {d : Nat} {s s' : Server} (hu : s' = up d s) (idx : Int) (uid : Nat) (evs : List Ev) :
    cleanupTag s' idx uid evs = upS d (cleanupTag s idx uid evs) := by
  induction evs generalizing s s' with
  | nil => subst hu; rfl
  | cons e es ih =>
    subst hu
    unfold cleanupTag
    lift [up_eventDel (by rfl) .., ih (by rfl)]

theorem up_cleanupFrom {d : Nat} {s s' : Server} (hu : s' = up d s) (uid n : Nat) :
    cleanupFrom s' uid n = upS d (cleanupFrom s uid n) := by
  induction n generalizing s s' with
  | zero => subst hu; rfl
  | succ n ih =>
    subst hu
    unfold cleanupFrom
    lift [up_cleanupTag (by rfl) .., ih (by rfl) ..]

theorem up_eventsCleanup {d : Nat} {s s' : Server} (hu : s' = up d s) (uid : Nat) :
    eventsCleanup s' uid = upS d (eventsCleanup s uid) := by
  subst hu; exact up_cleanupFrom (by rfl) ..

theorem up_groupReadLoop {d : Nat} {s s' : Server} (hu : s' = up d s) (hs : List Handle) (buf : List Byte) (off : Int) :
    groupReadLoop s' hs buf off = upR d (groupReadLoop s hs buf off) := by
  induction hs generalizing s s' buf off with
  | nil => subst hu; rfl
  | cons e es ih =>
    subst hu
    unfold groupReadLoop
    lift [up_tagRead (by rfl) .., ih (by rfl) ..]

theorem up_groupWriteLoop {d : Nat} {s s' : Server} (hu : s' = up d s) (hs : List Handle) (buf : List Byte) (off : Int) :
    groupWriteLoop s' hs buf off = upR d (groupWriteLoop s hs buf off) := by
  induction hs generalizing s s' buf off with
  | nil => subst hu; rfl
  | cons e es ih =>
    subst hu
    unfold groupWriteLoop
    lift [up_tagWrite (by rfl) .., ih (by rfl) ..]

theorem up_delOwned {d : Nat} {s s' : Server} (hu : s' = up d s) (fd : Int) (k n : Nat) :
    delOwned fd k n s' = upS d (delOwned fd k n s) := by
  induction k generalizing s s' n with
  | zero => subst hu; rfl
  | succ n ih =>
    subst hu
    unfold delOwned
    lift [up_tagDel (by rfl) .., ih (by rfl) ..]

theorem up_groupRead {d : Nat} {s s' : Server} (hu : s' = up d s) (m : Module) (i : Nat) :
    groupRead s' m i = upR d (groupRead s m i) := by
  subst hu
  unfold groupRead
  lift [up_groupReadLoop (by rfl) ..]

theorem up_groupWrite {d : Nat} {s s' : Server} (hu : s' = up d s) (m : Module) (i : Nat) (buf : List Byte) :
    groupWrite s' m i buf = upR d (groupWrite s m i buf) := by
  subst hu
  unfold groupWrite
  lift [up_groupWriteLoop (by rfl) ..]

theorem up_moduleUnregister {d : Nat} {s s' : Server} (hu : s' = up d s) (fd : Int) :
    moduleUnregister s' fd = upS d (moduleUnregister s fd) := by
  subst hu
  unfold moduleUnregister
  lift [up_eventsCleanup (by rfl) .., up_delOwned (by rfl) .., up_tagDel (by rfl) ..]

theorem up_hTagDel {d : Nat} {s s' : Server} (hu : s' = up d s) (idx : Int) :
    hTagDel s' idx = upR d (hTagDel s idx) := by
  subst hu
  unfold hTagDel
  lift [up_tagDel (by rfl) ..]

theorem up_hTagRead {d : Nat} {s s' : Server} (hu : s' = up d s) (fd idx off n : Int) :
    hTagRead s' fd idx off n = upR d (hTagRead s fd idx off n) := by
  subst hu
  unfold hTagRead
  lift [up_tagRead (by rfl) ..]

theorem up_hEvAdd {d : Nat} {s s' : Server} (hu : s' = up d s) (fd : Int) (h : Handle) (etype : Int) (arg : List Byte) :
    hEvAdd s' fd h etype arg = upR d (hEvAdd s fd h etype arg) := by
  subst hu
  unfold hEvAdd
  lift [up_eventAdd (by rfl) ..]

theorem up_hEvDel {d : Nat} {s s' : Server} (hu : s' = up d s) (fd idx id : Int) :
    hEvDel s' fd idx id = upR d (hEvDel s fd idx id) := by
  subst hu
  unfold hEvDel
  lift [up_eventDel (by rfl) ..]

theorem up_hEvOpt {d : Nat} {s s' : Server} (hu : s' = up d s) (fd idx id : Int) (opts : Nat) :
    hEvOpt s' fd idx id opts = upR d (hEvOpt s fd idx id opts) := by
  subst hu
  unfold hEvOpt
  lift [up_eventOpt (by rfl) ..]

theorem up_hCdtCreate {d : Nat} {s s' : Server} (hu : s' = up d s) (str : Name) :
    hCdtCreate s' str = upR d (hCdtCreate s str) := by
  subst hu
  unfold hCdtCreate
  lift []

theorem up_hCdtGet {d : Nat} {s s' : Server} (hu : s' = up d s) (t : Nat) :
    hCdtGet s' t = upR d (hCdtGet s t) := by
  subst hu
  unfold hCdtGet
  lift []

theorem up_hMapGet {d : Nat} {s s' : Server} (hu : s' = up d s) (idx id : Int) :
    hMapGet s' idx id = upR d (hMapGet s idx id) := by
  subst hu
  unfold hMapGet
  lift []

theorem up_hGrpAdd {d : Nat} {s s' : Server} (hu : s' = up d s) (fd : Int) (hs : List Handle) :
    hGrpAdd s' fd hs = upR d (hGrpAdd s fd hs) := by
  subst hu
  unfold hGrpAdd
  lift []

theorem up_hGrpDel {d : Nat} {s s' : Server} (hu : s' = up d s) (fd : Int) (i : Nat) :
    hGrpDel s' fd i = upR d (hGrpDel s fd i) := by
  subst hu
  unfold hGrpDel
  lift []

theorem up_hGrpRead {d : Nat} {s s' : Server} (hu : s' = up d s) (fd : Int) (i : Nat) :
    hGrpRead s' fd i = upR d (hGrpRead s fd i) := by
  subst hu
  unfold hGrpRead
  lift [up_groupRead (by rfl) ..]

theorem up_hGrpWrite {d : Nat} {s s' : Server} (hu : s' = up d s) (fd : Int) (i : Nat) (buf : List Byte) :
    hGrpWrite s' fd i buf = upR d (hGrpWrite s fd i buf) := by
  subst hu
  unfold hGrpWrite
  lift [up_groupWrite (by rfl) ..]

/-! ## Operations that look at the array size -/

/-- The same state with an array that is larger by a power of two. -/
def Up (s s' : Server) : Prop := ∃ k, s' = up (s.dbsize * 2 ^ k) s

theorem Up.refl (s : Server) : Up s s := ⟨0, by simp [up]⟩

theorem Up.db {s s' : Server} (h : Up s s') : s'.db = s.db := by obtain ⟨k, rfl⟩ := h; rfl

theorem Up.le {s s' : Server} (h : Up s s') : s.dbsize ≤ s'.dbsize := by
  obtain ⟨k, rfl⟩ := h
  exact Nat.le_mul_of_pos_right _ (Nat.two_pow_pos k)

/-- Whatever the first computation gives, the second gives too. -/
def SimR {α : Type} (x y : C (Server × α)) : Prop :=
  ∀ s r, x = .ok (s, r) → ∃ s', y = .ok (s', r) ∧ Up s s'

def SimS (x y : C Server) : Prop := ∀ s, x = .ok s → ∃ s', y = .ok s' ∧ Up s s'

theorem SimR.ok {α : Type} {s s' : Server} {r : α} (h : Up s s') : SimR (.ok (s, r)) (.ok (s', r)) := by
  intro s1 r1 h1; cases h1; exact ⟨s', rfl, h⟩

theorem SimS.ok {s s' : Server} (h : Up s s') : SimS (.ok s) (.ok s') := by
  intro s1 h1; cases h1; exact ⟨s', rfl, h⟩

theorem SimR.ub {α : Type} {w : String} {y : C (Server × α)} : SimR (.ub w) y := by
  intro s r h; simp at h

theorem SimS.ub {w : String} {y : C Server} : SimS (.ub w) y := by
  intro s h; simp at h

theorem SimR.pure {x y : C β} {k k' : β → C (Server × α)} (hx : ∀ b, x = .ok b → y = .ok b)
    (h : ∀ b, SimR (k b) (k' b)) : SimR (x >>= k) (y >>= k') := by
  intro s r hh
  obtain ⟨b, hb, hh⟩ := C.bind_eq_ok.mp hh
  obtain ⟨s', h1, h2⟩ := h b s r hh
  exact ⟨s', by rw [hx b hb]; exact h1, h2⟩

theorem SimR.bind {x y : C (Server × β)} {k k' : Server × β → C (Server × α)} (hx : SimR x y)
    (h : ∀ s s' r, Up s s' → SimR (k (s, r)) (k' (s', r))) : SimR (x >>= k) (y >>= k') := by
  intro s r hh
  obtain ⟨⟨s1, r1⟩, hb, hh⟩ := C.bind_eq_ok.mp hh
  obtain ⟨s1', h1, h2⟩ := hx s1 r1 hb
  obtain ⟨s', h3, h4⟩ := h s1 s1' r1 h2 s r hh
  exact ⟨s', by rw [h1]; exact h3, h4⟩

theorem SimR.bindS {x y : C Server} {k k' : Server → C (Server × α)} (hx : SimS x y)
    (h : ∀ s s', Up s s' → SimR (k s) (k' s')) : SimR (x >>= k) (y >>= k') := by
  intro s r hh
  obtain ⟨s1, hb, hh⟩ := C.bind_eq_ok.mp hh
  obtain ⟨s1', h1, h2⟩ := hx s1 hb
  obtain ⟨s', h3, h4⟩ := h s1 s1' h2 s r hh
  exact ⟨s', by rw [h1]; exact h3, h4⟩

theorem SimS.pure {x y : C β} {k k' : β → C Server} (hx : ∀ b, x = .ok b → y = .ok b)
    (h : ∀ b, SimS (k b) (k' b)) : SimS (x >>= k) (y >>= k') := by
  intro s hh
  obtain ⟨b, hb, hh⟩ := C.bind_eq_ok.mp hh
  obtain ⟨s', h1, h2⟩ := h b s hh
  exact ⟨s', by rw [hx b hb]; exact h1, h2⟩

theorem SimS.bind {x y : C (Server × β)} {k k' : Server × β → C Server} (hx : SimR x y)
    (h : ∀ s s' r, Up s s' → SimS (k (s, r)) (k' (s', r))) : SimS (x >>= k) (y >>= k') := by
  intro s hh
  obtain ⟨⟨s1, r1⟩, hb, hh⟩ := C.bind_eq_ok.mp hh
  obtain ⟨s1', h1, h2⟩ := hx s1 r1 hb
  obtain ⟨s', h3, h4⟩ := h s1 s1' r1 h2 s hh
  exact ⟨s', by rw [h1]; exact h3, h4⟩

theorem SimS.bindS {x y : C Server} {k k' : Server → C Server} (hx : SimS x y)
    (h : ∀ s s', Up s s' → SimS (k s) (k' s')) : SimS (x >>= k) (y >>= k') := by
  intro s hh
  obtain ⟨s1, hb, hh⟩ := C.bind_eq_ok.mp hh
  obtain ⟨s1', h1, h2⟩ := hx s1 hb
  obtain ⟨s', h3, h4⟩ := h s1 s1' h2 s hh
  exact ⟨s', by rw [h1]; exact h3, h4⟩

/-- Operations that commute with `up` give related results. -/
theorem SimR.of_up {f : Server → C (Server × α)} {s s' : Server} (h : Up s s')
    (hf : ∀ d s s', s' = up d s → f s' = upR d (f s)) : SimR (f s) (f s') := by
  intro s1 r1 h1
  obtain ⟨k, rfl⟩ := h
  have hk := hf (s.dbsize * 2 ^ k) s _ rfl
  rw [h1] at hk
  have h0 := hf s.dbsize s s (by simp [up])
  rw [h1] at h0
  have hd : s1.dbsize = s.dbsize := by
    simp only [upR, C.ok.injEq, Prod.mk.injEq] at h0
    rw [h0.1]; rfl
  exact ⟨_, hk, k, by rw [hd]⟩

theorem SimS.of_up {f : Server → C Server} {s s' : Server} (h : Up s s')
    (hf : ∀ d s s', s' = up d s → f s' = upS d (f s)) : SimS (f s) (f s') := by
  intro s1 h1
  obtain ⟨k, rfl⟩ := h
  have hk := hf (s.dbsize * 2 ^ k) s _ rfl
  rw [h1] at hk
  have h0 := hf s.dbsize s s (by simp [up])
  rw [h1] at h0
  have hd : s1.dbsize = s.dbsize := by
    simp only [upS, C.ok.injEq] at h0
    rw [h0]; rfl
  exact ⟨_, hk, k, by rw [hd]⟩

theorem sim_tagMaskWrite {s s' : Server} (h : Up s s') (fd idx off : Int) (b m : List Byte) :
    SimR (tagMaskWrite s fd idx off b m) (tagMaskWrite s' fd idx off b m) := by
  have hle := h.le
  unfold tagMaskWrite
  by_cases hi : idx < 0 ∨ idx ≥ s.dbsize
  · rw [if_pos hi]; exact .ub
  rw [if_neg hi, if_neg (c := idx < 0 ∨ idx ≥ s'.dbsize) (by omega)]
  refine SimR.of_up (f := fun s => match s.tag? idx with
    | none => if idx ≥ TAGLIST_SIZE ∧ s.env.junkAttr.virt then .ok (s, ERR_ILLEGAL) else .ok (s, ERR_ARG)
    | some t =>
      if t.attr.virt then .ok (s, ERR_ILLEGAL)
      else do
        let e ← addI32 off b.length
        let sz ← tagGetSize s.cdts t
        if e > sz then .ok (s, ERR_2BIG)
        else match t.data with
          | .freed => .ok (s, ERR_DELETED)
          | .mem bl =>
            let r := if t.attr.special then specialWrite s t fd idx off b.length else 0
            if r ≠ 0 then .ok (s, r)
            else do
              let old ← rd bl off b.length
              let b' ← wr bl off (maskMerge b m old)
              commitWrite s idx t b' off b.length
          | _ => .ub "ordinary tag without data block") h ?_
  rintro d s _ rfl
  dsimp only
  lift [up_commitWrite (by rfl) ..]

theorem sim_tagWrite {s s' : Server} (h : Up s s') (fd idx off : Int) (b : List Byte) :
    SimR (tagWrite s fd idx off b) (tagWrite s' fd idx off b) :=
  SimR.of_up (f := fun s => tagWrite s fd idx off b) h fun _ _ _ hu => up_tagWrite hu ..

theorem sim_mapMove {s s' : Server} (h : Up s s') (m : DMap) (b : List Byte) :
    SimR (mapMove s m b) (mapMove s' m b) := by
  unfold mapMove
  split
  · split
    · exact .ub
    · exact .pure (fun _ h => h) fun _ => sim_tagMaskWrite h _ _ _ _ _
  · exact .pure (fun _ h => h) fun _ => sim_tagWrite h _ _ _ _

theorem Up.tag? {s s' : Server} (h : Up s s') (i : Int) : s'.tag? i = s.tag? i := by
  obtain ⟨k, rfl⟩ := h; rfl

theorem Up.env {s s' : Server} (h : Up s s') : s'.env = s.env := by obtain ⟨k, rfl⟩ := h; rfl
theorem Up.cdts {s s' : Server} (h : Up s s') : s'.cdts = s.cdts := by obtain ⟨k, rfl⟩ := h; rfl
theorem Up.index {s s' : Server} (h : Up s s') : s'.index = s.index := by obtain ⟨k, rfl⟩ := h; rfl
theorem Up.mods {s s' : Server} (h : Up s s') : s'.mods = s.mods := by obtain ⟨k, rfl⟩ := h; rfl
theorem Up.sent {s s' : Server} (h : Up s s') : s'.sent = s.sent := by obtain ⟨k, rfl⟩ := h; rfl

theorem sim_mapLoop {s s' : Server} (h : Up s s') (idx off size : Int) (ms : List DMap) :
    SimS (mapLoop s idx off size ms) (mapLoop s' idx off size ms) := by
  induction ms generalizing s s' with
  | nil => exact .ok h
  | cons m ms ih =>
    unfold mapLoop
    rw [h.tag?, h.env]
    split
    · split
      · exact .ub
      · refine .bind (sim_mapMove h _ _) fun s1 s1' r h1 => ?_
        dsimp only
        split
        · split
          · exact .bind (SimR.of_up (f := fun s => mapDel s m.src.index m.id) h1
              fun _ _ _ hu => up_mapDel hu ..) fun _ _ _ h2 => ih h2
          · exact .ub
        · exact ih h1
    · exact ih h

theorem sim_mapCheck {s s' : Server} (h : Up s s') (idx off size : Int) :
    SimS (mapCheck s idx off size) (mapCheck s' idx off size) := by
  unfold mapCheck
  rw [h.tag?]
  split
  · exact .ub
  · split
    · exact .ub
    · exact sim_mapLoop h _ _ _ _

theorem sim_rawAttr {s s' : Server} (h : Up s s') (idx : Int) (a : Attr × Option Int)
    (hh : rawAttr s idx = .ok a) : rawAttr s' idx = .ok a := by
  have := h.le
  unfold rawAttr at hh ⊢
  rw [h.tag?, h.env]
  by_cases hi : idx < 0 ∨ idx ≥ s.dbsize
  · rw [if_pos hi] at hh; simp at hh
  · rw [if_neg hi] at hh; rw [if_neg (by omega)]; exact hh

theorem sim_roForeign {s s' : Server} (h : Up s s') (fd idx : Int) (a : Bool)
    (hh : roForeign s fd idx = .ok a) : roForeign s' fd idx = .ok a := by
  unfold roForeign at hh ⊢
  obtain ⟨p, hp, hh⟩ := C.bind_eq_ok.mp hh
  rw [sim_rawAttr h _ _ hp]; exact hh

theorem sim_hTagWrite {s s' : Server} (h : Up s s') (fd idx off : Int) (b : List Byte) :
    SimR (hTagWrite s fd idx off b) (hTagWrite s' fd idx off b) := by
  unfold hTagWrite
  refine .pure (sim_roForeign h _ _) fun a => ?_
  split
  · exact .ok h
  · refine .bind (sim_tagWrite h _ _ _ _) fun s1 s1' r h1 => ?_
    dsimp only
    split
    · exact .ok h1
    · exact .bindS (sim_mapCheck h1 _ _ _) fun _ _ h2 => .ok h2

theorem sim_hTagMWrite {s s' : Server} (h : Up s s') (fd idx off : Int) (b m : List Byte) :
    SimR (hTagMWrite s fd idx off b m) (hTagMWrite s' fd idx off b m) := by
  unfold hTagMWrite
  refine .pure (sim_rawAttr h _) fun a => ?_
  dsimp only
  split
  · exact .ok h
  · refine .bind (sim_tagMaskWrite h _ _ _ _ _) fun s1 s1' r h1 => ?_
    dsimp only
    split
    · exact .ok h1
    · exact .bindS (sim_mapCheck h1 _ _ _) fun _ _ h2 => .ok h2

theorem sim_hAtomic {s s' : Server} (h : Up s s') (fd : Int) (hd : Handle) (op : Nat) (b : List Byte) :
    SimR (hAtomic s fd hd op b) (hAtomic s' fd hd op b) := by
  unfold hAtomic
  refine .pure (sim_roForeign h _ _) fun a => ?_
  split
  · exact .ok h
  · refine .bind (SimR.of_up (f := fun s => atomicOp s hd b op) h fun _ _ _ hu => up_atomicOp hu ..)
      fun s1 s1' r h1 => ?_
    dsimp only
    split
    · exact .ok h1
    · exact .bindS (sim_mapCheck h1 _ _ _) fun _ _ h2 => .ok h2

theorem Up.growDb {s s' : Server} (h : Up s s') : Up (growDb s) (growDb s') := by
  obtain ⟨k, rfl⟩ := h
  unfold Dax.growDb
  by_cases h1 : s.db.length ≥ s.dbsize
  · rw [if_pos h1]
    by_cases h2 : (up (s.dbsize * 2 ^ k) s).db.length ≥ (up (s.dbsize * 2 ^ k) s).dbsize
    · rw [if_pos h2]
      exact ⟨k, by simp [up, Nat.mul_right_comm]⟩
    · rw [if_neg h2]
      cases k with
      | zero => simp [up] at h2; omega
      | succ k => exact ⟨k, by simp [up, Nat.pow_succ', Nat.mul_assoc]⟩
  · rw [if_neg h1, if_neg]
    · exact ⟨k, rfl⟩
    · have := Nat.le_mul_of_pos_right s.dbsize (Nat.two_pow_pos k)
      simp only [up]; omega

theorem sim_tagAddNew {s s' : Server} (h : Up s s') (fd : Int) (name : Name)
    (type count attr size : Nat) :
    SimR (tagAddNew s fd name type count attr size) (tagAddNew s' fd name type count attr size) := by
  have hle := h.le
  have hu := h
  obtain ⟨k, rfl⟩ := h
  unfold tagAddNew
  dsimp only
  by_cases hn : s.db.length ≥ 2147483647
  · rw [if_pos hn]; exact .ub
  rw [if_neg hn, if_neg (c := (up (s.dbsize * 2 ^ k) s).db.length ≥ 2147483647) hn]
  refine .pure ?_ fun ix => ?_
  · intro b hb
    show addIndex s.index (up (s.dbsize * 2 ^ k) s).dbsize name s.db.length = _
    unfold addIndex at hb ⊢
    split at hb
    · simp at hb
    · rename_i hlt
      rw [if_neg (by omega)]; exact hb
  refine .pure (x := incRef s.cdts type) (y := incRef s.cdts type) (fun _ h => h) fun tbl => ?_
  obtain ⟨n0, hn0⟩ : ∃ n0, n0 = s.db.length := ⟨_, rfl⟩
  have e1 : (up (s.dbsize * 2 ^ k) s).db.length = n0 := hn0.symm
  rw [e1, ← hn0]
  refine SimR.of_up (f := fun (s1 : Server) => do
    let s := { s1 with index := ix, cdts := tbl }
    let s ← statusWrite s INDEX_LASTINDEX n0
    let s := { s with db := s.db ++ [newTag s.env n0 fd name type count size],
                      tagcount := s.tagcount + 1 }
    let s ← statusWrite s INDEX_TAGCOUNT s.tagcount
    let s ← setAttribute s n0 attr
    let (s, _) ← tagWrite s (-1) INDEX_ADDED_TAG 0 (tagDesc s.env n0 type count attr name)
    .ok (s, (n0 : Int))) hu ?_
  rintro d s _ rfl
  dsimp only
  lift [up_statusWrite (by rfl) .., up_setAttribute (by rfl) .., up_tagWrite (by rfl) ..]

theorem sim_tagAddOld {s s' : Server} (h : Up s s') (fd : Int) (n type count attr size : Nat) :
    SimR (tagAddOld s fd n type count attr size) (tagAddOld s' fd n type count attr size) :=
  SimR.of_up (f := fun s => tagAddOld s fd n type count attr size) h
    fun _ _ _ hu => up_tagAddOld hu ..

theorem sim_tagAdd {s s' : Server} (h : Up s s') (fd : Int) (name : Name) (type count attr : Nat) :
    SimR (tagAdd s fd name type count attr) (tagAdd s' fd name type count attr) := by
  unfold tagAdd tagAddC
  split
  · exact .ok h
  dsimp only
  have hg := h.growDb
  rw [hg.cdts, hg.index]
  split
  · exact .ok hg
  split
  · exact .ok hg
  refine .pure (fun _ h => h) fun size => ?_
  refine .pure (fun _ h => h) fun x => ?_
  split
  · exact sim_tagAddOld hg _ _ _ _ _ _
  · exact sim_tagAddNew hg _ _ _ _ _ _

theorem sim_hTagAdd {s s' : Server} (h : Up s s') (fd : Int) (type count attr : Nat) (name : Name) :
    SimR (hTagAdd s fd type count attr name) (hTagAdd s' fd type count attr name) := by
  unfold hTagAdd
  split
  · exact .ok h
  · exact .bind (sim_tagAdd h _ _ _ _ _) fun _ _ _ h1 => .ok h1

theorem sim_moduleTag {s s' : Server} (h : Up s s') (uid : Nat) (name : Name) (fd : Int) :
    SimS (moduleTag s uid name fd) (moduleTag s' uid name fd) := by
  unfold moduleTag
  refine .pure (y := moduleTagName s' name) ?_ fun p => ?_
  · obtain ⟨k, rfl⟩ := h; exact fun _ h => h
  dsimp only
  have h1 : Up { s with modUuid := p.2 } { s' with modUuid := p.2 } := by
    obtain ⟨k, rfl⟩ := h; exact ⟨k, rfl⟩
  have hc := h.cdts
  rw [show cdtGetType s'.cdts (nm "_module") = cdtGetType s.cdts (nm "_module") by rw [hc]]
  refine .bind (sim_tagAdd h1 _ _ _ _ _) fun s1 s1' r h2 => ?_
  dsimp only
  split
  · exact .ub
  refine SimS.of_up (f := fun s => do
    let s := s.updMod uid (fun m => { m with tagindex := r })
    let (s, _) ← tagWrite s (-1) r 0 (toLE 8 s.env.now)
    let (s, _) ← tagWrite s (-1) r MOD_ID_OFFSET (le4 fd)
    match s.tag? r with
    | none => .ub "database index"
    | some t => do
      let s := s.setTag r { t with attr := { t.attr with special := true } }
      let (s, _) ← tagWrite s (-1) INDEX_LASTMODULE 0
        (p.1 ++ List.replicate (TAGNAME_SIZE - p.1.length) 0)
      .ok s) h2 ?_
  rintro d s _ rfl
  dsimp only
  lift [up_tagWrite (by rfl) ..]

theorem sim_moduleUnregister {s s' : Server} (h : Up s s') (fd : Int) :
    SimS (moduleUnregister s fd) (moduleUnregister s' fd) :=
  SimS.of_up (f := fun s => moduleUnregister s fd) h fun _ _ _ hu => up_moduleUnregister hu ..

theorem sim_moduleRegister {s s' : Server} (h : Up s s') (name : Name) (fd : Int) :
    SimS (moduleRegister s name fd) (moduleRegister s' name fd) := by
  unfold moduleRegister
  have key : ∀ s1 s1' : Server, Up s1 s1' →
      SimS (if (moduleAdd s1 name fd).env.exclude.contains name then .ok (moduleAdd s1 name fd)
            else moduleTag (moduleAdd s1 name fd) s1.nextUid name fd)
        (if (moduleAdd s1' name fd).env.exclude.contains name then .ok (moduleAdd s1' name fd)
            else moduleTag (moduleAdd s1' name fd) s1'.nextUid name fd) := by
    intro s1 s1' h1
    have hn : s1'.nextUid = s1.nextUid := by obtain ⟨k, rfl⟩ := h1; rfl
    have h2 : Up (moduleAdd s1 name fd) (moduleAdd s1' name fd) := by
      obtain ⟨k, rfl⟩ := h1; exact ⟨k, rfl⟩
    rw [h2.env, hn]
    split
    · exact .ok h2
    · exact sim_moduleTag h2 _ _ _
  have hm : s'.modByFd fd = s.modByFd fd := by unfold Server.modByFd; rw [h.mods]
  rw [hm]
  dsimp only
  split
  · exact .bindS (sim_moduleUnregister h _) key
  · exact .bindS (.ok h) key

theorem sim_hModReg {s s' : Server} (h : Up s s') (fd : Int) (flags : Nat) (name : Name) :
    SimR (hModReg s fd flags name) (hModReg s' fd flags name) := by
  unfold hModReg
  split
  · refine .bindS (sim_moduleRegister h _ _) fun s1 s1' h1 => ?_
    refine .bind (SimR.of_up (f := fun s => tagRead s (-1) INDEX_STARTED 0 4) h1
      fun _ _ _ hu => up_tagRead hu ..) fun s2 s2' r h2 => ?_
    dsimp only
    rw [h2.env]
    split <;> exact .ok h2
  · exact .ok h

/-- Every request is answered alike. -/
theorem sim_handle {s s' : Server} (h : Up s s') (fd : Int) (q : Req) :
    SimR (handle s fd q) (handle s' fd q) := by
  have key : ∀ f : Server → C (Server × Reply), (∀ d s s', s' = up d s → f s' = upR d (f s)) →
      SimR (f s) (f s') := fun f hf => SimR.of_up h hf
  cases q with
  | modReg flags name => exact sim_hModReg h _ _ _
  | tagAdd type count attr name => exact sim_hTagAdd h _ _ _ _ _
  | tagWrite idx off b => exact sim_hTagWrite h _ _ _ _
  | tagMWrite idx off b m => exact sim_hTagMWrite h _ _ _ _ _
  | atomic hd op buf => exact sim_hAtomic h _ _ _ _
  | modUnreg => exact .ok h
  | tagList => exact .ok h
  | evGet => exact .ok h
  | grpMWrite => exact .ok h
  | tagGetIdx idx =>
    refine key (fun s => hTagGet s (tagGetIndex s idx)) ?_
    rintro d s _ rfl; unfold hTagGet
    show (tagGetIndex s idx >>= _) = _
    lift []
  | tagGetName name =>
    refine key (fun s => hTagGet s (tagGetName s name)) ?_
    rintro d s _ rfl; unfold hTagGet
    show (tagGetName s name >>= _) = _
    lift []
  | tagDel idx => exact key (fun s => hTagDel s idx) fun _ _ _ hu => up_hTagDel hu ..
  | tagRead idx off n => exact key (fun s => hTagRead s fd idx off n) fun _ _ _ hu => up_hTagRead hu ..
  | evAdd a b c => exact key (fun s => hEvAdd s fd a b c) fun _ _ _ hu => up_hEvAdd hu ..
  | evDel a b => exact key (fun s => hEvDel s fd a b) fun _ _ _ hu => up_hEvDel hu ..
  | evOpt a b c => exact key (fun s => hEvOpt s fd a b c) fun _ _ _ hu => up_hEvOpt hu ..
  | cdtCreate a => exact key (fun s => hCdtCreate s a) fun _ _ _ hu => up_hCdtCreate hu ..
  | cdtGetType a => exact key (fun s => hCdtGet s a) fun _ _ _ hu => up_hCdtGet hu ..
  | cdtGetName a =>
    refine key (fun s => hCdtGet s (cdtGetType s.cdts a)) ?_
    rintro d s _ rfl; exact up_hCdtGet rfl _
  | mapGet a b => exact key (fun s => hMapGet s a b) fun _ _ _ hu => up_hMapGet hu ..
  | grpAdd a => exact key (fun s => hGrpAdd s fd a) fun _ _ _ hu => up_hGrpAdd hu ..
  | grpDel a => exact key (fun s => hGrpDel s fd a) fun _ _ _ hu => up_hGrpDel hu ..
  | grpRead a => exact key (fun s => hGrpRead s fd a) fun _ _ _ hu => up_hGrpRead hu ..
  | grpWrite a b => exact key (fun s => hGrpWrite s fd a b) fun _ _ _ hu => up_hGrpWrite hu ..
  | mapAdd a b =>
    refine key (fun s => handle s fd (.mapAdd a b)) ?_
    rintro d s _ rfl; simp only [handle]; lift [up_mapAdd (by rfl) ..]
  | mapDel a b =>
    refine key (fun s => handle s fd (.mapDel a b)) ?_
    rintro d s _ rfl; simp only [handle]; lift [up_mapDel (by rfl) ..]
  | ovrAdd a b c e =>
    refine key (fun s => handle s fd (.ovrAdd a b c e)) ?_
    rintro d s _ rfl; simp only [handle]; lift [up_overrideAdd (by rfl) ..]
  | ovrDel a b c =>
    refine key (fun s => handle s fd (.ovrDel a b c)) ?_
    rintro d s _ rfl; simp only [handle]; lift [up_overrideDel (by rfl) ..]
  | ovrSet a b =>
    refine key (fun s => handle s fd (.ovrSet a b)) ?_
    rintro d s _ rfl; simp only [handle]; lift [up_overrideSet (by rfl) ..]
  | ovrGet a b c =>
    refine key (fun s => handle s fd (.ovrGet a b c)) ?_
    rintro d s _ rfl; simp only [handle]
    show (overrideGet s a b c >>= _) = _
    lift []

theorem sim_trace {s s' : Server} (h : Up s s') (os : List Op) (x : List Reply × List Notif)
    (hh : trace s os = .ok x) : trace s' os = .ok x := by
  induction os generalizing s s' x with
  | nil => simp only [trace] at hh ⊢; rw [h.sent]; exact hh
  | cons o os ih =>
    cases o with
    | req fd q =>
      simp only [trace] at hh ⊢
      obtain ⟨⟨s1, r⟩, h1, hh⟩ := C.bind_eq_ok.mp hh
      obtain ⟨y, h2, hh⟩ := C.bind_eq_ok.mp hh
      obtain ⟨s1', h3, h4⟩ := sim_handle h fd q s1 r h1
      rw [h3]
      show (trace s1' os >>= _) = _
      rw [ih h4 _ h2]; exact hh
    | close fd =>
      simp only [trace, step] at hh ⊢
      obtain ⟨s1, h1, hh⟩ := C.bind_eq_ok.mp hh
      obtain ⟨s1', h3, h4⟩ := sim_moduleUnregister h fd s1 h1
      rw [h3]
      exact ih h4 _ hh
    | env e =>
      simp only [trace, step, C.ok_bind] at hh ⊢
      refine ih ?_ _ hh
      obtain ⟨k, rfl⟩ := h
      exact ⟨k, rfl⟩

theorem asBefore_refl (s : Server) : AsBefore s s := fun _ _ h => h

theorem asBefore_growDb (s : Server) : AsBefore s (growDb s) := by
  intro os x h
  refine sim_trace ?_ os x h
  unfold growDb
  split
  · exact ⟨1, by simp [up]⟩
  · exact .refl s

end Dax
