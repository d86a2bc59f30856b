import Verif.Lemmas.AddDel
/-!
# Every request is a sequence of elementary changes

`Move` lists the elementary changes the server makes to its tags and modules.  `handle_path`
shows that every request is a sequence of them, so a fact about tags and modules is an
invariant as soon as each kind of change preserves it.
-/
set_option autoImplicit false
namespace Dax

/-! ## Post-conditions of computations that may be undefined -/

def Post {α : Type} (c : C α) (P : α → Prop) : Prop := ∀ x, c = .ok x → P x

theorem Post.ok {α : Type} {a : α} {P : α → Prop} (h : P a) : Post (.ok a) P := by
  intro x hx; simp only [C.ok.injEq] at hx; subst hx; exact h

theorem Post.ub {α : Type} {w : String} {P : α → Prop} : Post (.ub w : C α) P := by
  intro x hx; simp at hx

theorem Post.self {α : Type} {c : C α} : Post c (fun x => c = .ok x) := fun _ h => h

theorem Post.bind {α β : Type} {c : C α} {f : α → C β} {Q : α → Prop} {P : β → Prop}
    (h : Post c Q) (hf : ∀ x, Q x → Post (f x) P) : Post (c >>= f) P := by
  intro y hy
  obtain ⟨x, hx, hy⟩ := C.bind_eq_ok.mp hy
  exact hf x (h x hx) y hy

theorem Post.mono {α : Type} {c : C α} {P Q : α → Prop} (h : Post c P) (hPQ : ∀ x, P x → Q x) :
    Post c Q := fun x hx => hPQ x (h x hx)

/-! ## Elementary changes -/

/-- An event apart from its remembered test block. -/
def Ev.face (e : Ev) : Ev := { e with test := [] }

theorem eventCheck_face {s : Server} {i : Int} {b : List Byte} {off size : Int} {evs : List Ev} :
    ∀ {evs' : List Ev} {ns : List Notif}, eventCheck s i b off size evs = .ok (evs', ns) →
      evs'.map Ev.face = evs.map Ev.face := by
  induction evs with
  | nil => intro evs' ns h; simp only [eventCheck, C.ok.injEq, Prod.mk.injEq] at h; rw [← h.1]
  | cons e evs ih =>
    intro evs' ns h
    simp only [eventCheck] at h
    split at h
    · obtain ⟨⟨hit, test'⟩, h1, h⟩ := C.bind_eq_ok.mp h
      dsimp only at h
      have key : ∀ n0, (do
          let (evs', ns') ← eventCheck s i b off size evs
          C.ok ({ e with test := test' } :: evs', n0 ++ ns')) = .ok (evs', ns) →
          evs'.map Ev.face = (e :: evs).map Ev.face := by
        intro n0 h
        obtain ⟨⟨e2, n2⟩, h2, h⟩ := C.bind_eq_ok.mp h
        simp only [C.ok.injEq, Prod.mk.injEq] at h
        rw [← h.1, List.map_cons, List.map_cons, ih h2]
        rfl
      split at h
      · obtain ⟨n0, -, h⟩ := C.bind_eq_ok.mp h
        exact key n0 h
      · simp only [C.ok_bind] at h
        exact key [] h
    · obtain ⟨⟨e2, n2⟩, h2, h⟩ := C.bind_eq_ok.mp h
      simp only [C.ok.injEq, Prod.mk.injEq] at h
      rw [← h.1, List.map_cons, List.map_cons, ih h2]

theorem sendEvent_ids {s : Server} {i : Int} {ev : Ev} {b : List Byte} {ns : List Notif}
    (h : sendEvent s i ev b = .ok ns) : ∀ n ∈ ns, n.idx = i ∧ n.id = ev.id ∧ n.etype = ev.etype ∧
      ∃ m, s.modByUid ev.notify = some m ∧ n.fd = m.fd := by
  unfold sendEvent at h
  split at h
  · simp at h
  rename_i m hm
  split at h
  · split at h
    · simp only [C.ok.injEq] at h; subst h; simp
    · obtain ⟨d, -, h⟩ := C.bind_eq_ok.mp h
      simp only [C.ok.injEq] at h; subst h
      intro n hn
      simp only [List.mem_singleton] at hn; subst hn
      exact ⟨rfl, rfl, rfl, m, hm, rfl⟩
  · simp only [C.ok.injEq] at h; subst h
    intro n hn
    simp only [List.mem_singleton] at hn; subst hn
    exact ⟨rfl, rfl, rfl, m, hm, rfl⟩

/-- A notification comes from a subscription and goes to the connection of its module. -/
def FromSub (s : Server) (n : Notif) : Prop := ∃ t ev m, s.tag? n.idx = some t ∧ ev ∈ t.events ∧
  n.id = ev.id ∧ n.etype = ev.etype ∧ s.modByUid ev.notify = some m ∧ n.fd = m.fd

theorem sendEvent_from {s : Server} {i : Int} {t : Tag} {ev : Ev} {b : List Byte} {ns : List Notif}
    (ht : s.tag? i = some t) (he : ev ∈ t.events) (h : sendEvent s i ev b = .ok ns) : ∀ n ∈ ns, FromSub s n := by
  intro n hn
  obtain ⟨h1, h2, h3, m, h4, h5⟩ := sendEvent_ids h n hn
  exact ⟨t, ev, m, by rw [h1]; exact ht, he, h2, h3, h4, h5⟩

theorem eventCheck_from' {s : Server} {i : Int} {t : Tag} {b : List Byte} {off size : Int} {evs : List Ev}
    (ht : s.tag? i = some t) (hs : ∀ e ∈ evs, e ∈ t.events) :
    ∀ {evs' : List Ev} {ns : List Notif}, eventCheck s i b off size evs = .ok (evs', ns) →
      ∀ n ∈ ns, FromSub s n := by
  induction evs with
  | nil =>
    intro evs' ns h
    simp only [eventCheck, C.ok.injEq, Prod.mk.injEq] at h
    rw [← h.2]; simp
  | cons e evs ih =>
    intro evs' ns h
    have ih := @ih (fun x hx => hs x (List.mem_cons_of_mem _ hx))
    simp only [eventCheck] at h
    split at h
    · obtain ⟨⟨hit, test'⟩, h1, h⟩ := C.bind_eq_ok.mp h
      dsimp only at h
      have key : ∀ n0, (∀ n ∈ n0, FromSub s n) → (do
          let (evs', ns') ← eventCheck s i b off size evs
          C.ok ({ e with test := test' } :: evs', n0 ++ ns')) = .ok (evs', ns) → ∀ n ∈ ns, FromSub s n := by
        intro n0 h0 h
        obtain ⟨⟨e2, n2⟩, h2, h⟩ := C.bind_eq_ok.mp h
        simp only [C.ok.injEq, Prod.mk.injEq] at h
        rw [← h.2]
        intro n hn
        rcases List.mem_append.mp hn with hn | hn
        · exact h0 n hn
        · exact ih h2 n hn
      split at h
      · obtain ⟨n0, h0, h⟩ := C.bind_eq_ok.mp h
        exact key n0 (sendEvent_from ht (hs e (List.mem_cons_self ..)) h0) h
      · simp only [C.ok_bind] at h
        exact key [] (by simp) h
    · obtain ⟨⟨e2, n2⟩, h2, h⟩ := C.bind_eq_ok.mp h
      simp only [C.ok.injEq, Prod.mk.injEq] at h
      rw [← h.2]
      exact ih h2

theorem eventCheck_from {s : Server} {i : Int} {t : Tag} {b : List Byte} {off size : Int}
    {evs' : List Ev} {ns : List Notif} (ht : s.tag? i = some t)
    (h : eventCheck s i b off size t.events = .ok (evs', ns)) : ∀ n ∈ ns, FromSub s n :=
  eventCheck_from' ht (fun _ h => h) h

theorem eventDelCheck_from' {s : Server} {i : Int} {t : Tag} {b : List Byte} {evs : List Ev}
    (ht : s.tag? i = some t) (hs : ∀ e ∈ evs, e ∈ t.events) :
    ∀ {ns : List Notif}, eventDelCheck s i b evs = .ok ns → ∀ n ∈ ns, FromSub s n := by
  induction evs with
  | nil => intro ns h; simp only [eventDelCheck, C.ok.injEq] at h; rw [← h]; simp
  | cons e evs ih =>
    intro ns h
    have ih := @ih (fun x hx => hs x (List.mem_cons_of_mem _ hx))
    simp only [eventDelCheck] at h
    have key : ∀ n0, (∀ n ∈ n0, FromSub s n) → (do
        let ns' ← eventDelCheck s i b evs
        C.ok (n0 ++ ns')) = .ok ns → ∀ n ∈ ns, FromSub s n := by
      intro n0 h0 h
      obtain ⟨n2, h2, h⟩ := C.bind_eq_ok.mp h
      simp only [C.ok.injEq] at h
      rw [← h]
      intro n hn
      rcases List.mem_append.mp hn with hn | hn
      · exact h0 n hn
      · exact ih h2 n hn
    split at h
    · obtain ⟨n0, h0, h⟩ := C.bind_eq_ok.mp h
      exact key n0 (sendEvent_from ht (hs e (List.mem_cons_self ..)) h0) h
    · simp only [C.ok_bind] at h
      exact key [] (by simp) h

/-- Kinds of changes that only some requests make. -/
inductive Kind where
  /-- a module registers on connection `fd` -/
  | reg (fd : Int)
  /-- the status tag of a module -/
  | mods
  /-- a module leaves -/
  | modDel
  | groups | evAdd | evDel | evCount | evOpt | mapAdd | mapDel | del
  /-- contents are written on behalf of connection `fd` -/
  | own (fd : Int)
  /-- retained contents are restored -/
  | restore
  /-- tag `i` grows beyond one element -/
  | grow (i : Nat)
  /-- a tag is marked as retained -/
  | retAdd
deriving DecidableEq

/-- All kinds except changes of the list of modules. -/
def noReg : Kind → Bool
  | .reg _ => false
  | .mods => false
  | .modDel => false
  | _ => true

/-- All kinds except registrations on other connections and group changes. -/
def regOnly (fd : Int) : Kind → Bool
  | .reg f => f = fd
  | .groups => false
  | .own _ => false
  | .restore => false
  | .grow _ => false
  | .retAdd => false
  | _ => true

/-- A group in use has members within the limits. -/
def GroupOK (g : Group) : Prop :=
  g.notEmpty = true → ∃ hs, g.members = some hs ∧ g.count = hs.length ∧ hs.length ≤ GROUP_MAX_MEMBERS ∧
    sizeTooBig 0 hs = false

/-- All groups in use have members within the limits. -/
def GroupsOK (gs : List Group) : Prop := ∀ g ∈ gs, GroupOK g

/-- All kinds except registrations and group changes. -/
def noAdd : Kind → Bool
  | .reg _ => false
  | .groups => false
  | .own _ => false
  | .restore => false
  | .grow _ => false
  | .retAdd => false
  | _ => true

/-- The mask of a mapping is the one `map_add` builds. -/
def MaskOK (m : DMap) : Prop :=
  (m.src.type = DAX_BOOL ∧ m.dst.bit ≤ 7 ∧ ∃ k,
    maskLoop m.src.count m.dst.bit (List.replicate m.src.size 0) = .ok k ∧ m.mask = some k) ∨
  (m.src.type ≠ DAX_BOOL ∧ m.mask = none)

/-- What a write to tag `i` may do if it is a status tag of a module. -/
def StatusGuard (fl : Kind → Bool) (s : Server) (i : Nat) (t : Tag) (b b' : List Byte) : Prop :=
  t.attr.special = true → t.type = s.modType →
    (∀ j, j ≠ MOD_STAT_COMMAND_OFFSET.toNat → b'[j]? = b[j]?) ∨
    ∃ m ∈ s.mods, (m.fd = -1 ∨ fl (.own m.fd) = true) ∧ m.tagindex = i ∧ ∀ j, j < 12 → b'[j]? = b[j]?

/-- Change of one tag, of the kinds allowed by `fl`. -/
inductive TagMove (fl : Kind → Bool) (s : Server) (i : Nat) (t : Tag) : Tag → Prop
  | write {b b' : List Byte} {evs : List Ev}
      (hv : t.attr.virt = false) (hb : t.data = .mem b) (hl : b'.length = b.length)
      (he : evs.map Ev.face = t.events.map Ev.face) (hg : StatusGuard fl s i t b b') :
      TagMove fl s i t { t with data := .mem b', events := evs }
  | qwrite {q q' : Queue} {evs : List Ev} {off : Int} {d : List Byte}
      (hv : t.attr.virt = true) (hq : t.data = .queue q)
      (hw : queueWrite s.env q off d = .ok (some q'))
      (he : evs.map Ev.face = t.events.map Ev.face) :
      TagMove fl s i t { t with data := .queue q', events := evs }
  | qread {q q' : Queue} {b : List Byte} (hv : t.attr.virt = true) (hq : t.data = .queue q)
      (hr : queueRead q = .ok (some (b, q'))) : TagMove fl s i t { t with data := .queue q' }
  | restore {b b' : List Byte} (hb : t.data = .mem b) (hl : b'.length = b.length) (hf : fl .restore = true) :
      TagMove fl s i t { t with data := .mem b' }
  | attr {a p : Nat} : TagMove fl s i t { t with attr := attrAfter t.attr a, retPtr := p }
  | special : TagMove fl s i t { t with attr := { t.attr with special := true } }
  | ovrFlags (a b : Bool) : TagMove fl s i t { t with attr := { t.attr with override := a, ovrSet := b } }
  | ovrNew {od om : List Byte} {n : Int} (hn : ovrSize s.cdts t = .ok n) (ho : t.ovr = none)
      (h1 : od.length = n.toNat) (h2 : om.length = n.toNat) :
      TagMove fl s i t { t with ovr := some (od, om) }
  | ovrSet {od om od' om' : List Byte} (ho : t.ovr = some (od, om)) (h1 : od'.length = od.length)
      (h2 : om'.length = om.length) : TagMove fl s i t { t with ovr := some (od', om') }
  | ovrFree : TagMove fl s i t { t with ovr := none }
  | evAdd {ev : Ev} {b : Bool} (hid : ev.id = t.nextevent) (hv : t.attr.virt = false)
      (hm : ∃ m ∈ s.mods, m.uid = ev.notify) (hf : fl .evAdd = true) :
      TagMove fl s i t { t with nextevent := t.nextevent + 1, events := ev :: t.events,
                                attr := { t.attr with event := b } }
  | evDel {evs : List Ev} {b : Bool} (h : evs.Sublist t.events) (hf : fl .evDel = true) :
      TagMove fl s i t { t with events := evs, attr := { t.attr with event := b } }
  | evOpt {evs : List Ev}
      (h : evs.map (fun e => { e with options := 0 }) = t.events.map (fun e => { e with options := 0 }))
      (hf : fl .evOpt = true) :
      TagMove fl s i t { t with events := evs }
  | mapAdd {m : DMap} {u : Tag} (hid : m.id = t.nextmap) (hi : m.src.index = i)
      (hw : t.wildMaps = false) (hv : t.attr.virt = false)
      (hd : s.tag? m.dst.index = some u) (hu : u.attr.virt = false ∧ u.attr.readonly = false)
      (hs : m.src.size ≤ m.dst.size) (hf : fl .mapAdd = true) (hk : MaskOK m)
      (hn : ∀ x ∈ t.maps, ¬ (x.src = m.src ∧ x.dst = m.dst)) (hlt : t.nextmap < 2147483647) :
      TagMove fl s i t { t with nextmap := t.nextmap + 1, maps := m :: t.maps,
                                attr := { t.attr with mapping := true } }
  | mapDel {ms : List DMap} (h : ms.Sublist t.maps) (hf : fl .mapDel = true) : TagMove fl s i t { t with maps := ms }
  | grow {d : Store} {size count : Nat} (h : reallocStore s.env t.data size = .ok d)
      (hc : t.count < count) (hf : fl (.grow i) = true ∨ count ≤ 1) : TagMove fl s i t { t with data := d, count := count }
  | clear (hf : fl .del = true) : TagMove fl s i t { t with events := [], maps := [] }
  | kill (hf : fl .del = true) : TagMove fl s i t { t with name := none, data := .freed, attr := {} }

/-- What the change of a tag makes of the retention file. -/
inductive RetMove (fl : Kind → Bool) (s : Server) (t t' : Tag) : Ret → Prop
  | same (hp : t'.retPtr = t.retPtr) (ha : t'.attr.retain = true → t.attr.retain = true)
      (hd : t'.data = t.data ∨ t'.data = .freed ∨ (∃ q, t.data = .queue q) ∨ t.count < t'.count ∨
        fl .restore = true) : RetMove fl s t t' s.ret
  | sync {b : List Byte} {rt : Ret} (hp : t'.retPtr = t.retPtr) (ha : t'.attr = t.attr) (hd : t'.data = .mem b)
      (h : RetSync s t b rt) : RetMove fl s t t' rt
  | insert {rt : Ret} (hd : t'.data = t.data) (hf : fl .retAdd = true) (h : RetInsert s t t'.retPtr rt) :
      RetMove fl s t t' rt

/-- Changes that do not concern the retention file. -/
macro "retsame" : tactic => `(tactic| first
  | exact RetMove.same rfl (fun h => h) (.inl rfl)
  | exact RetMove.same rfl (fun h => absurd h (by simp)) (.inr (.inl rfl))
  | exact RetMove.same rfl (fun h => h) (.inr (.inr (.inl ⟨_, by assumption⟩)))
  | exact RetMove.same rfl (fun h => h) (.inr (.inr (.inr (.inl (by omega)))))
  | exact RetMove.same rfl (fun h => h) (.inr (.inr (.inr (.inr (by assumption))))))

/-- Elementary change of the server.  -/
inductive Move (fl : Kind → Bool) (s : Server) : Server → Prop
  | tag {i : Nat} {t t' : Tag} {rt : Ret} (ht : s.db[i]? = some t) (h : TagMove fl s i t t')
      (hr : RetMove fl s t t' rt := by retsame) : Move fl s { s with db := s.db.set i t', ret := rt }
  | push (fd : Int) (name : Name) (type count size : Nat) :
      Move fl s { s with db := s.db ++ [newTag s.env s.db.length fd name type count size] }
  | other {s' : Server} (h1 : s'.db = s.db) (h2 : s'.mods = s.mods) (h3 : s'.nextUid = s.nextUid)
      (h4 : s'.modType = s.modType) (h5 : s'.env = s.env) (h6 : s'.modUuid = s.modUuid)
      (h7 : s'.sent = s.sent) 
      (h8 : s'.ret = s.ret ∨ (fl .restore = true ∧ s'.ret = { isOpen := true })) : Move fl s s'
  | send {ns : List Notif} (h : ∀ n ∈ ns, FromSub s n) : Move fl s { s with sent := s.sent ++ ns }
  | env (e : Env) : Move fl s { s with env := e }
  | evCount (uid : Nat) (f : Int → Int) (hf : fl .evCount = true) :
      Move fl s (s.updMod uid (fun m => { m with eventCount := f m.eventCount }))
  | groups {m : Module} (hm : m ∈ s.mods) (g : List Group) (n : Nat) (hf : fl .groups = true)
      (hg : GroupsOK m.groups → GroupsOK g) :
      Move fl s (s.updMod m.uid (fun _ => { m with groups := g, groupsSize := n }))
  | modAdd (name : Name) (fd : Int) (hfl : fl (.reg fd) = true) (h : s.modByFd fd = none) : Move fl s (moduleAdd s name fd)
  | modUuid (hfl : fl .mods = true) (n : Nat) : Move fl s { s with modUuid := n }
  | modIdx (hfl : fl .mods = true) (uid : Nat) {r : Int} (h : 0 ≤ r) : Move fl s (s.updMod uid (fun m => { m with tagindex := r }))
  | modDel (hfl : fl .modDel = true) (uid : Nat) : Move fl s { s with mods := s.mods.filter (fun x => x.uid ≠ uid) }

/-- Sequences of elementary changes. -/
inductive Path (fl : Kind → Bool) (s : Server) : Server → Prop
  | refl : Path fl s s
  | snoc {s1 s2 : Server} (p : Path fl s s1) (m : Move fl s1 s2) : Path fl s s2

theorem Path.trans {fl : Kind → Bool} {a b c : Server} (h1 : Path fl a b) (h2 : Path fl b c) : Path fl a c := by
  induction h2 with
  | refl => exact h1
  | snoc p m ih => exact ih.snoc m

/-- Facts that every elementary change preserves are preserved by sequences. -/
theorem Path.inv {fl : Kind → Bool} {I : Server → Prop} (hI : ∀ s s', I s → Move fl s s' → I s') {s s' : Server}
    (p : Path fl s s') (h : I s) : I s' := by
  induction p with
  | refl => exact h
  | snoc p m ih => exact hI _ _ ih m

/-! ## The operations -/

variable {fl : Kind → Bool} {s0 s : Server}

theorem Path.setTag {idx : Int} {t t' : Tag} (p : Path fl s0 s) (ht : s.tag? idx = some t)
    (h : TagMove fl s idx.toNat t t') (hr : RetMove fl s t t' s.ret := by retsame) :
    Path fl s0 (s.setTag idx t') :=
  p.snoc (.tag (tag?_eq.mp ht).2 h hr)

theorem Path.setTag' {s2 : Server} {idx : Int} {t t' : Tag} {ns : List Notif} (p : Path fl s0 s)
    (hn : ∀ n ∈ ns, FromSub s n) (ht : s.tag? idx = some t)
    (h : TagMove fl { s with sent := s.sent ++ ns } idx.toNat t t') (h1 : s2.db = (s.setTag idx t').db)
    (h2 : s2.mods = s.mods) (h3 : s2.nextUid = s.nextUid) (h4 : s2.modType = s.modType) (h5 : s2.env = s.env)
    (h6 : s2.modUuid = s.modUuid) (h7 : s2.sent = s.sent ++ ns)
    (hr : RetMove fl { s with sent := s.sent ++ ns } t t' s2.ret) :
    Path fl s0 s2 :=
  ((p.snoc (.send hn)).snoc (.tag (tag?_eq.mp ht).2 h hr)).snoc (.other h1 h2 h3 h4 h5 h6 h7 (.inl rfl))

theorem natCast_toNat {idx : Int} {t : Tag} (ht : s.tag? idx = some t) : (idx.toNat : Int) = idx :=
  Int.toNat_of_nonneg (tag?_eq.mp ht).1

/-- The check made before a write to a status tag protects it. -/
theorem specialWrite_guard {fd idx off : Int} {t : Tag} {d b b' : List Byte} {n : Nat} (h0 : 0 ≤ idx) (hd : d.length ≤ n)
    (hw : wr b off d = .ok b') (h : t.attr.special = true → specialWrite s t fd idx off n = 0)
    (hf : fd = -1 ∨ fl (.own fd) = true) : StatusGuard fl s idx.toNat t b b' := by
  intro hs hy
  have h := h hs
  unfold specialWrite at h
  rw [if_pos hy] at h
  obtain ⟨w1, w2, w3⟩ := wr_ok.mp hw
  split at h
  · rename_i hc
    obtain ⟨hc, hn⟩ := hc
    refine .inl fun j hj => ?_
    rw [wr_get hw]
    rw [if_neg]
    rw [← hc] at hj
    omega
  · split at h
    · exact absurd h (by decide)
    rename_i m hm
    have hm' : m ∈ s.mods ∧ m.fd = fd := by
      unfold Server.modByFd at hm
      exact ⟨List.mem_of_find?_eq_some hm, by simpa using List.find?_some hm⟩
    split at h
    · exact absurd h (by decide)
    rename_i hi
    split at h
    · exact absurd h (by decide)
    refine .inr ⟨m, hm'.1, by rw [hm'.2]; exact hf, by omega, fun j hj => ?_⟩
    rw [wr_get hw, if_neg]
    omega

theorem tagWrite_special {s' : Server} {fd idx off : Int} {t : Tag} {d : List Byte}
    (h : tagWrite s fd idx off d = .ok (s', 0)) (ht : s.tag? idx = some t) (hv : t.attr.virt = false) :
    t.attr.special = true → specialWrite s t fd idx off d.length = 0 := by
  intro hs
  unfold tagWrite at h
  rw [ht] at h
  simp only [hv, Bool.false_eq_true, if_false] at h
  obtain ⟨e, -, h⟩ := C.bind_eq_ok.mp h
  obtain ⟨sz, -, h⟩ := C.bind_eq_ok.mp h
  split at h
  · simp only [C.ok.injEq, Prod.mk.injEq] at h; exact absurd h.2 (by decide)
  split at h
  · simp only [C.ok.injEq, Prod.mk.injEq] at h; exact absurd h.2 (by decide)
  · apply Classical.byContradiction; intro hc
    simp [hs, hc] at h
  · simp at h

theorem tagMaskWrite_special {s' : Server} {fd idx off : Int} {t : Tag} {d m : List Byte}
    (h : tagMaskWrite s fd idx off d m = .ok (s', 0)) (ht : s.tag? idx = some t) :
    t.attr.special = true → specialWrite s t fd idx off d.length = 0 := by
  intro hs
  unfold tagMaskWrite at h
  rw [ht] at h
  split at h
  · simp at h
  dsimp only at h
  split at h
  · simp only [C.ok.injEq, Prod.mk.injEq] at h; exact absurd h.2 (by decide)
  obtain ⟨e, -, h⟩ := C.bind_eq_ok.mp h
  obtain ⟨sz, -, h⟩ := C.bind_eq_ok.mp h
  split at h
  · simp only [C.ok.injEq, Prod.mk.injEq] at h; exact absurd h.2 (by decide)
  split at h
  · simp only [C.ok.injEq, Prod.mk.injEq] at h; exact absurd h.2 (by decide)
  · apply Classical.byContradiction; intro hc
    simp [hs, hc] at h
  · simp at h

theorem tag?_setTag {idx : Int} {t t' : Tag} (ht : s.tag? idx = some t) {s' : Server}
    (h : s'.db = (s.setTag idx t').db := by rfl) : s'.tag? idx = some t' := by
  rw [tag?_eq] at ht ⊢
  refine ⟨ht.1, ?_⟩
  have := (List.getElem?_eq_some_iff.mp ht.2).1
  simp [h, Server.setTag, this]

theorem WriteDone.path {s' : Server} {fd idx off : Int} {d : List Byte} {size : Nat}
    (p : Path fl s0 s) (h : WriteDone s idx off d size s') (hl : d.length ≤ size)
    (hs : ∀ t, s.tag? idx = some t → t.attr.virt = false → t.attr.special = true → specialWrite s t fd idx off size = 0)
    (hf : fd = -1 ∨ fl (.own fd) = true) : Path fl s0 s' := by
  obtain ⟨t, b, b', evs, ns, rt, ht, hv, hb, hw, he, rfl⟩ := h.ex
  exact p.setTag' (eventCheck_from ht he) ht (.write hv hb (wr_length hw) (eventCheck_face he)
    (specialWrite_guard (s := s) (tag?_eq.mp ht).1 hl hw (hs t ht hv) hf)) rfl rfl rfl rfl rfl rfl rfl
    (.sync rfl rfl rfl (h.sync t _ b' ht (tag?_setTag ht) rfl))

theorem QueueDone.path {s' : Server} {idx off : Int} {d : List Byte}
    (p : Path fl s0 s) (h : QueueDone s idx off d s') : Path fl s0 s' := by
  obtain ⟨t, q, q', evs, ns, ht, hv, hq, hw, he, rfl⟩ := h
  exact p.setTag' (eventCheck_from ht he) ht (.qwrite hv hq hw (eventCheck_face he)) rfl rfl rfl rfl rfl rfl rfl
    (by retsame)

theorem tagWrite_path {fd idx off : Int} {d : List Byte} (p : Path fl s0 s)
    (hf : fd = -1 ∨ fl (.own fd) = true := by first | exact .inl rfl | assumption) :
    Post (tagWrite s fd idx off d) (fun x => Path fl s0 x.1) := by
  rintro ⟨s', r⟩ h
  rcases tagWrite_inv h with ⟨rfl, -⟩ | ⟨rfl, h1⟩ | ⟨-, h⟩
  · exact p
  · exact h1.path p (Nat.le_refl _) (fun t ht hv => tagWrite_special h ht hv) hf
  · exact h.path p

theorem tagMaskWrite_path {fd idx off : Int} {d m : List Byte} (p : Path fl s0 s)
    (hf : fd = -1 ∨ fl (.own fd) = true := by first | exact .inl rfl | assumption) :
    Post (tagMaskWrite s fd idx off d m) (fun x => Path fl s0 x.1) := by
  rintro ⟨s', r⟩ h
  rcases tagMaskWrite_inv h with ⟨rfl, -⟩ | ⟨rfl, t, b, old, -, -, -, h1⟩
  · exact p
  · exact h1.path p (by rw [maskMerge_length]; omega) (fun t ht _ => tagMaskWrite_special h ht) hf

theorem tagRead_path {fd idx off n : Int} (p : Path fl s0 s) :
    Post (tagRead s fd idx off n) (fun x => Path fl s0 x.1) := by
  rintro ⟨s', r⟩ h
  rcases tagRead_inv h with rfl | ⟨t, q, q', b, ht, hv, hq, hr, rfl, -⟩
  · exact p
  · exact p.setTag ht (.qread hv hq hr)

theorem attrAfter_retain (a : Attr) (n : Nat) (h : wantRetain n = false) : (attrAfter a n).retain = a.retain := by
  unfold attrAfter
  rw [h]
  simp only [Bool.false_eq_true, if_false]
  split
  · rfl
  · split <;> rfl

theorem setAttribute_path {i a : Nat} (hf : fl .retAdd = true ∨ wantRetain a = false) (p : Path fl s0 s) :
    Post (setAttribute s i a) (fun x => Path fl s0 x) := by
  rintro s' h
  obtain ⟨t, q, rt, ht, rfl, ⟨h1, rfl, rfl⟩ | ⟨h1, h2⟩⟩ := setAttribute_ret h
  · exact p.snoc (.tag ht .attr (.same rfl (fun h => by rw [attrAfter_retain _ _ h1] at h; exact h) (.inl rfl)))
  · exact p.snoc (.tag ht .attr (.insert rfl (hf.resolve_right (by simp [h1])) h2))

/-- Closes the administrative goals of a traversal. -/
macro "walk1" : tactic => `(tactic| first
  | exact Post.ub
  | exact Post.ok (by assumption)
  | (refine Post.bind (tagWrite_path (by assumption)) ?_; rintro ⟨_, _⟩ _; dsimp only at *)
  | (refine Post.bind (tagMaskWrite_path (by assumption)) ?_; rintro ⟨_, _⟩ _; dsimp only at *)
  | (refine Post.bind (tagRead_path (by assumption)) ?_; rintro ⟨_, _⟩ _; dsimp only at *)
  | (refine Post.bind (setAttribute_path (by assumption) (by assumption)) ?_; intro _ _)
  | split)

macro "walk" : tactic => `(tactic| repeat' walk1)

theorem statusWrite_path {i v : Int} (p : Path fl s0 s) :
    Post (statusWrite s i v) (fun x => Path fl s0 x) := by
  unfold statusWrite
  walk

theorem tagAddNew_path {fd : Int} {name : Name} {type count attr size : Nat}
    (hw : fl .retAdd = true ∨ wantRetain attr = false) (p : Path fl s0 s) :
    Post (tagAddNew s fd name type count attr size) (fun x => Path fl s0 x.1) := by
  unfold tagAddNew
  dsimp only
  split
  · exact Post.ub
  refine Post.bind Post.self fun ix _ => ?_
  refine Post.bind Post.self fun tbl _ => ?_
  refine Post.bind (Q := fun x : Server => Path fl s0 x ∧ x.db.length = s.db.length) ?_ ?_
  · intro x hx
    have p' : Path fl s0 { s with index := ix, cdts := tbl } := p.snoc (.other rfl rfl rfl rfl rfl rfl rfl (.inl rfl))
    exact ⟨statusWrite_path p' x hx, (statusWrite_quiet hx).len⟩
  rintro s1 ⟨p1, hl⟩
  have p2 : Path fl s0 { s1 with db := s1.db ++ [newTag s1.env s.db.length fd name type count size],
                                 tagcount := s1.tagcount + 1 } := by
    refine (p1.snoc (.push fd name type count size)).snoc (.other ?_ rfl rfl rfl rfl rfl rfl (.inl rfl))
    rw [hl]
  refine Post.bind (statusWrite_path p2) fun s3 p3 => ?_
  walk

theorem tagAddOld_path {fd : Int} {n type count attr size : Nat} (hf : fl (.grow n) = true ∨ count ≤ 1)
    (hw : fl .retAdd = true ∨ wantRetain attr = false) (p : Path fl s0 s) :
    Post (tagAddOld s fd n type count attr size) (fun x => Path fl s0 x.1) := by
  unfold tagAddOld
  split
  · exact Post.ub
  rename_i t ht
  split
  · exact Post.ok p
  split
  · split
    · walk
    · rename_i hc
      refine Post.bind Post.self fun d hd => ?_
      dsimp only
      have p2 : Path fl s0 { s with db := s.db.set n { t with data := d, count := count } } :=
        p.snoc (.tag ht (.grow hd (by omega) hf)
          (.same rfl (fun h => h) (.inr (.inr (.inr (.inl (Nat.lt_of_not_le hc)))))))
      walk
  · exact Post.ok p

theorem growDb_path (p : Path fl s0 s) : Path fl s0 (growDb s) := by
  unfold growDb
  split
  · exact p.snoc (.other rfl rfl rfl rfl rfl rfl rfl (.inl rfl))
  · exact p

theorem tagAdd_path {fd : Int} {name : Name} {type count attr : Nat}
    (hf : ∀ n, getByName s.index name = .ok (some n) → fl (.grow n) = true ∨ u32 count ≤ 1)
    (hw : fl .retAdd = true ∨ wantRetain attr = false) (p : Path fl s0 s) :
    Post (tagAdd s fd name type count attr) (fun x => Path fl s0 x.1) := by
  unfold tagAdd tagAddC
  split
  · exact Post.ok p
  dsimp only
  have := growDb_path p
  split
  · exact Post.ok this
  split
  · exact Post.ok this
  refine Post.bind Post.self fun size _ => ?_
  refine Post.bind Post.self fun o ho => ?_
  cases o with
  | some n => exact tagAddOld_path (hf n (by rw [← ho]; unfold growDb; split <;> rfl)) hw this
  | none => exact tagAddNew_path hw this

theorem tagDel_path {idx : Int} (hd : fl .del = true) (p : Path fl s0 s) :
    Post (tagDel s idx) (fun x => Path fl s0 x.1) := by
  unfold tagDel
  split
  · exact Post.ok p
  rename_i t ht
  split
  · exact Post.ok p
  split
  · exact Post.ub
  refine Post.bind Post.self fun ns hns => ?_
  refine Post.bind Post.self fun tbl _ => ?_
  split
  · exact Post.ub
  refine Post.bind Post.self fun ix _ => ?_
  dsimp only
  refine Post.bind (tagWrite_path (p.setTag' (eventDelCheck_from' ht (fun _ h => h) hns) ht (.clear hd) rfl rfl rfl rfl rfl rfl rfl (by retsame))) ?_
  rintro ⟨s1, r1⟩ p1
  dsimp only at *
  split
  · exact Post.ub
  rename_i t1 ht1
  refine Post.bind (statusWrite_path (p1.setTag' (ns := []) (by simp) ht1 (.kill hd) rfl rfl rfl rfl rfl rfl (List.append_nil _).symm (by retsame))) fun s2 p2 => ?_
  exact Post.ok p2

/-! ### Overrides -/

theorem Path.ovrFlags {idx : Int} {t : Tag} {a : Attr} (p : Path fl s0 s)
    (ht : s.tag? idx = some t) (x y : Bool) (ha : a = { t.attr with override := x, ovrSet := y }) :
    Path fl s0 (s.setTag idx { t with attr := a }) := by
  subst ha
  exact p.setTag ht (.ovrFlags x y)

theorem ovrAlloc_inv {e : Env} {t : Tag} {n : Int} {k : Nat} {o : List Byte × List Byte}
    (h : ovrAlloc e t n k = .ok o) : t.ovr = some o ∨
    (t.ovr = none ∧ (k : Int) ≤ n ∧ o = (e.pad (List.replicate k 0) n.toNat, e.pad (List.replicate k 0) n.toNat)) := by
  unfold ovrAlloc at h
  split at h
  · rename_i o' ho
    simp only [C.ok.injEq] at h
    subst h; exact .inl ho
  · rename_i ho
    split at h
    · simp at h
    · simp only [C.ok.injEq] at h
      exact .inr ⟨ho, by omega, h.symm⟩

theorem pad_length (e : Env) (d : List Byte) (n : Nat) : (e.pad d n).length = n := by
  simp only [Env.pad, Env.junk, List.length_take, List.length_append, List.length_map,
    List.length_range]
  omega

theorem overrideAdd_path {idx off : Int} {d m : List Byte} (p : Path fl s0 s) :
    Post (overrideAdd s idx off d m) (fun x => Path fl s0 x.1) := by
  unfold overrideAdd
  split
  · exact Post.ok p
  rename_i t ht
  split
  · exact Post.ok p
  refine Post.bind Post.self fun n hn => ?_
  split
  · exact Post.ok p
  refine Post.bind Post.self ?_
  rintro ⟨od, om⟩ ho
  have ha : Path fl s0 (s.setTag idx { t with ovr := some (od, om) }) := by
    rcases ovrAlloc_inv ho with ho | ⟨ho, -, h⟩
    · exact p.setTag ht (.ovrSet ho rfl rfl)
    · simp only [Prod.mk.injEq] at h
      exact p.setTag ht (.ovrNew hn ho (by rw [h.1, pad_length]) (by rw [h.2, pad_length]))
  dsimp only
  have ht1 : (s.setTag idx { t with ovr := some (od, om) }).tag? idx = some { t with ovr := some (od, om) } := by
    rw [tag?_eq]; refine ⟨(tag?_eq.mp ht).1, ?_⟩
    simp [Server.setTag, (List.getElem?_eq_some_iff.mp (tag?_eq.mp ht).2).1]
  refine Post.bind Post.self fun e he => ?_
  split
  · exact Post.ok ha
  refine Post.bind Post.self fun od' hod => ?_
  refine Post.bind Post.self fun om' hom => ?_
  have hb : Path fl s0 (s.setTag idx { t with ovr := some (od', om') }) := by
    have := ha.setTag ht1 (t' := { t with ovr := some (od', om') })
      (TagMove.ovrSet (t := { t with ovr := some (od, om) }) rfl (wr_length hod) (wr_length hom))
    simpa [Server.setTag] using this
  have h2 : (s.setTag idx { t with ovr := some (od, om) }).setTag idx { t with ovr := some (od', om') }
      = s.setTag idx { t with ovr := some (od', om') } := by simp [Server.setTag]
  rw [h2]
  split
  · simp only [C.ok_bind]
    split
    · exact Post.ub
    · rename_i t3 ht3
      exact Post.ok (hb.ovrFlags ht3 true t3.attr.ovrSet rfl)
  · refine Post.bind (statusWrite_path (hb.snoc (.other rfl rfl rfl rfl rfl rfl rfl (.inl rfl)))) fun s3 p3 => ?_
    split
    · exact Post.ub
    · rename_i t3 ht3
      exact Post.ok (p3.ovrFlags ht3 true t3.attr.ovrSet rfl)

theorem overrideDel_path {idx off : Int} {m : List Byte} (p : Path fl s0 s) :
    Post (overrideDel s idx off m) (fun x => Path fl s0 x.1) := by
  unfold overrideDel
  split
  · exact Post.ok p
  rename_i t ht
  split
  · exact Post.ok p
  refine Post.bind Post.self fun n hn => ?_
  split
  · exact Post.ok p
  rename_i od om ho
  refine Post.bind Post.self fun om0 _ => ?_
  refine Post.bind Post.self fun om' hom => ?_
  refine Post.bind Post.self fun od0 _ => ?_
  refine Post.bind Post.self fun od' hod => ?_
  dsimp only
  have hb : Path fl s0 (s.setTag idx { t with ovr := some (od', om') }) :=
    p.setTag ht (.ovrSet ho (wr_length hod) (wr_length hom))
  have ht1 : (s.setTag idx { t with ovr := some (od', om') }).tag? idx = some { t with ovr := some (od', om') } := by
    rw [tag?_eq]; refine ⟨(tag?_eq.mp ht).1, ?_⟩
    simp [Server.setTag, (List.getElem?_eq_some_iff.mp (tag?_eq.mp ht).2).1]
  split
  · exact Post.ok hb
  split
  · exact Post.ub
  have hc := hb.ovrFlags ht1 false false rfl
  refine Post.bind (statusWrite_path (hc.snoc (.other rfl rfl rfl rfl rfl rfl rfl (.inl rfl)))) fun s3 p3 => ?_
  split
  · exact Post.ub
  · rename_i t3 ht3
    exact Post.ok (p3.setTag ht3 .ovrFree)

theorem overrideSet_path {idx : Int} {f : Bool} (p : Path fl s0 s) :
    Post (overrideSet s idx f) (fun x => Path fl s0 x.1) := by
  unfold overrideSet
  split
  · exact Post.ok p
  rename_i t ht
  split
  · exact Post.ok p
  split
  · split
    · exact Post.ok p
    split
    · exact Post.ok p
    refine Post.bind (statusWrite_path (p.snoc (.other rfl rfl rfl rfl rfl rfl rfl (.inl rfl)))) fun s3 p3 => ?_
    split
    · exact Post.ub
    · rename_i t3 ht3
      exact Post.ok (p3.ovrFlags ht3 t3.attr.override true rfl)
  · split
    · refine Post.bind (statusWrite_path (p.snoc (.other rfl rfl rfl rfl rfl rfl rfl (.inl rfl)))) fun s3 p3 => ?_
      split
      · exact Post.ub
      · rename_i t3 ht3
        exact Post.ok (p3.ovrFlags ht3 t3.attr.override false rfl)
    · exact Post.ok p

/-! ### Mappings -/

theorem mapAdd_path {a b : Handle} (hf : fl .mapAdd = true) (p : Path fl s0 s) :
    Post (mapAdd s a b) (fun x => Path fl s0 x.1) := by
  unfold mapAdd
  split
  · exact Post.ok p
  rename_i t ht
  split
  · exact Post.ok p
  rename_i u hu
  split
  · exact Post.ok p
  rename_i hv
  split
  · exact Post.ok p
  rename_i huv
  split
  · exact Post.ok p
  rename_i hro
  refine Post.bind Post.self fun n hn => ?_
  split
  · exact Post.ok p
  refine Post.bind Post.self fun n2 hn2 => ?_
  split
  · exact Post.ok p
  split
  · exact Post.ok p
  rename_i hsz
  split
  · exact Post.ub
  rename_i hw
  split
  · exact Post.ok p
  rename_i hnone
  have hnone : ∀ x ∈ t.maps, ¬ (x.src = a ∧ x.dst = b) := fun x hx => by
    have := List.find?_eq_none.mp hnone x hx
    simpa using this
  split
  · exact Post.ub
  rename_i hlt
  have key : ∀ mask, MaskOK ⟨t.nextmap, a, b, mask⟩ → Path fl s0 (s.setTag a.index
      { t with nextmap := t.nextmap + 1, maps := ⟨t.nextmap, a, b, mask⟩ :: t.maps,
               attr := { t.attr with mapping := true } }) := by
    intro mask hk
    refine p.setTag ht ?_
    have := natCast_toNat ht
    exact .mapAdd (m := ⟨t.nextmap, a, b, mask⟩) rfl this.symm (by simpa using hw)
      (by simpa using hv) hu ⟨by simpa using huv, by simpa using hro⟩ (by dsimp only; omega) hf hk hnone (by omega)
  dsimp only
  split
  · split
    · exact Post.ub
    · rename_i hb hbit
      exact Post.bind Post.self fun _ hm => Post.ok (key _ (.inl ⟨hb, by dsimp only; omega, _, hm, rfl⟩))
  · rename_i hb
    exact Post.ok (key _ (.inr ⟨hb, rfl⟩))

theorem mapTail_sublist {id : Int} {ms r : List DMap} (h : mapTail id ms = some r) :
    r.Sublist ms := by
  induction ms with
  | nil => simp [mapTail] at h
  | cons m ms ih =>
    simp only [mapTail] at h
    split at h
    · simp only [Option.some.injEq] at h; subst h; exact List.sublist_cons_self _ _
    · exact (ih h).trans (List.sublist_cons_self _ _)

theorem mapDel_path {idx id : Int} (hf : fl .mapDel = true) (p : Path fl s0 s) :
    Post (mapDel s idx id) (fun x => Path fl s0 x.1) := by
  unfold mapDel
  split
  · exact Post.ok p
  rename_i t ht
  split
  · exact Post.ub
  split
  · exact Post.ub
  rename_i m ms hm
  split
  · exact Post.ok (p.setTag ht (.mapDel (by rw [hm]; exact List.sublist_cons_self _ _) hf))
  split
  · rename_i rest hr
    exact Post.ok (p.setTag ht (.mapDel (by rw [hm]; exact (mapTail_sublist hr).cons_cons _) hf))
  · exact Post.ok p

theorem mapMove_path {m : DMap} {b : List Byte} (p : Path fl s0 s) :
    Post (mapMove s m b) (fun x => Path fl s0 x.1) := by
  unfold mapMove
  split
  · split
    · exact Post.ub
    refine Post.bind Post.self fun _ _ => ?_
    exact tagMaskWrite_path p
  · refine Post.bind Post.self fun _ _ => ?_
    exact tagWrite_path p

theorem mapLoop_path {idx off size : Int} {ms : List DMap} (hf : fl .mapDel = true) : ∀ {s : Server}, Path fl s0 s →
    Post (mapLoop s idx off size ms) (fun x => Path fl s0 x) := by
  induction ms with
  | nil => intro s p; exact Post.ok p
  | cons m ms ih =>
    intro s p
    unfold mapLoop
    split
    · split
      · exact Post.ub
      refine Post.bind (mapMove_path p) ?_
      rintro ⟨s1, r1⟩ p1
      dsimp only at *
      split
      · split
        · refine Post.bind (mapDel_path hf p1) ?_
          rintro ⟨s2, r2⟩ p2
          exact ih p2
        · exact Post.ub
      · exact ih p1
    · exact ih p

theorem mapCheck_path {idx off size : Int} (hf : fl .mapDel = true) (p : Path fl s0 s) :
    Post (mapCheck s idx off size) (fun x => Path fl s0 x) := by
  unfold mapCheck
  split
  · exact Post.ub
  split
  · exact Post.ub
  exact mapLoop_path hf p

/-! ### Events -/

theorem eventAdd_path {h : Handle} {et : Int} {arg : List Byte} {m : Module} (hm : m ∈ s.mods)
    (hf : fl .evAdd = true) (hc : fl .evCount = true) (p : Path fl s0 s) : Post (eventAdd s h et arg m) (fun x => Path fl s0 x.1) := by
  unfold eventAdd
  split
  · exact Post.ok p
  rename_i t ht
  split
  · exact Post.ok p
  rename_i hv
  split
  · split
    · exact Post.ok p
    · exact Post.ub
  rename_i hq
  refine Post.bind Post.self fun n hn => ?_
  split
  · exact Post.ok p
  split
  · exact Post.ok p
  split
  · exact Post.ub
  dsimp only
  refine Post.bind Post.self ?_
  rintro ⟨d, tst⟩ hd
  dsimp only
  refine Post.ok ?_
  refine Path.snoc ?_ (.evCount m.uid (· + 1) hc)
  have hv' : t.attr.virt = false := by simp_all
  have : (if t.events.isEmpty = true then { t.attr with event := true } else t.attr) =
      { t.attr with event := if t.events.isEmpty = true then true else t.attr.event } := by
    split <;> rfl
  rw [this]
  exact p.setTag ht (.evAdd rfl hv' ⟨m, hm, rfl⟩ hf)

theorem evRemove_sublist {id : Int} {m : Option Nat} {evs r : List Ev}
    (h : evRemove id m evs = .ok (some r)) : r.Sublist evs := by
  induction evs generalizing r with
  | nil => simp [evRemove] at h
  | cons e evs ih =>
    simp only [evRemove] at h
    split at h
    · split at h
      · simp at h
      · simp only [Except.ok.injEq, Option.some.injEq] at h; subst h; exact List.sublist_cons_self _ _
    · split at h
      · simp at h
      · simp at h
      · rename_i r' hr'
        simp only [Except.ok.injEq, Option.some.injEq] at h; subst h
        exact (ih hr').cons_cons _

theorem Path.evDel {idx : Int} {t : Tag} {evs : List Ev} {a : Attr} (hf : fl .evDel = true) (p : Path fl s0 s)
    (ht : s.tag? idx = some t) (h : evs.Sublist t.events) (b : Bool)
    (ha : a = { t.attr with event := b }) :
    Path fl s0 (s.setTag idx { t with events := evs, attr := a }) := by
  subst ha
  exact p.setTag ht (.evDel h hf)

theorem eventDel_path {idx id : Int} {m : Option Nat} (hf : fl .evDel = true) (hc : fl .evCount = true) (p : Path fl s0 s) :
    Post (eventDel s idx id m) (fun x => Path fl s0 x.1) := by
  unfold eventDel
  split
  · exact Post.ok p
  rename_i t ht
  split
  · exact Post.ok p
  rename_i ev evs he
  split
  · split
    · exact Post.ok p
    split
    · exact Post.ub
    split
    · exact Post.ub
    · refine Post.ok (Path.snoc ?_ (.evCount _ (· - 1) hc))
      dsimp only
      refine Path.evDel hf p ht (by rw [he]; exact List.sublist_cons_self _ _)
        (if evs.isEmpty then false else t.attr.event) ?_
      split <;> rfl
  · split
    · exact Post.ok p
    · split
      · exact Post.ub
      · exact Post.ok (p.snoc (.evCount _ (· - 1) hc))
    · rename_i r hr
      split
      · exact Post.ub
      · refine Post.ok (Path.snoc ?_ (.evCount _ (· - 1) hc))
        exact Path.evDel hf p ht (by rw [he]; exact (evRemove_sublist hr).cons_cons _) t.attr.event rfl

theorem evSetOpt_same {id : Int} {o : Nat} {m : Option Nat} {evs r : List Ev}
    (h : evSetOpt id o m evs = .ok (some r)) :
    r.map (fun e => { e with options := 0 }) = evs.map (fun e => { e with options := 0 }) := by
  induction evs generalizing r with
  | nil => simp [evSetOpt] at h
  | cons e evs ih =>
    simp only [evSetOpt] at h
    split at h
    · split at h
      · simp at h
      · simp only [Except.ok.injEq, Option.some.injEq] at h; subst h; simp
    · split at h
      · simp at h
      · simp at h
      · rename_i r' hr'
        simp only [Except.ok.injEq, Option.some.injEq] at h; subst h
        simp [ih hr']

theorem eventOpt_path {idx id : Int} {o : Nat} {m : Option Nat} (hf : fl .evOpt = true) (p : Path fl s0 s) :
    Post (eventOpt s idx id o m) (fun x => Path fl s0 x.1) := by
  unfold eventOpt
  split
  · exact Post.ok p
  rename_i t ht
  split
  · exact Post.ok p
  · exact Post.ok p
  · rename_i evs he
    exact Post.ok (p.setTag ht (.evOpt (evSetOpt_same he) hf))

theorem cleanupTag_path {idx : Int} {uid : Nat} {evs : List Ev} (hf : fl .evDel = true) (hc : fl .evCount = true) : ∀ {s : Server}, Path fl s0 s →
    Post (cleanupTag s idx uid evs) (fun x => Path fl s0 x) := by
  induction evs with
  | nil => intro s p; exact Post.ok p
  | cons e evs ih =>
    intro s p
    unfold cleanupTag
    split
    · refine Post.bind (eventDel_path hf hc p) ?_
      rintro ⟨s1, r1⟩ p1
      dsimp only at *
      split
      · exact ih p1
      · exact Post.ub
    · exact ih p

theorem cleanupFrom_path {uid n : Nat} (hf : fl .evDel = true) (hc : fl .evCount = true) : ∀ {s : Server}, Path fl s0 s →
    Post (cleanupFrom s uid n) (fun x => Path fl s0 x) := by
  induction n with
  | zero => intro s p; exact Post.ok p
  | succ n ih =>
    intro s p
    unfold cleanupFrom
    split
    · exact Post.ub
    split
    · split
      · exact Post.ub
      exact Post.bind (cleanupTag_path hf hc p) fun s1 p1 => ih p1
    · exact Post.ok p

/-! ### Modules and groups -/

theorem delOwned_path {fd : Int} {k : Nat} (hd : fl .del = true) : ∀ {n : Nat} {s : Server}, Path fl s0 s →
    Post (delOwned fd k n s) (fun x => Path fl s0 x) := by
  induction k with
  | zero => intro n s p; exact Post.ok p
  | succ k ih =>
    intro n s p
    unfold delOwned
    split
    · exact Post.ub
    split
    · refine Post.bind (tagDel_path hd p) ?_
      rintro ⟨s1, r1⟩ p1
      exact ih p1
    · exact ih p

theorem moduleUnregister_path {fd : Int} (hfl : ∀ k, noAdd k = true → fl k = true) (p : Path fl s0 s) :
    Post (moduleUnregister s fd) (fun x => Path fl s0 x) := by
  unfold moduleUnregister
  split
  · exact Post.ok p
  refine Post.bind (cleanupFrom_path (hfl _ rfl) (hfl _ rfl) p) fun s1 p1 => ?_
  split
  · exact Post.ub
  refine Post.bind (delOwned_path (hfl _ rfl) p1) fun s2 p2 => ?_
  refine Post.bind (tagDel_path (hfl _ rfl) p2) ?_
  rintro ⟨s3, r3⟩ p3
  exact Post.ok (p3.snoc (.modDel (hfl _ rfl) _))

theorem moduleTag_path {uid : Nat} {name : Name} {fd : Int} (hfl : fl .mods = true) (p : Path fl s0 s) :
    Post (moduleTag s uid name fd) (fun x => Path fl s0 x) := by
  unfold moduleTag
  refine Post.bind Post.self ?_
  rintro ⟨tn, uuid⟩ _
  dsimp only
  refine Post.bind (tagAdd_path (fun _ _ => .inr (by decide)) (.inr (by decide)) (p.snoc (.modUuid hfl uuid))) ?_
  rintro ⟨s1, r1⟩ p1
  dsimp only at *
  split
  · exact Post.ub
  rename_i hr
  have p2 := p1.snoc (.modIdx hfl uid (r := r1) (by omega))
  refine Post.bind (tagWrite_path p2) ?_
  rintro ⟨s3, r3⟩ p3
  dsimp only at *
  refine Post.bind (tagWrite_path p3) ?_
  rintro ⟨s4, r4⟩ p4
  dsimp only at *
  split
  · exact Post.ub
  rename_i t ht
  refine Post.bind (tagWrite_path (p4.setTag ht .special)) ?_
  rintro ⟨s5, r5⟩ p5
  exact Post.ok p5

/-- Modules of a state, as far as the registry of connections is concerned. -/
theorem tagWrite_mods {fd idx off : Int} {d : List Byte} {s' : Server} {r : Int}
    (h : tagWrite s fd idx off d = .ok (s', r)) : s'.mods = s.mods := by
  rcases tagWrite_inv h with ⟨rfl, -⟩ | ⟨-, h⟩ | ⟨-, h⟩
  · rfl
  · obtain ⟨t, b, b', evs, ns, rt, -, -, -, -, -, rfl⟩ := h.ex; rfl
  · obtain ⟨t, q, q', evs, ns, -, -, -, -, -, rfl⟩ := h; rfl

theorem statusWrite_mods {i v : Int} {s' : Server} (h : statusWrite s i v = .ok s') :
    s'.mods = s.mods := by
  unfold statusWrite at h
  split at h
  · simp only [C.ok.injEq] at h; rw [← h]
  · split at h
    · simp only [C.ok.injEq] at h; rw [← h]
    · obtain ⟨⟨s1, r1⟩, h1, h⟩ := C.bind_eq_ok.mp h
      simp only [C.ok.injEq] at h; rw [← h]; exact tagWrite_mods h1

theorem tagDel_mods {idx : Int} {s' : Server} {r : Int} (h : tagDel s idx = .ok (s', r)) :
    s'.mods = s.mods := by
  unfold tagDel at h
  split at h
  · simp only [C.ok.injEq, Prod.mk.injEq] at h; rw [← h.1]
  split at h
  · simp only [C.ok.injEq, Prod.mk.injEq] at h; rw [← h.1]
  split at h
  · simp at h
  obtain ⟨ns, -, h⟩ := C.bind_eq_ok.mp h
  obtain ⟨tbl, -, h⟩ := C.bind_eq_ok.mp h
  split at h
  · simp at h
  obtain ⟨ix, -, h⟩ := C.bind_eq_ok.mp h
  dsimp only at h
  obtain ⟨⟨s1, r1⟩, h1, h⟩ := C.bind_eq_ok.mp h
  dsimp only at h
  split at h
  · simp at h
  obtain ⟨s2, h2, h⟩ := C.bind_eq_ok.mp h
  simp only [C.ok.injEq, Prod.mk.injEq] at h
  rw [← h.1, statusWrite_mods h2]
  simp only [Server.setTag]
  rw [tagWrite_mods h1]; rfl

theorem delOwned_mods {fd : Int} {k : Nat} : ∀ {n : Nat} {s s' : Server},
    delOwned fd k n s = .ok s' → s'.mods = s.mods := by
  induction k with
  | zero => intro n s s' h; simp only [delOwned, C.ok.injEq] at h; rw [← h]
  | succ k ih =>
    intro n s s' h
    unfold delOwned at h
    split at h
    · simp at h
    split at h
    · obtain ⟨⟨s1, r1⟩, h1, h⟩ := C.bind_eq_ok.mp h
      exact (ih h).trans (tagDel_mods h1)
    · exact ih h

theorem emptyGroup_ok : GroupOK emptyGroup := by intro h; simp [emptyGroup] at h

theorem GroupsOK.set {gs : List Group} {i : Nat} {g : Group} (h : GroupsOK gs) (hg : GroupOK g) : GroupsOK (gs.set i g) := by
  intro x hx
  rcases List.mem_or_eq_of_mem_set hx with h1 | h1
  · exact h x h1
  · subst h1; exact hg

/-- Reserving a slot. -/
theorem groupSlot_inv {m m' : Module} {r : Int} (h : groupSlot m = .ok (m', r)) :
    ∃ g n, m' = { m with groups := g, groupsSize := n } ∧ (GroupsOK m.groups → GroupsOK g) ∧
      (∀ g0, g[r.toNat]? = some g0 → 0 ≤ r → g0.notEmpty = false) := by
  have hrep : ∀ n, GroupsOK (List.replicate n emptyGroup) := by
    intro n x hx
    rw [(List.mem_replicate.mp hx).2]
    exact emptyGroup_ok
  have hi : ∃ g n, groupInit m = { m with groups := g, groupsSize := n } ∧ (GroupsOK m.groups → GroupsOK g) := by
    unfold groupInit; split
    · exact ⟨_, _, rfl, fun _ => hrep _⟩
    · exact ⟨m.groups, m.groupsSize, rfl, fun h => h⟩
  obtain ⟨g, n, hi, hg⟩ := hi
  unfold groupSlot at h
  dsimp only at h
  rw [hi] at h
  split at h
  · simp at h
  rename_i hle
  dsimp only at hle h
  split at h
  · rename_i k hk
    simp only [C.ok.injEq, Prod.mk.injEq] at h
    refine ⟨g, n, by rw [← h.1], hg, fun g0 h0 _ => ?_⟩
    rw [← h.2] at h0
    unfold freeSlot at hk
    rw [List.findIdx?_eq_some_iff_getElem] at hk
    obtain ⟨hl, h1, -⟩ := hk
    simp only [Int.toNat_natCast] at h0
    rw [List.getElem_take] at h1
    obtain ⟨_, h2⟩ := List.getElem?_eq_some_iff.mp h0
    rw [h2] at h1
    simpa using h1
  · split at h
    · simp only [C.ok.injEq, Prod.mk.injEq] at h
      exact ⟨g, n, by rw [← h.1], hg, fun g0 _ h0 => by rw [← h.2] at h0; simp [ERR_2BIG] at h0⟩
    · simp only [C.ok.injEq, Prod.mk.injEq] at h
      refine ⟨_, _, by rw [← h.1], fun h0 x hx => ?_, fun g0 h0 _ => ?_⟩
      · rcases List.mem_append.mp hx with h1 | h1
        · exact hg h0 x (List.mem_of_mem_take h1)
        · exact hrep _ x h1
      · rw [← h.2, Int.toNat_natCast, List.getElem?_append_right (by simp; omega)] at h0
        have := List.mem_of_getElem? h0
        rw [(List.mem_replicate.mp this).2]
        rfl

theorem hGrp_inv {m m' : Module} {hs : List Handle} {r : Int} (h : groupAdd m hs = .ok (m', r)) :
    ∃ g n, m' = { m with groups := g, groupsSize := n } ∧ (GroupsOK m.groups → GroupsOK g) := by
  unfold groupAdd at h
  split at h
  · simp only [C.ok.injEq, Prod.mk.injEq] at h; exact ⟨m.groups, m.groupsSize, by rw [← h.1], fun h => h⟩
  rename_i hlen
  obtain ⟨⟨m1, n1⟩, h1, h⟩ := C.bind_eq_ok.mp h
  obtain ⟨g, n, rfl, hg, hfree⟩ := groupSlot_inv h1
  dsimp only at h
  split at h
  · simp only [C.ok.injEq, Prod.mk.injEq] at h; exact ⟨g, n, by rw [← h.1], hg⟩
  split at h
  · simp at h
  rename_i g0 hg0
  split at h
  · simp only [C.ok.injEq, Prod.mk.injEq] at h
    refine ⟨g.set n1.toNat { g0 with members := none }, _, by rw [← h.1], fun h0 => (hg h0).set fun he => ?_⟩
    have := hfree g0 hg0 (by omega)
    dsimp only at he
    rw [this] at he
    simp at he
  · rename_i hsz
    simp only [C.ok.injEq, Prod.mk.injEq] at h
    exact ⟨_, _, by rw [← h.1], fun h0 => (hg h0).set fun _ => ⟨hs, rfl, rfl, by omega, by simpa using hsz⟩⟩

theorem groupReadLoop_path {hs : List Handle} : ∀ {s : Server} {buf : List Byte} {off : Int},
    Path fl s0 s → Post (groupReadLoop s hs buf off) (fun x => Path fl s0 x.1) := by
  induction hs with
  | nil => intro s buf off p; exact Post.ok p
  | cons h hs ih =>
    intro s buf off p
    unfold groupReadLoop
    refine Post.bind (tagRead_path p) ?_
    rintro ⟨s1, r1⟩ p1
    dsimp only at *
    split
    · exact Post.ok p1
    · exact Post.bind Post.self fun _ _ => ih p1

theorem groupRead_path {m : Module} {i : Nat} (p : Path fl s0 s) :
    Post (groupRead s m i) (fun x => Path fl s0 x.1) := by
  unfold groupRead
  split
  · exact Post.ub
  split
  · split
    · exact Post.ub
    refine Post.bind (groupReadLoop_path p) ?_
    rintro ⟨s1, r1⟩ p1
    dsimp only at *
    split
    · exact Post.ok p1
    · split
      · exact Post.ok p1
      · exact Post.bind Post.self fun _ _ => Post.ok p1
  · exact Post.ok p

theorem groupWriteLoop_path {hs : List Handle} : ∀ {s : Server} {buf : List Byte} {off : Int},
    Path fl s0 s → Post (groupWriteLoop s hs buf off) (fun x => Path fl s0 x.1) := by
  induction hs with
  | nil => intro s buf off p; exact Post.ok p
  | cons h hs ih =>
    intro s buf off p
    unfold groupWriteLoop
    refine Post.bind Post.self fun _ _ => ?_
    refine Post.bind (tagWrite_path p) ?_
    rintro ⟨s1, r1⟩ p1
    dsimp only at *
    split
    · exact Post.ok p1
    · exact ih p1

theorem groupWrite_path {m : Module} {i : Nat} {buf : List Byte} (p : Path fl s0 s) :
    Post (groupWrite s m i buf) (fun x => Path fl s0 x.1) := by
  unfold groupWrite
  split
  · exact Post.ub
  split
  · split
    · exact Post.ub
    exact groupWriteLoop_path p
  · exact Post.ok p

theorem atomicOp_path {h : Handle} {d : List Byte} {op : Nat} (p : Path fl s0 s) :
    Post (atomicOp s h d op) (fun x => Path fl s0 x.1) := by
  rintro ⟨s', r⟩ hh
  rcases atomicOp_sync hh with rfl | hs
  · exact p
  rcases atomicOp_inv hh with rfl | ⟨-, t, block, b, evs, ns, rt, ht, hv, hsp, hb, ha, he, rfl⟩
  · exact p
  · exact p.setTag' (eventCheck_from ht he) ht (.write hv hb (atomicApply_length ha) (eventCheck_face he)
      (fun h => by rw [hsp] at h; simp at h)) rfl rfl rfl rfl rfl rfl rfl
      (.sync rfl rfl rfl (hs t _ b ht (tag?_setTag ht) rfl))

/-! ### The registry -/

/-- Module structures are distinct, and so are their connections. -/
structure ModsOK (s : Server) : Prop where
  uid : s.mods.Pairwise (fun a b => a.uid ≠ b.uid)
  fd : s.mods.Pairwise (fun a b => a.fd ≠ b.fd)
  lt : ∀ m ∈ s.mods, m.uid < s.nextUid

/-- Identity and connection of the modules. -/
def Server.regs (s : Server) : List (Nat × Int) := s.mods.map (fun m => (m.uid, m.fd))

theorem modsOK_iff (s : Server) : ModsOK s ↔
    (s.regs.Pairwise (fun a b => a.1 ≠ b.1) ∧ s.regs.Pairwise (fun a b => a.2 ≠ b.2) ∧
      ∀ m ∈ s.regs, m.1 < s.nextUid) := by
  unfold Server.regs
  constructor
  · rintro ⟨h1, h2, h3⟩
    refine ⟨List.pairwise_map.mpr h1, List.pairwise_map.mpr h2, ?_⟩
    intro m hm
    obtain ⟨x, hx, rfl⟩ := List.mem_map.mp hm
    exact h3 x hx
  · rintro ⟨h1, h2, h3⟩
    rw [List.pairwise_map] at h1 h2
    exact ⟨h1, h2,
      fun m hm => h3 _ (List.mem_map.mpr ⟨m, hm, rfl⟩)⟩

theorem ModsOK.congr {s s' : Server} (h : ModsOK s) (h1 : s'.regs = s.regs)
    (h2 : s'.nextUid = s.nextUid) : ModsOK s' := by
  rw [modsOK_iff] at *
  rw [h1, h2]; exact h

theorem updMod_regs (s : Server) (uid : Nat) (f : Module → Module)
    (hf : ∀ m ∈ s.mods, m.uid = uid → (f m).uid = m.uid ∧ (f m).fd = m.fd) :
    (s.updMod uid f).regs = s.regs := by
  simp only [Server.regs, Server.updMod, List.map_map]
  apply List.map_congr_left
  intro m hm
  simp only [Function.comp_apply]
  split
  · rename_i h
    rw [(hf m hm h).1, (hf m hm h).2]
  · rfl

theorem ModsOK.inj {s : Server} (h : ModsOK s) {m m' : Module} (hm : m ∈ s.mods)
    (hm' : m' ∈ s.mods) (he : m.uid = m'.uid) : m = m' := by
  have := h.uid
  generalize s.mods = l at *
  induction l with
  | nil => simp at hm
  | cons a l ih =>
    rw [List.pairwise_cons] at this
    rcases List.mem_cons.mp hm with rfl | hm1 <;> rcases List.mem_cons.mp hm' with rfl | hm2
    · rfl
    · exact absurd he (this.1 _ hm2)
    · exact absurd he.symm (this.1 _ hm1)
    · exact ih hm1 hm2 this.2

theorem ModsOK.inj_fd {s : Server} (h : ModsOK s) {m m' : Module} (hm : m ∈ s.mods)
    (hm' : m' ∈ s.mods) (he : m.fd = m'.fd) : m = m' := by
  have := h.fd
  generalize s.mods = l at *
  induction l with
  | nil => simp at hm
  | cons a l ih =>
    rw [List.pairwise_cons] at this
    rcases List.mem_cons.mp hm with rfl | hm1 <;> rcases List.mem_cons.mp hm' with rfl | hm2
    · rfl
    · exact absurd he (this.1 _ hm2)
    · exact absurd he.symm (this.1 _ hm1)
    · exact ih hm1 hm2 this.2

theorem modByFd_some {s : Server} {fd : Int} {m : Module} (h : s.modByFd fd = some m) :
    m ∈ s.mods ∧ m.fd = fd := by
  unfold Server.modByFd at h
  exact ⟨List.mem_of_find?_eq_some h, by simpa using List.find?_some h⟩

theorem modByFd_none {s : Server} {fd : Int} (h : s.modByFd fd = none) :
    ∀ m ∈ s.mods, m.fd ≠ fd := by
  unfold Server.modByFd at h
  intro m hm
  simpa using (List.find?_eq_none.mp h) m hm

theorem modsOK_move (s s' : Server) (h : ModsOK s) (m : Move fl s s') : ModsOK s' := by
  cases m with
  | tag ht hm => exact h.congr rfl rfl
  | push fd name type count size => exact h.congr rfl rfl
  | send => exact h.congr rfl rfl
  | other h1 h2 h3 h4 h5 h6 => exact h.congr (by simp only [Server.regs, h2]) h3
  | env e => exact h.congr rfl rfl
  | evCount uid f => exact h.congr (updMod_regs _ _ _ (fun _ _ _ => ⟨rfl, rfl⟩)) rfl
  | @groups m hm g n =>
    refine h.congr (updMod_regs _ _ _ (fun m' hm' he => ?_)) rfl
    rw [h.inj hm' hm he]; exact ⟨rfl, rfl⟩
  | modAdd name fd hfl hn =>
    have hn := modByFd_none hn
    refine ⟨?_, ?_, ?_⟩
    · simp only [moduleAdd, List.pairwise_append]
      refine ⟨h.uid, by simp, ?_⟩
      intro a ha b hb
      simp only [List.mem_singleton] at hb
      subst hb
      have := h.lt a ha
      dsimp only; omega
    · simp only [moduleAdd, List.pairwise_append]
      refine ⟨h.fd, by simp, ?_⟩
      intro a ha b hb
      simp only [List.mem_singleton] at hb
      subst hb
      exact hn a ha
    · intro a ha
      simp only [moduleAdd, List.mem_append, List.mem_singleton] at ha
      simp only [moduleAdd]
      rcases ha with ha | rfl
      · have := h.lt a ha; omega
      · dsimp only; omega
  | modUuid hfl n => exact h.congr rfl rfl
  | modIdx hfl uid hr => exact h.congr (updMod_regs _ _ _ (fun _ _ _ => ⟨rfl, rfl⟩)) rfl
  | modDel hfl uid =>
    exact ⟨h.uid.filter _, h.fd.filter _, fun m hm => h.lt m (List.mem_filter.mp hm).1⟩

theorem Path.modsOK {s s' : Server} (p : Path fl s s') (h : ModsOK s) : ModsOK s' :=
  p.inv modsOK_move h

theorem EvOnly.regs {s s' : Server} (h : EvOnly s s') : s'.regs = s.regs := by
  have := congrArg (List.map (fun m : Module => (m.uid, m.fd))) h.mods
  simpa [Server.regs, List.map_map, Function.comp_def] using this

theorem moduleUnregister_regs {fd : Int} {m : Module} {s' : Server} (hm : s.modByFd fd = some m)
    (h : moduleUnregister s fd = .ok s') :
    s'.regs = s.regs.filter (fun x => x.1 ≠ m.uid) ∧ s'.mods.length ≤ s.mods.length := by
  unfold moduleUnregister at h
  rw [hm] at h
  dsimp only at h
  obtain ⟨s1, h1, h⟩ := C.bind_eq_ok.mp h
  split at h
  · simp at h
  obtain ⟨s2, h2, h⟩ := C.bind_eq_ok.mp h
  obtain ⟨⟨s3, r3⟩, h3, h⟩ := C.bind_eq_ok.mp h
  simp only [C.ok.injEq] at h
  subst h
  have e1 := (eventsCleanup_evOnly h1).regs
  have e2 : s3.mods = s1.mods := (tagDel_mods h3).trans (delOwned_mods h2)
  have hl : s1.mods.length = s.mods.length := by
    have := congrArg List.length e1; simpa [Server.regs] using this
  refine ⟨?_, ?_⟩
  · rw [← e1]
    simp only [Server.regs, e2, List.filter_map]
    rfl
  · simp only [e2]
    rw [← hl]; exact List.length_filter_le _ _

theorem moduleUnregister_gone {fd : Int} {s' : Server} (hk : ModsOK s)
    (h : moduleUnregister s fd = .ok s') : s'.modByFd fd = none := by
  cases hm : s.modByFd fd with
  | none => unfold moduleUnregister at h; rw [hm] at h; simp only [C.ok.injEq] at h; rw [← h]; exact hm
  | some m =>
    obtain ⟨hr, -⟩ := moduleUnregister_regs hm h
    obtain ⟨hmem, rfl⟩ := modByFd_some hm
    unfold Server.modByFd
    rw [List.find?_eq_none]
    intro x hx hfd
    have hx' : (x.uid, x.fd) ∈ s'.regs := List.mem_map.mpr ⟨x, hx, rfl⟩
    rw [hr, List.mem_filter] at hx'
    obtain ⟨hx', hne⟩ := hx'
    obtain ⟨y, hy, hxy⟩ := List.mem_map.mp hx'
    simp only [Prod.mk.injEq] at hxy
    have : y = m := hk.inj_fd hy hmem (by rw [hxy.2]; simpa using hfd)
    subst this
    simp [hxy.1] at hne

theorem moduleRegister_path {name : Name} {fd : Int} (hfl : ∀ k, regOnly fd k = true → fl k = true) (hk : ModsOK s) (p : Path fl s0 s) :
    Post (moduleRegister s name fd) (fun x => Path fl s0 x) := by
  unfold moduleRegister
  have key : ∀ s1 : Server, Path fl s0 s1 → s1.modByFd fd = none →
      Post (if (moduleAdd s1 name fd).env.exclude.contains name = true then C.ok (moduleAdd s1 name fd)
        else moduleTag (moduleAdd s1 name fd) s1.nextUid name fd) (fun x => Path fl s0 x) := by
    intro s1 p1 h1
    have p2 := p1.snoc (.modAdd name fd (hfl _ (by simp [regOnly])) h1)
    split
    · exact Post.ok p2
    · exact moduleTag_path (hfl _ rfl) p2
  dsimp only
  split
  · refine Post.bind (Q := fun x => moduleUnregister s fd = .ok x) Post.self fun s1 h1 => ?_
    exact key s1 (moduleUnregister_path (fun k hk => hfl k (by cases k <;> simp_all [noAdd, regOnly])) p s1 h1) (moduleUnregister_gone hk h1)
  · rename_i h
    exact key s p h

/-! ## Requests and histories -/

theorem groupDel_inv {m m' : Module} {i : Nat} {r : Int} (h : groupDel m i = .ok (m', r)) :
    ∃ g n, m' = { m with groups := g, groupsSize := n } ∧ (GroupsOK m.groups → GroupsOK g) := by
  unfold groupDel at h
  split at h
  · simp at h
  split at h
  · simp only [C.ok.injEq, Prod.mk.injEq] at h
    exact ⟨_, _, by rw [← h.1], fun h0 => h0.set (fun h => by simp at h)⟩
  · simp only [C.ok.injEq, Prod.mk.injEq] at h; exact ⟨m.groups, m.groupsSize, by rw [← h.1], fun h => h⟩

/-- The kinds of changes a request makes. -/
def Req.kinds (fd : Int) : Req → Kind → Bool
  | .modReg _ _, k => regOnly fd k
  | .tagAdd _ _ _ _, .grow _ => true
  | .tagAdd _ _ _ _, .retAdd => true
  | .tagDel _, k => k = .del
  | .evAdd _ _ _, k => k = .evAdd ∨ k = .evCount
  | .evDel _ _, k => k = .evDel ∨ k = .evCount
  | .evOpt _ _ _, k => k = .evOpt
  | .mapAdd _ _, k => k = .mapAdd
  | .mapDel _ _, k => k = .mapDel
  | .grpAdd _, k => k = .groups
  | .grpDel _, k => k = .groups
  | .tagWrite _ _ _, k => k = .mapDel ∨ k = .own fd
  | .tagMWrite _ _ _ _, k => k = .mapDel ∨ k = .own fd
  | .atomic _ _ _, k => k = .mapDel
  | _, _ => false

theorem handle_path' {fd : Int} {q : Req} (hfl : ∀ k, q.kinds fd k = true → fl k = true)
    (hk : ModsOK s) (p : Path fl s0 s) :
    Post (handle s fd q) (fun x => Path fl s0 x.1) := by
  cases q with
  | modReg flags name =>
    simp only [handle, hModReg]
    split
    · refine Post.bind (moduleRegister_path (fun k h => hfl k h) hk p) fun s1 p1 => ?_
      walk
    · exact Post.ok p
  | modUnreg => exact Post.ok p
  | tagAdd type count attr name =>
    simp only [handle, hTagAdd]
    split
    · exact Post.ok p
    · refine Post.bind (tagAdd_path (fun n _ => .inl (hfl _ rfl)) (.inl (hfl _ rfl)) p) ?_
      rintro ⟨s1, r1⟩ p1; exact Post.ok p1
  | tagDel idx =>
    simp only [handle, hTagDel]
    refine Post.bind Post.self fun _ _ => ?_
    split
    · exact Post.ok p
    · split
      · exact Post.ok p
      · refine Post.bind (tagDel_path (hfl _ rfl) p) ?_
        rintro ⟨s1, r1⟩ p1; exact Post.ok p1
  | tagGetIdx idx =>
    simp only [handle, hTagGet]
    refine Post.bind Post.self fun _ _ => ?_
    walk
  | tagGetName name =>
    simp only [handle, hTagGet]
    refine Post.bind Post.self fun _ _ => ?_
    walk
  | tagList => exact Post.ok p
  | tagRead idx off size => simp only [handle, hTagRead]; walk
  | tagWrite idx off d =>
    simp only [handle, hTagWrite]
    refine Post.bind Post.self fun _ _ => ?_
    split
    · exact Post.ok p
    · refine Post.bind (tagWrite_path p (.inr (hfl _ (by simp [Req.kinds])))) ?_
      rintro ⟨s1, r1⟩ p1
      dsimp only at *
      split
      · exact Post.ok p1
      · exact Post.bind (mapCheck_path (hfl _ rfl) p1) fun s2 p2 => Post.ok p2
  | tagMWrite idx off d m =>
    simp only [handle, hTagMWrite]
    refine Post.bind Post.self fun _ _ => ?_
    split
    · exact Post.ok p
    · refine Post.bind (tagMaskWrite_path p (.inr (hfl _ (by simp [Req.kinds])))) ?_
      rintro ⟨s1, r1⟩ p1
      dsimp only at *
      split
      · exact Post.ok p1
      · exact Post.bind (mapCheck_path (hfl _ rfl) p1) fun s2 p2 => Post.ok p2
  | evAdd h etype arg =>
    simp only [handle, hEvAdd]
    split
    · exact Post.ok p
    · rename_i m hm
      refine Post.bind (eventAdd_path (modByFd_some hm).1 (hfl _ rfl) (hfl _ rfl) p) ?_
      rintro ⟨s1, r1⟩ p1; exact Post.ok p1
  | evDel idx id =>
    simp only [handle, hEvDel]
    refine Post.bind (eventDel_path (hfl _ rfl) (hfl _ rfl) p) ?_
    rintro ⟨s1, r1⟩ p1; exact Post.ok p1
  | evGet => exact Post.ok p
  | evOpt idx id opts =>
    simp only [handle, hEvOpt]
    refine Post.bind (eventOpt_path (hfl _ rfl) p) ?_
    rintro ⟨s1, r1⟩ p1; exact Post.ok p1
  | cdtCreate str =>
    simp only [handle, hCdtCreate]
    refine Post.bind Post.self ?_
    rintro ⟨tbl, r⟩ _
    exact Post.ok (p.snoc (.other rfl rfl rfl rfl rfl rfl rfl (.inl rfl)))
  | cdtGetType t =>
    simp only [handle, hCdtGet]
    refine Post.bind Post.self fun _ _ => ?_
    walk
  | cdtGetName n =>
    simp only [handle, hCdtGet]
    refine Post.bind Post.self fun _ _ => ?_
    walk
  | mapAdd a b =>
    simp only [handle]
    refine Post.bind (mapAdd_path (hfl _ rfl) p) ?_
    rintro ⟨s1, r1⟩ p1; exact Post.ok p1
  | mapDel idx id =>
    simp only [handle]
    refine Post.bind (mapDel_path (hfl _ rfl) p) ?_
    rintro ⟨s1, r1⟩ p1; exact Post.ok p1
  | mapGet idx id =>
    simp only [handle, hMapGet]
    refine Post.bind Post.self fun _ _ => ?_
    walk
  | grpAdd hs =>
    simp only [handle, hGrpAdd]
    split
    · exact Post.ub
    · rename_i m hm
      refine Post.bind Post.self ?_
      rintro ⟨m', r⟩ h'
      obtain ⟨g, n, rfl, hg⟩ := hGrp_inv h'
      exact Post.ok (p.snoc (.groups (modByFd_some hm).1 g n (hfl _ rfl) hg))
  | grpDel i =>
    simp only [handle, hGrpDel]
    split
    · exact Post.ub
    · rename_i m hm
      refine Post.bind Post.self ?_
      rintro ⟨m', r⟩ h'
      obtain ⟨g, n, rfl, hg⟩ := groupDel_inv h'
      exact Post.ok (p.snoc (.groups (modByFd_some hm).1 g n (hfl _ rfl) hg))
  | grpRead i =>
    simp only [handle, hGrpRead]
    split
    · exact Post.ub
    · refine Post.bind (groupRead_path p) ?_
      rintro ⟨s1, r1⟩ p1
      dsimp only at *
      walk
  | grpWrite i buf =>
    simp only [handle, hGrpWrite]
    split
    · exact Post.ub
    · refine Post.bind (groupWrite_path p) ?_
      rintro ⟨s1, r1⟩ p1
      exact Post.ok p1
  | grpMWrite => exact Post.ok p
  | atomic h op buf =>
    simp only [handle, hAtomic]
    refine Post.bind Post.self fun _ _ => ?_
    split
    · exact Post.ok p
    · refine Post.bind (atomicOp_path p) ?_
      rintro ⟨s1, r1⟩ p1
      dsimp only at *
      split
      · exact Post.ok p1
      · exact Post.bind (mapCheck_path (hfl _ rfl) p1) fun s2 p2 => Post.ok p2
  | ovrAdd idx off d m =>
    simp only [handle]
    refine Post.bind (overrideAdd_path p) ?_
    rintro ⟨s1, r1⟩ p1; exact Post.ok p1
  | ovrDel idx off m =>
    simp only [handle]
    refine Post.bind (overrideDel_path p) ?_
    rintro ⟨s1, r1⟩ p1; exact Post.ok p1
  | ovrGet idx off size =>
    simp only [handle]
    refine Post.bind Post.self fun _ _ => ?_
    walk
  | ovrSet idx flag =>
    simp only [handle]
    refine Post.bind (overrideSet_path p) ?_
    rintro ⟨s1, r1⟩ p1; exact Post.ok p1

theorem handle_path {s s' : Server} {fd : Int} {q : Req} {r : Reply} (hk : ModsOK s)
    (h : handle s fd q = .ok (s', r)) : Path (fun _ => true) s s' := handle_path' (fun _ _ => rfl) hk .refl _ h

theorem handle_path_notReg {s s' : Server} {fd : Int} {q : Req} {r : Reply} (hq : ∀ f n, q ≠ .modReg f n)
    (hk : ModsOK s) (h : handle s fd q = .ok (s', r)) : Path noReg s s' :=
  handle_path' (by intro k; cases q <;> cases k <;> simp_all [Req.kinds, noReg]) hk .refl _ h

/-- A request makes only changes of its kinds. -/
theorem handle_path_kinds {s s' : Server} {fd : Int} {q : Req} {r : Reply}
    (hk : ModsOK s) (h : handle s fd q = .ok (s', r)) : Path (q.kinds fd) s s' :=
  handle_path' (fun _ h => h) hk .refl _ h

theorem step_path {s s' : Server} {o : Op} (hk : ModsOK s) (h : step s o = .ok s') : Path (fun _ => true) s s' := by
  cases o with
  | req fd r =>
    simp only [step] at h
    obtain ⟨⟨s1, r1⟩, h1, h⟩ := C.bind_eq_ok.mp h
    simp only [C.ok.injEq] at h; subst h
    exact handle_path hk h1
  | close fd => exact moduleUnregister_path (fun _ _ => rfl) .refl _ h
  | env e => simp only [step, C.ok.injEq] at h; subst h; exact Path.refl.snoc (.env e)

theorem run_path {os : List Op} : ∀ {s s' : Server}, ModsOK s → run s os = .ok s' → Path (fun _ => true) s s' := by
  induction os with
  | nil => intro s s' _ h; simp only [run, C.ok.injEq] at h; subst h; exact .refl
  | cons o os ih =>
    intro s s' hk h
    simp only [run] at h
    obtain ⟨s1, h1, h⟩ := C.bind_eq_ok.mp h
    have p := step_path hk h1
    exact p.trans (ih (p.modsOK hk) h)

theorem restoreData_path {i : Int} {d : List Byte} (hf : fl .restore = true) (p : Path fl s0 s) :
    Post (restoreData s i d) (fun x => Path fl s0 x) := by
  unfold restoreData
  split
  · exact Post.ub
  rename_i t ht
  refine Post.bind Post.self fun sz _ => ?_
  split
  · exact Post.ub
  split
  · rename_i b hb
    refine Post.bind Post.self fun b' hb' => ?_
    exact Post.ok (p.setTag ht (.restore hb (wr_length hb') hf))
  · split
    · exact Post.ok p
    · exact Post.ub

theorem restoreTags_path {l : List RetRow} (hf : fl .restore = true) (hg : ∀ n, fl (.grow n) = true) : ∀ {s : Server}, Path fl s0 s →
    Post (restoreTags s l) (fun x => Path fl s0 x) := by
  induction l with
  | nil => intro s p; exact Post.ok p
  | cons x l ih =>
    intro s p
    unfold restoreTags
    refine Post.bind (tagAdd_path (fun n _ => .inl (hg n)) (.inr (by decide)) p) ?_
    rintro ⟨s1, r1⟩ p1
    dsimp only at *
    split
    · exact ih p1
    · exact Post.bind (restoreData_path hf p1) fun s2 p2 => ih p2

theorem startServer_path {e : Env} {f : Option Ret} {s : Server} (hf : fl .restore = true) (hg : ∀ n, fl (.grow n) = true) (h : startServer e f = .ok s) :
    ∃ s0, initServer e = .ok s0 ∧ Path fl s0 s := by
  unfold startServer at h
  obtain ⟨s1, h1, h⟩ := C.bind_eq_ok.mp h
  refine ⟨s1, h1, ?_⟩
  cases f with
  | none => simp only [C.ok.injEq] at h; subst h; exact .refl
  | some f =>
    dsimp only at h
    unfold retInit at h
    obtain ⟨tbl, h2, h⟩ := C.bind_eq_ok.mp h
    obtain ⟨s2, h3, h⟩ := C.bind_eq_ok.mp h
    simp only [C.ok.injEq] at h; subst h
    have p1 : Path fl s1 { s1 with cdts := tbl } := Path.refl.snoc (.other rfl rfl rfl rfl rfl rfl rfl (.inl rfl))
    exact (restoreTags_path hf hg p1 _ h3).snoc (.other rfl rfl rfl rfl rfl rfl rfl (.inr ⟨hf, rfl⟩))

/-- The state right after the system tags have been created: no events, maps, overrides or
modules. -/
theorem init_bare (e : Env) :
    (initServer e >>= fun s => .ok (s.db.map (fun t => (t.nextevent, t.nextmap, t.events, t.maps, t.ovr)),
      s.mods.length, s.nextUid, s.modUuid)) =
    .ok (List.replicate 11 ((1 : Int), (1 : Int), [], [], none), 0, 0, 0) := by
  kernel_rfl

theorem init_mods {e : Env} {s : Server} (h : initServer e = .ok s) :
    s.mods = [] ∧ ∀ (i : Nat) (t : Tag), s.db[i]? = some t →
      t.nextevent = 1 ∧ t.nextmap = 1 ∧ t.events = [] ∧ t.maps = [] ∧ t.ovr = none := by
  have := init_bare e
  rw [h] at this
  simp only [C.ok_bind, C.ok.injEq, Prod.mk.injEq] at this
  obtain ⟨h1, h2, -⟩ := this
  refine ⟨List.length_eq_zero_iff.mp h2, fun i t ht => ?_⟩
  have h3 := congrArg (fun l => l[i]?) h1
  simp only [List.getElem?_map, ht, Option.map_some, List.getElem?_replicate] at h3
  split at h3
  · simp only [Option.some.injEq, Prod.mk.injEq] at h3; exact h3
  · simp at h3

theorem Reachable.path {s : Server} (h : Reachable s) :
    ∃ e s0, initServer e = .ok s0 ∧ Path (fun _ => true) s0 s := by
  obtain ⟨e, f, s1, os, h1, h2⟩ := h
  obtain ⟨s0, h0, p⟩ := startServer_path (fl := fun _ => true) rfl (fun _ => rfl) h1
  have hk : ModsOK s0 := by
    have := (init_mods h0).1
    exact ⟨by simp [this], by simp [this], by simp [this]⟩
  exact ⟨e, s0, h0, p.trans (run_path (p.modsOK hk) h2)⟩

/-- Invariants by elementary changes. -/
theorem Reachable.inv {I : Server → Prop} (h0 : ∀ e s, initServer e = .ok s → I s)
    (hI : ∀ s s', I s → Move (fun _ => true) s s' → I s') {s : Server} (h : Reachable s) : I s := by
  obtain ⟨e, s0, hi, p⟩ := h.path
  exact p.inv hI (h0 e s0 hi)

theorem Reachable.modsOK {s : Server} (h : Reachable s) : ModsOK s :=
  h.inv (fun e s hi => by
    have := (init_mods hi).1
    exact ⟨by simp [this], by simp [this], by simp [this]⟩) modsOK_move

end Dax
