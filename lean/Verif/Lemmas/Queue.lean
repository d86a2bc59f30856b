import Verif.Spec.Queue
import Verif.Lemmas.Counts
import Verif.Lemmas.OvrOps
import Verif.Lemmas.Atomic
/-!
# Queues
-/
set_option autoImplicit false
namespace Dax

/-! ## The ring of blocks -/

/-- The ring of sixteen slots holds the values `p`, from the read position on. -/
structure QRep (q : Queue) (p : List (List Byte)) : Prop where
  len : q.slots.length = 16
  cnt : q.qcount = p.length
  le : p.length ≤ 16
  rd : q.qread < 16
  inj : ∀ i j b : Nat, q.slots[i]? = some (.blk b) → q.slots[j]? = some (.blk b) → i = j
  lt : ∀ i b : Nat, q.slots[i]? = some (.blk b) → b < q.blocks.length
  tame : ∀ i : Nat, q.slots[i]? ≠ some .wild
  val : ∀ (j : Nat) (d : List Byte), p[j]? = some d →
    ∃ b, q.slots[(q.qread + j) % 16]? = some (.blk b) ∧ q.blocks[b]? = some d

theorem QRep.fresh (size : Nat) :
    QRep { size := size, qcount := 0, qread := 0, slots := List.replicate 16 .null, blocks := [] } [] where
  len := rfl
  cnt := rfl
  le := by simp
  rd := by simp
  inj := by intro i j b h; have := List.mem_of_getElem? h; simp [List.mem_replicate, -List.reduceReplicate] at this
  lt := by intro i b h; have := List.mem_of_getElem? h; simp [List.mem_replicate, -List.reduceReplicate] at this
  tame := by intro i h; have := List.mem_of_getElem? h; simp [List.mem_replicate, -List.reduceReplicate] at this
  val := by intro j d h; simp at h

theorem QRep.write {q : Queue} {p : List (List Byte)} {e : Env} {off : Int} {d : List Byte} {q' : Queue}
    (h : QRep q p) (hl : p.length < 16) (hw : queueWrite e q off d = .ok (some q')) :
    QRep q' (p ++ [d]) ∧ d.length = q.size := by
  have hlen := h.len
  have hcnt := h.cnt
  have hrd := h.rd
  unfold queueWrite at hw
  split at hw
  · simp at hw
  rename_i hsz
  refine ⟨?_, by omega⟩
  rw [if_neg (by omega)] at hw
  dsimp only at hw
  rw [hlen] at hw
  have hmod : (q.qread + q.qcount) % 16 < 16 := Nat.mod_lt _ (by omega)
  have hfree : ∀ j, j < p.length → (q.qread + j) % 16 ≠ (q.qread + q.qcount) % 16 := by
    intro j hj; omega
  split at hw
  · rename_i hs
    simp only [C.ok.injEq, Option.some.injEq] at hw
    subst hw
    refine ⟨by simpa using hlen, by simp [hcnt], by simp; omega, hrd, ?_, ?_, ?_, ?_⟩
    · intro i j b hi hj
      dsimp only at hi hj
      rw [List.getElem?_set] at hi hj
      split at hi <;> split at hj
      · omega
      · rename_i e1 e2
        split at hi
        · simp only [Option.some.injEq, QPtr.blk.injEq] at hi
          have := h.lt _ _ hj
          omega
        · simp at hi
      · rename_i e1 e2
        split at hj
        · simp only [Option.some.injEq, QPtr.blk.injEq] at hj
          have := h.lt _ _ hi
          omega
        · simp at hj
      · exact h.inj _ _ _ hi hj
    · intro i b hi
      dsimp only at hi ⊢
      rw [List.getElem?_set] at hi
      split at hi
      · split at hi
        · simp only [Option.some.injEq, QPtr.blk.injEq] at hi
          simp; omega
        · simp at hi
      · have := h.lt _ _ hi
        simp; omega
    · intro i hi
      dsimp only at hi
      rw [List.getElem?_set] at hi
      split at hi
      · split at hi <;> simp at hi
      · exact h.tame _ hi
    · intro j x hj
      dsimp only
      rcases Nat.lt_or_ge j p.length with hjl | hjl
      · rw [List.getElem?_append_left hjl] at hj
        obtain ⟨b, hb, hv⟩ := h.val j x hj
        refine ⟨b, ?_, ?_⟩
        · rw [List.getElem?_set_ne (Ne.symm (hfree j hjl))]; exact hb
        · rw [List.getElem?_append_left (h.lt _ _ hb)]; exact hv
      · have hj' := (List.getElem?_eq_some_iff.mp hj).1
        simp only [List.length_append, List.length_singleton] at hj'
        have : j = p.length := by omega
        subst this
        rw [List.getElem?_append_right (Nat.le_refl _)] at hj
        simp only [Nat.sub_self, List.getElem?_cons_zero, Option.some.injEq] at hj
        subst hj
        refine ⟨q.blocks.length, ?_, by simp⟩
        rw [← hcnt, List.getElem?_set_self (by omega)]
  · rename_i i hs
    split at hw
    · rename_i hi
      simp only [C.ok.injEq, Option.some.injEq] at hw
      subst hw
      refine ⟨hlen, by simp [hcnt], by simp; omega, hrd, h.inj, ?_, h.tame, ?_⟩
      · intro i' b hb
        have := h.lt _ _ hb
        simpa using this
      · intro j x hj
        dsimp only
        rcases Nat.lt_or_ge j p.length with hjl | hjl
        · rw [List.getElem?_append_left hjl] at hj
          obtain ⟨b, hb, hv⟩ := h.val j x hj
          refine ⟨b, hb, ?_⟩
          rw [List.getElem?_set_ne ?_]
          · exact hv
          · rintro rfl
            exact hfree j hjl (h.inj _ _ _ hb hs)
        · have hj' := (List.getElem?_eq_some_iff.mp hj).1
          simp only [List.length_append, List.length_singleton] at hj'
          have : j = p.length := by omega
          subst this
          rw [List.getElem?_append_right (Nat.le_refl _)] at hj
          simp only [Nat.sub_self, List.getElem?_cons_zero, Option.some.injEq] at hj
          subst hj
          exact ⟨i, by rw [← hcnt]; exact hs, by rw [List.getElem?_set_self hi]⟩
    · simp at hw
  · simp at hw

/-- Writes of the right size are taken as long as there is room. -/
theorem QRep.write_ok {q : Queue} {p : List (List Byte)} {e : Env} {d : List Byte}
    (h : QRep q p) (hl : p.length < 16) (hd : d.length = q.size) :
    ∃ q', queueWrite e q 0 d = .ok (some q') := by
  have hlen := h.len
  have hcnt := h.cnt
  unfold queueWrite
  rw [if_neg (by omega), if_neg (by omega)]
  dsimp only
  rw [hlen]
  have hmod : (q.qread + q.qcount) % 16 < q.slots.length := by rw [hlen]; exact Nat.mod_lt _ (by omega)
  split
  · exact ⟨_, rfl⟩
  · rename_i i hs
    rw [if_pos (h.lt _ _ hs)]; exact ⟨_, rfl⟩
  · rename_i h1 h2
    exfalso
    have hg := List.getElem?_eq_getElem hmod
    cases hv : q.slots[(q.qread + q.qcount) % 16] with
    | null => rw [hv] at hg; exact h1 hg
    | blk i => rw [hv] at hg; exact h2 i hg
    | wild => rw [hv] at hg; exact h.tame _ hg

theorem QRep.read_nil {q : Queue} (h : QRep q []) : queueRead q = .ok none := by
  unfold queueRead
  rw [if_pos (by rw [h.cnt]; rfl)]

theorem QRep.read_cons {q : Queue} {b : List Byte} {p : List (List Byte)} (h : QRep q (b :: p)) :
    ∃ q', queueRead q = .ok (some (b, q')) ∧ QRep q' p := by
  have hlen := h.len
  have hcnt := h.cnt
  have hrd := h.rd
  have hle := h.le
  simp only [List.length_cons] at hcnt hle
  obtain ⟨i, hi, hv⟩ := h.val 0 b rfl
  rw [Nat.add_zero, Nat.mod_eq_of_lt hrd] at hi
  unfold queueRead
  rw [if_neg (by omega), hi]
  dsimp only
  rw [hv]
  refine ⟨_, rfl, hlen, by dsimp only; omega, by omega, ?_, h.inj, h.lt, h.tame, ?_⟩
  · dsimp only; rw [hlen]; split <;> omega
  · intro j d hj
    obtain ⟨x, hx, hxv⟩ := h.val (j + 1) d (by simpa using hj)
    refine ⟨x, ?_, hxv⟩
    rw [← hx]
    dsimp only
    congr 1
    rw [hlen]
    split <;> omega

/-! ## Invariants -/

/-- Queues are virtual and have no mappings. -/
def QueueFree (i : Nat) (t : Tag) : Prop := ∀ q, t.data = .queue q → t.attr.virt = true ∧ t.maps = []

theorem QueueFree.move {fl : Kind → Bool} {s : Server} {i : Nat} {t t' : Tag} (h : QueueFree i t)
    (m : TagMove fl s i t t') : QueueFree i t' := by
  intro q hq
  cases m with
  | write hv hb hl he hg => cases hq
  | qwrite hv hq' hw he => exact h _ hq'
  | qread hv hq' hr => exact h _ hq'
  | restore hb hl hf => cases hq
  | attr => exact ⟨by rw [attrAfter_virt]; exact (h q hq).1, (h q hq).2⟩
  | special => exact h q hq
  | ovrFlags a b => exact h q hq
  | ovrNew hn ho h1 h2 => exact h q hq
  | ovrSet ho h1 h2 => exact h q hq
  | ovrFree => exact h q hq
  | evAdd hid hv hm hf => exact h q hq
  | evDel hs hf => exact h q hq
  | evOpt hs hf => exact h q hq
  | mapAdd hid hi hw hv hd hu hs hf hk hn hlt => rw [(h q hq).1] at hv; simp at hv
  | mapDel hs hf =>
    have := h q hq
    rw [this.2] at hs
    exact ⟨this.1, List.sublist_nil.mp hs⟩
  | grow hr hc hf =>
    rename_i d size count
    have hq : d = .queue q := hq
    subst hq
    unfold reallocStore at hr
    split at hr
    · split at hr <;> simp at hr
    · simp at hr
    · split at hr
      · simp at hr
      · simp only [C.ok.injEq] at hr; exact h q hr
  | clear hf => exact ⟨(h q hq).1, rfl⟩
  | kill hf => cases hq

theorem init_noQueue (e : Env) : (initServer e >>= fun s => .ok
    (s.db.all (fun t => t.maps.isEmpty && (match t.data with | .queue _ => false | _ => true)))) = .ok true := by
  kernel_rfl

theorem Reachable.queueFree {s : Server} (h : Reachable s) {i : Nat} {t : Tag}
    (ht : s.db[i]? = some t) : QueueFree i t := by
  refine h.forall_tags (I := QueueFree) ?_ ?_ (fun _ _ _ _ => QueueFree.move) i t ht
  · intro e s0 h0 j u hu q hq
    have hi := init_noQueue e
    rw [h0] at hi
    simp only [C.ok_bind, C.ok.injEq, List.all_eq_true] at hi
    have := hi u (List.mem_of_getElem? hu)
    rw [hq] at this
    simp at this
  · intro e j fd name type count size q hq
    simp only [newTag] at hq ⊢
    split at hq
    · rename_i hQ
      simp [hQ]
    · cases hq

/-- Mappings lead to tags that exist and are not queues. -/
def MapsPlain (s : Server) : Prop := (∀ (i : Nat) (t : Tag), s.db[i]? = some t → QueueFree i t) ∧
  ∀ (i : Nat) (t : Tag) (m : DMap), s.db[i]? = some t → m ∈ t.maps →
    ∃ u, s.tag? m.dst.index = some u ∧ ∀ q, u.data ≠ .queue q

theorem TagMove.noQueue {fl : Kind → Bool} {s : Server} {i : Nat} {t t' : Tag}
    (m : TagMove fl s i t t') (h : ∀ q, t.data ≠ .queue q) : ∀ q, t'.data ≠ .queue q := by
  cases m with
  | write hv hb hl he hg => intro q hq; cases hq
  | qwrite hv hq' hw he => exact absurd hq' (h _)
  | qread hv hq' hr => exact absurd hq' (h _)
  | restore hb hl hf => intro q hq; cases hq
  | grow hr hc hf =>
    rename_i d size count
    intro q hq
    have hq : d = .queue q := hq
    subst hq
    unfold reallocStore at hr
    split at hr
    · split at hr <;> simp at hr
    · simp at hr
    · split at hr
      · simp at hr
      · simp only [C.ok.injEq] at hr; exact h q hr
  | kill hf => intro q hq; cases hq
  | _ => exact h

theorem TagMove.mapDst {fl : Kind → Bool} {s : Server} {i : Nat} {t t' : Tag}
    (m : TagMove fl s i t t') : ∀ x ∈ t'.maps, x ∈ t.maps ∨
      ∃ u, s.tag? x.dst.index = some u ∧ u.attr.virt = false := by
  intro x hx
  cases m with
  | mapAdd hid hi hw hv hd hu hs hf hk hn hlt =>
    rcases List.mem_cons.mp hx with rfl | hx
    · exact .inr ⟨_, hd, hu.1⟩
    · exact .inl hx
  | mapDel hs hf => exact .inl (hs.subset hx)
  | clear hf => cases hx
  | _ => exact .inl hx

theorem MapsPlain.move {fl : Kind → Bool} {s s' : Server} (h : MapsPlain s) (m : Move fl s s') : MapsPlain s' := by
  refine ⟨Move.forall_tags (I := QueueFree) (fun e i fd name type count size q hq => ?_)
    (fun _ _ _ _ => QueueFree.move) _ _ h.1 m, ?_⟩
  · simp only [newTag] at hq ⊢
    split at hq
    · rename_i hQ
      simp [hQ]
    · cases hq
  cases m with
  | tag ht hm =>
    rename_i i t t' rt _
    intro j u x hu hx
    have key : ∀ v, s.tag? x.dst.index = some v → (∀ q, v.data ≠ .queue q) →
        ∃ u, ({ s with db := s.db.set i t', ret := rt } : Server).tag? x.dst.index = some u ∧ ∀ q, u.data ≠ .queue q := by
      intro v hv hq
      obtain ⟨h0, hv'⟩ := tag?_eq.mp hv
      by_cases hij : i = x.dst.index.toNat
      · subst hij
        rw [ht] at hv'; cases hv'
        exact ⟨t', tag?_eq.mpr ⟨h0, List.getElem?_set_self (List.getElem?_eq_some_iff.mp ht).1⟩, hm.noQueue hq⟩
      · exact ⟨v, tag?_eq.mpr ⟨h0, by show (s.db.set i t')[_]? = _; rw [List.getElem?_set_ne hij]; exact hv'⟩, hq⟩
    by_cases hij : i = j
    · subst hij
      have hu : (s.db.set i t')[i]? = some u := hu
      rw [List.getElem?_set_self (List.getElem?_eq_some_iff.mp ht).1] at hu
      simp only [Option.some.injEq] at hu
      subst hu
      rcases hm.mapDst x hx with hx | ⟨v, hv, hvv⟩
      · obtain ⟨v, hv, hq⟩ := h.2 i t x ht hx
        exact key v hv hq
      · refine key v hv fun q hq => ?_
        have := (h.1 _ _ (tag?_eq.mp hv).2 q hq).1
        rw [hvv] at this; simp at this
    · have hu : (s.db.set i t')[j]? = some u := hu
      rw [List.getElem?_set_ne hij] at hu
      obtain ⟨v, hv, hq⟩ := h.2 j u x hu hx
      exact key v hv hq
  | push fd name type count size =>
    intro j u x hu hx
    have hu : (s.db ++ [newTag s.env s.db.length fd name type count size])[j]? = some u := hu
    rcases Nat.lt_or_ge j s.db.length with hj | hj
    · rw [List.getElem?_append_left hj] at hu
      obtain ⟨v, hv, hq⟩ := h.2 j u x hu hx
      obtain ⟨h0, hv'⟩ := tag?_eq.mp hv
      exact ⟨v, tag?_eq.mpr ⟨h0, by
        show (s.db ++ _)[_]? = _
        rw [List.getElem?_append_left (List.getElem?_eq_some_iff.mp hv').1]; exact hv'⟩, hq⟩
    · rw [List.getElem?_append_right hj] at hu
      have := List.mem_of_getElem? hu
      simp only [List.mem_cons, List.not_mem_nil, or_false] at this
      subst this
      simp [newTag] at hx
  | other h1 h2 h3 h4 h5 h6 h7 =>
    intro j u x hu hx
    rw [h1] at hu
    obtain ⟨v, hv, hq⟩ := h.2 j u x hu hx
    exact ⟨v, by rw [← hv]; unfold Server.tag?; rw [h1], hq⟩
  | _ => exact h.2

theorem Reachable.mapsPlain {s : Server} (h : Reachable s) : MapsPlain s := by
  refine h.inv (I := MapsPlain) ?_ (fun s s' hs m => hs.move m)
  intro e s0 h0
  have hi := init_noQueue e
  rw [h0] at hi
  simp only [C.ok_bind, C.ok.injEq, List.all_eq_true, Bool.and_eq_true, List.isEmpty_iff] at hi
  refine ⟨fun j u hu => (Reachable.queueFree ⟨e, none, s0, [], ?_, rfl⟩ hu), fun j u m hu hm => ?_⟩
  · unfold startServer; rw [h0]; rfl
  · rw [(hi u (List.mem_of_getElem? hu)).1] at hm
    simp at hm

theorem MapsPlain.into {s : Server} (h : MapsPlain s) {k : Nat} {t : Tag} {q : Queue}
    (ht : s.db[k]? = some t) (hq : t.data = .queue q) : NoneInto s k := by
  intro i u hu hw m hm he
  obtain ⟨v, hv, hn⟩ := h.2 i u m hu hm
  have := (tag?_eq.mp hv).2
  rw [he, ht] at this; cases this
  exact hn q hq

/-! ## Everything else leaves a queue alone -/

/-- Tag `k` is called `n` and has queue `q`. -/
def HasQ (s : Server) (k : Nat) (q : Queue) (n : Name) : Prop :=
  ∃ t, s.db[k]? = some t ∧ t.data = .queue q ∧ t.name = some n

def QGone (s : Server) (k : Nat) : Prop := ∃ t, s.db[k]? = some t ∧ t.name = none

section
variable {s s' : Server} {k : Nat} {q : Queue} {n : Name}

theorem HasQ.same (h : HasQ s k q n) (e : s'.db[k]? = s.db[k]?) : HasQ s' k q n := by
  unfold HasQ; rw [e]; exact h

theorem HasQ.reads (h : HasQ s k q n) (r : Reads k s s') : HasQ s' k q n := by
  obtain ⟨t, ht, hq, hn⟩ := h
  obtain ⟨t', ht', e, -⟩ := r t ht
  exact ⟨t', ht', by rw [e.data]; exact hq, by rw [e.name]; exact hn⟩

theorem HasQ.quiet (h : HasQ s k q n) {F : Nat → Prop} (r : Quiet F s s') (hF : ¬ F k) : HasQ s' k q n :=
  h.same (r.same hF)

theorem HasQ.setAttribute (h : HasQ s k q n) {i a : Nat} (hs : setAttribute s i a = .ok s') : HasQ s' k q n := by
  obtain ⟨t, p, rt, ht, rfl⟩ := setAttribute_inv hs
  obtain ⟨u, hu, hq, hn⟩ := h
  by_cases hik : i = k
  · subst hik
    rw [ht] at hu; cases hu
    exact ⟨_, List.getElem?_set_self (List.getElem?_eq_some_iff.mp ht).1, hq, hn⟩
  · exact ⟨u, by show (s.db.set i _)[k]? = _; rw [List.getElem?_set_ne hik]; exact hu, hq, hn⟩

theorem HasQ.lt (h : HasQ s k q n) : k < s.db.length := by
  obtain ⟨t, ht, -⟩ := h
  exact (List.getElem?_eq_some_iff.mp ht).1

theorem HasQ.tagAdd (h : HasQ s k q n) (hk : 11 ≤ k) (hw : WF s) {fd : Int} {name : Name}
    {type count attr : Nat} {r : Int} (ha : tagAdd s fd name type count attr = .ok (s', r)) :
    HasQ s' k q n ∧ (0 ≤ r → name ≠ n → r.toNat ≠ k) := by
  have hkl := h.lt
  rcases tagAdd_cases hw ha with ⟨hr, rfl | rfl⟩ | ⟨-, -, -, size, -, hcs⟩
  · exact ⟨h, by omega⟩
  · exact ⟨h.same (by rw [growDb_db]), by omega⟩
  have hg : HasQ (growDb s) k q n := h.same (by rw [growDb_db])
  rcases hcs with ⟨i, hi, rfl, ho⟩ | ⟨-, rfl, ho⟩
  · obtain ⟨t, ht, htn⟩ := hw.ent _ hi
    have ht' : (growDb s).db[i]? = some t := by rw [growDb_db]; exact ht
    refine ⟨?_, ?_⟩
    · rcases tagAddOld_inv ht' ho with ⟨rfl, -⟩ | ⟨-, -, -, ⟨-, h1⟩ | ⟨-, d, s2, x, hd, h1, h2⟩⟩
      · exact hg
      · exact hg.setAttribute h1
      · refine HasQ.quiet ?_ (tagWrite_quiet h2) (by show ¬ (k = 2); omega)
        refine HasQ.setAttribute ?_ h1
        obtain ⟨u, hu, hq, hn⟩ := hg
        by_cases hik : i = k
        · subst hik
          rw [ht'] at hu; cases hu
          refine ⟨_, List.getElem?_set_self (List.getElem?_eq_some_iff.mp ht').1, ?_, hn⟩
          rw [hq] at hd
          unfold reallocStore at hd
          dsimp only at hd
          split at hd
          · simp at hd
          · simp only [C.ok.injEq] at hd; exact hd.symm
        · exact ⟨u, by show ((growDb s).db.set i _)[k]? = _; rw [List.getElem?_set_ne hik]; exact hu, hq, hn⟩
    · intro _ hne he
      have : i = k := by omega
      subst this
      obtain ⟨u, hu, -, hn⟩ := h
      rw [ht] at hu; cases hu
      rw [htn] at hn
      exact hne (by simpa using hn)
  · refine ⟨?_, by omega⟩
    unfold tagAddNew at ho
    dsimp only at ho
    split at ho
    · simp at ho
    obtain ⟨ix, -, ho⟩ := C.bind_eq_ok.mp ho
    obtain ⟨tbl, -, ho⟩ := C.bind_eq_ok.mp ho
    obtain ⟨s1, h1, ho⟩ := C.bind_eq_ok.mp ho
    obtain ⟨s2, h2, ho⟩ := C.bind_eq_ok.mp ho
    obtain ⟨s3, h3, ho⟩ := C.bind_eq_ok.mp ho
    obtain ⟨⟨s4, r4⟩, h4, ho⟩ := C.bind_eq_ok.mp ho
    simp only [C.ok.injEq, Prod.mk.injEq] at ho
    rw [← ho.1]
    refine HasQ.quiet ?_ (tagWrite_quiet h4) (by show ¬ (k = 2); omega)
    refine HasQ.setAttribute ?_ h3
    refine HasQ.quiet ?_ (statusWrite_quiet h2) (by show ¬ (k = 0); omega)
    have g1 : HasQ s1 k q n := by
      refine HasQ.quiet ?_ (statusWrite_quiet h1) (by show ¬ (k = 1); omega)
      exact hg.same rfl
    exact g1.same (by show (s1.db ++ _)[k]? = _; rw [List.getElem?_append_left g1.lt])

theorem HasQ.unregister (h : HasQ s k q n) (hk : 11 ≤ k) (hw : WF s) {fd : Int}
    (hu : moduleUnregister s fd = .ok s') : HasQ s' k q n ∨ QGone s' k := by
  cases hm : s.modByFd fd with
  | none =>
    unfold moduleUnregister at hu
    rw [hm] at hu
    simp only [C.ok.injEq] at hu
    subst hu; exact .inl h
  | some m =>
    obtain ⟨t, ht, hq, hn⟩ := h
    obtain ⟨h1, h2⟩ := unregister_tags hw hm hu ht
    by_cases hc : (k : Int) = m.tagindex ∨ (t.attr.owned = true ∧ t.fd = fd)
    · exact .inr (h1 hc)
    · obtain ⟨evs, b, h2⟩ := h2 (fun e => hc (.inl e)) (fun e1 e2 => hc (.inr ⟨e1, e2⟩)) (by omega) (by omega)
      exact .inl ⟨_, h2, hq, hn⟩

theorem HasQ.moduleTag (h : HasQ s k q n) (hk : 11 ≤ k) (hn : n.head? ≠ some underscore) (hw : WF s)
    {uid : Nat} {name : Name} {fd : Int} (hu : moduleTag s uid name fd = .ok s') : HasQ s' k q n := by
  unfold Dax.moduleTag at hu
  obtain ⟨⟨tn, uuid⟩, h1, hu⟩ := C.bind_eq_ok.mp hu
  obtain ⟨⟨s1, r⟩, h2, hu⟩ := C.bind_eq_ok.mp hu
  dsimp only at hu h2
  have hne : tn ≠ n := by
    rintro rfl
    exact hn (moduleTagName_head h1)
  have hw' : WF { s with modUuid := uuid } :=
    (WF.other (s' := { s with modUuid := uuid }) hw rfl rfl rfl rfl rfl).wf
  obtain ⟨g1, gr⟩ := HasQ.tagAdd (s := { s with modUuid := uuid }) (h.same rfl) hk hw' h2
  split at hu
  · simp at hu
  rename_i hr
  have gr := gr (by omega) hne
  obtain ⟨⟨s3, r3⟩, h3, hu⟩ := C.bind_eq_ok.mp hu
  obtain ⟨⟨s4, r4⟩, h4, hu⟩ := C.bind_eq_ok.mp hu
  dsimp only at hu h4
  split at hu
  · simp at hu
  rename_i t ht
  obtain ⟨⟨s5, r5⟩, h5, hu⟩ := C.bind_eq_ok.mp hu
  simp only [C.ok.injEq] at hu
  subst hu
  refine HasQ.quiet ?_ (tagWrite_quiet h5) (by show ¬ (k = 6); omega)
  refine HasQ.same (s := s4) ?_ (by show (s4.db.set r.toNat _)[k]? = _; rw [List.getElem?_set_ne gr])
  refine HasQ.quiet ?_ (tagWrite_quiet h4) (by show ¬ (k = r.toNat); omega)
  refine HasQ.quiet ?_ (tagWrite_quiet h3) (by show ¬ (k = r.toNat); omega)
  exact g1.same rfl

theorem QGone.step (h : QGone s k) (st : Step s s') : QGone s' k := by
  obtain ⟨t, ht, hn⟩ := h
  exact st.dead ht hn

theorem HasQ.setTag {idx : Int} {t t' : Tag} (h : HasQ s k q n) (ht : s.tag? idx = some t)
    (e : s'.db = s.db.set idx.toNat t') (h1 : t'.data = t.data) (h2 : t'.name = t.name) : HasQ s' k q n := by
  obtain ⟨u, hu, hq, hn⟩ := h
  have ht := (tag?_eq.mp ht).2
  by_cases hik : idx.toNat = k
  · subst hik
    rw [ht] at hu; cases hu
    exact ⟨t', by rw [e]; exact List.getElem?_set_self (List.getElem?_eq_some_iff.mp ht).1, by rw [h1]; exact hq, by rw [h2]; exact hn⟩
  · exact ⟨u, by rw [e, List.getElem?_set_ne hik]; exact hu, hq, hn⟩

/-- Requests other than transfers. -/
theorem HasQ.handle (h : HasQ s k q n) (hn : n.head? ≠ some underscore) (hr : Reachable s) {fd : Int}
    {rq : Req} {r : Reply} (ht : ¬ (Op.req fd rq).transfers k) (hh : handle s fd rq = .ok (s', r)) :
    HasQ s' k q n ∨ QGone s' k := by
  have hw := hr.wf
  have hk : 11 ≤ k := by
    obtain ⟨t, ht, -, hnm⟩ := h
    exact hr.clientIdx ht hnm hn
  have hinto : NoneInto s k := by
    obtain ⟨t, ht, hq, -⟩ := h
    exact hr.mapsPlain.into ht hq
  have mild : rq.mild = true → rq.drains k = false → (∀ i, rq.target = some i → 0 ≤ i → i.toNat ≠ k) →
      HasQ s' k q n ∨ QGone s' k := fun h1 h2 h3 =>
    .inl (h.reads (mild_reads' h1 h3 hinto (fun i t ht => hr.ids ht) (.inl h2) hh))
  cases rq with
  | modReg flags name =>
    rcases modReg_inv hh with rfl | ⟨s1, x, h1, h2⟩
    · exact .inl h
    · have fin : HasQ s1 k q n ∨ QGone s1 k → HasQ s' k q n ∨ QGone s' k := by
        rintro (g | g)
        · exact .inl (g.quiet (tagRead_quiet h2) (by show ¬ (k = 5); omega))
        · obtain ⟨t, ht, hn⟩ := g
          exact .inr ⟨t, by rw [(tagRead_quiet h2).same (by show ¬ (k = 5); omega)]; exact ht, hn⟩
      refine fin ?_
      obtain ⟨s2, h3, -, h4⟩ := moduleRegister_inv hr.modsOK h1
      have w2 := (moduleUnregister_step hw h3).wf
      have wa := moduleAdd_step w2 name fd
      rcases h.unregister hk hw h3 with g | g
      · rcases h4 with rfl | h4
        · exact .inl (g.same rfl)
        · exact .inl (HasQ.moduleTag (g.same (s' := moduleAdd s2 name fd) rfl) hk hn wa.wf h4)
      · rcases h4 with rfl | h4
        · exact .inr g
        · exact .inr (QGone.step (s := moduleAdd s2 name fd) g (moduleTag_step wa.wf h4))
  | tagAdd type count attr name =>
    rcases addReq_cases hw hh with ⟨e, -, rfl | rfl⟩ | ⟨-, i, -, -, h1, -⟩
    · exact .inl h
    · exact .inl (h.same (by rw [growDb_db]))
    · exact .inl (h.tagAdd hk hw h1).1
  | tagDel idx =>
    simp only [Dax.handle, hTagDel] at hh
    obtain ⟨o, -, hh⟩ := C.bind_eq_ok.mp hh
    cases o with
    | error e => simp only [C.ok.injEq, Prod.mk.injEq] at hh; rw [← hh.1]; exact .inl h
    | ok t =>
      dsimp only at hh
      split at hh
      · simp only [C.ok.injEq, Prod.mk.injEq] at hh; rw [← hh.1]; exact .inl h
      · obtain ⟨⟨s1, r1⟩, h1, hh⟩ := C.bind_eq_ok.mp hh
        simp only [C.ok.injEq, Prod.mk.injEq] at hh; rw [← hh.1]
        by_cases he : (k : Int) = idx
        · subst he
          obtain ⟨t, ht, -⟩ := h
          exact .inr (tagDel_gone hw ht h1)
        · exact .inl (h.same (tagDel_frame h1 he (by omega) (by omega)))
  | cdtCreate str =>
    simp only [Dax.handle, hCdtCreate] at hh
    obtain ⟨⟨tbl, r1⟩, -, hh⟩ := C.bind_eq_ok.mp hh
    simp only [C.ok.injEq, Prod.mk.injEq] at hh; rw [← hh.1]
    exact .inl (h.same rfl)
  | grpRead i => exact absurd trivial ht
  | grpWrite i buf => exact absurd trivial ht
  | ovrAdd idx off d m =>
    simp only [Dax.handle] at hh
    obtain ⟨⟨s1, r1⟩, h1, hh⟩ := C.bind_eq_ok.mp hh
    simp only [C.ok.injEq, Prod.mk.injEq] at hh; rw [← hh.1]
    rcases overrideAdd_inv h1 with ⟨rfl, -⟩ | ⟨t, ht, -, ⟨-, hd⟩ | ⟨-, _, od, om, -, -, -, rfl⟩⟩
    · exact .inl h
    · obtain ⟨_, od, om, od', om', s3, t3, -, -, -, -, -, h3, ht3, rfl⟩ := hd.ex
      refine .inl (HasQ.setTag (s := s3) ?_ ht3 rfl rfl rfl)
      rcases h3 with ⟨-, rfl⟩ | ⟨-, h3⟩
      · exact h.setTag ht rfl rfl rfl
      · exact (h.setTag ht (s' := { s.setTag idx { t with ovr := some (od', om') } with
          ovrInstalled := s.ovrInstalled + 1 }) rfl rfl rfl).quiet (statusWrite_quiet h3) (by show ¬ (k = 7); omega)
    · exact .inl (h.setTag ht rfl rfl rfl)
  | ovrDel idx off m =>
    simp only [Dax.handle] at hh
    obtain ⟨⟨s1, r1⟩, h1, hh⟩ := C.bind_eq_ok.mp hh
    simp only [C.ok.injEq, Prod.mk.injEq] at hh; rw [← hh.1]
    rcases overrideDel_inv h1 with ⟨rfl, -⟩ | ⟨-, t, _, od, om, od', om', ht, -, -, -, -, -, ⟨-, rfl⟩ | ⟨-, s3, t3, h3, ht3, rfl⟩⟩
    · exact .inl h
    · exact .inl (h.setTag ht rfl rfl rfl)
    · refine .inl (HasQ.setTag (s := s3) ?_ ht3 rfl rfl rfl)
      refine HasQ.quiet ?_ (statusWrite_quiet h3) (by show ¬ (k = 7); omega)
      exact h.setTag ht rfl rfl rfl
  | ovrSet idx flag =>
    simp only [Dax.handle] at hh
    obtain ⟨⟨s1, r1⟩, h1, hh⟩ := C.bind_eq_ok.mp hh
    simp only [C.ok.injEq, Prod.mk.injEq] at hh; rw [← hh.1]
    rcases overrideSet_inv h1 with ⟨rfl, -⟩ | ⟨t, s3, t3, -, ht, -, -, -, h3, ht3, rfl⟩
    · exact .inl h
    · refine .inl (HasQ.setTag (s := s3) ?_ ht3 rfl rfl rfl)
      refine HasQ.quiet ?_ (statusWrite_quiet h3) (by show ¬ (k = 8); omega)
      exact h.same rfl
  | tagMWrite idx off d m =>
    by_cases he : idx = k
    · subst he
      simp only [Dax.handle, hTagMWrite] at hh
      obtain ⟨⟨a, f⟩, -, hh⟩ := C.bind_eq_ok.mp hh
      dsimp only at hh
      split at hh
      · simp only [C.ok.injEq, Prod.mk.injEq] at hh; rw [← hh.1]; exact .inl h
      · obtain ⟨⟨s1, r1⟩, h1, h2⟩ := C.bind_eq_ok.mp hh
        rcases tagMaskWrite_inv h1 with ⟨hs, hr1⟩ | ⟨-, t, b, old, ht, hb, -⟩
        · dsimp only at h2
          rw [if_pos hr1] at h2
          simp only [C.ok.injEq, Prod.mk.injEq] at h2; rw [← h2.1, hs]; exact .inl h
        · obtain ⟨u, hu, hq, -⟩ := h
          rw [tag?_natCast, hu] at ht
          cases ht
          rw [hq] at hb; cases hb
    · refine mild rfl rfl fun i hi h0 hik => ?_
      simp only [Req.target, Option.some.injEq] at hi
      omega
  | atomic hd op buf =>
    by_cases he : hd.index = k
    · simp only [Dax.handle, hAtomic] at hh
      obtain ⟨ro, -, hh⟩ := C.bind_eq_ok.mp hh
      split at hh
      · simp only [C.ok.injEq, Prod.mk.injEq] at hh; rw [← hh.1]; exact .inl h
      · obtain ⟨⟨s1, r1⟩, h1, h2⟩ := C.bind_eq_ok.mp hh
        rcases atomicOp_inv' h1 with ⟨hs, hr1⟩ | ⟨-, t, b, old, _, _, _, ht, hb, -⟩
        · dsimp only at h2
          rw [if_pos hr1] at h2
          simp only [C.ok.injEq, Prod.mk.injEq] at h2; rw [← h2.1, hs]; exact .inl h
        · obtain ⟨u, hu, hq, -⟩ := h
          rw [he, tag?_natCast, hu] at ht
          cases ht
          rw [hq] at hb; cases hb
    · refine mild rfl rfl fun i hi h0 hik => ?_
      simp only [Req.target, Option.some.injEq] at hi
      omega
  | tagWrite idx off d => 
    refine mild rfl rfl fun i hi h0 he => ht ?_
    simp only [Req.target, Option.some.injEq] at hi
    show idx = k
    omega
  | tagRead idx off size =>
    refine mild rfl ?_ (by intro i hi; simp [Req.target] at hi)
    simp only [Req.drains, decide_eq_false_iff_not]
    exact ht
  | _ => exact mild rfl rfl (by intro i hi; simp [Req.target] at hi)

/-! ## Transfers -/

theorem HasQ.write (h : HasQ s k q n) (hr : Reachable s) {fd off : Int} {d : List Byte} {r : Reply}
    (hh : Dax.handle s fd (.tagWrite k off d) = .ok (s', r)) :
    ((∃ e, r = .err e) ∧ s' = s) ∨
    ∃ q', (∃ x, r = .resp x) ∧ queueWrite s.env q off d = .ok (some q') ∧ HasQ s' k q' n := by
  obtain ⟨t, ht, hq, hn⟩ := h
  obtain ⟨hv, hm⟩ := hr.queueFree ht q hq
  simp only [Dax.handle, hTagWrite] at hh
  obtain ⟨ro, -, hh⟩ := C.bind_eq_ok.mp hh
  split at hh
  · simp only [C.ok.injEq, Prod.mk.injEq] at hh
    exact .inl ⟨⟨_, hh.2.symm⟩, hh.1.symm⟩
  obtain ⟨⟨s1, r1⟩, h1, hh⟩ := C.bind_eq_ok.mp hh
  unfold tagWrite at h1
  rw [tag?_natCast, ht] at h1
  simp only [hv, if_true, virtWrite, hq] at h1
  obtain ⟨o, ho, h1⟩ := C.bind_eq_ok.mp h1
  cases o with
  | none =>
    simp only [C.ok.injEq, Prod.mk.injEq] at h1
    obtain ⟨rfl, rfl⟩ := h1
    simp only [C.ok.injEq, Prod.mk.injEq, ne_eq, show ¬ (ERR_ILLEGAL = 0) from by decide, not_false_eq_true, if_true] at hh
    exact .inl ⟨⟨_, hh.2.symm⟩, hh.1.symm⟩
  | some q' =>
    obtain ⟨⟨evs, ns⟩, -, h1⟩ := C.bind_eq_ok.mp h1
    simp only [C.ok.injEq, Prod.mk.injEq] at h1
    obtain ⟨rfl, rfl⟩ := h1
    simp only [ne_eq, not_true_eq_false, if_false] at hh
    obtain ⟨s2, h2, hh⟩ := C.bind_eq_ok.mp hh
    simp only [C.ok.injEq, Prod.mk.injEq] at hh
    have hl := (List.getElem?_eq_some_iff.mp ht).1
    have hs2 : s2.db[k]? = some { t with data := .queue q', events := evs } := by
      unfold mapCheck at h2
      rw [tag?_natCast] at h2
      simp only [Server.setTag, Int.toNat_natCast, List.getElem?_set_self hl] at h2
      split at h2
      · simp at h2
      · rw [hm] at h2
        simp only [mapLoop, C.ok.injEq] at h2
        rw [← h2]
        simp [hm, hl]
    exact .inr ⟨q', ⟨_, hh.2.symm⟩, ho, by rw [← hh.1]; exact ⟨_, hs2, rfl, hn⟩⟩

theorem HasQ.read (h : HasQ s k q n) (hr : Reachable s) {fd off w : Int} {r : Reply}
    (hh : Dax.handle s fd (.tagRead k off w) = .ok (s', r)) :
    (queueRead q = .ok none ∧ r = .err ERR_EMPTY ∧ s' = s) ∨
    ∃ b q', queueRead q = .ok (some (b, q')) ∧ HasQ s' k q' n ∧
      (r = .none ∨ r = .resp (s.env.pad b w.toNat)) := by
  obtain ⟨t, ht, hq, hn⟩ := h
  obtain ⟨hv, hm⟩ := hr.queueFree ht q hq
  simp only [Dax.handle, hTagRead] at hh
  obtain ⟨⟨s1, r1⟩, h1, hh⟩ := C.bind_eq_ok.mp hh
  unfold tagRead at h1
  rw [tag?_natCast, ht] at h1
  simp only [hv, if_true, virtRead, hq] at h1
  obtain ⟨o, ho, h1⟩ := C.bind_eq_ok.mp h1
  cases o with
  | none =>
    simp only [C.ok.injEq, Prod.mk.injEq] at h1
    obtain ⟨rfl, rfl⟩ := h1
    simp only [C.ok.injEq, Prod.mk.injEq] at hh
    exact .inl ⟨ho, hh.2.symm, hh.1.symm⟩
  | some x =>
    obtain ⟨b, q'⟩ := x
    simp only [C.ok.injEq, Prod.mk.injEq] at h1
    obtain ⟨rfl, rfl⟩ := h1
    dsimp only at hh
    have hl := (List.getElem?_eq_some_iff.mp ht).1
    have hs : HasQ (s.setTag k { t with data := .queue q' }) k q' n :=
      ⟨_, List.getElem?_set_self hl, rfl, hn⟩
    split at hh
    · simp at hh
    · split at hh <;> (simp only [C.ok.injEq, Prod.mk.injEq] at hh; rw [← hh.1])
      · exact .inr ⟨b, q', ho, hs, .inl hh.2.symm⟩
      · exact .inr ⟨b, q', ho, hs, .inr hh.2.symm⟩

/-- A read of a queue that can be read is answered. -/
theorem HasQ.read_ok (h : HasQ s k q n) (hr : Reachable s) {fd off : Int} {w : Nat}
    (hw : w ≤ MSG_DATA_SIZE) :
    (queueRead q = .ok none → Dax.handle s fd (.tagRead k off w) = .ok (s, .err ERR_EMPTY)) ∧
    (∀ b q', queueRead q = .ok (some (b, q')) → b.length = w →
      ∃ s', Dax.handle s fd (.tagRead k off w) = .ok (s', .resp b)) := by
  obtain ⟨t, ht, hq, hn⟩ := h
  obtain ⟨hv, hm⟩ := hr.queueFree ht q hq
  refine ⟨fun h0 => ?_, fun b q' h0 hb => ⟨s.setTag k { t with data := .queue q' }, ?_⟩⟩
  · simp only [Dax.handle, hTagRead, tagRead, tag?_natCast, ht, hv, if_true, virtRead, hq, h0, C.ok_bind]
  · simp only [Dax.handle, hTagRead, tagRead, tag?_natCast, ht, hv, if_true, virtRead, hq, h0, C.ok_bind]
    rw [if_neg (by omega), if_neg (by omega)]
    simp only [Int.toNat_natCast]
    rw [← hb]
    simp [Env.pad]

theorem QGone.noWrite (h : QGone s k) (hw : WF s) {fd off : Int} {d x : List Byte} :
    Dax.handle s fd (.tagWrite k off d) ≠ .ok (s', .resp x) := by
  intro hh
  obtain ⟨t, ht, hn⟩ := h
  have hf : t.data = .freed := (hw.tag k t ht).name.mp hn
  simp only [Dax.handle, hTagWrite] at hh
  obtain ⟨ro, -, hh⟩ := C.bind_eq_ok.mp hh
  split at hh
  · simp at hh
  obtain ⟨⟨s1, r1⟩, h1, hh⟩ := C.bind_eq_ok.mp hh
  have hr1 : r1 ≠ 0 := by
    unfold tagWrite at h1
    rw [tag?_natCast, ht] at h1
    dsimp only at h1
    split at h1
    · simp [virtWrite, hf] at h1
    · obtain ⟨e, -, h1⟩ := C.bind_eq_ok.mp h1
      obtain ⟨sz, -, h1⟩ := C.bind_eq_ok.mp h1
      split at h1
      · simp only [C.ok.injEq, Prod.mk.injEq] at h1; rw [← h1.2]; decide
      · rw [hf] at h1
        simp only [C.ok.injEq, Prod.mk.injEq] at h1; rw [← h1.2]; decide
  dsimp only at hh
  rw [if_pos hr1] at hh
  simp at hh

theorem QGone.noRead (h : QGone s k) (hw : WF s) {fd off w : Int} :
    (∀ x, Dax.handle s fd (.tagRead k off w) ≠ .ok (s', .resp x)) ∧
    Dax.handle s fd (.tagRead k off w) ≠ .ok (s', .err ERR_EMPTY) := by
  obtain ⟨t, ht, hn⟩ := h
  have hf : t.data = .freed := (hw.tag k t ht).name.mp hn
  have key : ∀ r, Dax.handle s fd (.tagRead k off w) = .ok (s', r) → r = .err ERR_2BIG ∨ r = .err ERR_DELETED := by
    intro r hh
    simp only [Dax.handle, hTagRead] at hh
    obtain ⟨⟨s1, r1⟩, h1, hh⟩ := C.bind_eq_ok.mp hh
    have hr1 : r1 = .error ERR_2BIG ∨ r1 = .error ERR_DELETED := by
      unfold tagRead at h1
      rw [tag?_natCast, ht] at h1
      dsimp only at h1
      split at h1
      · simp [virtRead, hf] at h1
      · obtain ⟨e, -, h1⟩ := C.bind_eq_ok.mp h1
        obtain ⟨sz, -, h1⟩ := C.bind_eq_ok.mp h1
        split at h1
        · simp only [C.ok.injEq, Prod.mk.injEq] at h1; exact .inl h1.2.symm
        · rw [hf] at h1
          simp only [C.ok.injEq, Prod.mk.injEq] at h1; exact .inr h1.2.symm
    rcases hr1 with rfl | rfl <;> (simp only [C.ok.injEq, Prod.mk.injEq] at hh)
    · exact .inl hh.2.symm
    · exact .inr hh.2.symm
  refine ⟨fun x hh => ?_, fun hh => ?_⟩
  · rcases key _ hh with h | h <;> cases h
  · rcases key _ hh with h | h
    · exact absurd h (by decide)
    · exact absurd h (by decide)

theorem Reachable.step {o : Op} (h : Reachable s) (hs : Dax.step s o = .ok s') : Reachable s' :=
  h.run (os := [o]) (by simp only [Dax.run]; rw [hs]; rfl)

theorem QGone.served (h : QGone s k) (hr : Reachable s) {w : Nat} {as : List QAct} {s2 : Server}
    (hs : Served k w s as s2) : as = [] ∧ QGone s2 k ∧ Reachable s2 := by
  induction hs with
  | nil => exact ⟨rfl, h, hr⟩
  | write hh t ih => exact absurd hh (h.noWrite hr.wf)
  | writeRefused hh t ih => exact ih (h.step (handle_step hr.wf hh)) (hr.handle hh)
  | read hh t ih => exact absurd hh ((h.noRead hr.wf).1 _)
  | readEmpty hh t ih => exact absurd hh (h.noRead hr.wf).2
  | readRefused hh he t ih => exact ih (h.step (handle_step hr.wf hh)) (hr.handle hh)
  | other hh ho t ih => exact ih (h.step (step_step hr.wf hh)) (hr.step hh)

/-- What is left in a queue that held `p` after what clients saw. -/
theorem HasQ.served (h : HasQ s k q n) (hn : n.head? ≠ some underscore) (hr : Reachable s) {w : Nat}
    {p : List (List Byte)} (hp : QRep q p) (hl : ∀ d ∈ p, d.length = w)
    {as : List QAct} {s2 : Server} (hs : Served k w s as s2) (hwi : Within 16 p.length as)
    (hput : ∀ d ∈ puts as, d.length = w) :
    Fifo p as ∧ Reachable s2 ∧ (QGone s2 k ∨ ∃ q' p', HasQ s2 k q' n ∧ QRep q' p' ∧
      gets as ++ p' = p ++ puts as ∧ ∀ d ∈ p', d.length = w) := by
  induction hs generalizing q p with
  | nil => exact ⟨trivial, hr, .inr ⟨q, p, h, hp, by simp [gets, puts], hl⟩⟩
  | write hh t ih =>
    rename_i d x as
    have hr' := hr.handle hh
    rcases h.write hr hh with ⟨⟨e, he⟩, -⟩ | ⟨q', -, hw', h'⟩
    · cases he
    · have hd := hput d (by simp [puts])
      obtain ⟨g1, g2, g3⟩ := ih h' hr' (hp.write hwi.1 hw').1
        (by intro y hy; rcases List.mem_append.mp hy with hy | hy
            · exact hl y hy
            · simp only [List.mem_cons, List.not_mem_nil, or_false] at hy; rw [hy]; exact hd)
        (by rw [List.length_append]; exact hwi.2)
        (fun y hy => hput y (by simp only [puts, List.filterMap_cons] at hy ⊢; exact List.mem_cons_of_mem _ hy))
      refine ⟨g1, g2, ?_⟩
      rcases g3 with g3 | ⟨q2, p2, a1, a2, a3, a4⟩
      · exact .inl g3
      · refine .inr ⟨q2, p2, a1, a2, ?_, a4⟩
        simp only [gets, puts, List.filterMap_cons, List.append_assoc] at a3 ⊢
        simpa using a3
  | writeRefused hh t ih =>
    rcases h.write hr hh with ⟨-, rfl⟩ | ⟨q', ⟨x, hx⟩, -⟩
    · exact ih h hr hp hl hwi hput
    · cases hx
  | read hh t ih =>
    rename_i b as
    have hr' := hr.handle hh
    rcases h.read hr hh with ⟨-, he, -⟩ | ⟨b', q', hq', h', hx⟩
    · cases he
    · rcases hx with hx | hx
      · cases hx
      · cases p with
        | nil => rw [hp.read_nil] at hq'; simp at hq'
        | cons y p =>
          obtain ⟨q2, e2, hp2⟩ := hp.read_cons
          rw [e2] at hq'
          simp only [C.ok.injEq, Option.some.injEq, Prod.mk.injEq] at hq'
          obtain ⟨rfl, rfl⟩ := hq'
          have hb : b = y := by
            simp only [Reply.resp.injEq] at hx
            rw [hx, Int.toNat_natCast, ← hl y (List.mem_cons_self ..)]
            simp [Env.pad]
          subst hb
          obtain ⟨g1, g2, g3⟩ := ih h' hr' hp2 (fun z hz => hl z (List.mem_cons_of_mem _ hz)) hwi hput
          refine ⟨⟨p, rfl, g1⟩, g2, ?_⟩
          rcases g3 with g3 | ⟨q3, p3, a1, a2, a3, a4⟩
          · exact .inl g3
          · refine .inr ⟨q3, p3, a1, a2, ?_, a4⟩
            simp only [gets, puts, List.filterMap_cons] at a3 ⊢
            simpa using a3
  | readEmpty hh t ih =>
    rcases h.read hr hh with ⟨hq', -, rfl⟩ | ⟨b', q', hq', h', hx⟩
    · cases p with
      | nil =>
        obtain ⟨g1, g2, g3⟩ := ih h hr hp hl hwi hput
        exact ⟨⟨rfl, g1⟩, g2, g3⟩
      | cons y p =>
        obtain ⟨q2, e2, hp2⟩ := hp.read_cons
        rw [e2] at hq'; simp at hq'
    · rcases hx with hx | hx <;> cases hx
  | readRefused hh he t ih =>
    rcases h.read hr hh with ⟨hq', hx, rfl⟩ | ⟨b', q', hq', h', hx⟩
    · simp only [Reply.err.injEq] at hx; exact absurd hx he
    · rcases hx with hx | hx <;> cases hx
  | other hh ho t ih =>
    rename_i s s1 s2 o as
    have hr' := hr.step hh
    have key : HasQ s1 k q n ∨ QGone s1 k := by
      cases o with
      | req fd rq =>
        simp only [Dax.step] at hh
        obtain ⟨⟨s3, r3⟩, h3, hh⟩ := C.bind_eq_ok.mp hh
        simp only [C.ok.injEq] at hh
        subst hh
        exact h.handle hn hr ho h3
      | close fd =>
        have hk : 11 ≤ k := by
          obtain ⟨t, ht, -, hnm⟩ := h
          exact hr.clientIdx ht hnm hn
        exact h.unregister hk hr.wf hh
      | env e =>
        simp only [Dax.step, C.ok.injEq] at hh
        subst hh
        exact .inl (h.same rfl)
    rcases key with g | g
    · exact ih g hr' hp hl hwi hput
    · obtain ⟨rfl, g1, g2⟩ := g.served hr' t
      exact ⟨trivial, g2, .inl g1⟩

/-- A new queue. -/
theorem HasQ.new (hr : Reachable s) {fd : Int} {type count attr : Nat} {x : List Byte}
    (hnew : ∀ e ∈ s.index, e.name ≠ n) (hQ : isQueue type = true)
    (hh : Dax.handle s fd (.tagAdd type count attr n) = .ok (s', .resp x))
    (hk : (Reply.resp x).index? = some k) :
    n.head? ≠ some underscore ∧ ∃ q, HasQ s' k q n ∧ QRep q [] := by
  rcases addReq_cases hr.wf hh with ⟨e, he, -⟩ | ⟨hu, i, hi, hx, -, -, -, -, size, ha, ⟨hm, -⟩ | ⟨-, rfl, ho⟩⟩
  · cases he
  · exact absurd rfl (hnew _ hm)
  · refine ⟨hu, ?_⟩
    rw [hx, index_le4 hi] at hk
    simp only [Option.some.injEq] at hk
    subst hk
    have h11 := hr.len
    unfold tagAddNew at ho
    dsimp only at ho
    split at ho
    · simp at ho
    obtain ⟨ix, -, ho⟩ := C.bind_eq_ok.mp ho
    obtain ⟨tbl, -, ho⟩ := C.bind_eq_ok.mp ho
    obtain ⟨s1, h1, ho⟩ := C.bind_eq_ok.mp ho
    obtain ⟨s2, h2, ho⟩ := C.bind_eq_ok.mp ho
    obtain ⟨s3, h3, ho⟩ := C.bind_eq_ok.mp ho
    obtain ⟨⟨s4, r4⟩, h4, ho⟩ := C.bind_eq_ok.mp ho
    simp only [C.ok.injEq, Prod.mk.injEq] at ho
    rw [← ho.1]
    refine ⟨_, ?_, QRep.fresh size⟩
    refine HasQ.quiet ?_ (tagWrite_quiet h4) (by show ¬ (s.db.length = 2); omega)
    refine HasQ.setAttribute ?_ h3
    refine HasQ.quiet ?_ (statusWrite_quiet h2) (by show ¬ (s.db.length = 0); omega)
    have hl : s1.db.length = s.db.length := by
      have := (statusWrite_quiet h1).len
      rw [this]; show (growDb s).db.length = _; rw [growDb_db]
    refine ⟨newTag s1.env (growDb s).db.length fd n type (u32 ↑count) size, ?_, ?_, ?_⟩
    · show (s1.db ++ _)[s.db.length]? = _
      rw [List.getElem?_append_right (by omega), hl, Nat.sub_self]
      rfl
    · simp [newTag, hQ]
    · rfl

end

end Dax
