import Verif.Spec.ModuleRing
set_option autoImplicit false
/-!
# The circular list of modules represents a table
-/
namespace Dax.Ring

/-! ## Rings -/

def nxt (h : Heap) (a : Nat) : Option Nat := (h a).map Node.next
def prv (h : Heap) (a : Nat) : Option Nat := (h a).map Node.prev

/-- `x` and `y` are neighbours. -/
def Edge (h : Heap) (x y : Nat) : Prop := nxt h x = some y ∧ prv h y = some x

/-- From `x` through the modules of the list to `y`. -/
def Seg (h : Heap) : Nat → List Nat → Nat → Prop
  | x, [], y => Edge h x y
  | x, z :: r, y => Edge h x z ∧ Seg h z r y

/-- A ring: the modules of the list in order, and round again. -/
def RingAt (h : Heap) : List Nat → Prop
  | [] => False
  | a :: r => Seg h a r a ∧ (a :: r).Nodup

theorem seg_append (h : Heap) : ∀ (r1 : List Nat) (x y z : Nat) (r2 : List Nat),
    Seg h x (r1 ++ y :: r2) z ↔ Seg h x r1 y ∧ Seg h y r2 z := by
  intro r1
  induction r1 with
  | nil => intro x y z r2; simp [Seg]
  | cons a r1 ih => intro x y z r2; simp [Seg, ih, and_assoc]

theorem seg_congr {h h' : Heap} : ∀ (r : List Nat) (x y : Nat),
    (∀ a ∈ x :: r, nxt h' a = nxt h a) → (∀ a ∈ r ++ [y], prv h' a = prv h a) →
    Seg h x r y → Seg h' x r y := by
  intro r
  induction r with
  | nil =>
    intro x y h1 h2 hs
    exact ⟨by rw [h1 x (by simp)]; exact hs.1, by rw [h2 y (by simp)]; exact hs.2⟩
  | cons a r ih =>
    intro x y h1 h2 hs
    refine ⟨⟨by rw [h1 x (by simp)]; exact hs.1.1, by rw [h2 a (by simp)]; exact hs.1.2⟩, ?_⟩
    exact ih a y (fun b hb => h1 b (by simp at hb ⊢; exact .inr hb))
      (fun b hb => h2 b (by simp at hb ⊢; exact .inr hb)) hs.2

theorem ring_rotate {h : Heap} {a : Nat} {r : List Nat} (hr : RingAt h (a :: r)) :
    RingAt h (r ++ [a]) := by
  obtain ⟨hs, hn⟩ := hr
  cases r with
  | nil => exact ⟨hs, hn⟩
  | cons b r =>
    refine ⟨(seg_append h r b a b []).mpr ⟨hs.2, hs.1⟩, ?_⟩
    have : (b :: r ++ [a]).Perm (a :: b :: r) := List.perm_append_comm
    exact this.nodup_iff.mpr hn

theorem ring_root {h : Heap} {l : List Nat} (hr : RingAt h l) {c : Nat} (hc : c ∈ l) :
    ∃ r, RingAt h (c :: r) ∧ (c :: r).Perm l := by
  obtain ⟨l1, l2, rfl⟩ := List.append_of_mem hc
  induction l1 generalizing l2 with
  | nil => exact ⟨l2, hr, List.Perm.refl _⟩
  | cons a l1 ih =>
    have h1 := ring_rotate (a := a) (r := l1 ++ c :: l2) hr
    rw [List.append_assoc, List.cons_append] at h1
    obtain ⟨r, h2, h3⟩ := ih (l2 ++ [a]) h1 (by simp)
    refine ⟨r, h2, h3.trans ?_⟩
    have : (l1 ++ c :: (l2 ++ [a])) = (l1 ++ c :: l2) ++ [a] := by simp
    rw [this]
    exact List.perm_append_comm

theorem seg_some {h : Heap} : ∀ (r : List Nat) (x y : Nat), Seg h x r y → ∀ a ∈ x :: r,
    (h a).isSome := by
  intro r
  induction r with
  | nil =>
    intro x y hs a ha
    simp only [List.mem_singleton] at ha
    subst ha
    have := hs.1
    unfold nxt at this
    cases hx : h a with
    | none => rw [hx] at this; simp at this
    | some n => rfl
  | cons b r ih =>
    intro x y hs a ha
    rcases List.mem_cons.mp ha with rfl | ha
    · have := hs.1.1
      unfold nxt at this
      cases hx : h a with
      | none => rw [hx] at this; simp at this
      | some n => rfl
    · exact ih b y hs.2 a ha

theorem ring_some {h : Heap} {l : List Nat} (hr : RingAt h l) {a : Nat} (ha : a ∈ l) :
    ∃ n, h a = some n := by
  cases l with
  | nil => simp at ha
  | cons x r => exact Option.isSome_iff_exists.mp (seg_some r x x hr.1 a ha)

/-! ## Invariant -/

/-- The list describes the ring: the modules with their connections and names. -/
structure Shape (s : State) (l : List Nat) : Prop where
  ring : l ≠ [] → RingAt s.heap l
  cur : (l = [] ∧ s.cur = none) ∨ ∃ c, s.cur = some c ∧ c ∈ l
  count : s.count = l.length
  only : ∀ a, (s.heap a).isSome → a ∈ l

/-- Entry of the module at an address. -/
def entry (h : Heap) (a : Nat) : Int × List Byte :=
  match h a with
  | some n => (n.fd, n.name)
  | none => (0, [])

/-- The state stands for the table. -/
structure Rep (s : State) (t : Table) : Prop where
  shape : ∃ l, Shape s l ∧ (l.map (entry s.heap)).Perm t
  keys : (t.map (·.1)).Nodup

/-- A lookup that starts at the root of a ring. -/
theorem findLoop_ring {h : Heap} {fd : Int} {c : Nat} : ∀ (r : List Nat) (x : Nat) (k : Nat),
    Seg h x r c → r.length < k →
    (∃ a ∈ x :: r, (entry h a).1 = fd ∧ findLoop h fd c k x = .ok (some a, a)) ∨
    ((∀ a ∈ x :: r, (entry h a).1 ≠ fd) ∧ findLoop h fd c k x = .ok (none, c)) ∨
    (c ∈ r ∧ ∃ q, findLoop h fd c k x = .ok (none, c) ∧ q = k) := by
  intro r
  induction r with
  | nil =>
    intro x k hs hk
    cases k with
    | zero => omega
    | succ k =>
      obtain ⟨n, hn⟩ : ∃ n, h x = some n :=
        Option.isSome_iff_exists.mp (seg_some [] x c hs x (by simp))
      have hnext : n.next = c := by
        have := hs.1
        unfold nxt at this
        rw [hn] at this
        simpa using this
      by_cases hf : n.fd = fd
      · left
        exact ⟨x, by simp, by simp [entry, hn, hf], by simp [findLoop, deref, hn, hf]⟩
      · right; left
        refine ⟨?_, by simp [findLoop, deref, hn, hf, hnext]⟩
        intro a ha
        simp only [List.mem_singleton] at ha
        subst ha
        simp [entry, hn, hf]
  | cons b r ih =>
    intro x k hs hk
    cases k with
    | zero => omega
    | succ k =>
      obtain ⟨n, hn⟩ : ∃ n, h x = some n :=
        Option.isSome_iff_exists.mp (seg_some (b :: r) x c hs x (by simp))
      have hnext : n.next = b := by
        have := hs.1.1
        unfold nxt at this
        rw [hn] at this
        simpa using this
      by_cases hf : n.fd = fd
      · left
        exact ⟨x, by simp, by simp [entry, hn, hf], by simp [findLoop, deref, hn, hf]⟩
      · by_cases hbc : b = c
        · right; right
          refine ⟨by simp [hbc], k + 1, ?_, rfl⟩
          simp [findLoop, deref, hn, hf, hnext, hbc]
        · have hstep : findLoop h fd c (k + 1) x = findLoop h fd c k b := by
            simp [findLoop, deref, hn, hf, hnext, hbc]
          rw [hstep]
          simp only [List.length_cons] at hk
          rcases ih b k hs.2 (by omega) with ⟨a, ha, h1, h2⟩ | ⟨h1, h2⟩ | ⟨h1, q, h2, h3⟩
          · exact .inl ⟨a, List.mem_cons_of_mem _ ha, h1, h2⟩
          · right; left
            refine ⟨?_, h2⟩
            intro a ha
            rcases List.mem_cons.mp ha with rfl | ha
            · simp [entry, hn, hf]
            · exact h1 a ha
          · right; right
            exact ⟨List.mem_cons_of_mem _ h1, k + 1, h2, rfl⟩

/-- A lookup finds the module with that connection, if there is one, and moves only the
cursor. -/
theorem find_shape {s : State} {l : List Nat} (hs : Shape s l) (fd : Int) :
    ∃ s', (∃ a ∈ l, (entry s.heap a).1 = fd ∧ find s fd = .ok (some a, s')) ∧ Shape s' l ∧
        s'.heap = s.heap ∨
      ((∀ a ∈ l, (entry s.heap a).1 ≠ fd) ∧ find s fd = .ok (none, s')) ∧ Shape s' l ∧
        s'.heap = s.heap := by
  rcases hs.cur with ⟨rfl, hc⟩ | ⟨c, hc, hm⟩
  · refine ⟨s, .inr ⟨⟨by simp, by simp [find, hc]⟩, hs, rfl⟩⟩
  · have hr := hs.ring (List.ne_nil_of_mem hm)
    obtain ⟨r, hr', hp⟩ := ring_root hr hm
    have hlen : r.length < s.count := by
      rw [hs.count, ← hp.length_eq]
      simp
    have hcr : c ∉ r := (List.nodup_cons.mp hr'.2).1
    rcases findLoop_ring (fd := fd) r c s.count hr'.1 hlen with ⟨a, ha, h1, h2⟩ | ⟨h1, h2⟩ | ⟨h1, _⟩
    · refine ⟨{ s with cur := some a }, .inl ⟨⟨a, hp.mem_iff.mp ha, h1, ?_⟩, ?_, rfl⟩⟩
      · simp [find, hc, h2]
      · exact ⟨hs.ring, .inr ⟨a, rfl, hp.mem_iff.mp ha⟩, hs.count, hs.only⟩
    · refine ⟨{ s with cur := some c }, .inr ⟨⟨?_, ?_⟩, ?_, rfl⟩⟩
      · intro a ha; exact h1 a (hp.mem_iff.mpr ha)
      · simp [find, hc, h2]
      · exact ⟨hs.ring, .inr ⟨c, rfl, hm⟩, hs.count, hs.only⟩
    · exact absurd h1 hcr

theorem finds_shape {l : List Nat} : ∀ (fds : List Int) (s : State), Shape s l →
    ∃ s', finds s fds = .ok s' ∧ Shape s' l ∧ s'.heap = s.heap := by
  intro fds
  induction fds with
  | nil => intro s hs; exact ⟨s, rfl, hs, rfl⟩
  | cons fd fds ih =>
    intro s hs
    obtain ⟨s1, ⟨⟨a, _, _, h1⟩, h2, h3⟩ | ⟨⟨_, h1⟩, h2, h3⟩⟩ := find_shape hs fd
    · obtain ⟨s2, g1, g2, g3⟩ := ih s1 h2
      exact ⟨s2, by simp [finds, h1, g1], g2, by rw [g3, h3]⟩
    · obtain ⟨s2, g1, g2, g3⟩ := ih s1 h2
      exact ⟨s2, by simp [finds, h1, g1], g2, by rw [g3, h3]⟩

/-! ## Insertion and deletion -/

theorem nxt_upd (h : Heap) (a x : Nat) (n : Node) :
    nxt (upd h a n) x = if x = a then some n.next else nxt h x := by
  unfold nxt upd; split <;> rfl

theorem prv_upd (h : Heap) (a x : Nat) (n : Node) :
    prv (upd h a n) x = if x = a then some n.prev else prv h x := by
  unfold prv upd; split <;> rfl

theorem entry_upd (h : Heap) (a x : Nat) (n : Node) :
    entry (upd h a n) x = if x = a then (n.fd, n.name) else entry h x := by
  unfold entry upd
  by_cases hx : x = a <;> simp [hx]

/-- What setting a pointer does. -/
theorem setNext_ok {h : Heap} {a v : Nat} (ha : (h a).isSome) : ∃ h', setNext h a v = .ok h' ∧
    (∀ x, nxt h' x = if x = a then some v else nxt h x) ∧ (∀ x, prv h' x = prv h x) ∧
    (∀ x, entry h' x = entry h x) ∧ ∀ x, (h' x).isSome = (h x).isSome := by
  obtain ⟨n, hn⟩ := Option.isSome_iff_exists.mp ha
  refine ⟨upd h a { n with next := v }, by simp [setNext, deref, hn], fun x => nxt_upd _ _ _ _,
    fun x => ?_, fun x => ?_, fun x => ?_⟩
  · rw [prv_upd]; split
    · rename_i hx; rw [hx]; simp [prv, hn]
    · rfl
  · rw [entry_upd]; split
    · rename_i hx; rw [hx]; simp [entry, hn]
    · rfl
  · unfold upd; split
    · rename_i hx; rw [hx, hn]; rfl
    · rfl

theorem setPrev_ok {h : Heap} {a v : Nat} (ha : (h a).isSome) : ∃ h', setPrev h a v = .ok h' ∧
    (∀ x, prv h' x = if x = a then some v else prv h x) ∧ (∀ x, nxt h' x = nxt h x) ∧
    (∀ x, entry h' x = entry h x) ∧ ∀ x, (h' x).isSome = (h x).isSome := by
  obtain ⟨n, hn⟩ := Option.isSome_iff_exists.mp ha
  refine ⟨upd h a { n with prev := v }, by simp [setPrev, deref, hn], fun x => prv_upd _ _ _ _,
    fun x => ?_, fun x => ?_, fun x => ?_⟩
  · rw [nxt_upd]; split
    · rename_i hx; rw [hx]; simp [nxt, hn]
    · rfl
  · rw [entry_upd]; split
    · rename_i hx; rw [hx]; simp [entry, hn]
    · rfl
  · unfold upd; split
    · rename_i hx; rw [hx, hn]; rfl
    · rfl

theorem add_shape {s : State} {l : List Nat} (hs : Shape s l) {a : Nat} (ha : s.heap a = none)
    (fd : Int) (name : List Byte) : ∃ s', add s a fd name = .ok s' ∧
    ∃ l', Shape s' l' ∧ (l'.map (entry s'.heap)).Perm ((fd, name) :: l.map (entry s.heap)) := by
  rcases hs.cur with ⟨rfl, hc⟩ | ⟨c, hc, hm⟩
  · refine ⟨_, by simp [add, ha, hc]; rfl, [a], ⟨fun _ => ⟨?_, by simp⟩, .inr ⟨a, rfl, by simp⟩,
      by simp [hs.count], ?_⟩, ?_⟩
    · exact ⟨by simp [nxt_upd], by simp [prv_upd]⟩
    · intro x hx
      dsimp only [upd] at hx
      split at hx
      · rename_i h; simp [h]
      · exact absurd (hs.only x hx) (by simp)
    · simp [entry_upd]
  · have hr := hs.ring (List.ne_nil_of_mem hm)
    obtain ⟨r, hr', hp⟩ := ring_root hr hm
    obtain ⟨n, hn⟩ := ring_some hr hm
    have hal : a ∉ l := by
      intro h
      obtain ⟨n, hn⟩ := ring_some hr h
      rw [ha] at hn; simp at hn
    have har : a ∉ c :: r := fun h => hal (hp.mem_iff.mp h)
    have hnext : some n.next = (r ++ [c]).head? := by
      cases r with
      | nil =>
        have := hr'.1.1
        unfold nxt at this; rw [hn] at this; simpa using this
      | cons x r' =>
        have := hr'.1.1.1
        unfold nxt at this; rw [hn] at this; simpa using this
    have hmemnext : n.next ∈ r ++ [c] := List.mem_of_mem_head? (by rw [← hnext]; rfl)
    have hnl : n.next ∈ c :: r := by
      simp only [List.mem_append, List.mem_cons, List.not_mem_nil, or_false] at hmemnext ⊢
      exact hmemnext.symm
    have hnea : n.next ≠ a := fun h => har (h ▸ hnl)
    have hca : c ≠ a := fun h => har (by simp [h])
    generalize hh0 : upd s.heap a { fd := fd, name := name, next := n.next, prev := c } = h0
    have hx0 : (h0 n.next).isSome := by
      rw [← hh0]; unfold upd; rw [if_neg hnea]
      obtain ⟨q, hq⟩ := ring_some hr' hnl
      rw [hq]; rfl
    obtain ⟨h1, e1, p1, n1, en1, s1⟩ := setPrev_ok (v := a) hx0
    have hc1 : (h1 c).isSome := by
      rw [s1, ← hh0]; unfold upd; rw [if_neg hca, hn]; rfl
    obtain ⟨h2, e2, n2, p2, en2, s2⟩ := setNext_ok (v := a) hc1
    refine ⟨{ heap := h2, cur := some a, count := s.count + 1 }, ?_, a :: (r ++ [c]), ?_, ?_⟩
    · simp [add, ha, hc, deref, hn, hh0, e1, e2]
    · have nx : ∀ x, nxt h2 x = if x = c then some a else if x = a then some n.next else
          nxt s.heap x := by
        intro x
        rw [n2, n1, ← hh0, nxt_upd]
      have px : ∀ x, prv h2 x = if x = n.next then some a else if x = a then some c else
          prv s.heap x := by
        intro x
        rw [p2, p1, ← hh0, prv_upd]
      refine ⟨fun _ => ⟨?_, ?_⟩, .inr ⟨a, rfl, by simp⟩, ?_, ?_⟩
      · have hac : Edge h2 c a := by
          refine ⟨by rw [nx, if_pos rfl], ?_⟩
          rw [px, if_neg (Ne.symm hnea), if_pos rfl]
        cases r with
        | nil =>
          have hcn : n.next = c := by simpa using hnext
          refine ⟨⟨?_, ?_⟩, hac⟩
          · rw [nx, if_neg (Ne.symm hca), if_pos rfl, hcn]
          · rw [px, if_pos hcn.symm]
        | cons x r' =>
          have hxn : n.next = x := by simpa using hnext
          refine (seg_append h2 (x :: r') a c a []).mpr ⟨⟨⟨?_, ?_⟩, ?_⟩, hac⟩
          · rw [nx, if_neg (Ne.symm hca), if_pos rfl, hxn]
          · rw [px, if_pos hxn.symm]
          · have hnd := hr'.2
            simp only [List.nodup_cons, List.mem_cons, not_or] at hnd
            refine seg_congr r' x c ?_ ?_ hr'.1.2
            · intro b hb
              have hbc : b ≠ c := by
                rcases List.mem_cons.mp hb with rfl | hb
                · exact fun h => hnd.1.1 h.symm
                · exact fun h => hnd.1.2 (h ▸ hb)
              have hba : b ≠ a := fun h => har (by
                rw [← h]; exact List.mem_cons_of_mem _ hb)
              rw [nx, if_neg hbc, if_neg hba]
            · intro b hb
              have hbx : b ≠ x := by
                simp only [List.mem_append, List.mem_singleton] at hb
                rcases hb with hb | rfl
                · exact fun h => hnd.2.1 (h ▸ hb)
                · exact hnd.1.1
              have hba : b ≠ a := by
                simp only [List.mem_append, List.mem_singleton] at hb
                rcases hb with hb | rfl
                · exact fun h => har (by rw [← h]; simp [hb])
                · exact hca
              rw [px, hxn, if_neg hbx, if_neg hba]
      · rw [List.nodup_cons]
        have : (r ++ [c]).Perm (c :: r) := List.perm_append_comm
        exact ⟨fun h => har (this.mem_iff.mp h), this.nodup_iff.mpr hr'.2⟩
      · rw [hs.count, ← hp.length_eq]; simp
      · intro x hx
        dsimp only at hx
        rw [s2, s1, ← hh0] at hx
        unfold upd at hx
        split at hx
        · rename_i h; simp [h]
        · have := hp.mem_iff.mpr (hs.only x hx)
          simp only [List.mem_cons, List.mem_append, List.not_mem_nil, or_false] at this ⊢
          rcases this with h | h
          · exact .inr (.inr h)
          · exact .inr (.inl h)
    · have ent : ∀ x, entry h2 x = if x = a then (fd, name) else entry s.heap x := by
        intro x
        rw [en2, en1, ← hh0, entry_upd]
      have hmap : (r ++ [c]).map (entry h2) = (r ++ [c]).map (entry s.heap) := by
        apply List.map_congr_left
        intro x hx
        rw [ent, if_neg]
        rintro rfl
        apply har
        simp only [List.mem_append, List.mem_cons, List.not_mem_nil, or_false] at hx ⊢
        exact hx.symm
      dsimp only
      rw [List.map_cons, hmap, ent, if_pos rfl]
      refine List.Perm.cons _ ?_
      have : (r ++ [c]).Perm l := List.perm_append_comm.trans hp
      exact this.map _

theorem del_shape {s : State} {l : List Nat} (hs : Shape s l) {m : Nat} (hm : m ∈ l) :
    ∃ s', del s m = .ok s' ∧ ∃ l', Shape s' l' ∧
      ((entry s.heap m) :: l'.map (entry s'.heap)).Perm (l.map (entry s.heap)) := by
  have hr := hs.ring (List.ne_nil_of_mem hm)
  obtain ⟨r, hr', hp⟩ := ring_root hr hm
  obtain ⟨n, hn⟩ := ring_some hr hm
  have hnd := List.nodup_cons.mp hr'.2
  cases r with
  | nil =>
    have hnext : n.next = m := by
      have := hr'.1.1
      unfold nxt at this; rw [hn] at this; simpa using this
    refine ⟨{ heap := fun x => if x = m then none else s.heap x, cur := none,
              count := s.count - 1 }, by simp [del, deref, hn, hnext], [],
      ⟨fun h => absurd rfl h, .inl ⟨rfl, rfl⟩, ?_, ?_⟩, ?_⟩
    · rw [hs.count, ← hp.length_eq]; simp
    · intro x hx
      dsimp only at hx
      split at hx
      · simp at hx
      · rename_i hxm
        have := hp.mem_iff.mpr (hs.only x hx)
        simp at this
        exact absurd this hxm
    · simpa using hp.map (entry s.heap)
  | cons x r' =>
    have hnext : n.next = x := by
      have := hr'.1.1.1
      unfold nxt at this; rw [hn] at this; simpa using this
    have hxm : x ≠ m := fun h => hnd.1 (by simp [h])
    -- the predecessor
    obtain ⟨r0, y, hy⟩ : ∃ r0 y, x :: r' = r0 ++ [y] := by
      rcases List.eq_nil_or_concat (x :: r') with h | ⟨r0, y, h⟩
      · simp at h
      · exact ⟨r0, y, by rw [h, List.concat_eq_append]⟩
    have hprev : n.prev = y := by
      have h1 := hr'.1
      rw [hy] at h1
      have h2 := ((seg_append s.heap r0 m y m []).mp h1).2.2
      unfold prv at h2; rw [hn] at h2; simpa using h2
    have hyr : y ∈ x :: r' := by rw [hy]; simp
    have hym : y ≠ m := fun h => hnd.1 (h ▸ hyr)
    obtain ⟨nx0, hnx0⟩ := ring_some hr' (a := x) (by simp)
    obtain ⟨h1, e1, p1, n1, en1, s1⟩ := setPrev_ok (h := s.heap) (a := x) (v := y) (by rw [hnx0]; rfl)
    obtain ⟨ny0, hny0⟩ := ring_some hr' (a := y) (List.mem_cons_of_mem _ hyr)
    obtain ⟨h2, e2, n2, p2, en2, s2⟩ := setNext_ok (h := h1) (a := y) (v := x)
      (by rw [s1, hny0]; rfl)
    have hne : n.next ≠ m := by rw [hnext]; exact hxm
    refine ⟨{ heap := fun z => if z = m then none else h2 z,
              cur := if s.cur = some m then some n.next else s.cur,
              count := s.count - 1 }, ?_, x :: r', ?_, ?_⟩
    · simp [del, deref, hn, hne, hxm, hnext, hprev, e1, e2]
    · have nx : ∀ z, z ≠ m → nxt (fun z => if z = m then none else h2 z) z =
          if z = y then some x else nxt s.heap z := by
        intro z hz
        have : nxt (fun z => if z = m then none else h2 z) z = nxt h2 z := by
          unfold nxt; simp only [if_neg hz]
        rw [this, n2, n1]
      have px : ∀ z, z ≠ m → prv (fun z => if z = m then none else h2 z) z =
          if z = x then some y else prv s.heap z := by
        intro z hz
        have : prv (fun z => if z = m then none else h2 z) z = prv h2 z := by
          unfold prv; simp only [if_neg hz]
        rw [this, p2, p1]
      have hndr := hnd.2
      refine ⟨fun _ => ⟨?_, hndr⟩, ?_, ?_, ?_⟩
      · have hyx : Edge (fun z => if z = m then none else h2 z) y x :=
          ⟨by rw [nx y hym, if_pos rfl], by rw [px x hxm, if_pos rfl]⟩
        cases r0 with
        | nil =>
          simp only [List.nil_append, List.cons.injEq] at hy
          obtain ⟨rfl, rfl⟩ := hy
          exact hyx
        | cons x' r0 =>
          simp only [List.cons_append, List.cons.injEq] at hy
          obtain ⟨rfl, rfl⟩ := hy
          have hseg := hr'.1.2
          rw [seg_append] at hseg
          refine (seg_append _ r0 x y x []).mpr ⟨?_, hyx⟩
          have hall : ∀ b ∈ x :: (r0 ++ [y]), b ≠ m := fun b hb h => hnd.1 (h ▸ hb)
          simp only [List.nodup_cons, List.nodup_append, List.mem_append,
            List.mem_singleton, not_or] at hndr
          refine seg_congr r0 x y ?_ ?_ hseg.1
          · intro b hb
            have hbm : b ≠ m := hall b (by
              simp only [List.mem_cons, List.mem_append] at hb ⊢
              rcases hb with h | h
              · exact .inl h
              · exact .inr (.inl h))
            rw [nx b hbm, if_neg]
            rintro rfl
            rcases List.mem_cons.mp hb with h | h
            · exact hndr.1.2 h.symm
            · exact hndr.2.2.2 b h b (by simp) rfl
          · intro b hb
            have hbm : b ≠ m := hall b (List.mem_cons_of_mem _ hb)
            rw [px b hbm, if_neg]
            rintro rfl
            simp only [List.mem_append, List.mem_singleton] at hb
            rcases hb with h | h
            · exact hndr.1.1 h
            · exact hndr.1.2 h
      · right
        rcases hs.cur with ⟨rfl, _⟩ | ⟨c, hc, hcl⟩
        · simp at hm
        · by_cases hcm : c = m
          · subst hcm
            exact ⟨x, by simp [hc, hnext], by simp⟩
          · refine ⟨c, ?_, ?_⟩
            · dsimp only
              rw [hc, if_neg (by simpa using hcm)]
            · have := hp.mem_iff.mpr hcl
              rcases List.mem_cons.mp this with h | h
              · exact absurd h hcm
              · exact h
      · rw [hs.count, ← hp.length_eq]; simp
      · intro z hz
        dsimp only at hz
        split at hz
        · simp at hz
        · rename_i hzm
          rw [s2, s1] at hz
          rcases List.mem_cons.mp (hp.mem_iff.mpr (hs.only z hz)) with h | h
          · exact absurd h hzm
          · exact h
    · have hmap : (x :: r').map (entry (fun z => if z = m then none else h2 z)) =
          (x :: r').map (entry s.heap) := by
        apply List.map_congr_left
        intro z hz
        have hzm : z ≠ m := fun h => hnd.1 (h ▸ hz)
        have : entry (fun z => if z = m then none else h2 z) z = entry h2 z := by
          unfold entry; simp only [if_neg hzm]
        rw [this, en2, en1]
      dsimp only
      rw [hmap]
      exact hp.map (entry s.heap)

/-! ## Refinement -/

theorem filter_key {t : Table} {fd : Int} {nm : List Byte} {u : Table}
    (hk : (t.map (·.1)).Nodup) (hp : ((fd, nm) :: u).Perm t) :
    u.Perm (t.filter (fun e => e.1 ≠ fd)) := by
  have h1 := hp.filter (fun e => e.1 ≠ fd)
  have hn : (((fd, nm) :: u).map (·.1)).Nodup := (hp.map (·.1)).nodup_iff.mpr hk
  have h2 : ((fd, nm) :: u).filter (fun e => e.1 ≠ fd) = u := by
    rw [List.filter_cons]
    simp only [ne_eq, not_true_eq_false, decide_false, Bool.false_eq_true, if_false]
    rw [List.filter_eq_self]
    intro e he
    simp only [List.map_cons, List.nodup_cons, List.mem_map, not_exists, not_and] at hn
    simpa using hn.1 e he
  rw [h2] at h1
  exact h1

theorem filter_nokey {t u : Table} {fd : Int} (hp : u.Perm t) (h : ∀ e ∈ u, e.1 ≠ fd) :
    u.Perm (t.filter (fun e => e.1 ≠ fd)) := by
  have h1 := hp.filter (fun e => e.1 ≠ fd)
  have h2 : u.filter (fun e => e.1 ≠ fd) = u := by
    rw [List.filter_eq_self]
    intro e he
    simpa using h e he
  rw [h2] at h1
  exact h1

theorem filter_keys {t : Table} (hk : (t.map (·.1)).Nodup) (fd : Int) :
    ((t.filter (fun e => e.1 ≠ fd)).map (·.1)).Nodup :=
  List.Nodup.sublist (List.Sublist.map _ List.filter_sublist) hk

theorem lookup_mem {t : Table} (hk : (t.map (·.1)).Nodup) {fd : Int} {nm : List Byte}
    (h : (fd, nm) ∈ t) : t.lookup fd = some nm := by
  induction t with
  | nil => simp at h
  | cons e t ih =>
    obtain ⟨k, v⟩ := e
    simp only [List.map_cons, List.nodup_cons, List.mem_map, not_exists, not_and] at hk
    rcases List.mem_cons.mp h with h | h
    · injection h with h1 h2
      subst h1; subst h2
      simp
    · have hne : fd ≠ k := fun he => hk.1 (fd, nm) h he
      rw [List.lookup_cons]
      have : (fd == k) = false := by simpa using hne
      rw [this]
      exact ih hk.2 h

theorem lookup_none {t : Table} {fd : Int} (h : ∀ e ∈ t, e.1 ≠ fd) : t.lookup fd = none := by
  induction t with
  | nil => rfl
  | cons e t ih =>
    obtain ⟨k, v⟩ := e
    have hne : fd ≠ k := fun he => h (k, v) (by simp) he.symm
    rw [List.lookup_cons]
    have : (fd == k) = false := by simpa using hne
    rw [this]
    exact ih (fun e he => h e (by simp [he]))

theorem find_rep {s : State} {t : Table} (hr : Rep s t) (fd : Int) :
    (∃ s' a n, find s fd = .ok (some a, s') ∧ s'.heap a = some n ∧ n.fd = fd ∧
      t.lookup fd = some n.name ∧ Rep s' t ∧ ∃ l, Shape s' l ∧ a ∈ l ∧
      (l.map (entry s'.heap)).Perm t) ∨
    (∃ s', find s fd = .ok (none, s') ∧ (∀ e ∈ t, e.1 ≠ fd) ∧ Rep s' t) := by
  obtain ⟨⟨l, hs, hp⟩, hk⟩ := hr
  obtain ⟨s1, ⟨⟨a, ha, h1, h2⟩, h3, h4⟩ | ⟨⟨h1, h2⟩, h3, h4⟩⟩ := find_shape hs fd
  · left
    obtain ⟨n, hn⟩ := ring_some (hs.ring (List.ne_nil_of_mem ha)) ha
    have hent : entry s.heap a = (n.fd, n.name) := by simp [entry, hn]
    rw [hent] at h1
    refine ⟨s1, a, n, h2, by rw [h4]; exact hn, h1, ?_, ⟨⟨l, h3, by rw [h4]; exact hp⟩, hk⟩,
      l, h3, ha, by rw [h4]; exact hp⟩
    apply lookup_mem hk
    have : entry s.heap a ∈ l.map (entry s.heap) := List.mem_map_of_mem ha
    rw [hent] at this
    dsimp only at h1
    rw [h1] at this
    exact hp.mem_iff.mp this
  · right
    refine ⟨s1, h2, ?_, ⟨⟨l, h3, by rw [h4]; exact hp⟩, hk⟩⟩
    intro e he
    obtain ⟨a, ha, rfl⟩ := List.mem_map.mp (hp.mem_iff.mpr he)
    exact h1 a ha

theorem unregister_rep {s : State} {t : Table} (hr : Rep s t) (fd : Int) (inner : List Int) :
    ∃ s', unregister s fd inner = .ok s' ∧ Rep s' (t.filter (fun e => e.1 ≠ fd)) := by
  rcases find_rep hr fd with ⟨s1, a, n, h1, h2, h3, _, h5, l, h6, h7, h8⟩ | ⟨s1, h1, h2, h3⟩
  · obtain ⟨s2, g1, g2, g3⟩ := finds_shape inner s1 h6
    obtain ⟨s3, d1, l', d2, d3⟩ := del_shape g2 h7
    refine ⟨s3, by simp [unregister, h1, g1, d1], ⟨⟨l', d2, ?_⟩, filter_keys hr.keys fd⟩⟩
    have hent : entry s2.heap a = (fd, n.name) := by simp [entry, g3, h2, h3]
    rw [hent] at d3
    exact filter_key hr.keys (d3.trans (by rw [g3]; exact h8))
  · refine ⟨s1, by simp [unregister, h1], ?_⟩
    obtain ⟨⟨l, h5, h6⟩, hk⟩ := h3
    refine ⟨⟨l, h5, filter_nokey h6 ?_⟩, filter_keys hk fd⟩
    intro e he
    exact h2 e (h6.mem_iff.mp he)

theorem register_rep {s : State} {t : Table} (hr : Rep s t) (fd : Int) (name : List Byte) (a : Nat)
    (inner : List Int) :
    (∃ s', register s fd name a inner = .ok s' ∧
      Rep s' ((fd, name) :: t.filter (fun e => e.1 ≠ fd))) ∨
    register s fd name a inner = .ub "not an input" := by
  have fin : ∀ s1, Rep s1 (t.filter (fun e => e.1 ≠ fd)) →
      (∃ s', add s1 a fd name = .ok s' ∧
        Rep s' ((fd, name) :: t.filter (fun e => e.1 ≠ fd))) ∨
      add s1 a fd name = .ub "not an input" := by
    intro s1 h1
    cases ha : s1.heap a with
    | some n => right; simp [add, ha]
    | none =>
      left
      obtain ⟨⟨l, h2, h3⟩, hk⟩ := h1
      obtain ⟨s2, g1, l', g2, g3⟩ := add_shape h2 ha fd name
      refine ⟨s2, g1, ⟨⟨l', g2, g3.trans (h3.cons _)⟩, ?_⟩⟩
      simp only [List.map_cons, List.nodup_cons]
      refine ⟨?_, hk⟩
      intro hmem
      obtain ⟨e, he, he'⟩ := List.mem_map.mp hmem
      simp only [List.mem_filter, ne_eq, decide_not, Bool.not_eq_true',
        decide_eq_false_iff_not] at he
      exact he.2 he'
  rcases find_rep hr fd with ⟨s1, b, n, h1, h2, h3, _, h5, _⟩ | ⟨s1, h1, h2, h3⟩
  · obtain ⟨s2, g1, g2⟩ := unregister_rep h5 fd inner
    have : register s fd name a inner = add s2 a fd name := by
      simp [register, h1, deref, h2, h3, g1]
    rw [this]
    exact fin s2 g2
  · have : register s fd name a inner = add s1 a fd name := by
      simp [register, h1]
    rw [this]
    refine fin s1 ?_
    obtain ⟨⟨l, h5, h6⟩, hk⟩ := h3
    refine ⟨⟨l, h5, filter_nokey h6 ?_⟩, filter_keys hk fd⟩
    intro e he
    exact h2 e (h6.mem_iff.mp he)

theorem run_rep : ∀ (os : List Op) (s : State) (t : Table), Rep s t →
    (∃ s', run s os = .ok (s', (t.run os).2) ∧ Rep s' (t.run os).1) ∨
    run s os = .ub "not an input" := by
  intro os
  induction os with
  | nil => intro s t h; exact .inl ⟨s, rfl, h⟩
  | cons o os ih =>
    intro s t h
    have go : ∀ s1 r, step s o = .ok (s1, r) → Rep s1 (t.step o).1 → r = (t.step o).2 →
        (∃ s', run s (o :: os) = .ok (s', (t.run (o :: os)).2) ∧ Rep s' (t.run (o :: os)).1) ∨
        run s (o :: os) = .ub "not an input" := by
      intro s1 r h1 h2 h3
      rcases ih s1 _ h2 with ⟨s2, g1, g2⟩ | g1
      · left
        exact ⟨s2, by simp [run, h1, g1, Table.run, h3], g2⟩
      · right
        simp [run, h1, g1]
    cases o with
    | reg fd name a inner =>
      rcases register_rep h fd name a inner with ⟨s1, h1, h2⟩ | h1
      · exact go s1 none (by simp [step, h1]) h2 rfl
      · right; simp [run, step, h1]
    | unreg fd inner =>
      obtain ⟨s1, h1, h2⟩ := unregister_rep h fd inner
      exact go s1 none (by simp [step, h1]) h2 rfl
    | find fd =>
      rcases find_rep h fd with ⟨s1, a, n, h1, h2, h3, h4, h5, _⟩ | ⟨s1, h1, h2, h3⟩
      · exact go s1 (some n.name) (by simp [step, h1, deref, h2]) h5 h4.symm
      · exact go s1 none (by simp [step, h1]) h3 (lookup_none h2).symm

theorem rep_init : Rep {} [] :=
  ⟨⟨[], ⟨fun h => absurd rfl h, .inl ⟨rfl, rfl⟩, rfl, fun a h => by simp at h⟩, List.Perm.refl _⟩,
    by simp⟩

theorem find_heap {s s' : State} {fd : Int} {r : Option Nat} (h : find s fd = .ok (r, s')) :
    s'.heap = s.heap := by
  unfold find at h
  split at h
  · simp only [C.ok.injEq, Prod.mk.injEq] at h; rw [← h.2]
  · obtain ⟨⟨r1, c1⟩, _, h⟩ := C.bind_eq_ok.mp h
    simp only [C.ok.injEq, Prod.mk.injEq] at h
    rw [← h.2]

theorem finds_heap : ∀ (fds : List Int) (s s' : State), finds s fds = .ok s' →
    s'.heap = s.heap := by
  intro fds
  induction fds with
  | nil => intro s s' h; simp only [finds, C.ok.injEq] at h; rw [h]
  | cons fd fds ih =>
    intro s s' h
    simp only [finds] at h
    obtain ⟨⟨r, s1⟩, h1, h⟩ := C.bind_eq_ok.mp h
    rw [ih s1 s' h, find_heap h1]

theorem setNext_free {h h' : Heap} {a v x : Nat} (hh : setNext h a v = .ok h') (hx : h x = none) :
    h' x = none := by
  unfold setNext at hh
  obtain ⟨n, hn, hh⟩ := C.bind_eq_ok.mp hh
  simp only [C.ok.injEq] at hh
  rw [← hh]
  unfold upd
  split
  · rename_i he
    rw [he] at hx
    simp [deref, hx] at hn
  · exact hx

theorem setPrev_free {h h' : Heap} {a v x : Nat} (hh : setPrev h a v = .ok h') (hx : h x = none) :
    h' x = none := by
  unfold setPrev at hh
  obtain ⟨n, hn, hh⟩ := C.bind_eq_ok.mp hh
  simp only [C.ok.injEq] at hh
  rw [← hh]
  unfold upd
  split
  · rename_i he
    rw [he] at hx
    simp [deref, hx] at hn
  · exact hx

theorem del_free {s s' : State} {m x : Nat} (h : del s m = .ok s') (hx : s.heap x = none) :
    s'.heap x = none := by
  unfold del at h
  obtain ⟨n, _, h⟩ := C.bind_eq_ok.mp h
  split at h
  · simp only [C.ok.injEq] at h
    rw [← h]
    dsimp only
    split
    · rfl
    · exact hx
  · obtain ⟨h1, e1, h⟩ := C.bind_eq_ok.mp h
    obtain ⟨h2, e2, h⟩ := C.bind_eq_ok.mp h
    simp only [C.ok.injEq] at h
    rw [← h]
    dsimp only
    split
    · rfl
    · exact setNext_free e2 (setPrev_free e1 hx)

theorem unregister_free {s s' : State} {fd : Int} {inner : List Int} {x : Nat}
    (h : unregister s fd inner = .ok s') (hx : s.heap x = none) : s'.heap x = none := by
  unfold unregister at h
  obtain ⟨⟨r, s1⟩, h1, h⟩ := C.bind_eq_ok.mp h
  have e1 := find_heap h1
  cases r with
  | none => simp only [C.ok.injEq] at h; rw [← h, e1]; exact hx
  | some m =>
    simp only at h
    obtain ⟨s2, h2, h⟩ := C.bind_eq_ok.mp h
    exact del_free h (by rw [finds_heap _ _ _ h2, e1]; exact hx)

end Dax.Ring
