import Verif.Spec.LibCache
/-!
# The circular list of the tag cache
-/
set_option autoImplicit false
namespace Dax.TagCache

def nxt (h : Heap) (a : Nat) : Option Nat := (h a).map Node.next
def prv (h : Heap) (a : Nat) : Option Nat := (h a).map Node.prev
def dsc (h : Heap) (a : Nat) : Option Desc := (h a).map Node.d

/-- `x` and `y` are neighbours. -/
def Edge (h : Heap) (x y : Nat) : Prop := nxt h x = some y ∧ prv h y = some x

theorem edge_iff {h : Heap} {a b : Nat} : Edge h a b ↔ ∃ n m, h a = some n ∧ h b = some m ∧ n.next = b ∧ m.prev = a := by
  unfold Edge nxt prv
  constructor
  · rintro ⟨h1, h2⟩
    obtain ⟨n, hn, h1⟩ := Option.map_eq_some_iff.mp h1
    obtain ⟨m, hm, h2⟩ := Option.map_eq_some_iff.mp h2
    exact ⟨n, m, hn, hm, h1, h2⟩
  · rintro ⟨n, m, hn, hm, h1, h2⟩
    rw [hn, hm, Option.map_some, Option.map_some, h1, h2]; exact ⟨rfl, rfl⟩

theorem chain_cons2 {h : Heap} {a b : Nat} {r : List Nat} : Chain h (a :: b :: r) ↔ Edge h a b ∧ Chain h (b :: r) := by
  rw [edge_iff]; rfl

theorem chain_append {h : Heap} : ∀ (l : List Nat) (a : Nat) (r : List Nat),
    Chain h (l ++ a :: r) ↔ Chain h (l ++ [a]) ∧ Chain h (a :: r)
  | [], a, r => by simp [Chain]
  | [x], a, r => by
    show Chain h (x :: a :: r) ↔ Chain h (x :: [a]) ∧ _
    rw [chain_cons2, chain_cons2]
    have : Chain h [a] := trivial
    simp [this]
  | x :: y :: l, a, r => by
    have := chain_append (h := h) (y :: l) a r
    simp only [List.cons_append] at this ⊢
    rw [chain_cons2, chain_cons2, this, and_assoc]

theorem chain_congr {h h' : Heap} : ∀ (l : List Nat), (∀ a ∈ l.dropLast, nxt h' a = nxt h a) → (∀ a ∈ l.tail, prv h' a = prv h a) →
    Chain h l → Chain h' l
  | [], _, _, _ => trivial
  | [_], _, _, _ => trivial
  | a :: b :: r, h1, h2, hc => by
    rw [chain_cons2] at hc ⊢
    refine ⟨⟨by rw [h1 a (by simp)]; exact hc.1.1, by rw [h2 b (by simp)]; exact hc.1.2⟩, ?_⟩
    refine chain_congr (b :: r) (fun x hx => h1 x ?_) (fun x hx => h2 x ?_) hc.2
    · rw [List.dropLast_cons_cons]; exact List.mem_cons_of_mem _ hx
    · exact List.mem_cons_of_mem _ hx

/-- A ring: the nodes in order, and round again. -/
structure Ring (h : Heap) (l : List Nat) : Prop where
  chain : Chain h (l ++ l.head?.toList)
  nodup : l.Nodup

theorem ring_rotate {h : Heap} (p : List Nat) (b : Nat) (q : List Nat) : Ring h (p ++ b :: q) ↔ Ring h (b :: q ++ p) := by
  have hn : (p ++ b :: q).Nodup ↔ (b :: q ++ p).Nodup := (List.perm_append_comm).nodup_iff
  cases p with
  | nil => simp
  | cons x p =>
    have e1 : (x :: p ++ b :: q) ++ (x :: p ++ b :: q).head?.toList = (x :: p) ++ b :: (q ++ [x]) := by simp
    have e2 : (b :: q ++ x :: p) ++ (b :: q ++ x :: p).head?.toList = (b :: q) ++ x :: (p ++ [b]) := by simp
    constructor
    · rintro ⟨h1, h2⟩
      refine ⟨?_, hn.mp h2⟩
      rw [e1, chain_append] at h1
      rw [e2, chain_append]
      exact ⟨h1.2, h1.1⟩
    · rintro ⟨h1, h2⟩
      refine ⟨?_, hn.mpr h2⟩
      rw [e2, chain_append] at h1
      rw [e1, chain_append]
      exact ⟨h1.2, h1.1⟩

theorem chain_some {h : Heap} : ∀ (l : List Nat), 2 ≤ l.length → Chain h l → ∀ a ∈ l, (h a).isSome
  | [], h2, _ => by simp at h2
  | [_], h2, _ => by simp at h2
  | [a, b], _, hc => by
    obtain ⟨n, m, hn, hm, -⟩ := hc.1
    intro x hx
    simp only [List.mem_cons, List.not_mem_nil, or_false] at hx
    rcases hx with rfl | rfl
    · rw [hn]; rfl
    · rw [hm]; rfl
  | a :: b :: c :: r, _, hc => by
    intro x hx
    rcases List.mem_cons.mp hx with rfl | hx
    · obtain ⟨n, m, hn, hm, -⟩ := hc.1
      rw [hn]; rfl
    · exact chain_some (b :: c :: r) (by simp) hc.2 x hx

theorem Ring.some {h : Heap} {l : List Nat} (hr : Ring h l) {a : Nat} (ha : a ∈ l) : ∃ n, h a = some n := by
  cases l with
  | nil => simp at ha
  | cons x r =>
    refine Option.isSome_iff_exists.mp (chain_some _ ?_ hr.chain a (by simp at ha ⊢; rcases ha with h | h <;> simp [h]))
    simp

theorem nxt_upd (h : Heap) (a x : Nat) (n : Node) : nxt (upd h a n) x = if x = a then some n.next else nxt h x := by
  unfold nxt upd; split <;> rfl

theorem prv_upd (h : Heap) (a x : Nat) (n : Node) : prv (upd h a n) x = if x = a then some n.prev else prv h x := by
  unfold prv upd; split <;> rfl

theorem dsc_upd (h : Heap) (a x : Nat) (n : Node) : dsc (upd h a n) x = if x = a then some n.d else dsc h x := by
  unfold dsc upd; split <;> rfl

/-- What setting a pointer does. -/
theorem setNext_ok {h : Heap} {a v : Nat} (ha : (h a).isSome) : ∃ h', setNext h a v = .ok h' ∧
    (∀ x, nxt h' x = if x = a then some v else nxt h x) ∧ (∀ x, prv h' x = prv h x) ∧
    (∀ x, dsc h' x = dsc h x) ∧ ∀ x, (h' x).isSome = (h x).isSome := by
  obtain ⟨n, hn⟩ := Option.isSome_iff_exists.mp ha
  refine ⟨upd h a { n with next := v }, by simp [setNext, deref, hn], fun x => nxt_upd _ _ _ _,
    fun x => ?_, fun x => ?_, fun x => ?_⟩
  · rw [prv_upd]; split
    · rename_i hx; rw [hx]; simp [prv, hn]
    · rfl
  · rw [dsc_upd]; split
    · rename_i hx; rw [hx]; simp [dsc, hn]
    · rfl
  · unfold upd; split
    · rename_i hx; rw [hx, hn]; rfl
    · rfl

theorem setPrev_ok {h : Heap} {a v : Nat} (ha : (h a).isSome) : ∃ h', setPrev h a v = .ok h' ∧
    (∀ x, prv h' x = if x = a then some v else prv h x) ∧ (∀ x, nxt h' x = nxt h x) ∧
    (∀ x, dsc h' x = dsc h x) ∧ ∀ x, (h' x).isSome = (h x).isSome := by
  obtain ⟨n, hn⟩ := Option.isSome_iff_exists.mp ha
  refine ⟨upd h a { n with prev := v }, by simp [setPrev, deref, hn], fun x => prv_upd _ _ _ _,
    fun x => ?_, fun x => ?_, fun x => ?_⟩
  · rw [nxt_upd]; split
    · rename_i hx; rw [hx]; simp [nxt, hn]
    · rfl
  · rw [dsc_upd]; split
    · rename_i hx; rw [hx]; simp [dsc, hn]
    · rfl
  · unfold upd; split
    · rename_i hx; rw [hx, hn]; rfl
    · rfl

theorem setDesc_ok {h : Heap} {a : Nat} {d : Desc} (ha : (h a).isSome) (hl : d.name.length ≤ 32) : ∃ h', setDesc h a d = .ok h' ∧
    (∀ x, prv h' x = prv h x) ∧ (∀ x, nxt h' x = nxt h x) ∧
    (∀ x, dsc h' x = if x = a then some d else dsc h x) ∧ ∀ x, (h' x).isSome = (h x).isSome := by
  obtain ⟨n, hn⟩ := Option.isSome_iff_exists.mp ha
  have e : TAGNAME_SIZE = 32 := rfl
  refine ⟨upd h a { n with d := d }, by simp [setDesc, deref, hn, e]; omega, fun x => ?_, fun x => ?_, fun x => dsc_upd _ _ _ _, fun x => ?_⟩
  · rw [prv_upd]; split
    · rename_i hx; rw [hx]; simp [prv, hn]
    · rfl
  · rw [nxt_upd]; split
    · rename_i hx; rw [hx]; simp [nxt, hn]
    · rfl
  · unfold upd; split
    · rename_i hx; rw [hx, hn]; rfl
    · rfl

/-! ## The state as a list of nodes -/

structure Shape (s : State) (as : List Nat) : Prop where
  head : s.head = as.head?
  ring : Ring s.heap as
  count : s.count = as.length

theorem deref_ok {h : Heap} {a : Nat} {n : Node} (hn : h a = some n) : deref h a = .ok n := by
  unfold deref; rw [hn]

theorem nxt_some {h : Heap} {a b : Nat} {n : Node} (hn : h a = some n) (he : nxt h a = some b) : n.next = b := by
  unfold nxt at he; rw [hn] at he; simpa using he

theorem prv_some {h : Heap} {a b : Nat} {n : Node} (hn : h a = some n) (he : prv h a = some b) : n.prev = b := by
  unfold prv at he; rw [hn] at he; simpa using he

theorem dsc_some {h : Heap} {a : Nat} {n : Node} (hn : h a = some n) : dsc h a = some n.d := by
  unfold dsc; rw [hn]; rfl

/-- Searching from a node on to the end of the list. -/
theorem findLoop_chain {h : Heap} {p : Desc → Bool} {hd : Nat} : ∀ (r : List Nat) (k : Nat), r.length < k → hd ∉ r → Chain h (r ++ [hd]) →
    (∀ a ∈ r, (h a).isSome) →
    findLoop h p hd k (r.headD hd) = .ok (r.find? (fun a => ((dsc h a).map p).getD false))
  | [], k + 1, _, _, _, _ => by simp [findLoop]
  | a :: r, k + 1, hk, hn, hc, hs => by
    obtain ⟨n, hna⟩ := Option.isSome_iff_exists.mp (hs a (by simp))
    have hne : a ≠ hd := fun e => hn (by simp [e])
    have hnext : n.next = (r.headD hd) := by
      cases r with
      | nil => exact nxt_some hna (chain_cons2.mp hc).1.1
      | cons b r => exact nxt_some hna (chain_cons2.mp hc).1.1
    have ih := findLoop_chain (p := p) r k (by simp at hk; omega) (fun h => hn (List.mem_cons_of_mem _ h))
      (by cases r with
          | nil => trivial
          | cons b r => exact (chain_cons2.mp hc).2)
      (fun x hx => hs x (List.mem_cons_of_mem _ hx))
    simp only [List.cons_append, List.headD_cons, findLoop, if_neg hne, deref_ok hna, C.ok_bind, List.find?_cons, dsc_some hna,
      Option.map_some, Option.getD_some]
    cases hp : p n.d with
    | true => rfl
    | false => simp only [Bool.false_eq_true, if_false]; rw [hnext, ih]

theorem find_shape {s : State} {as : List Nat} (hs : Shape s as) (p : Desc → Bool) :
    find s p = .ok (as.find? (fun a => ((dsc s.heap a).map p).getD false)) := by
  cases as with
  | nil => have := hs.head; simp at this; simp [find, this]
  | cons a r =>
    have hh := hs.head
    simp only [List.head?_cons] at hh
    obtain ⟨n, hn⟩ := hs.ring.some (a := a) (by simp)
    have hch : Chain s.heap (a :: r ++ [a]) := hs.ring.chain
    have hnd := List.nodup_cons.mp hs.ring.nodup
    have hnext : n.next = r.headD a := by
      cases r with
      | nil => exact nxt_some hn (chain_cons2.mp hch).1.1
      | cons b r => exact nxt_some hn (chain_cons2.mp hch).1.1
    have hl := findLoop_chain (h := s.heap) (p := p) (hd := a) r s.count (by rw [hs.count]; simp) hnd.1
      (by cases r with
          | nil => trivial
          | cons b r => exact (chain_cons2.mp hch).2)
      (fun x hx => by obtain ⟨m, hm⟩ := hs.ring.some (a := x) (List.mem_cons_of_mem _ hx); rw [hm]; rfl)
    simp only [find, hh, deref_ok hn, C.ok_bind, List.find?_cons, dsc_some hn, Option.map_some, Option.getD_some]
    cases hp : p n.d with
    | true => rfl
    | false => simp only [Bool.false_eq_true, if_false]; rw [hnext, hl]


/-- The pointers of a ring with at least three nodes around two neighbours. -/
theorem ring_around {h : Heap} {b a z : Nat} {r : List Nat} (hr : Ring h (b :: a :: z :: r)) :
    ∃ w r0, z :: r = r0 ++ [w] ∧ Edge h b a ∧ Edge h a z ∧ Chain h (z :: r) ∧ Edge h w b := by
  obtain ⟨hc, -⟩ := hr
  have hc : Chain h (b :: a :: z :: (r ++ [b])) := hc
  rw [chain_cons2, chain_cons2] at hc
  obtain ⟨r0, w, e⟩ : ∃ r0 w, z :: r = r0 ++ [w] := ⟨(z :: r).dropLast, (z :: r).getLast (by simp), (List.dropLast_concat_getLast _).symm⟩
  have h2 : Chain h (r0 ++ w :: [b]) := by
    have := hc.2.2
    rw [← List.cons_append, e] at this
    simpa using this
  rw [chain_append] at h2
  exact ⟨w, r0, e, hc.1, hc.2.1, by rw [e]; exact h2.1, (chain_cons2.mp h2.2).1⟩

/-- The pointer surgery of `_cache_hit` exchanges two neighbours. -/
theorem swap_ring {h h' : Heap} {b a z : Nat} {r : List Nat} (hr : Ring h (b :: a :: z :: r)) {w : Nat} {r0 : List Nat}
    (e : z :: r = r0 ++ [w])
    (hn : ∀ x, nxt h' x = if x = a then some b else if x = b then some z else if x = w then some a else nxt h x)
    (hp : ∀ x, prv h' x = if x = a then some w else if x = z then some b else if x = b then some a else prv h x) :
    Ring h' (a :: b :: z :: r) := by
  obtain ⟨w', r0', e', -, -, hc, -⟩ := ring_around hr
  have hnd := hr.nodup
  simp only [List.nodup_cons, List.mem_cons, not_or] at hnd
  obtain ⟨⟨hba, hbz, hbr⟩, ⟨haz, har⟩, hzr, hrn⟩ := hnd
  have hwm : w ∈ z :: r := by rw [e]; simp
  have hwa : w ≠ a := by rintro rfl; rcases List.mem_cons.mp hwm with h | h <;> simp_all
  have hwb : w ≠ b := by rintro rfl; rcases List.mem_cons.mp hwm with h | h <;> simp_all
  have hzn : (z :: r).Nodup := List.nodup_cons.mpr ⟨hzr, hrn⟩
  have hw0 : w ∉ r0 := by
    rw [e] at hzn
    intro hm
    exact (List.nodup_append.mp hzn).2.2 w hm w (by simp) rfl
  have hch : Chain h' (z :: r) := by
    refine chain_congr _ (fun x hx => ?_) (fun x hx => ?_) hc
    · have hxm : x ∈ z :: r := List.dropLast_subset _ hx
      rw [e, List.dropLast_concat] at hx
      rw [hn, if_neg, if_neg, if_neg]
      · rintro rfl; exact hw0 hx
      · rintro rfl; rcases List.mem_cons.mp hxm with h | h <;> simp_all
      · rintro rfl; rcases List.mem_cons.mp hxm with h | h <;> simp_all
    · simp only [List.tail_cons] at hx
      rw [hp, if_neg, if_neg, if_neg]
      · rintro rfl; exact hbr hx
      · rintro rfl; exact hzr hx
      · rintro rfl; exact har hx
  refine ⟨?_, ?_⟩
  · show Chain h' (a :: b :: z :: (r ++ [a]))
    rw [chain_cons2, chain_cons2]
    refine ⟨⟨by rw [hn, if_pos rfl], by rw [hp, if_neg hba, if_neg hbz, if_pos rfl]⟩,
      ⟨by rw [hn, if_neg hba, if_pos rfl], by rw [hp, if_neg (Ne.symm haz), if_pos rfl]⟩, ?_⟩
    rw [← List.cons_append, e, List.append_assoc, List.singleton_append, chain_append, ← e]
    refine ⟨hch, ?_⟩
    rw [chain_cons2]
    exact ⟨⟨by rw [hn, if_neg hwa, if_neg hwb, if_pos rfl], by rw [hp, if_pos rfl]⟩, trivial⟩
  · simp only [List.nodup_cons, List.mem_cons, not_or]
    exact ⟨⟨Ne.symm hba, haz, har⟩, ⟨hbz, hbr⟩, hzr, hrn⟩

/-- A hit moves a node up by one and changes nothing else. -/
theorem hit_shape {s : State} {p q : List Nat} {b a : Nat} (hs : Shape s (p ++ b :: a :: q)) {d : Desc} (hd : dsc s.heap a = some d) :
    ∃ s', hit s a = .ok (s', d) ∧ Shape s' (p ++ a :: b :: q) ∧ (∀ x, dsc s'.heap x = dsc s.heap x) ∧ s'.limit = s.limit := by
  have hcount : s.count = p.length + q.length + 2 := by rw [hs.count]; simp; omega
  obtain ⟨n, hn⟩ := hs.ring.some (a := a) (by simp)
  have hdn : n.d = d := by rw [dsc_some hn] at hd; simpa using hd
  have hrot := (ring_rotate p b (a :: q)).mp hs.ring
  obtain ⟨hd0, hh⟩ : ∃ hd0, s.head = some hd0 := by
    rw [hs.head]; cases p <;> simp
  have hmem : hd0 ∈ p ++ b :: a :: q := by
    have := hs.head; rw [hh] at this
    exact List.mem_of_mem_head? (by rw [← this]; rfl)
  obtain ⟨hn0, hh0⟩ := hs.ring.some hmem
  have hne : a ≠ hd0 := by
    rintro rfl
    have h1 := hs.head
    rw [hh] at h1
    have hnd := hs.ring.nodup
    cases p with
    | nil => simp at h1; simp [h1] at hnd
    | cons x p => simp at h1; simp [h1] at hnd
  by_cases h2 : p.length + q.length = 0
  · obtain ⟨rfl, rfl⟩ : p = [] ∧ q = [] := by
      constructor <;> apply List.eq_nil_of_length_eq_zero <;> omega
    have hb : b = hd0 := by have := hs.head; rw [hh] at this; simpa using this.symm
    subst hb
    have hch : Chain s.heap [b, a, b] := hs.ring.chain
    rw [chain_cons2, chain_cons2] at hch
    have hnx : hn0.next = a := nxt_some hh0 hch.1.1
    refine ⟨{ s with head := some a }, ?_, ⟨rfl, ⟨?_, ?_⟩, by rw [hs.count]; rfl⟩, fun _ => rfl, rfl⟩
    · simp [hit, deref_ok hn, hh, hne, deref_ok hh0, hcount, hdn, hnx]
    · show Chain s.heap [a, b, a]
      rw [chain_cons2, chain_cons2]
      exact ⟨hch.2.1, hch.1, trivial⟩
    · have := hs.ring.nodup
      simp only [List.nil_append, List.nodup_cons, List.mem_cons, List.not_mem_nil, or_false, List.nodup_nil, and_true, not_false_eq_true] at this ⊢
      exact Ne.symm this
  · -- at least three nodes
    have hqp : ∃ z r, q ++ p = z :: r := by
      cases hqp : q ++ p with
      | nil => simp at hqp; simp [hqp] at h2
      | cons z r => exact ⟨z, r, rfl⟩
    obtain ⟨z, r, hzr⟩ := hqp
    have hr3 : Ring s.heap (b :: a :: z :: r) := by
      have : b :: a :: q ++ p = b :: a :: z :: r := by rw [List.cons_append, List.cons_append, hzr]
      rw [← this]; exact hrot
    obtain ⟨w, r0, e, e1, e2, -, e3⟩ := ring_around hr3
    have hnd := hr3.nodup
    simp only [List.nodup_cons, List.mem_cons, not_or] at hnd
    obtain ⟨⟨hba, hbz, hbr⟩, ⟨haz, har⟩, hzr', hrn⟩ := hnd
    have hwm : w ∈ z :: r := by rw [e]; simp
    have hwa : w ≠ a := by rintro rfl; rcases List.mem_cons.mp hwm with h | h <;> simp_all
    have hwb : w ≠ b := by rintro rfl; rcases List.mem_cons.mp hwm with h | h <;> simp_all
    have hprev : n.prev = b := prv_some hn e1.2
    have hnext : nxt s.heap a = some z := e2.1
    obtain ⟨nb, hnb⟩ := hr3.some (a := b) (by simp)
    have hbp : nb.prev = w := prv_some hnb e3.2
    have sm : ∀ x, x ∈ b :: a :: z :: r → (s.heap x).isSome := fun x hx => by
      obtain ⟨m, hm⟩ := hr3.some hx; rw [hm]; rfl
    obtain ⟨h1, g1, n1, p1, d1, s1⟩ := setNext_ok (h := s.heap) (a := w) (v := a) (sm w (by rcases List.mem_cons.mp hwm with h | h <;> simp [h]))
    obtain ⟨h2', g2, p2, n2, d2, s2⟩ := setPrev_ok (h := h1) (a := b) (v := a) (by rw [s1]; exact sm b (by simp))
    obtain ⟨m1, hm1⟩ := Option.isSome_iff_exists.mp (show (h2' a).isSome by rw [s2, s1]; exact sm a (by simp))
    have hm1n : m1.next = z := nxt_some hm1 (by rw [n2, n1, if_neg (Ne.symm hwa), hnext])
    obtain ⟨h3, g3, n3, p3, d3, s3⟩ := setNext_ok (h := h2') (a := b) (v := z) (by rw [s2, s1]; exact sm b (by simp))
    obtain ⟨m2, hm2⟩ := Option.isSome_iff_exists.mp (show (h3 a).isSome by rw [s3, s2, s1]; exact sm a (by simp))
    have hm2n : m2.next = z := nxt_some hm2 (by rw [n3, if_neg (Ne.symm hba), n2, n1, if_neg (Ne.symm hwa), hnext])
    obtain ⟨h4, g4, p4, n4, d4, s4⟩ := setPrev_ok (h := h3) (a := z) (v := b) (by rw [s3, s2, s1]; exact sm z (by simp))
    obtain ⟨h5, g5, n5, p5, d5, s5⟩ := setNext_ok (h := h4) (a := a) (v := b) (by rw [s4, s3, s2, s1]; exact sm a (by simp))
    obtain ⟨h6, g6, p6, n6, d6, s6⟩ := setPrev_ok (h := h5) (a := a) (v := w) (by rw [s5, s4, s3, s2, s1]; exact sm a (by simp))
    have hring : Ring h6 (a :: b :: z :: r) := by
      refine swap_ring hr3 e (fun x => ?_) (fun x => ?_)
      · rw [n6, n5, n4, n3, n2, n1]
      · rw [p6, p5, p4, p3, p2, p1]
    have hfin : Ring h6 (p ++ a :: b :: q) := by
      rw [ring_rotate, List.cons_append, List.cons_append, hzr]; exact hring
    refine ⟨{ s with heap := h6, head := some (if a = hn0.next then a else hd0) }, ?_, ⟨?_, hfin, ?_⟩, fun x => ?_, rfl⟩
    · have hc2 : s.count ≠ 2 := by omega
      simp [hit, deref_ok hn, hh, hne, deref_ok hh0, hc2, hprev, deref_ok hnb, hbp, g1, g2, deref_ok hm1, hm1n, g3, deref_ok hm2, hm2n, g4, g5, g6, hdn]
    · have hh1 := hs.head
      rw [hh] at hh1
      cases p with
      | nil =>
        simp only [List.nil_append, List.head?_cons, Option.some.injEq] at hh1 ⊢
        subst hh1
        rw [if_pos (nxt_some hh0 e1.1).symm]
      | cons x p =>
        simp only [List.cons_append, List.head?_cons, Option.some.injEq] at hh1 ⊢
        subst hh1
        refine if_neg (fun hc => ?_)
        have hpa : prv s.heap a = some hd0 := by
          -- the successor of the head has the head as predecessor
          have hch := hs.ring.chain
          have hnxt : nxt s.heap hd0 = some a := by unfold nxt; rw [hh0, hc]; rfl
          cases p with
          | nil =>
            have hch : Chain s.heap (hd0 :: b :: a :: (q ++ [hd0])) := by simpa using hch
            have := (chain_cons2.mp hch).1.1
            rw [hnxt] at this
            exact absurd (by simpa using this) (Ne.symm hba)
          | cons y p =>
            have hch : Chain s.heap (hd0 :: y :: (p ++ b :: a :: q ++ [hd0])) := by simpa using hch
            have := (chain_cons2.mp hch).1
            have hy : y = a := by have h := this.1; rw [hnxt] at h; simpa using h.symm
            rw [hy] at this
            exact this.2
        rw [e1.2, Option.some.injEq] at hpa
        have hnd := hs.ring.nodup
        rw [hpa] at hnd
        simp at hnd
    · simp [hs.count]
    · show dsc h6 x = _
      rw [d6, d5, d4, d3, d2, d1]

/-- A hit on the head changes nothing. -/
theorem hit_head {s : State} {q : List Nat} {a : Nat} (hs : Shape s (a :: q)) {d : Desc} (hd : dsc s.heap a = some d) :
    hit s a = .ok (s, d) := by
  obtain ⟨n, hn⟩ := hs.ring.some (a := a) (by simp)
  have hh := hs.head
  simp only [List.head?_cons] at hh
  have hdn : n.d = d := by rw [dsc_some hn] at hd; simpa using hd
  simp [hit, deref_ok hn, hh, hdn]


theorem ring_last {h : Heap} {l : List Nat} (hr : Ring h l) {hd : Nat} (hh : l.head? = some hd) :
    ∃ w r0, l = r0 ++ [w] ∧ Chain h l ∧ Edge h w hd := by
  cases l with
  | nil => simp at hh
  | cons x r =>
    simp only [List.head?_cons, Option.some.injEq] at hh
    subst hh
    obtain ⟨r0, w, e⟩ : ∃ r0 w, x :: r = r0 ++ [w] := ⟨(x :: r).dropLast, (x :: r).getLast (by simp), (List.dropLast_concat_getLast _).symm⟩
    have hc : Chain h ((x :: r) ++ [x]) := hr.chain
    rw [e, List.append_assoc, List.singleton_append, chain_append, ← e] at hc
    exact ⟨w, r0, e, hc.1, (chain_cons2.mp hc.2).1⟩

theorem mem_dropLast_ne {l r0 : List Nat} {w : Nat} (hn : l.Nodup) (e : l = r0 ++ [w]) : ∀ x ∈ l.dropLast, x ≠ w := by
  rintro x hx rfl
  rw [e] at hn hx
  rw [List.dropLast_concat] at hx
  exact (List.nodup_append.mp hn).2.2 x hx x (by simp) rfl

/-- Adding to a cache that is not full puts the new entry last. -/
theorem add_shape {s : State} {as : List Nat} (hs : Shape s as) {a : Nat} (ha : s.heap a = none) {d : Desc} (hl : d.name.length ≤ 32)
    (hroom : as = [] ∨ (as.length : Int) < s.limit) :
    ∃ s', add s a d = .ok s' ∧ Shape s' (as ++ [a]) ∧ (∀ x ∈ as, dsc s'.heap x = dsc s.heap x) ∧ dsc s'.heap a = some d ∧ s'.limit = s.limit := by
  have hal : a ∉ as := by
    intro h
    obtain ⟨n, hn⟩ := hs.ring.some h
    rw [ha] at hn; simp at hn
  cases as with
  | nil =>
    have hh : s.head = none := by rw [hs.head]; rfl
    obtain ⟨h', g1, p1, n1, d1, s1⟩ := setDesc_ok (h := upd s.heap a ⟨d, a, a⟩) (a := a) (d := d) (by simp [upd]) hl
    refine ⟨{ s with heap := h', head := some a, count := s.count + 1 }, by simp [add, hh, ha, g1], ⟨rfl, ⟨?_, by simp⟩, by simp [hs.count]⟩,
      by simp, by rw [d1, if_pos rfl], rfl⟩
    show Chain h' [a, a]
    rw [chain_cons2]
    exact ⟨⟨by rw [n1, nxt_upd, if_pos rfl], by rw [p1, prv_upd, if_pos rfl]⟩, trivial⟩
  | cons hd r =>
    have hlt : (s.count : Int) < s.limit := by
      rw [hs.count]; rcases hroom with h | h
      · simp at h
      · exact h
    have hh : s.head = some hd := by rw [hs.head]; rfl
    obtain ⟨hn0, hh0⟩ := hs.ring.some (a := hd) (by simp)
    obtain ⟨w, r0, e, hc, he⟩ := ring_last hs.ring (hd := hd) rfl
    have hpw : hn0.prev = w := prv_some hh0 he.2
    have hwm : w ∈ hd :: r := by rw [e]; simp
    have hwa : w ≠ a := fun h => hal (h ▸ hwm)
    have hda : hd ≠ a := fun h => hal (by simp [h])
    have sm : ∀ x, x ∈ hd :: r → (upd s.heap a ⟨d, hd, w⟩ x).isSome := fun x hx => by
      obtain ⟨m, hm⟩ := hs.ring.some hx
      unfold upd; split
      · rfl
      · rw [hm]; rfl
    have hu : upd s.heap a ⟨d, hd, w⟩ hd = some hn0 := by unfold upd; rw [if_neg hda, hh0]
    obtain ⟨h1, g1, n1, p1, d1, s1⟩ := setNext_ok (a := w) (v := a) (sm w hwm)
    obtain ⟨h2, g2, p2, n2, d2, s2⟩ := setPrev_ok (h := h1) (a := hd) (v := a) (by rw [s1]; exact sm hd (by simp))
    obtain ⟨h3, g3, p3, n3, d3, s3⟩ := setDesc_ok (h := h2) (a := a) (d := d) (by rw [s2, s1]; simp [upd]) hl
    refine ⟨{ s with heap := h3, count := s.count + 1 }, ?_, ⟨by simp [hh], ⟨?_, ?_⟩, by simp [hs.count]⟩, fun x hx => ?_, ?_, rfl⟩
    · simp [add, hh, hlt, ha, deref_ok hh0, hpw, deref_ok hu, g1, g2, g3]
    · have nx : ∀ x, nxt h3 x = if x = w then some a else if x = a then some hd else nxt s.heap x := by
        intro x; rw [n3, n2, n1, nxt_upd]
      have px : ∀ x, prv h3 x = if x = hd then some a else if x = a then some w else prv s.heap x := by
        intro x; rw [p3, p2, p1, prv_upd]
      have hch : Chain h3 (hd :: r) := by
        refine chain_congr _ (fun x hx => ?_) (fun x hx => ?_) hc
        · rw [nx, if_neg (mem_dropLast_ne hs.ring.nodup e x hx), if_neg]
          rintro rfl; exact hal (List.dropLast_subset _ hx)
        · simp only [List.tail_cons] at hx
          rw [px, if_neg, if_neg]
          · rintro rfl; exact hal (List.mem_cons_of_mem _ hx)
          · rintro rfl; exact (List.nodup_cons.mp hs.ring.nodup).1 hx
      show Chain h3 ((hd :: r ++ [a]) ++ [hd])
      rw [e, List.append_assoc, List.append_assoc]
      show Chain h3 (r0 ++ w :: [a, hd])
      rw [chain_append, ← e, chain_cons2, chain_cons2]
      exact ⟨hch, ⟨by rw [nx, if_pos rfl], by rw [px, if_neg (Ne.symm hda), if_pos rfl]⟩,
        ⟨by rw [nx, if_neg (Ne.symm hwa), if_pos rfl], by rw [px, if_pos rfl]⟩, trivial⟩
    · rw [List.nodup_append]
      refine ⟨hs.ring.nodup, by simp, fun x hx y hy => ?_⟩
      simp only [List.mem_cons, List.not_mem_nil, or_false] at hy
      rintro rfl; exact hal (hy ▸ hx)
    · have : x ≠ a := fun h => hal (h ▸ hx)
      show dsc h3 x = _
      rw [d3, if_neg this, d2, d1, dsc_upd, if_neg this]
    · show dsc h3 a = _
      rw [d3, if_pos rfl]

/-- Adding to a full cache replaces the last entry. -/
theorem add_full {s : State} {r0 : List Nat} {w : Nat} (hs : Shape s (r0 ++ [w])) {a : Nat} {d : Desc} (hl : d.name.length ≤ 32)
    (hfull : s.limit ≤ (r0.length : Int) + 1) :
    ∃ s', add s a d = .ok s' ∧ Shape s' (r0 ++ [w]) ∧ (∀ x ∈ r0, dsc s'.heap x = dsc s.heap x) ∧ dsc s'.heap w = some d ∧ s'.limit = s.limit := by
  obtain ⟨hd, hh⟩ : ∃ hd, (r0 ++ [w]).head? = some hd := by cases r0 <;> simp
  obtain ⟨hn0, hh0⟩ := hs.ring.some (a := hd) (List.mem_of_mem_head? (by rw [hh]; rfl))
  obtain ⟨w', r0', e, hc, he⟩ := ring_last hs.ring hh
  obtain ⟨-, rfl⟩ : r0 = r0' ∧ w = w' := by
    have := List.append_inj' e rfl
    exact ⟨this.1, by simpa using this.2⟩
  have hpw : hn0.prev = w := prv_some hh0 he.2
  have hwr : w ∉ r0 := by
    intro hm
    exact (List.nodup_append.mp hs.ring.nodup).2.2 w hm w (by simp) rfl
  obtain ⟨m, hm⟩ := hs.ring.some (a := w) (by simp)
  obtain ⟨h3, g3, p3, n3, d3, s3⟩ := setDesc_ok (h := s.heap) (a := w) (d := d) (by rw [hm]; rfl) hl
  have hlt : ¬ (s.count : Int) < s.limit := by rw [hs.count]; simp; omega
  refine ⟨{ s with heap := h3 }, ?_, ⟨hs.head, ⟨?_, hs.ring.nodup⟩, hs.count⟩, fun x hx => ?_, ?_, rfl⟩
  · simp [add, hs.head, hh, hlt, deref_ok hh0, hpw, g3]
  · exact chain_congr _ (fun x _ => n3 x) (fun x _ => p3 x) hs.ring.chain
  · show dsc h3 x = _
    rw [d3, if_neg]; rintro rfl; exact hwr hx
  · show dsc h3 w = _
    rw [d3, if_pos rfl]

/-- Unlinking a node. -/
theorem unlink_ring {h h' : Heap} {x : Nat} {r r0 : List Nat} {z w : Nat} (hr : Ring h (x :: r)) (hz : r.head? = some z) (hw : r = r0 ++ [w])
    (hn : ∀ y ∈ r, nxt h' y = if y = w then some z else nxt h y) (hp : ∀ y ∈ r, prv h' y = if y = z then some w else prv h y) : Ring h' r := by
  cases r with
  | nil => simp at hz
  | cons z' r =>
    simp only [List.head?_cons, Option.some.injEq] at hz
    subst hz
    have hnd := (List.nodup_cons.mp hr.nodup).2
    have hc : Chain h (x :: z' :: (r ++ [x])) := hr.chain
    have hc1 : Chain h (z' :: r) := by
      have := (chain_cons2.mp hc).2
      rw [← List.cons_append, hw, List.append_assoc, List.singleton_append, chain_append, ← hw] at this
      exact this.1
    have hwm : w ∈ z' :: r := by rw [hw]; simp
    refine ⟨?_, hnd⟩
    show Chain h' (z' :: r ++ [z'])
    rw [hw, List.append_assoc, List.singleton_append, chain_append, ← hw]
    refine ⟨chain_congr _ (fun y hy => ?_) (fun y hy => ?_) hc1, ?_⟩
    · rw [hn y (List.dropLast_subset _ hy), if_neg (mem_dropLast_ne hnd hw y hy)]
    · simp only [List.tail_cons] at hy
      rw [hp y (List.mem_cons_of_mem _ hy), if_neg]
      rintro rfl; exact (List.nodup_cons.mp hnd).1 hy
    · rw [chain_cons2]
      exact ⟨⟨by rw [hn w hwm, if_pos rfl], by rw [hp z' (by simp), if_pos rfl]⟩, trivial⟩

/-- Deleting takes out the entry found and leaves the others. -/
theorem del_shape {s : State} {p q : List Nat} {x : Nat} (hs : Shape s (p ++ x :: q)) {idx : Int}
    (hf : find s (fun d => d.idx == idx) = .ok (some x)) :
    ∃ s', del s idx = .ok s' ∧ Shape s' (p ++ q) ∧ (∀ y ∈ p ++ q, dsc s'.heap y = dsc s.heap y) ∧ s'.limit = s.limit := by
  obtain ⟨n, hn⟩ := hs.ring.some (a := x) (by simp)
  have hrot := (ring_rotate p x q).mp hs.ring
  have hxn : x ∉ q ++ p := (List.nodup_cons.mp hrot.nodup).1
  cases hqp : q ++ p with
  | nil =>
    obtain ⟨rfl, rfl⟩ : q = [] ∧ p = [] := by simpa using hqp
    have hch : Chain s.heap [x, x] := hs.ring.chain
    have hnx : n.next = x := nxt_some hn (chain_cons2.mp hch).1.1
    exact ⟨{ s with heap := (fun y => if y = x then none else s.heap y), head := none, count := s.count - 1 },
      by simp [del, hf, deref_ok hn, hnx], ⟨rfl, ⟨trivial, by simp⟩, by simp [hs.count]⟩, by simp, rfl⟩
  | cons z r =>
    have hr3 : Ring s.heap (x :: z :: r) := by rw [← hqp]; exact hrot
    obtain ⟨w, r0, e, hc, hwx⟩ := ring_last hr3 (hd := x) rfl
    have hc' := chain_cons2.mp hc
    have hzx : n.next = z := nxt_some hn hc'.1.1
    have hpx : n.prev = w := prv_some hn hwx.2
    have hxz : x ∉ z :: r := (List.nodup_cons.mp hr3.nodup).1
    obtain ⟨r1, hw⟩ : ∃ r1, z :: r = r1 ++ [w] := by
      cases r0 with
      | nil => simp at e
      | cons y r0 =>
        simp only [List.cons_append, List.cons.injEq] at e
        exact ⟨r0, e.2⟩
    have hwm : w ∈ z :: r := by rw [hw]; simp
    have hzne : z ≠ x := fun h => hxz (by simp [h])
    obtain ⟨mz, hmz⟩ := hr3.some (a := z) (by simp)
    obtain ⟨mw, hmw⟩ := hr3.some (a := w) (List.mem_cons_of_mem _ hwm)
    obtain ⟨h1, g1, p1, n1, d1, s1⟩ := setPrev_ok (h := s.heap) (a := z) (v := w) (by rw [hmz]; rfl)
    obtain ⟨h2, g2, n2, p2, d2, s2⟩ := setNext_ok (h := h1) (a := w) (v := z) (by rw [s1, hmw]; rfl)
    have away : ∀ y ∈ z :: r, y ≠ x := fun y hy h => hxz (h ▸ hy)
    have hring : Ring (fun y => if y = x then none else h2 y) (z :: r) := by
      refine unlink_ring hr3 rfl hw (fun y hy => ?_) (fun y hy => ?_)
      · have : nxt (fun y => if y = x then none else h2 y) y = nxt h2 y := by unfold nxt; simp [away y hy]
        rw [this, n2, n1]
      · have : prv (fun y => if y = x then none else h2 y) y = prv h2 y := by unfold prv; simp [away y hy]
        rw [this, p2, p1]
    have hfin : Ring (fun y => if y = x then none else h2 y) (p ++ q) := by
      cases q with
      | nil => simp only [List.nil_append] at hqp; rw [List.append_nil, hqp]; exact hring
      | cons y q => rw [ring_rotate, hqp]; exact hring
    refine ⟨{ s with heap := (fun y => if y = x then none else h2 y), head := if s.head = some x then some z else s.head, count := s.count - 1 },
      ?_, ⟨?_, hfin, ?_⟩, fun y hy => ?_, rfl⟩
    · simp [del, hf, deref_ok hn, hzx, hpx, hzne, g1, g2]
    · show (if s.head = some x then some z else s.head) = _
      rw [hs.head]
      cases p with
      | nil =>
        simp only [List.append_nil] at hqp
        simp [hqp]
      | cons y p =>
        have : y ≠ x := by
          rintro rfl
          have := hs.ring.nodup
          simp at this
        simp [this]
    · show s.count - 1 = _
      rw [hs.count]; simp
    · have hyx : y ≠ x := by
        rintro rfl
        exact hxn (by simp only [List.mem_append] at hy ⊢; exact hy.symm)
      show dsc (fun y => if y = x then none else h2 y) y = _
      have : dsc (fun y => if y = x then none else h2 y) y = dsc h2 y := by unfold dsc; simp [hyx]
      rw [this, d2, d1]


/-! ## The state as a list of descriptions -/

theorem contents_iff {s : State} {l : List Desc} : Contents s l ↔ ∃ as, Shape s as ∧ as.map (dsc s.heap) = l.map some := by
  constructor
  · rintro ⟨as, h1, h2, h3, h4, h5⟩
    exact ⟨as, ⟨h1, ⟨h4, h2⟩, by rw [h3]; have := congrArg List.length h5; simpa using this.symm⟩, h5⟩
  · rintro ⟨as, ⟨h1, ⟨h4, h2⟩, h3⟩, h5⟩
    exact ⟨as, h1, h2, by rw [h3]; have := congrArg List.length h5; simpa using this, h4, h5⟩

theorem map_congr_mem {as : List Nat} {h h' : Heap} (hd : ∀ x ∈ as, dsc h' x = dsc h x) : as.map (dsc h') = as.map (dsc h) :=
  List.map_congr_left hd

theorem find_dsc {h : Heap} (p : Desc → Bool) : ∀ (as : List Nat) (l : List Desc), as.map (dsc h) = l.map some →
    (as.find? (fun a => ((dsc h a).map p).getD false) = none ∧ l.find? p = none) ∨
    ∃ a d, as.find? (fun a => ((dsc h a).map p).getD false) = some a ∧ l.find? p = some d ∧ dsc h a = some d
  | [], [], _ => .inl ⟨rfl, rfl⟩
  | a :: as, d :: l, e => by
    simp only [List.map_cons, List.cons.injEq] at e
    simp only [List.find?_cons, e.1, Option.map_some, Option.getD_some]
    cases hp : p d with
    | true => exact .inr ⟨a, d, rfl, rfl, e.1⟩
    | false => exact find_dsc p as l e.2
  | [], _ :: _, e => by simp at e
  | _ :: _, [], e => by simp at e

theorem map_some_inj {l l' : List Desc} (h : l.map some = l'.map some) : l = l' := by
  have := congrArg (List.filterMap id) h
  simpa using this

theorem exists_descs {h : Heap} : ∀ (as : List Nat), (∀ a ∈ as, (dsc h a).isSome) → ∃ l : List Desc, as.map (dsc h) = l.map some
  | [], _ => ⟨[], rfl⟩
  | a :: as, hs => by
    obtain ⟨d, hd⟩ := Option.isSome_iff_exists.mp (hs a (by simp))
    obtain ⟨l, hl⟩ := exists_descs as (fun x hx => hs x (List.mem_cons_of_mem _ hx))
    exact ⟨d :: l, by simp [hd, hl]⟩

theorem perm_of_map {l l' : List Desc} (h : (l.map some).Perm (l'.map some)) : l.Perm l' := by
  have := h.filterMap id
  simpa using this

/-- A lookup answers with the first matching entry, and keeps the entries. -/
theorem check_rep {s : State} {l : List Desc} (hr : Contents s l) (p : Desc → Bool) :
    ∃ s' l', check s p = .ok (s', l.find? p) ∧ Contents s' l' ∧ l'.Perm l ∧ s'.limit = s.limit ∧ (l.find? p = none → s' = s) := by
  obtain ⟨as, hs, e⟩ := contents_iff.mp hr
  have hf := find_shape hs p
  rcases find_dsc p as l e with ⟨h1, h2⟩ | ⟨a, d, h1, h2, h3⟩
  · rw [h1] at hf
    exact ⟨s, l, by simp [check, hf, h2], hr, List.Perm.refl _, rfl, fun _ => rfl⟩
  · rw [h1] at hf
    have hmem := List.mem_of_find?_eq_some h1
    obtain ⟨p1, q, rfl⟩ := List.append_of_mem hmem
    rcases List.eq_nil_or_concat p1 with rfl | ⟨p0, b, rfl⟩
    · have hh := hit_head hs h3
      exact ⟨s, l, by simp [check, hf, hh, h2], hr, List.Perm.refl _, rfl, fun _ => rfl⟩
    · rw [List.concat_eq_append, List.append_assoc, List.singleton_append] at hs e
      obtain ⟨s', g1, g2, g3, g4⟩ := hit_shape hs h3
      obtain ⟨l', hl'⟩ := exists_descs (h := s'.heap) (p0 ++ a :: b :: q) (fun x hx => by
        obtain ⟨m, hm⟩ := g2.ring.some hx
        rw [dsc_some hm]; rfl)
      refine ⟨s', l', by simp [check, hf, g1, h2], contents_iff.mpr ⟨_, g2, hl'⟩, ?_, g4, fun h => by rw [h2] at h; simp at h⟩
      apply perm_of_map
      rw [← hl', ← e, map_congr_mem (fun x _ => g3 x)]
      exact ((List.Perm.swap b a q).append_left p0).map _

/-- Adding. -/
theorem add_rep {s : State} {l : List Desc} (hr : Contents s l) {a : Nat} {d : Desc} (hl : d.name.length ≤ 32) :
    (∃ s', add s a d = .ok s' ∧ s'.limit = s.limit ∧
      Contents s' (if l = [] ∨ (l.length : Int) < s.limit then l ++ [d] else l.dropLast ++ [d])) ∨
    (add s a d = .ub "not an input" ∧ (s.heap a).isSome) := by
  obtain ⟨as, hs, e⟩ := contents_iff.mp hr
  have hlen : as.length = l.length := by have := congrArg List.length e; simpa using this
  have hnil : as = [] ↔ l = [] := by rw [← List.length_eq_zero_iff, hlen, List.length_eq_zero_iff]
  by_cases hroom : l = [] ∨ (l.length : Int) < s.limit
  · rw [if_pos hroom]
    cases ha : s.heap a with
    | some n =>
      right
      refine ⟨?_, rfl⟩
      unfold add
      rcases hroom with h | h
      · have : s.head = none := by rw [hs.head, hnil.mpr h]; rfl
        simp [this, ha]
      · cases hh : s.head with
        | none => simp [ha]
        | some hd => rw [← hlen, ← hs.count] at h; simp [ha, h]
    | none =>
      left
      obtain ⟨s', g1, g2, g3, g4, g5⟩ := add_shape hs ha hl (by rw [hnil, hlen]; exact hroom)
      refine ⟨s', g1, g5, contents_iff.mpr ⟨_, g2, ?_⟩⟩
      rw [List.map_append, List.map_append, map_congr_mem g3, e]; simp [g4]
  · left
    rw [if_neg hroom]
    rw [not_or] at hroom
    rcases List.eq_nil_or_concat as with rfl | ⟨r0, w, rfl⟩
    · exact absurd (hnil.mp rfl) hroom.1
    · rw [List.concat_eq_append] at hs e hlen
      obtain ⟨s', g1, g2, g3, g4, g5⟩ := add_full hs (a := a) hl (by
        have := hroom.2
        rw [← hlen] at this
        simp at this; omega)
      refine ⟨s', g1, g5, contents_iff.mpr ⟨_, g2, ?_⟩⟩
      rw [List.map_append, List.map_append, map_congr_mem g3]
      have := congrArg List.dropLast e
      rw [List.map_append, List.map_singleton, List.dropLast_concat, ← List.map_dropLast] at this
      rw [this]; simp [g4]

/-- Deleting. -/
theorem del_rep {s : State} {l : List Desc} (hr : Contents s l) (idx : Int) :
    ∃ s', del s idx = .ok s' ∧ s'.limit = s.limit ∧ Contents s' (l.eraseP (fun d => d.idx == idx)) := by
  obtain ⟨as, hs, e⟩ := contents_iff.mp hr
  have hf := find_shape hs (fun d => d.idx == idx)
  rcases find_dsc (fun d => d.idx == idx) as l e with ⟨h1, h2⟩ | ⟨a, d, h1, h2, h3⟩
  · rw [h1] at hf
    refine ⟨s, by simp [del, hf], rfl, ?_⟩
    rw [List.eraseP_of_forall_not]
    · exact hr
    · intro x hx; exact List.find?_eq_none.mp h2 x hx
  · rw [h1] at hf
    obtain ⟨hpd, l1, l2, hl, hno⟩ := List.find?_eq_some_iff_append.mp h2
    subst hl
    obtain ⟨as1, as2, has, e1, e2⟩ : ∃ as1 as2, as = as1 ++ as2 ∧ as1.map (dsc s.heap) = l1.map some ∧ as2.map (dsc s.heap) = (d :: l2).map some := by
      rw [List.map_append] at e
      obtain ⟨as1, as2, h, h', h''⟩ := List.map_eq_append_iff.mp e
      exact ⟨as1, as2, h, h', h''⟩
    cases as2 with
    | nil => simp at e2
    | cons a' as2 =>
      simp only [List.map_cons, List.cons.injEq] at e2
      have haa : a' = a := by
        have : as.find? (fun a => ((dsc s.heap a).map (fun d => d.idx == idx)).getD false) = some a' := by
          rw [has, List.find?_append]
          have hn : as1.find? (fun a => ((dsc s.heap a).map (fun d => d.idx == idx)).getD false) = none := by
            rcases find_dsc (fun d => d.idx == idx) as1 l1 e1 with ⟨h, -⟩ | ⟨x, y, -, h, -⟩
            · exact h
            · have := hno y (List.mem_of_find?_eq_some h)
              have h' := List.find?_some h
              simp [h'] at this
          rw [hn]
          simp only [Option.none_or, List.find?_cons, e2.1, Option.map_some, Option.getD_some, hpd]
        rw [h1] at this
        simpa using this.symm
      subst haa
      subst has
      obtain ⟨s', g1, g2, g3, g4⟩ := del_shape hs hf
      refine ⟨s', g1, g4, contents_iff.mpr ⟨_, g2, ?_⟩⟩
      rw [map_congr_mem g3, List.map_append, e1, e2.2, List.eraseP_append_right _ (fun x hx => by have := hno x hx; simpa using this), List.eraseP_cons_of_pos (p := fun d : Desc => d.idx == idx) hpd, List.map_append]

end Dax.TagCache
