import Verif.Model.Index
import Verif.Lemmas.Basic
/-!
# The bisection search on a sorted index
-/
namespace Dax

/-- The index array is strictly sorted by name. -/
def Sorted (ix : List IdxEnt) : Prop := ix.Pairwise (fun a b => strcmp a.name b.name = .lt)

theorem Sorted.get_lt {ix : List IdxEnt} (h : Sorted ix) {i j : Nat} {a b : IdxEnt}
    (hi : ix[i]? = some a) (hj : ix[j]? = some b) (hij : i < j) : strcmp a.name b.name = .lt := by
  obtain ⟨h1, rfl⟩ := List.getElem?_eq_some_iff.mp hi
  obtain ⟨h2, rfl⟩ := List.getElem?_eq_some_iff.mp hj
  exact (List.pairwise_iff_getElem.mp h) i j h1 h2 hij

/-- What the search guarantees. -/
def ProbeOk (ix : List IdxEnt) (name : Name) : Probe → Prop
  | .hit t => ∃ e, ix[t]? = some e ∧ e.name = name
  | .miss n => n ≤ ix.length ∧ (∀ i e, ix[i]? = some e → i < n → strcmp e.name name = .lt) ∧
      (∀ i e, ix[i]? = some e → n ≤ i → strcmp name e.name = .lt)

theorem bisectF_spec {ix : List IdxEnt} (hs : Sorted ix) (name : Name) :
    ∀ fuel lo hi, hi - lo < fuel → lo ≤ hi → hi ≤ ix.length →
      (∀ i e, ix[i]? = some e → i < lo → strcmp e.name name = .lt) →
      (∀ i e, ix[i]? = some e → hi ≤ i → strcmp name e.name = .lt) →
      ∃ p, bisectF ix name fuel lo hi = .ok p ∧ ProbeOk ix name p := by
  intro fuel
  induction fuel with
  | zero => intro lo hi h; omega
  | succ fuel ih =>
    intro lo hi hf hle hlen hlow hhigh
    unfold bisectF
    by_cases hlt : lo < hi
    · rw [if_pos hlt]
      have ht : lo + (hi - 1 - lo) / 2 < ix.length := by omega
      obtain ⟨e, he⟩ : ∃ e, ix[lo + (hi - 1 - lo) / 2]? = some e :=
        ⟨_, List.getElem?_eq_getElem ht⟩
      simp only [he]
      split
      · rename_i hc
        refine ih _ _ (by omega) (by omega) hlen ?_ hhigh
        intro i a ha hi'
        by_cases h' : i = lo + (hi - 1 - lo) / 2
        · subst h'; rw [he] at ha; cases ha; exact strcmp_gt_iff.mp hc
        · exact strcmp_lt_trans (hs.get_lt ha he (by omega)) (strcmp_gt_iff.mp hc)
      · rename_i hc
        refine ih _ _ (by omega) (by omega) (by omega) hlow ?_
        intro i a ha hi'
        by_cases h' : i = lo + (hi - 1 - lo) / 2
        · subst h'; rw [he] at ha; cases ha; exact hc
        · exact strcmp_lt_trans hc (hs.get_lt he ha (by omega))
      · rename_i hc
        exact ⟨_, rfl, e, he, (strcmp_eq_iff.mp hc).symm⟩
    · rw [if_neg hlt]
      have : lo = hi := by omega
      subst this
      exact ⟨_, rfl, hlen, hlow, hhigh⟩

theorem bisect_spec {ix : List IdxEnt} (hs : Sorted ix) (name : Name) :
    ∃ p, bisect ix name = .ok p ∧ ProbeOk ix name p := by
  refine bisectF_spec hs name _ 0 ix.length (by omega) (by omega) (by omega) ?_ ?_
  · intro i e _ h; omega
  · intro i e h h'
    have := (List.getElem?_eq_some_iff.mp h).1
    omega

theorem Sorted.inj {ix : List IdxEnt} (hs : Sorted ix) {a b : IdxEnt} (ha : a ∈ ix) (hb : b ∈ ix)
    (h : a.name = b.name) : a = b := by
  obtain ⟨i, ha⟩ := List.mem_iff_getElem?.mp ha
  obtain ⟨j, hb⟩ := List.mem_iff_getElem?.mp hb
  rcases Nat.lt_trichotomy i j with hij | hij | hij
  · have := hs.get_lt ha hb hij; rw [h] at this; exact absurd this (strcmp_lt_irrefl _)
  · subst hij; rw [ha] at hb; exact Option.some.inj hb
  · have := hs.get_lt hb ha hij; rw [h] at this; exact absurd this (strcmp_lt_irrefl _)

/-- A missing name is really missing. -/
theorem ProbeOk.miss_notin {ix : List IdxEnt} {name : Name} {n : Nat}
    (h : ProbeOk ix name (.miss n)) {e : IdxEnt} (he : e ∈ ix) : e.name ≠ name := by
  intro hn
  obtain ⟨i, hi⟩ := List.mem_iff_getElem?.mp he
  obtain ⟨-, h1, h2⟩ := h
  by_cases hin : i < n
  · have := h1 i e hi hin; rw [hn] at this; exact strcmp_lt_irrefl _ this
  · have := h2 i e hi (by omega); rw [hn] at this; exact strcmp_lt_irrefl _ this

/-- Lookup by name: exactly the entries of the index. -/
theorem getByName_spec {ix : List IdxEnt} (hs : Sorted ix) (name : Name) :
    (∃ e, e ∈ ix ∧ e.name = name ∧ getByName ix name = .ok (some e.tag)) ∨
    ((∀ e ∈ ix, e.name ≠ name) ∧ getByName ix name = .ok none) := by
  obtain ⟨p, hp, hok⟩ := bisect_spec hs name
  cases p with
  | hit t =>
    obtain ⟨e, he, hn⟩ := hok
    left
    refine ⟨e, List.mem_of_getElem? he, hn, ?_⟩
    simp [getByName, hp, he]
  | miss n =>
    right
    refine ⟨fun e he => hok.miss_notin he, ?_⟩
    simp [getByName, hp]

theorem getByName_some {ix : List IdxEnt} (hs : Sorted ix) {name : Name} {i : Nat}
    (h : getByName ix name = .ok (some i)) : (⟨name, i⟩ : IdxEnt) ∈ ix := by
  rcases getByName_spec hs name with ⟨e, he, hn, hg⟩ | ⟨_, hg⟩
  · rw [h] at hg
    simp only [C.ok.injEq, Option.some.injEq] at hg
    cases e; simp_all
  · rw [h] at hg; simp at hg

theorem getByName_none {ix : List IdxEnt} (hs : Sorted ix) {name : Name}
    (h : getByName ix name = .ok none) : ∀ e ∈ ix, e.name ≠ name := by
  rcases getByName_spec hs name with ⟨e, he, hn, hg⟩ | ⟨hh, hg⟩
  · rw [h] at hg; simp at hg
  · exact hh

theorem getByName_of_mem {ix : List IdxEnt} (hs : Sorted ix) {name : Name} {i : Nat}
    (h : (⟨name, i⟩ : IdxEnt) ∈ ix) : getByName ix name = .ok (some i) := by
  rcases getByName_spec hs name with ⟨e, he, hn, hg⟩ | ⟨hh, hg⟩
  · have := hs.inj he h hn; subst this; exact hg
  · exact absurd rfl (hh _ h)

/-- Effect of `_add_index`. -/
theorem addIndex_ok {ix ix' : List IdxEnt} (hs : Sorted ix) {db n : Nat} {name : Name}
    (h : addIndex ix db name n = .ok ix') :
    Sorted ix' ∧ (∀ e, e ∈ ix' ↔ e = ⟨name, n⟩ ∨ e ∈ ix) ∧ ix'.length = ix.length + 1 ∧
      ix.length < db ∧ ∀ e ∈ ix, e.name ≠ name := by
  unfold addIndex at h
  split at h
  · simp at h
  · obtain ⟨p, hp, hok⟩ := bisect_spec hs name
    simp only [hp, C.ok_bind] at h
    cases p with
    | hit t => simp at h
    | miss k =>
      simp only [C.ok.injEq] at h
      subst h
      refine ⟨?_, ?_, ?_, by omega, fun e he => hok.miss_notin he⟩
      · obtain ⟨hk, h1, h2⟩ := hok
        unfold Sorted
        rw [List.pairwise_append]
        refine ⟨?_, ?_, ?_⟩
        · exact List.Pairwise.sublist (List.take_sublist _ _) hs
        · rw [List.pairwise_cons]
          refine ⟨?_, List.Pairwise.sublist (List.drop_sublist _ _) hs⟩
          intro e he
          obtain ⟨i, hi⟩ := List.mem_iff_getElem?.mp he
          rw [List.getElem?_drop] at hi
          exact h2 _ e hi (by omega)
        · intro a ha b hb
          obtain ⟨i, hi⟩ := List.mem_iff_getElem?.mp ha
          rw [List.getElem?_take] at hi
          split at hi
          · rename_i hik
            have ha' := h1 i a hi hik
            rcases List.mem_cons.mp hb with rfl | hb
            · exact ha'
            · obtain ⟨j, hj⟩ := List.mem_iff_getElem?.mp hb
              rw [List.getElem?_drop] at hj
              exact strcmp_lt_trans ha' (h2 _ b hj (by omega))
          · simp at hi
      · intro e
        simp only [List.mem_append, List.mem_cons]
        constructor
        · rintro (h | h | h)
          · exact .inr (List.mem_of_mem_take h)
          · exact .inl h
          · exact .inr (List.mem_of_mem_drop h)
        · rintro (h | h)
          · exact .inr (.inl h)
          · rw [← List.take_append_drop k ix] at h
            rcases List.mem_append.mp h with h | h
            · exact .inl h
            · exact .inr (.inr h)
      · simp
        have := hok.1
        omega

/-- `_add_index` succeeds for a new name when there is room. -/
theorem addIndex_total {ix : List IdxEnt} (hs : Sorted ix) {db n : Nat} {name : Name}
    (hroom : ix.length < db) (hnew : ∀ e ∈ ix, e.name ≠ name) :
    ∃ ix', addIndex ix db name n = .ok ix' := by
  unfold addIndex
  rw [if_neg (by omega)]
  obtain ⟨p, hp, hok⟩ := bisect_spec hs name
  simp only [hp, C.ok_bind]
  cases p with
  | hit t => obtain ⟨e, he, hn⟩ := hok; exact absurd hn (hnew e (List.mem_of_getElem? he))
  | miss k => exact ⟨_, rfl⟩

/-- Effect of `_del_index`. -/
theorem delIndex_ok {ix ix' : List IdxEnt} (hs : Sorted ix) {name : Name}
    (h : delIndex ix name = .ok ix') :
    Sorted ix' ∧ (∀ e, e ∈ ix' ↔ e ∈ ix ∧ e.name ≠ name) ∧ ix'.length + 1 = ix.length := by
  obtain ⟨p, hp, hok⟩ := bisect_spec hs name
  simp only [delIndex, hp, C.ok_bind] at h
  cases p with
  | miss k => simp at h
  | hit k =>
    simp only [C.ok.injEq] at h
    obtain ⟨e, he, hn⟩ := hok
    obtain ⟨hk, hek⟩ := List.getElem?_eq_some_iff.mp he
    subst h
    have hsub : List.Sublist (ix.take k ++ ix.drop (k + 1)) ix := by
      conv => rhs; rw [← List.take_append_drop k ix]
      exact List.Sublist.append (List.Sublist.refl _) (List.drop_sublist_drop_left _ (by omega))
    refine ⟨List.Pairwise.sublist hsub hs, ?_, by simp; omega⟩
    intro a
    constructor
    · intro ha
      refine ⟨hsub.subset ha, ?_⟩
      intro hname
      rcases List.mem_append.mp ha with ha | ha
      · obtain ⟨i, hi⟩ := List.mem_iff_getElem?.mp ha
        rw [List.getElem?_take] at hi
        split at hi
        · have := hs.get_lt hi he (by omega)
          rw [hname, hn] at this
          exact strcmp_lt_irrefl _ this
        · simp at hi
      · obtain ⟨i, hi⟩ := List.mem_iff_getElem?.mp ha
        rw [List.getElem?_drop] at hi
        have := hs.get_lt he hi (by omega)
        rw [hname, hn] at this
        exact strcmp_lt_irrefl _ this
    · rintro ⟨ha, hne⟩
      obtain ⟨i, hi⟩ := List.mem_iff_getElem?.mp ha
      rw [List.mem_append]
      by_cases h1 : i < k
      · left
        apply List.mem_of_getElem? (i := i)
        rw [List.getElem?_take, if_pos h1, hi]
      · by_cases h2 : i = k
        · subst h2; rw [he] at hi; cases hi; exact absurd hn hne
        · right
          apply List.mem_of_getElem? (i := i - (k + 1))
          rw [List.getElem?_drop, show k + 1 + (i - (k + 1)) = i by omega, hi]

theorem delIndex_total {ix : List IdxEnt} (hs : Sorted ix) {name : Name} {n : Nat}
    (h : (⟨name, n⟩ : IdxEnt) ∈ ix) : ∃ ix', delIndex ix name = .ok ix' := by
  obtain ⟨p, hp, hok⟩ := bisect_spec hs name
  simp only [delIndex, hp, C.ok_bind]
  cases p with
  | miss k => exact absurd rfl (hok.miss_notin h)
  | hit k => exact ⟨_, rfl⟩

end Dax
