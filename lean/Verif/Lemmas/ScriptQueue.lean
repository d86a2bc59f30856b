import Verif.Spec.ScriptQueue
/-!
# Lemmas: the queue of triggered scripts
-/
set_option autoImplicit false
namespace Dax.ScriptQ

variable {α : Type}

/-- The queue holds the scripts `w`, after `r` scripts were started. -/
structure Holds (q : Queue α) (w : List α) (r : Nat) : Prop where
  pos : 0 < q.slots.length
  first : q.first = r % q.slots.length
  fits : w.length ≤ q.slots.length
  last : q.last = (if q.first + w.length < q.slots.length then q.first + w.length else q.first + w.length - q.slots.length)
  slot : ∀ k < w.length, q.slots[if q.first + k < q.slots.length then q.first + k else q.first + k - q.slots.length]? = w[k]?
  full : q.full = decide (w.length = q.slots.length)
  empty : q.empty = decide (w = [])

theorem Holds.lt {q : Queue α} {w : List α} {r : Nat} (h : Holds q w r) : q.first < q.slots.length ∧ q.last < q.slots.length := by
  have h1 : q.first < q.slots.length := by rw [h.first]; exact Nat.mod_lt _ h.pos
  have := h.last
  have := h.fits
  refine ⟨h1, ?_⟩
  split at * <;> omega

theorem push_ok {q q' : Queue α} {x : α} {a : Bool} (h : push q x = .ok (q', a)) (hf : q.full = false) :
    q' = { slots := q.slots.set q.last x, first := q.first, last := (if q.last + 1 ≥ q.slots.length then 0 else q.last + 1),
           full := decide (q.last + 1 = q.first), empty := false } := by
  unfold push at h
  rw [hf] at h
  simp only [Bool.false_eq_true, if_false] at h
  split at h
  · cases h
  · simp only [C.ok.injEq, Prod.mk.injEq] at h
    exact h.1.symm

/-- A script is put behind the others, if the queue does not fill up at a bad moment. -/
theorem Holds.push {q : Queue α} {w : List α} {r : Nat} {x : α} (h : Holds q w r ∨ (q.first = 0 ∧ q.last = 0 ∧ q.full = false ∧ w = [] ∧ r = 0 ∧ 0 < q.slots.length))
    (hf : q.full = false) (hs : w.length + 1 = q.slots.length → r % q.slots.length ≠ 0) :
    Holds { slots := q.slots.set q.last x, first := q.first, last := (if q.last + 1 ≥ q.slots.length then 0 else q.last + 1),
            full := decide (q.last + 1 = q.first), empty := false } (w ++ [x]) r := by
  have key : 0 < q.slots.length ∧ q.first = r % q.slots.length ∧ w.length < q.slots.length ∧
      q.last = (if q.first + w.length < q.slots.length then q.first + w.length else q.first + w.length - q.slots.length) ∧
      (∀ k < w.length, q.slots[if q.first + k < q.slots.length then q.first + k else q.first + k - q.slots.length]? = w[k]?) := by
    rcases h with h | ⟨h1, h2, h3, rfl, rfl, h6⟩
    · have := h.full
      rw [hf] at this
      have hne : w.length ≠ q.slots.length := fun e => by simp [e] at this
      have := h.fits
      exact ⟨h.pos, h.first, by omega, h.last, h.slot⟩
    · refine ⟨h6, by rw [h1, Nat.zero_mod], h6, ?_, fun k hk => by simp at hk⟩
      rw [h1, h2]; simp
  obtain ⟨hpos, hfirst, hlen, hlast, hslot⟩ := key
  have hlt : q.first < q.slots.length := by rw [hfirst]; exact Nat.mod_lt _ hpos
  rw [← hfirst] at hs
  refine ⟨?_, ?_, ?_, ?_, ?_, ?_, ?_⟩
  · simpa using hpos
  · simpa using hfirst
  · simp; omega
  · simp only [List.length_set, List.length_append, List.length_singleton]
    split at hlast <;> split <;> split <;> omega
  · intro k hk
    simp only [List.length_set, List.length_append, List.length_singleton] at hk ⊢
    by_cases hkw : k < w.length
    · rw [List.getElem?_append_left hkw, ← hslot k hkw, List.getElem?_set_ne]
      rw [hlast]
      split <;> split <;> omega
    · have : k = w.length := by omega
      subst this
      rw [← hlast, List.getElem?_append_right (Nat.le_refl _), Nat.sub_self, List.getElem?_set_self (by split at hlast <;> omega)]
      rfl
  · simp only [List.length_set, List.length_append, List.length_singleton]
    rw [decide_eq_decide]
    split at hlast <;> omega
  · simp

/-- The script at the front leaves the queue. -/
theorem Holds.pop {q : Queue α} {w : List α} {r : Nat} {x : α} (h : Holds q (x :: w) r) :
    ∃ q', ScriptQ.pop q = .ok (q', some x) ∧ Holds q' w (r + 1) ∧ q'.slots.length = q.slots.length := by
  have hlt := h.lt.1
  have he : q.empty = false := by rw [h.empty]; simp
  have h0 := h.slot 0 (by simp)
  rw [Nat.add_zero, if_pos hlt] at h0
  simp only [List.getElem?_cons_zero] at h0
  have hfit := h.fits
  have hlast := h.last
  have hslot := h.slot
  have hfirst := h.first
  simp only [List.length_cons] at hfit hlast hslot
  unfold ScriptQ.pop
  rw [he, h0]
  refine ⟨_, rfl, ⟨h.pos, ?_, ?_, ?_, ?_, ?_, ?_⟩, rfl⟩
  · dsimp only
    rw [Nat.add_mod, ← hfirst]
    by_cases h1 : q.slots.length = 1
    · rw [h1]; simp [Nat.mod_one]
    · rw [Nat.mod_eq_of_lt (show 1 < q.slots.length by omega)]
      split
      · rw [show q.first + 1 = q.slots.length by omega, Nat.mod_self]
      · rw [Nat.mod_eq_of_lt (by omega)]
  · dsimp only; omega
  · dsimp only
    split at hlast <;> split <;> split <;> omega
  · intro k hk
    dsimp only
    have hz := hslot (k + 1) (by omega)
    rw [List.getElem?_cons_succ] at hz
    rw [← hz]
    congr 1
    split <;> split <;> split <;> omega
  · dsimp only
    symm
    rw [decide_eq_false_iff_not]
    omega
  · dsimp only
    have hw : w = [] ↔ w.length = 0 := List.length_eq_zero_iff.symm
    by_cases hw0 : w = []
    · subst hw0
      simp only [List.length_nil] at hlast
      rw [if_pos (by split at hlast <;> split <;> omega)]
      simp
    · have : w.length ≠ 0 := fun e => hw0 (hw.mpr e)
      rw [if_neg (by split at hlast <;> split <;> omega), decide_eq_false hw0]

theorem pop_empty {q : Queue α} {r : Nat} (h : Holds q [] r) : ScriptQ.pop q = .ok (q, none) := by
  unfold ScriptQ.pop
  rw [h.empty]
  simp

end Dax.ScriptQ
