import Verif.Props.Events
import Verif.Spec.EventFloat
/-!
# Comparison events on floating point numbers (C29)
-/
set_option autoImplicit false
namespace Dax

/-- The magnitude of a floating point number grows with its representation. -/
theorem fltMag_lt {A e f e' f' : Nat} (hA : 0 < A) (hf : f < A) (hf' : f' < A) (h : e * A + f < e' * A + f') :
    (f + (if e = 0 then 0 else A)) * 2 ^ (max e 1) < (f' + (if e' = 0 then 0 else A)) * 2 ^ (max e' 1) := by
  have hle : e ≤ e' := by
    apply Classical.byContradiction
    intro hn
    have : (e' + 1) * A ≤ e * A := Nat.mul_le_mul_right _ (by omega)
    rw [Nat.add_mul] at this
    omega
  by_cases he : e = e'
  · subst he
    exact Nat.mul_lt_mul_of_pos_right (by omega) (Nat.two_pow_pos _)
  · have he' : e' ≠ 0 := by omega
    rw [if_neg he']
    have h1 : (f + (if e = 0 then 0 else A)) * 2 ^ (max e 1) < A * 2 ^ e' := by
      by_cases h0 : e = 0
      · subst h0
        rw [if_pos rfl, Nat.add_zero]
        have : 2 ^ (max 0 1) ≤ 2 ^ e' := Nat.pow_le_pow_right (by omega) (by omega)
        exact Nat.lt_of_lt_of_le (Nat.mul_lt_mul_of_pos_right hf (Nat.two_pow_pos _)) (Nat.mul_le_mul_left _ this)
      · rw [if_neg h0]
        have e1 : max e 1 = e := by omega
        rw [e1]
        have : 2 ^ (e + 1) ≤ 2 ^ e' := Nat.pow_le_pow_right (by omega) (by omega)
        have h2 : (f + A) * 2 ^ e < 2 * A * 2 ^ e := Nat.mul_lt_mul_of_pos_right (by omega) (Nat.two_pow_pos _)
        have h3 : 2 * A * 2 ^ e = A * 2 ^ (e + 1) := by rw [Nat.pow_succ, Nat.mul_comm 2 A, Nat.mul_assoc, Nat.mul_comm 2]
        rw [h3] at h2
        exact Nat.lt_of_lt_of_le h2 (Nat.mul_le_mul_left _ this)
    have e2 : max e' 1 = e' := by omega
    rw [e2]
    exact Nat.lt_of_lt_of_le h1 (Nat.mul_le_mul_right _ (by omega))

/-- Magnitude of the number with representation `x`. -/
def fltMag (mb eb x : Nat) : Nat := (x % 2 ^ mb + (if x / 2 ^ mb % 2 ^ eb = 0 then 0 else 2 ^ mb)) * 2 ^ (max (x / 2 ^ mb % 2 ^ eb) 1)

theorem fltMag_mono {mb eb x y : Nat} (h : x % 2 ^ (mb + eb) < y % 2 ^ (mb + eb)) : fltMag mb eb x < fltMag mb eb y := by
  have hs : ∀ z, z % 2 ^ (mb + eb) = z / 2 ^ mb % 2 ^ eb * 2 ^ mb + z % 2 ^ mb := fun z => by
    rw [Nat.pow_add, Nat.mod_mul, Nat.mul_comm]; omega
  rw [hs, hs] at h
  exact fltMag_lt (Nat.two_pow_pos _) (Nat.mod_lt _ (Nat.two_pow_pos _)) (Nat.mod_lt _ (Nat.two_pow_pos _)) h

theorem fltMag_congr {mb eb x y : Nat} (h : x % 2 ^ (mb + eb) = y % 2 ^ (mb + eb)) : fltMag mb eb x = fltMag mb eb y := by
  have h1 : x % 2 ^ mb = y % 2 ^ mb := by
    have := congrArg (· % 2 ^ mb) h
    simpa [Nat.pow_add, Nat.mod_mul_right_mod] using this
  have h2 : x / 2 ^ mb % 2 ^ eb = y / 2 ^ mb % 2 ^ eb := by
    have := congrArg (· / 2 ^ mb) h
    simpa [Nat.pow_add, Nat.mod_mul_right_div_self] using this
  unfold fltMag
  rw [h1, h2]

theorem fltMag_zero {mb eb x : Nat} (h : x % 2 ^ (mb + eb) = 0) : fltMag mb eb x = 0 := by
  have : fltMag mb eb x = fltMag mb eb 0 := fltMag_congr (by rw [h]; simp)
  rw [this]
  simp [fltMag]

theorem fltKey_lt {mb eb : Nat} (a b : List Byte) : fltKey mb eb (leNat a) < fltKey mb eb (leNat b) ↔ fltVal mb eb a < fltVal mb eb b := by
  have hv : ∀ v, fltVal mb eb v = if leNat v / 2 ^ (mb + eb) % 2 = 0 then (fltMag mb eb (leNat v) : Int) else -(fltMag mb eb (leNat v) : Int) := fun v => by
    unfold fltVal fltMag
    simp only [unsignedVal_eq]
    rcases Nat.mod_two_eq_zero_or_one (leNat v / 2 ^ (mb + eb)) with h | h
    · rw [h]; simp
    · rw [h]; simp
  rw [hv, hv]
  unfold fltKey
  generalize leNat a = x
  generalize leNat b = y
  have m1 := @fltMag_mono mb eb x y
  have m2 := @fltMag_mono mb eb y x
  have m3 := @fltMag_congr mb eb x y
  have z1 := @fltMag_zero mb eb x
  have z2 := @fltMag_zero mb eb y
  have p1 : 0 < x % 2 ^ (mb + eb) → 0 < fltMag mb eb x := fun h => by
    have := fltMag_mono (mb := mb) (eb := eb) (x := 0) (y := x) (by simpa using h)
    omega
  have p2 : 0 < y % 2 ^ (mb + eb) → 0 < fltMag mb eb y := fun h => by
    have := fltMag_mono (mb := mb) (eb := eb) (x := 0) (y := y) (by simpa using h)
    omega
  generalize x % 2 ^ (mb + eb) = p at *
  generalize y % 2 ^ (mb + eb) = q at *
  generalize fltMag mb eb x = u at *
  generalize fltMag mb eb y = v at *
  have hc : p < q ∨ p = q ∨ q < p := by omega
  rcases hc with h | h | h
  · have := m1 h
    split <;> split <;> omega
  · have := m3 h
    split <;> split <;> omega
  · have := m2 h
    split <;> split <;> omega

theorem fltNan_iff {mb eb : Nat} (v : List Byte) : fltNan mb eb (leNat v) = true ↔ IsNan mb eb v := by
  unfold fltNan IsNan
  rw [unsignedVal_eq]
  simp

theorem fltLess_iff {mb eb : Nat} (a b : List Byte) : fltLess mb eb (leNat a) (leNat b) = true ↔ ¬ IsNan mb eb a ∧ ¬ IsNan mb eb b ∧ fltVal mb eb a < fltVal mb eb b := by
  unfold fltLess
  rw [← fltKey_lt, ← fltNan_iff, ← fltNan_iff]
  simp [and_assoc]

theorem fltTypes_facts : ∀ x ∈ fltTypes, typeBits x.1 / 8 = x.2.1 ∧ cmpWidth x.1 = some x.2.1 ∧ (x.2.1 = 1 ∨ x.2.1 = 2 ∨ x.2.1 = 4 ∨ x.2.1 = 8) ∧
    isCustom x.1 = false ∧ baseTypes.contains (stripQueue x.1) = true := by decide

theorem cmpLess_flt {t w mb eb : Nat} (h : (t, w, mb, eb) ∈ fltTypes) (a b : List Byte) :
    cmpLess t a b = true ↔ ¬ IsNan mb eb a ∧ ¬ IsNan mb eb b ∧ fltVal mb eb a < fltVal mb eb b := by
  simp only [fltTypes, List.mem_cons, List.not_mem_nil, or_false, Prod.mk.injEq] at h
  unfold cmpLess
  rcases h with ⟨rfl, rfl, rfl, rfl⟩ | ⟨rfl, rfl, rfl, rfl⟩
  · rw [if_pos rfl]; exact fltLess_iff a b
  · rw [if_neg (by decide), if_pos rfl]; exact fltLess_iff a b

theorem typeSize_flt {tbl : List Cdt} {t w mb eb : Nat} (h : (t, w, mb, eb) ∈ fltTypes) : typeSize tbl t = .ok (w : Int) := by
  obtain ⟨h2, -, -, h3, h1⟩ := fltTypes_facts _ h
  dsimp only at h1 h2 h3
  unfold typeSize typeSizeF
  have hc : checkType tbl t = true := by unfold checkType; simp only [h1, Bool.true_or]
  rw [if_neg (by rw [hc]; simp), if_neg (by rw [h3]; simp), h2]

theorem compare_flt {S : Sub} {w mb eb : Nat} (hty : (S.h.type, w, mb, eb) ∈ fltTypes) {cmp : Int}
    (hc : (S.et = EVENT_GREATER ∧ cmp = -1) ∨ (S.et = EVENT_LESS ∧ cmp = 1))
    (v : List Byte) : genericCompare S.h.type (S.arg.take w) v = cmp ↔ fltRelation mb eb S.et v (S.arg.take w) := by
  have l1 := cmpLess_flt hty (S.arg.take w) v
  have l2 := cmpLess_flt hty v (S.arg.take w)
  unfold genericCompare fltRelation relation
  generalize cmpLess S.h.type (S.arg.take w) v = p at *
  generalize cmpLess S.h.type v (S.arg.take w) = q at *
  generalize fltVal mb eb (S.arg.take w) = x at *
  generalize fltVal mb eb v = y at *
  generalize IsNan mb eb (S.arg.take w) = N at *
  generalize IsNan mb eb v = M at *
  have n1 : ¬ EVENT_EQUAL = EVENT_GREATER := by decide
  have n2 : ¬ EVENT_EQUAL = EVENT_LESS := by decide
  have n3 : ¬ EVENT_GREATER = EVENT_EQUAL := by decide
  have n4 : ¬ EVENT_GREATER = EVENT_LESS := by decide
  have n5 : ¬ EVENT_LESS = EVENT_GREATER := by decide
  have n6 : ¬ EVENT_LESS = EVENT_EQUAL := by decide
  by_cases hN : N <;> by_cases hM : M <;> simp only [hN, hM, not_true, not_false_eq_true, true_and, false_and, and_false, iff_false, Bool.not_eq_true, and_true] at l1 l2
  all_goals
    rcases hc with ⟨h, rfl⟩ | ⟨h, rfl⟩ <;> rw [h] <;>
      simp only [n1, n2, n3, n4, n5, n6, hN, hM, true_and, false_and, or_false, false_or, not_true, not_false_eq_true, and_true, and_false, or_true, true_or, or_self, iff_true, iff_false] <;>
      cases p <;> cases q <;> simp at l1 l2 <;> simp <;> omega

/-- **C29** for REAL and LREAL, when all writes to the range start before it or at one of its elements: fires iff an element touched by the write satisfies the relation and did not when last checked.
What is not a number is neither greater nor less than anything; the server refuses EQUAL for these types (`C29_float_equal`).  Missing: writes that start inside an element. -/
theorem C29_float_partial {S : Sub} {s s' : Server} {H : List Look} {off : Int} {len : Nat} {b : List Byte}
    {w mb eb : Nat} (hz : S.Sane) (hty : (S.h.type, w, mb, eb) ∈ fltTypes) (hs : S.h.size = w * S.h.count)
    (het : S.et = EVENT_GREATER ∨ S.et = EVENT_LESS)
    (hal : ∀ c ∈ H, S.aligned w c.off) (ha : S.aligned w off) (h : S.writeTo H s s' off len b) :
    S.notified s s' ↔ ∃ j, j < S.h.count ∧ S.elemTouched w j off len ∧ fltRelation mb eb S.et (S.elem w j b) (S.arg.take w) ∧
      ¬ S.heldBefore w (fun v => fltRelation mb eb S.et v (S.arg.take w)) j H := by
  obtain ⟨h1, h2, h3, h4, h5, fd, q, h6, h7⟩ := h
  obtain ⟨c, H', rfl, -, -, h8⟩ := write_outcome hz h1 h2 h6 h3 h4 h7 h5
  obtain ⟨hinc, hcw, hw, -⟩ := fltTypes_facts _ hty
  have hcmp : ∃ cmp : Int,
      (S.et = EVENT_GREATER ∧ cmp = -1) ∨ (S.et = EVENT_LESS ∧ cmp = 1) := by
    rcases het with h | h
    · exact ⟨_, .inl ⟨h, rfl⟩⟩
    · exact ⟨_, .inr ⟨h, rfl⟩⟩
  obtain ⟨cmp, hcmp⟩ := hcmp
  unfold Sub.notified
  rcases h8 with ⟨_, e, d, t, hch⟩ | ⟨hnt, hno, hcon, e, d, t, hch⟩
  · obtain ⟨c2, H2, heq, -, -, hhit⟩ := chain_compare_gen hinc hcw hw (fun _ => typeSize_flt hty) hs (compare_flt hty hcmp) (.inr hcmp) hch (by
      intro x hx
      rcases List.mem_cons.mp hx with rfl | hx
      · exact ha
      · exact hal x hx)
    simp only [List.cons.injEq] at heq
    obtain ⟨rfl, rfl⟩ := heq
    have := hhit _ _ rfl
    dsimp only at this
    rw [← notEmpty_iff, this]
  · rw [hno]
    simp only [ne_eq, not_true, false_iff]
    rintro ⟨j, hj, htj, -⟩
    exact hnt (elem_touched hs hj htj)

def floatDemo : List Op := demoOps ++ [.req 5 (.tagAdd DAX_REAL 2 0 (nm "Temp"))]

/-- Both elements of `Temp`, against 1.5. -/
def tempSub (et : Int) : Sub := ⟨16, 1, ⟨16, 0, 0, 2, 8, DAX_REAL⟩, et, [0, 0, 0xC0, 0x3F], 6⟩

/-- Instance: `Temp` greater than 1.5; writing 2.0 (0x40000000) to the second element fires. -/
example : let S := tempSub EVENT_GREATER
    S.Sane ∧ (S.h.type, 4, 23, 8) ∈ fltTypes ∧ S.h.size = 4 * S.h.count ∧ ∃ H s s' b, (∀ c ∈ H, S.aligned 4 c.off) ∧ S.aligned 4 4 ∧
      S.writeTo H s s' 4 4 b ∧ S.notified s s' ∧ fltRelation 23 8 S.et (S.elem 4 1 b) (S.arg.take 4) := by
  have h1 := seen_add (S := tempSub EVENT_GREATER) (os := floatDemo) (b := [0, 0, 0, 0, 0, 0, 0, 0]) (by decide +kernel)
  refine ⟨by decide, by decide, by decide, _, _, _, _, ?_, .inr ⟨1, rfl⟩,
    writeTo_wr (d := [0, 0, 0, 0x40]) (b := [0, 0, 0, 0, 0, 0, 0, 0x40]) (off := 4) h1 (by decide +kernel), by decide +kernel, ?_⟩
  · intro c hc
    simp only [List.mem_cons, List.not_mem_nil, or_false] at hc
    subst hc
    exact .inl (by decide)
  · unfold fltRelation IsNan fltVal relation
    decide +kernel

/-- A subscription to EQUAL is refused for REAL and LREAL, whatever the tag. -/
theorem C29_float_equal {s s' : Server} {h : Handle} {arg : List Byte} {m : Module} {r : Int} (hty : h.type = DAX_REAL ∨ h.type = DAX_LREAL) (hr : eventAdd s h EVENT_EQUAL arg m = .ok (s', r)) :
    s' = s ∧ r < 0 := by
  have hv : verifyEventType h.type EVENT_EQUAL = false := by
    rcases hty with h | h <;> rw [h] <;> decide
  unfold eventAdd at hr
  split at hr
  · cases hr; exact ⟨rfl, by decide⟩
  · split at hr
    · cases hr; exact ⟨rfl, by decide⟩
    · split at hr
      · split at hr
        · cases hr; exact ⟨rfl, by decide⟩
        · cases hr
      · obtain ⟨sz, -, hr⟩ := C.bind_eq_ok.mp hr
        split at hr
        · cases hr; exact ⟨rfl, by decide⟩
        · cases hr; exact ⟨rfl, by decide⟩

end Dax
