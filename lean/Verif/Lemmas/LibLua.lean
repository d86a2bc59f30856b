import Verif.Lemmas.LibFqn
import Verif.Lemmas.EventKinds
import Verif.Lemmas.Conv
import Verif.Spec.LibLua
/-!
# Lemmas for the Lua library
-/
set_option autoImplicit false
namespace Dax.Lua
open LibPath LibData

/-! ## Floating point numbers -/

theorem dblOfNat_small {n : Nat} (h0 : 0 < n) (h : n < 2 ^ 53) :
    ∃ e f, dblOfNat n = (1023 + e) * 2 ^ 52 + f ∧ f < 2 ^ 52 ∧ e ≤ 52 ∧ (f + 2 ^ 52) * 2 ^ e = n * 2 ^ 52 := by
  have he : n.log2 ≤ 52 := by
    have := (Nat.log2_lt (by omega : n ≠ 0)).mpr h
    omega
  have h1 : 2 ^ n.log2 ≤ n := Nat.log2_self_le (by omega)
  have h2 : n < 2 ^ (n.log2 + 1) := Nat.lt_log2_self
  refine ⟨n.log2, (n - 2 ^ n.log2) * 2 ^ (52 - n.log2), ?_, ?_, he, ?_⟩
  · unfold dblOfNat
    rw [if_neg (by omega)]
    simp only [he, if_true]
  · have h3 : (2 : Nat) ^ 52 = 2 ^ n.log2 * 2 ^ (52 - n.log2) := by rw [← Nat.pow_add]; congr 1; omega
    rw [h3]
    refine Nat.mul_lt_mul_of_pos_right ?_ (Nat.pow_pos (by omega))
    rw [Nat.pow_succ] at h2
    omega
  · have h3 : (2 : Nat) ^ 52 = 2 ^ (52 - n.log2) * 2 ^ n.log2 := by rw [← Nat.pow_add]; congr 1; omega
    have h4 : (n - 2 ^ n.log2) * 2 ^ (52 - n.log2) + 2 ^ 52 = n * 2 ^ (52 - n.log2) := by
      rw [h3, Nat.mul_comm (2 ^ (52 - n.log2)) (2 ^ n.log2), ← Nat.add_mul]
      congr 1; omega
    rw [h4, Nat.mul_assoc, ← h3]

theorem isDbl_nat {n : Nat} (h : n < 2 ^ 53) (neg : Bool) :
    let D := (if neg then 2 ^ 63 else 0) + dblOfNat n
    D < 2 ^ 64 ∧ D / 2 ^ 52 % 2048 ≠ 2047 ∧
    (D % 2 ^ 52 + (if D / 2 ^ 52 % 2048 = 0 then 0 else 2 ^ 52)) * 2 ^ (max (D / 2 ^ 52 % 2048) 1) = n * 2 ^ 1075 ∧ D / 2 ^ 63 = (if neg then 1 else 0) := by
  rcases Nat.eq_zero_or_pos n with rfl | h0
  · cases neg <;> simp [dblOfNat]
  · obtain ⟨e, f, h1, h2, h3, h4⟩ := dblOfNat_small h0 h
    intro D
    have hD : D = (if neg then 2 ^ 63 else 0) + ((1023 + e) * 2 ^ 52 + f) := by simp only [D, h1]
    have a1 : D / 2 ^ 52 % 2048 = 1023 + e := by rw [hD]; cases neg <;> simp <;> omega
    have a2 : D % 2 ^ 52 = f := by rw [hD]; cases neg <;> simp <;> omega
    refine ⟨by rw [hD]; cases neg <;> simp <;> omega, by rw [a1]; omega, ?_, by rw [hD]; cases neg <;> simp <;> omega⟩
    rw [a1, a2, if_neg (by omega), Nat.max_eq_left (by omega), Nat.add_comm 1023 e, Nat.pow_add, ← Nat.mul_assoc, h4, Nat.mul_assoc, ← Nat.pow_add]

theorem isDbl_ofInt {x : Int} (h : x.natAbs < 2 ^ 53) : IsDbl (dblOfInt x) x := by
  unfold dblOfInt IsDbl
  by_cases hx : x < 0
  · rw [if_pos hx]
    have := isDbl_nat h true
    simp only [if_true] at this
    obtain ⟨a, b, c, d⟩ := this
    simp only [BitVec.toNat_ofNat]
    rw [Nat.mod_eq_of_lt a]
    exact ⟨b, c, by rw [if_pos d]; omega⟩
  · rw [if_neg hx]
    have := isDbl_nat h false
    simp only [Bool.false_eq_true, if_false, Nat.zero_add] at this
    obtain ⟨a, b, c, d⟩ := this
    simp only [BitVec.toNat_ofNat]
    rw [Nat.mod_eq_of_lt a]
    exact ⟨b, c, by rw [if_neg (by omega)]; omega⟩

theorem pow_split {a b : Nat} (h : a ≤ b) : (2 : Nat) ^ b = 2 ^ (b - a) * 2 ^ a := by rw [← Nat.pow_add]; congr 1; omega

theorem trunc_dbl {d : BitVec 64} {x : Int} (h : IsDbl d x) : fltTrunc 52 11 d.toNat = some (x, true) := by
  unfold IsDbl at h
  unfold fltTrunc
  have hd := d.isLt
  generalize d.toNat = D at *
  simp only at h ⊢
  have e0 : (2 : Nat) ^ 11 = 2048 := rfl
  rw [e0]
  generalize hE : D / 2 ^ 52 % 2048 = E at *
  obtain ⟨h1, h2, h3⟩ := h
  rw [if_neg (by omega)]
  generalize hM : D % 2 ^ 52 + (if E = 0 then 0 else 2 ^ 52) = M at *
  have e1 : 2 ^ (11 - 1) - 1 + 52 = 1075 := rfl
  have e2 : D / 2 ^ (52 + 11) % 2 = D / 2 ^ 63 := by
    have : (52 + 11) = 63 := rfl
    rw [this]; omega
  rw [e1, e2]
  have hp : (if 1075 ≤ max E 1 then (M * 2 ^ (max E 1 - 1075), true) else (M / 2 ^ (1075 - max E 1), decide (M % 2 ^ (1075 - max E 1) = 0))) =
      (x.natAbs, true) := by
    have hpos : ∀ k, 0 < (2 : Nat) ^ k := fun k => Nat.pow_pos (by omega)
    split
    · rename_i hg
      rw [pow_split hg, ← Nat.mul_assoc] at h2
      have := Nat.eq_of_mul_eq_mul_right (hpos 1075) h2
      rw [this]
    · rename_i hg
      rw [pow_split (Nat.le_of_lt (Nat.lt_of_not_le hg)), ← Nat.mul_assoc] at h2
      have := Nat.eq_of_mul_eq_mul_right (hpos _) h2
      rw [this, Nat.mul_div_cancel _ (hpos _), Nat.mul_mod_left]
      rfl
  rw [hp]
  simp only
  split at h3
  · rename_i hs
    rw [if_pos hs]
    have : -(x.natAbs : Int) = x := by omega
    rw [this]
  · rename_i hs
    rw [if_neg hs]
    have : (x.natAbs : Int) = x := by omega
    rw [this]

theorem trunc_sgl {b : Nat} (hb : b < 2 ^ 32) (he : sglExp b < 190) :
    ∃ x f, fltTrunc 23 8 b = some (x, f) ∧ x.natAbs < 2 ^ 63 ∧ (sglExp b < 180 → x.natAbs < 2 ^ 53) ∧ IntPart b x := by
  unfold IntPart
  unfold fltTrunc
  have e0 : (2 : Nat) ^ 8 = 256 := rfl
  rw [e0]
  unfold sglExp at *
  simp only
  generalize hE : b / 2 ^ 23 % 256 = E at *
  rw [if_neg (by omega)]
  have hM' : b % 2 ^ 23 + (if E = 0 then 0 else 2 ^ 23) < 2 ^ 24 := by split <;> omega
  generalize hM : b % 2 ^ 23 + (if E = 0 then 0 else 2 ^ 23) = M at *
  have e1 : 2 ^ (8 - 1) - 1 + 23 = 150 := rfl
  have e2 : b / 2 ^ (23 + 8) % 2 = b / 2 ^ 31 := by
    have : (23 + 8) = 31 := rfl
    rw [this]; omega
  rw [e1, e2]
  have hpos : ∀ k, 0 < (2 : Nat) ^ k := fun k => Nat.pow_pos (by omega)
  generalize hp : (if 150 ≤ max E 1 then (M * 2 ^ (max E 1 - 150), true) else (M / 2 ^ (150 - max E 1), decide (M % 2 ^ (150 - max E 1) = 0))) = p
  have hq : p.1 * 2 ^ 150 ≤ M * 2 ^ max E 1 ∧ M * 2 ^ max E 1 < (p.1 + 1) * 2 ^ 150 ∧ p.1 < 2 ^ 63 ∧ (E < 180 → p.1 < 2 ^ 53) := by
    rw [← hp]
    split
    · rename_i hg
      have h1 : (2 : Nat) ^ max E 1 = 2 ^ (max E 1 - 150) * 2 ^ 150 := pow_split hg
      simp only
      rw [h1, ← Nat.mul_assoc]
      refine ⟨Nat.le_refl _, Nat.mul_lt_mul_of_pos_right (by omega) (hpos _), ?_, fun hx => ?_⟩
      · have : (2 : Nat) ^ (max E 1 - 150) ≤ 2 ^ 39 := Nat.pow_le_pow_right (by omega) (by omega)
        calc M * 2 ^ (max E 1 - 150) ≤ M * 2 ^ 39 := Nat.mul_le_mul_left _ this
          _ < 2 ^ 24 * 2 ^ 39 := Nat.mul_lt_mul_of_pos_right hM' (hpos _)
      · have : (2 : Nat) ^ (max E 1 - 150) ≤ 2 ^ 29 := Nat.pow_le_pow_right (by omega) (by omega)
        calc M * 2 ^ (max E 1 - 150) ≤ M * 2 ^ 29 := Nat.mul_le_mul_left _ this
          _ < 2 ^ 24 * 2 ^ 29 := Nat.mul_lt_mul_of_pos_right hM' (hpos _)
    · rename_i hg
      have hg : max E 1 ≤ 150 := by omega
      have h1 : (2 : Nat) ^ 150 = 2 ^ (150 - max E 1) * 2 ^ max E 1 := pow_split hg
      simp only
      rw [h1, ← Nat.mul_assoc, ← Nat.mul_assoc]
      have hlt : M / 2 ^ (150 - max E 1) < 2 ^ 24 := Nat.lt_of_le_of_lt (Nat.div_le_self _ _) hM'
      refine ⟨Nat.mul_le_mul_right _ (Nat.div_mul_le_self _ _), Nat.mul_lt_mul_of_pos_right ?_ (hpos _), by omega, by omega⟩
      rw [Nat.mul_comm]
      exact Nat.lt_mul_div_succ _ (hpos _)
  obtain ⟨q1, q2, q3, q4⟩ := hq
  by_cases hs : b / 2 ^ 31 = 1
  · refine ⟨-(p.1 : Int), p.2, by rw [if_pos hs], ?_, ?_, ?_, ?_, ?_⟩ <;> (try simp only [Int.natAbs_neg, Int.natAbs_natCast])
    · exact q3
    · exact q4
    · exact q1
    · exact q2
    · rw [if_pos hs]; omega
  · refine ⟨(p.1 : Int), p.2, by rw [if_neg hs], ?_, ?_, ?_, ?_, ?_⟩ <;> (try simp only [Int.natAbs_natCast])
    · exact q3
    · exact q4
    · exact q1
    · exact q2
    · rw [if_neg hs]; omega


/-! ## Reading base types -/

theorem int_det' {t w w' : Nat} {sg sg' : Bool} (h : (t, w, sg) ∈ intTypes) (h' : (t, w', sg') ∈ intTypes) : w' = w ∧ sg' = sg := by
  have : ∀ a ∈ intTypes, ∀ b ∈ intTypes, a.1 = b.1 → b = a := by decide
  have := this _ h _ h' rfl
  simp only [Prod.mk.injEq] at this
  exact this.2

theorem int_not {t w : Nat} {sg : Bool} (h : (t, w, sg) ∈ intTypes) : t ≠ DAX_BOOL ∧ t ≠ DAX_TIME ∧ t ≠ DAX_LREAL ∧ t ≠ DAX_REAL := by
  have : ∀ a ∈ intTypes, a.1 ≠ DAX_BOOL ∧ a.1 ≠ DAX_TIME ∧ a.1 ≠ DAX_LREAL ∧ a.1 ≠ DAX_REAL := by decide
  exact this _ h

theorem comes_int {data : List Byte} {t w p : Nat} {sg : Bool} {v : Val} {idx : Prop} (h : (t, w, sg) ∈ intTypes)
    (hv : (w = 8 ∧ sg = false → unsignedVal (slice data (p / 8) w) < 2 ^ 53) → IsNum v (intVal sg (slice data (p / 8) w))) : Comes data t 1 p idx v := by
  obtain ⟨n1, n2, n3, n4⟩ := int_not h
  refine ⟨fun e => absurd e n1, ?_, fun e => absurd e n2, fun e => absurd e n3, fun e => absurd e n4, fun _ e => absurd e (by omega)⟩
  intro w' sg' h' _ _ hs
  obtain ⟨rfl, rfl⟩ := int_det' h h'
  exact hv hs

theorem comes_true {data : List Byte} {t k p : Nat} {v : Val} {idx : Prop} (h : Comes data t k p False v) : Comes data t k p idx v :=
  ⟨h.bool, fun w sg h1 h2 _ h4 => h.int w sg h1 h2 (fun _ => id) h4, h.time, h.lreal, h.real, h.text⟩

theorem not_int {t : Nat} (h : ∀ a ∈ intTypes, a.1 ≠ t) {w : Nat} {sg : Bool} : (t, w, sg) ∉ intTypes := fun h' => h _ h' rfl

theorem rd_slice {data : List Byte} {off w : Nat} (h : off + w ≤ data.length) : rd data (off : Int) (w : Int) = .ok (slice data off w) := by
  rw [rd_ok]
  exact ⟨⟨by omega, by omega, by omega⟩, by simp [slice]⟩

theorem slice_length {data : List Byte} {off w : Nat} (h : off + w ≤ data.length) : (slice data off w).length = w := by
  simp [slice]; omega

theorem castFlt_ok {x lo hi : Int} {f : Bool} (h : lo ≤ x ∧ x ≤ hi) : castFlt (some (x, f)) lo hi = .ok x := by
  unfold castFlt
  simp only [h, and_self, if_true]

theorem readToStack_int {t w : Nat} {sg : Bool} (h : (t, w, sg) ∈ intTypes) {data : List Byte} {off : Nat} (hl : off + w ≤ data.length) :
    readToStack t data off = .ok (if t = DAX_LWORD ∨ t = DAX_ULINT then .num (dblOfInt (leInt (slice data off w)))
      else .int (if sg then leInt (slice data off w) else leNat (slice data off w))) := by
  have hr := rd_slice hl
  simp only [intTypes, List.mem_cons, Prod.mk.injEq, List.not_mem_nil, or_false] at h
  rcases h with h | h | h | h | h | h | h | h | h | h | h | h <;> obtain ⟨rfl, rfl, rfl⟩ := h <;> unfold readToStack <;>
    simp only [DAX_BYTE, DAX_SINT, DAX_CHAR, DAX_WORD, DAX_UINT, DAX_INT, DAX_DWORD, DAX_UDINT, DAX_DINT, DAX_REAL, DAX_LWORD, DAX_ULINT, DAX_TIME, DAX_LINT, DAX_LREAL] <;>
    simp only [Nat.reduceEqDiff, if_true, if_false, or_self, or_true, true_or, or_false, false_or, Bool.false_eq_true] <;>
    (first | (have hr : rd data (off : Int) 1 = _ := hr; rw [hr]; rfl) | (have hr : rd data (off : Int) 2 = _ := hr; rw [hr]; rfl) |
      (have hr : rd data (off : Int) 4 = _ := hr; rw [hr]; rfl) | (have hr : rd data (off : Int) 8 = _ := hr; rw [hr]; rfl))

theorem leInt_small {b : List Byte} (h : leNat b < 2 ^ (8 * b.length - 1)) : leInt b = leNat b := by
  unfold leInt; rw [if_pos h]

theorem readToStack_ok {t w : Nat} (h : (t, w) ∈ elemBytes) {data : List Byte} {off : Nat} (hl : off + w ≤ data.length)
    (hreal : t = DAX_REAL → sglExp (unsignedVal (slice data off 4)) < 190) :
    ∃ v, readToStack t data off = .ok v ∧ Comes data t 1 (8 * off) False v := by
  have hp : 8 * off / 8 = off := by omega
  by_cases hi : ∃ sg, (t, w, sg) ∈ intTypes
  · obtain ⟨sg, hi⟩ := hi
    refine ⟨_, readToStack_int hi hl, comes_int hi fun hs => ?_⟩
    rw [hp] at hs ⊢
    have hiv : intVal sg (slice data off w) = if sg then leInt (slice data off w) else leNat (slice data off w) := by
      unfold intVal
      rw [unsignedVal_eq, signedVal_eq]
    rw [hiv]
    split
    · rename_i hb
      have hw : w = 8 ∧ sg = false := by
        rcases hb with rfl | rfl
        · have : (DAX_LWORD, 8, false) ∈ intTypes := by decide
          exact int_det' this hi
        · have : (DAX_ULINT, 8, false) ∈ intTypes := by decide
          exact int_det' this hi
      have hs2 := hs hw
      rw [unsignedVal_eq] at hs2
      obtain ⟨rfl, rfl⟩ := hw
      have : leInt (slice data off 8) = leNat (slice data off 8) := leInt_small (by rw [slice_length hl]; omega)
      rw [this]
      simp only [Bool.false_eq_true, if_false]
      exact .inr ⟨_, rfl, isDbl_ofInt (by simpa using hs2)⟩
    · exact .inl rfl
  · have h3 : (t = DAX_REAL ∧ w = 4) ∨ (t = DAX_TIME ∧ w = 8) ∨ (t = DAX_LREAL ∧ w = 8) := by
      have : ∀ a ∈ elemBytes, (∃ b ∈ intTypes, b.1 = a.1 ∧ b.2.1 = a.2) ∨ (a.1 = DAX_REAL ∧ a.2 = 4) ∨ (a.1 = DAX_TIME ∧ a.2 = 8) ∨ (a.1 = DAX_LREAL ∧ a.2 = 8) := by decide
      rcases this _ h with ⟨⟨a, b, c⟩, h1, h2, h3⟩ | h
      · simp only at h2 h3
        subst h2 h3
        exact absurd ⟨_, h1⟩ hi
      · exact h
    have hr := rd_slice hl
    rcases h3 with ⟨rfl, rfl⟩ | ⟨rfl, rfl⟩ | ⟨rfl, rfl⟩
    · have hb : leNat (slice data off 4) < 2 ^ 32 := by
        have := leNat_lt (slice data off 4)
        rw [slice_length hl] at this
        exact this
      have hreal := hreal rfl
      rw [unsignedVal_eq] at hreal
      obtain ⟨x, f, h1, h2, h3, h4⟩ := trunc_sgl hb hreal
      refine ⟨.num (dblOfInt x), ?_, fun e => absurd e (by decide), fun w sg hm => absurd hm (not_int (by decide)), fun e => absurd e (by decide), fun e => absurd e (by decide),
        fun _ _ hs => ⟨x, ?_⟩, fun e => absurd e (by decide)⟩
      · unfold readToStack
        simp only [DAX_BYTE, DAX_SINT, DAX_CHAR, DAX_WORD, DAX_UINT, DAX_INT, DAX_DWORD, DAX_UDINT, DAX_DINT, DAX_REAL]
        simp only [Nat.reduceEqDiff, if_true, if_false, or_self]
        have hr : rd data (off : Int) 4 = _ := hr
        rw [hr]
        simp only [C.ok_bind]
        rw [h1, castFlt_ok (by omega)]
        rfl
      · rw [hp, unsignedVal_eq] at hs ⊢
        exact ⟨.inr ⟨_, rfl, isDbl_ofInt (h3 hs)⟩, h4⟩
    · refine ⟨.int (leInt (slice data off 8)), ?_, fun e => absurd e (by decide), fun w sg hm => absurd hm (not_int (by decide)), fun _ _ => ?_, fun e => absurd e (by decide),
        fun e => absurd e (by decide), fun e => absurd e (by decide)⟩
      · unfold readToStack
        simp only [DAX_BYTE, DAX_SINT, DAX_CHAR, DAX_WORD, DAX_UINT, DAX_INT, DAX_DWORD, DAX_UDINT, DAX_DINT, DAX_REAL, DAX_LWORD, DAX_ULINT, DAX_TIME]
        simp only [Nat.reduceEqDiff, if_true, if_false, or_self, true_or]
        have hr : rd data (off : Int) 8 = _ := hr
        rw [hr]
        rfl
      · rw [hp, signedVal_eq]
        exact .inl rfl
    · refine ⟨.num (BitVec.ofNat 64 (leNat (slice data off 8))), ?_, fun e => absurd e (by decide), fun w sg hm => absurd hm (not_int (by decide)), fun e => absurd e (by decide),
        fun _ _ => by rw [hp, unsignedVal_eq], fun e => absurd e (by decide), fun e => absurd e (by decide)⟩
      unfold readToStack
      simp only [DAX_BYTE, DAX_SINT, DAX_CHAR, DAX_WORD, DAX_UINT, DAX_INT, DAX_DWORD, DAX_UDINT, DAX_DINT, DAX_REAL, DAX_LWORD, DAX_ULINT, DAX_TIME, DAX_LINT, DAX_LREAL]
      simp only [Nat.reduceEqDiff, if_true, if_false, or_self, true_or]
      have hr : rd data (off : Int) 8 = _ := hr
      rw [hr]
      rfl

theorem readBit_ok {data : List Byte} {off bit : Nat} (h : 8 * off + bit < 8 * data.length) :
    readBit data (off : Int) (bit : Int) = .ok (.bool (bitAt data (8 * off + bit))) := by
  unfold readBit
  have e1 : (off : Int) + (bit : Int).tdiv 8 = ((off + bit / 8 : Nat) : Int) := by
    rw [Int.tdiv_eq_ediv_of_nonneg (by omega)]; omega
  have e2 : ((bit : Int).tmod 8).toNat = bit % 8 := by
    rw [Int.tmod_eq_emod_of_nonneg (by omega)]; omega
  have hr := rd_slice (data := data) (off := off + bit / 8) (w := 1) (by omega)
  have hr : rd data ((off + bit / 8 : Nat) : Int) 1 = _ := hr
  rw [e1, e2, hr]
  simp only [C.ok_bind]
  congr 2
  unfold bitAt bitOf slice
  have e3 : (8 * off + bit) / 8 = off + bit / 8 := by omega
  have e4 : (8 * off + bit) % 8 = bit % 8 := by omega
  rw [e3, e4]
  have hlt : off + bit / 8 < data.length := by omega
  rw [List.getElem?_eq_getElem hlt, List.drop_eq_getElem_cons hlt]
  rfl


theorem get_cons (k : Key) (v : Val) (l : List (Key × Val)) (k' : Key) : get ((k, v) :: l) k' = if k = k' then v else get l k' := rfl

theorem readArray_ok {f : Nat → C Val} {P : Nat → Val → Prop} : ∀ {k n : Nat} {l : List (Key × Val)}, (∀ i, n ≤ i → i < n + k → ∃ v, f i = .ok v ∧ P i v) →
    ∃ l', readArray f k n l = .ok l' ∧ (∀ i : Nat, n ≤ i → i < n + k → P i (get l' (.int (i + 1)))) ∧
      (∀ i : Nat, i < n → get l' (.int (i + 1)) = get l (.int (i + 1)))
  | 0, n, l, _ => ⟨l, rfl, fun i h1 h2 => by omega, fun _ _ => rfl⟩
  | k + 1, n, l, h => by
    obtain ⟨v, h1, h2⟩ := h n (by omega) (by omega)
    obtain ⟨l', h3, h4, h5⟩ := readArray_ok (f := f) (P := P) (k := k) (n := n + 1) (l := (.int (n + 1), v) :: l) (fun i hi hj => h i (by omega) (by omega))
    refine ⟨l', ?_, fun i hi hj => ?_, fun i hi => ?_⟩
    · conv => lhs; unfold readArray
      rw [h1]
      exact h3
    · rcases Nat.eq_or_lt_of_le hi with rfl | hi
      · rw [h5 n (by omega), get_cons, if_pos rfl]
        exact h2
      · exact h4 i hi (by omega)
    · rw [h5 i (by omega), get_cons, if_neg (by simp only [Key.int.injEq]; omega)]

/-- All that is claimed of the value made of `n` elements of type `t` at bit `pos`. -/
def ReadsOK (tbl : List Cdt) (data : List Byte) (t n pos : Nat) (v : Val) : Prop :=
  ∀ ks ty k off, At tbl t n ks ty k off → Comes data ty k (pos + off) (indexed ks) (valAt v ks)

/-- The REALs in it can be converted. -/
def RealsOK (tbl : List Cdt) (data : List Byte) (t n pos : Nat) : Prop :=
  ∀ ks off, At tbl t n ks DAX_REAL 1 off → sglExp (unsignedVal (slice data ((pos + off) / 8) 4)) < 190

theorem At.base {tbl : List Cdt} {t n : Nat} {ks : List Key} {ty k off : Nat} (h : At tbl t n ks ty k off) (hb : ¬ Compound t) :
    (n = 1 ∧ ks = [] ∧ ty = t ∧ k = 1 ∧ off = 0) ∨ (1 < n ∧ ks = [] ∧ ty = t ∧ k = n ∧ off = 0) ∨
    ∃ i e, 1 < n ∧ i < n ∧ ElemBits tbl t e ∧ ks = [.int (i + 1)] ∧ ty = t ∧ k = 1 ∧ off = e * i := by
  cases h with
  | one t h => exact .inl ⟨rfl, rfl, rfl, rfl, rfl⟩
  | all t n h hn => exact .inr (.inl ⟨hn, rfl, rfl, rfl, rfl⟩)
  | elem t n i e ks ty k off hn hi he ha =>
    cases ha with
    | one => exact .inr (.inr ⟨i, e, hn, hi, he, rfl, rfl, rfl, rfl⟩)
    | all _ _ _ h1 => omega
    | elem _ _ _ _ _ _ _ _ h1 => omega
    | member _ _ _ _ _ _ _ _ _ h1 => exact absurd h1 hb
  | member _ _ _ _ _ _ _ _ _ h1 => exact absurd h1 hb

theorem comes_many {data : List Byte} {t n p : Nat} {idx : Prop} {v : Val} (hn : 1 < n) (ht : t ≠ DAX_CHAR) : Comes data t n p idx v :=
  ⟨fun _ e => by omega, fun _ _ _ e => by omega, fun _ e => by omega, fun _ e => by omega, fun _ e => by omega, fun e => absurd e ht⟩

theorem typeBits_elem {t w : Nat} (h : (t, w) ∈ elemBytes) : typeBits t / 8 = w := by
  have : ∀ a ∈ elemBytes, typeBits a.1 / 8 = a.2 := by decide
  exact this _ h

theorem comes_bool {data : List Byte} {p : Nat} {idx : Prop} : Comes data DAX_BOOL 1 p idx (.bool (bitAt data p)) :=
  ⟨fun _ _ => rfl, fun _ _ h => absurd h (not_int (by decide)), fun e => absurd e (by decide), fun e => absurd e (by decide), fun e => absurd e (by decide),
   fun e => absurd e (by decide)⟩

theorem pushBase_ok {tbl : List Cdt} {data : List Byte} {t n e off bit : Nat} (hb : ¬ Compound t) (he : ElemBits tbl t e) (hn : 0 < n) (hbit : t ≠ DAX_BOOL → bit = 0)
    (hl : 8 * off + bit + e * n ≤ 8 * data.length) (hreal : RealsOK tbl data t n (8 * off + bit)) :
    ∃ v, pushBase t n bit data off = .ok v ∧ ReadsOK tbl data t n (8 * off + bit) v := by
  rcases id he with ⟨rfl, rfl⟩ | ⟨w, hw, rfl⟩ | ⟨a, _⟩
  · unfold pushBase
    rw [if_pos rfl]
    by_cases h1 : 1 < n
    · rw [if_pos h1]
      obtain ⟨l, h2, h3, -⟩ := readArray_ok (f := fun n => readBit data off (n + bit)) (P := fun i v => v = .bool (bitAt data (8 * off + bit + i))) (k := n) (n := 0) (l := [])
        (fun i _ hi => by
          have := readBit_ok (data := data) (off := off) (bit := i + bit) (by omega)
          refine ⟨_, this, ?_⟩
          congr 2; omega)
      rw [h2]
      refine ⟨.tbl l, rfl, fun ks ty k o h => ?_⟩
      rcases h.base hb with ⟨h, _⟩ | ⟨_, rfl, rfl, rfl, rfl⟩ | ⟨i, e, _, hi, he', rfl, rfl, rfl, rfl⟩
      · omega
      · exact comes_many h1 (by decide)
      · have := he'.bool rfl
        subst this
        have h3 := h3 i (by omega) (by omega)
        show Comes data DAX_BOOL 1 _ _ (get l (.int (i + 1)))
        rw [h3, Nat.one_mul]
        exact comes_bool
    · rw [if_neg h1, readBit_ok (by omega)]
      refine ⟨_, rfl, fun ks ty k o h => ?_⟩
      rcases h.base hb with ⟨rfl, rfl, rfl, rfl, rfl⟩ | ⟨h, _⟩ | ⟨_, _, h, _⟩
      · exact comes_bool
      · omega
      · omega
  · have hnb : t ≠ DAX_BOOL := elem_notBool hw
    obtain rfl := hbit hnb
    unfold pushBase
    rw [if_neg hnb]
    have hlen : off + w * n ≤ data.length := by
      rw [Nat.mul_assoc] at hl; omega
    by_cases h1 : 1 < n
    · rw [if_pos h1]
      by_cases hc : t = DAX_CHAR
      · subst hc
        have : w = 1 := elem_det hw (by decide)
        subst this
        rw [if_pos rfl, rd_slice (by omega)]
        refine ⟨_, rfl, fun ks ty k o h => ?_⟩
        rcases h.base hb with ⟨h, _⟩ | ⟨_, rfl, rfl, rfl, rfl⟩ | ⟨i, e, _, hi, he', rfl, rfl, rfl, rfl⟩
        · omega
        · refine ⟨fun e => absurd e (by decide), fun _ _ _ e => by omega, fun e => absurd e (by decide), fun e => absurd e (by decide), fun e => absurd e (by decide), fun _ _ => ?_⟩
          have : (8 * off + 0 + 0) / 8 = off := by omega
          rw [this]
          rfl
        · exact ⟨fun e => absurd e (by decide), fun _ _ _ _ h => absurd ⟨_, rfl⟩ (h rfl), fun e => absurd e (by decide), fun e => absurd e (by decide), fun e => absurd e (by decide), fun _ e => by omega⟩
      · rw [if_neg hc, typeBits_elem hw]
        have hmul : ∀ i, i < n → w * i + w ≤ w * n := fun i hi => by
          have : w * (i + 1) ≤ w * n := Nat.mul_le_mul_left _ hi
          rw [Nat.mul_add] at this; omega
        obtain ⟨l, h2, h3, -⟩ := readArray_ok (f := fun n => readToStack t data (off + (w * n : Nat))) (P := fun i v => Comes data t 1 (8 * (off + w * i)) False v) (k := n) (n := 0) (l := [])
          (fun i _ hi => by
            have := hmul i (by omega)
            have := readToStack_ok hw (data := data) (off := off + w * i) (by omega) (fun ht => by
              subst ht
              have := hreal [.int (i + 1)] _ (.elem DAX_REAL n i (8 * w) [] DAX_REAL 1 0 h1 (by omega) he (.one _ hb))
              have e1 : (8 * off + 0 + (8 * w * i + 0)) / 8 = off + w * i := by rw [Nat.mul_assoc]; omega
              rwa [e1] at this)
            have e1 : ((off + w * i : Nat) : Int) = (off : Int) + (w * i : Nat) := by omega
            rwa [e1] at this)
        rw [h2]
        refine ⟨.tbl l, rfl, fun ks ty k o h => ?_⟩
        rcases h.base hb with ⟨h, _⟩ | ⟨_, rfl, rfl, rfl, rfl⟩ | ⟨i, e, _, hi, he', rfl, rfl, rfl, rfl⟩
        · omega
        · exact comes_many h1 hc
        · have := he'.det he
          subst this
          have h3 := h3 i (by omega) (by omega)
          have e1 : 8 * off + 0 + 8 * w * i = 8 * (off + w * i) := by rw [Nat.mul_assoc]; omega
          rw [e1]
          exact comes_true h3
    · rw [if_neg h1]
      have : n = 1 := by omega
      subst this
      obtain ⟨v, h2, h3⟩ := readToStack_ok hw (data := data) (off := off) (by omega) (fun ht => by
        subst ht
        have := hreal [] 0 (.one _ hb)
        have e1 : (8 * off + 0 + 0) / 8 = off := by omega
        rwa [e1] at this)
      refine ⟨v, h2, fun ks ty k o h => ?_⟩
      rcases h.base hb with ⟨_, rfl, rfl, rfl, rfl⟩ | ⟨h, _⟩ | ⟨_, _, h, _⟩
      · exact comes_true h3
      · omega
      · omega
  · exact absurd a hb


/-! ## Reading compound types -/

theorem custom_base {tbl : List Cdt} {t e : Nat} (h : ElemBits tbl t e) (hb : ¬ Compound t) : isCustom t = false := by
  rcases h with ⟨rfl, _⟩ | ⟨w, h, _⟩ | ⟨a, _⟩
  · decide
  · have : ∀ a ∈ elemBytes, isCustom a.1 = false := by decide
    have h2 := this _ h
    simp only at h2
    exact h2
  · exact absurd a hb

theorem at_ne {tbl : List Cdt} {t : Nat} {ks : List Key} {ty k off : Nat} (h : At tbl t 1 ks ty k off) (hc : Compound t) : ks ≠ [] := by
  cases h with
  | one _ h => exact absurd hc h
  | all _ _ h => exact absurd hc h
  | elem _ _ _ _ _ _ _ _ h => omega
  | member => simp

theorem indexed_cons {k : Key} {ks : List Key} (h : ks ≠ []) : indexed (k :: ks) = indexed ks := by
  unfold indexed
  cases ks with
  | nil => exact absurd rfl h
  | cons a l => simp

/-- Reading an element of type `t` does what it should. -/
def RecReads (s : Server) (data : List Byte) (rec : ReadRec) (t : Nat) : Prop :=
  ∀ (c : TypeCache) (off e : Nat), Faithful s c → ElemBits s.cdts t e → 8 * off + e ≤ 8 * data.length → RealsOK s.cdts data t 1 (8 * off) →
    ∃ c' l, rec c t off = .ok (c', l) ∧ Faithful s c' ∧ ReadsOK s.cdts data t 1 (8 * off) (.tbl l)

theorem readElems_gen {rec : ReadRec} {s : Server} {fd : Int} {t : Nat} {off byte : Int} {k n : Nat} {c c1 c2 : TypeCache} {l v : List (Key × Val)} {size x y : Int} {r : C (TypeCache × List (Key × Val))}
    (h1 : ctypeSize s fd c t = .ok (c1, size)) (h2 : mulI32 n size = .ok x) (h3 : addI32 byte x = .ok y) (h4 : rec c1 t (off + y) = .ok (c2, v))
    (h5 : readElems rec s fd t off byte k (n + 1) c2 ((.int (n + 1), .tbl v) :: l) = r) : readElems rec s fd t off byte (k + 1) n c l = r := by
  conv => lhs; unfold readElems
  rw [h1]; simp only [C.ok_bind]
  rw [h2]; simp only [C.ok_bind]
  rw [h3]; simp only [C.ok_bind]
  rw [h4]; simp only [C.ok_bind]
  exact h5

theorem readElems_ok {cap : Nat} {s : Server} (hr : Reachable s) {fd : Int} {data : List Byte} {rec : ReadRec} {t e : Nat} (hf : Fits cap s t) (he : ElemBits s.cdts t e) (hrec : RecReads s data rec t)
    {off byte N : Nat} (hN : byte + e / 8 * N < 2147483648) (hl : 8 * (off + byte) + e * N ≤ 8 * data.length) (h1 : 1 < N) (hreal : RealsOK s.cdts data t N (8 * (off + byte))) :
    ∀ {k n : Nat} {c : TypeCache} {l : List (Key × Val)}, n + k = N → Faithful s c →
    ∃ c' l', readElems rec s fd t (off : Int) (byte : Int) k n c l = .ok (c', l') ∧ Faithful s c' ∧
      (∀ i : Nat, n ≤ i → i < N → ∃ v, get l' (.int (i + 1)) = .tbl v ∧ ReadsOK s.cdts data t 1 (8 * (off + byte) + e * i) (.tbl v)) ∧
      (∀ i : Nat, i < n → get l' (.int (i + 1)) = get l (.int (i + 1)))
  | 0, n, c, l, hk, hc => ⟨c, l, rfl, hc, fun i h1 h2 => by omega, fun _ _ => rfl⟩
  | k + 1, n, c, l, hk, hc => by
    obtain ⟨c1, z, h2, h3, h4, h5⟩ := hf.csize hr he hc (fd := fd)
    subst h4
    have ez : 8 * z / 8 = z := by omega
    rw [ez] at hN
    have hle : z * n + z ≤ z * N := by
      have : z * (n + 1) ≤ z * N := Nat.mul_le_mul_left _ (by omega)
      rw [Nat.mul_add] at this; omega
    have e1 : ∀ i, 8 * (off + byte) + 8 * z * i = 8 * (off + (byte + z * i)) := fun i => by rw [Nat.mul_assoc]; omega
    have hm : mulI32 n z = .ok ((n * z : Nat) : Int) := mulI32_nat (by rw [Nat.mul_comm]; omega)
    have ha : addI32 byte ((n * z : Nat) : Int) = .ok ((byte + n * z : Nat) : Int) := addI32_nat (by rw [Nat.mul_comm n z]; omega)
    obtain ⟨c2, v, h6, h7, h8⟩ := hrec c1 (off + (byte + n * z)) (8 * z) h3 he (by rw [Nat.mul_comm n z]; rw [Nat.mul_assoc] at hl; omega) (fun ks o h => by
      have := hreal _ _ (.elem t N n (8 * z) ks _ _ _ h1 (by omega) he h)
      rw [← Nat.add_assoc, e1, Nat.mul_comm z n] at this
      exact this)
    obtain ⟨c', l', h9, h10, h11, h12⟩ := readElems_ok hr hf he hrec (by rw [ez]; exact hN) hl h1 hreal (k := k) (n := n + 1) (c := c2) (l := (.int (n + 1), .tbl v) :: l) (by omega) h7 (fd := fd)
    have ey : (off : Int) + ((byte + n * z : Nat) : Int) = ((off + (byte + n * z) : Nat) : Int) := by omega
    refine ⟨c', l', readElems_gen h2 hm ha (by rw [ey]; exact h6) h9, h10, fun i hi hj => ?_, fun i hi => ?_⟩
    · rcases Nat.eq_or_lt_of_le hi with rfl | hi
      · refine ⟨v, by rw [h12 n (by omega), get_cons, if_pos rfl], ?_⟩
        rw [e1, Nat.mul_comm z n]
        exact h8
      · exact h11 i hi hj
    · rw [h12 i (by omega), get_cons, if_neg (by simp only [Key.int.injEq]; omega)]

theorem elems_reads {s : Server} {data : List Byte} {t e N pos : Nat} (hc : Compound t) (he : ElemBits s.cdts t e) (h1 : 1 < N) {l : List (Key × Val)}
    (h : ∀ i : Nat, i < N → ∃ v, get l (.int (i + 1)) = .tbl v ∧ ReadsOK s.cdts data t 1 (pos + e * i) (.tbl v)) : ReadsOK s.cdts data t N pos (.tbl l) := by
  intro ks ty k o ha
  cases ha with
  | one _ h => omega
  | all _ _ h => exact absurd hc h
  | elem _ _ i e' ks _ _ off _ hi he' ha =>
    have := he'.det he
    subst this
    obtain ⟨v, h2, h3⟩ := h i hi
    rw [indexed_cons (at_ne ha hc), ← Nat.add_assoc]
    have : valAt (.tbl l) (.int (i + 1) :: ks) = valAt (.tbl v) ks := by
      show valAt (get l (.int (i + 1))) ks = _
      rw [h2]
    rw [this]
    exact h3 _ _ _ _ ha
  | member => omega

/-- The value of a member, or of a whole tag: `n` elements of type `t` at byte `byte` and bit `bit` behind `off`. -/
theorem readValue_ok {cap : Nat} {s : Server} (hr : Reachable s) {fd : Int} {data : List Byte} {rec : ReadRec} {nm : Name} {t n e : Nat} (hf : Compound t → Fits cap s t) (he : ElemBits s.cdts t e)
    (hrec : Compound t → RecReads s data rec t) (hn : 0 < n) {off byte bit : Nat} (hbit : t ≠ DAX_BOOL → bit = 0) (hN : byte + e / 8 * n < 2147483648)
    (hl : 8 * (off + byte) + bit + e * n ≤ 8 * data.length) (hreal : RealsOK s.cdts data t n (8 * (off + byte) + bit)) {c : TypeCache} (hc : Faithful s c) :
    ∃ c' v, readValue rec s fd data off c ⟨nm, t, n, byte, bit⟩ = .ok (c', v) ∧ Faithful s c' ∧ ReadsOK s.cdts data t n (8 * (off + byte) + bit) v := by
  unfold readValue
  have eo : (off : Int) + (byte : Int) = ((off + byte : Nat) : Int) := by omega
  by_cases hct : Compound t
  · obtain rfl := hbit (compound_notBool hct)
    simp only [custom_iff t hct, if_true]
    by_cases h1 : 1 < n
    · obtain ⟨c', l, h2, h3, h4, -⟩ := readElems_ok hr (hf hct) he (hrec hct) hN (by omega) h1 hreal (k := n) (n := 0) (c := c) (l := []) (by omega) hc (fd := fd)
      simp only [gt_iff_lt, h1, if_true]
      rw [h2]
      exact ⟨c', .tbl l, rfl, h3, elems_reads hct he h1 fun i hi => h4 i (by omega) hi⟩
    · have : n = 1 := by omega
      subst this
      obtain ⟨c', l, h2, h3, h4⟩ := hrec hct c (off + byte) e hc he (by omega) hreal
      simp only [gt_iff_lt, h1, if_false]
      rw [eo, h2]
      exact ⟨c', .tbl l, rfl, h3, h4⟩
  · simp only [custom_base he hct, Bool.false_eq_true, if_false]
    obtain ⟨v, h2, h3⟩ := pushBase_ok hct he hn hbit hl hreal
    rw [eo, h2]
    exact ⟨c, v, rfl, hc, h3⟩

theorem readMembers_ok {cap : Nat} {s : Server} (hr : Reachable s) {fd : Int} {data : List Byte} {rec : ReadRec} {off : Nat} {ms : List Member} {p : Nat} {its : List Iter}
    (hL : Listed s.cdts ms p its) : ∀ {q : Nat} {c : TypeCache} {l : List (Key × Val)}, Ends s.cdts ms p q → q ≤ 2147483600 → 8 * off + q ≤ 8 * data.length →
    ms.Pairwise (fun a b => a.name ≠ b.name) → (∀ m ∈ ms, 0 < m.count) → (∀ m ∈ ms, Compound m.type → Fits cap s m.type) → (∀ m ∈ ms, Compound m.type → RecReads s data rec m.type) →
    (∀ n m r, Before s.cdts ms p n m r → RealsOK s.cdts data m.type m.count (8 * off + place m r)) → Faithful s c →
    ∃ c' l', readMembers rec s fd data off its c l = .ok (c', l') ∧ Faithful s c' ∧
      (∀ n m r, Before s.cdts ms p n m r → ReadsOK s.cdts data m.type m.count (8 * off + place m r) (get l' (.str n))) ∧
      (∀ n, (∀ m ∈ ms, m.name ≠ n) → get l' (.str n) = get l (.str n)) := by
  induction hL with
  | nil p => exact fun {q c l} _ _ _ _ _ _ _ _ hc => ⟨c, l, rfl, hc, fun _ _ _ h => (by cases h), fun _ _ => rfl⟩
  | cons m ms p e byte bit its he hbit hpos hL ih =>
    intro q c l hE hq hl hu hcnt hf hrec hreal hc
    cases hE with
    | cons _ _ _ e' _ he' hE =>
      have := he'.det he
      subst this
      have hge := hE.ge
      have hu' := List.pairwise_cons.mp hu
      have hbit0 : m.type ≠ DAX_BOOL → bit = 0 := fun hb => by
        unfold place at hpos
        rw [if_neg hb] at hpos
        have := align8_ge p
        omega
      have hsz : byte + e' / 8 * m.count < 2147483648 := by
        by_cases hb : m.type = DAX_BOOL
        · have := he.bool hb
          subst this
          simp only [Nat.reduceDiv, Nat.zero_mul]; omega
        · have h8 := he.bytes hb
          have : e' * m.count = 8 * (e' / 8 * m.count) := by
            have : e' = 8 * (e' / 8) := by omega
            rw [← Nat.mul_assoc, ← this]
          omega
      have e1 : 8 * (off + byte) + bit = 8 * off + place m p := by omega
      obtain ⟨c1, v, h1, h2, h3⟩ := readValue_ok hr (nm := m.name) (hf m (.head _)) he (hrec m (.head _)) (hcnt m (.head _)) (off := off) (byte := byte) (bit := bit) hbit0 hsz (by omega)
        (by rw [e1]; exact hreal _ _ _ (.here m ms p)) hc (fd := fd)
      rw [e1] at h3
      obtain ⟨c', l', h4, h5, h6, h7⟩ := ih (c := c1) (l := (.str m.name, v) :: l) hE hq hl hu'.2 (fun x hx => hcnt x (.tail _ hx)) (fun x hx => hf x (.tail _ hx)) (fun x hx => hrec x (.tail _ hx))
        (fun n x r hb => hreal n x r (.later m ms p e' n x r (by rw [hb.name]; exact (hu'.1 x hb.mem).symm) he hb)) h2
      have hm : readMembers rec s fd data off (⟨m.name, m.type, m.count, byte, bit⟩ :: its) c l = .ok (c', l') := by
        conv => lhs; unfold readMembers
        rw [h1]
        exact h4
      refine ⟨c', l', hm, h5, fun n x r hb => ?_, fun n hx => ?_⟩
      · cases hb with
        | here => rw [h7 m.name (fun y hy => (hu'.1 y hy).symm), get_cons, if_pos rfl]; exact h3
        | later _ _ _ e2 _ _ _ hn he2 hb =>
          have := he2.det he
          subst this
          exact h6 n x r hb
      · rw [h7 n (fun y hy => hx y (.tail _ hy)), get_cons, if_neg (by simp only [Key.str.injEq]; exact hx m (.head _))]

theorem strcaseeq_self (n : Name) : strcaseeq n n = true := by simp [strcaseeq]

theorem members_uniq {s : Server} (hr : Reachable s) {i : Nat} {d : Cdt} (h : s.cdts[i]? = some d) : d.members.Pairwise (fun a b => a.name ≠ b.name) := by
  have := hr.wf.cdts.muniq d (List.mem_of_getElem? h)
  refine this.imp fun {a b} hab hn => ?_
  rw [hn, strcaseeq_self] at hab
  cases hab

theorem member_type_lt {s : Server} (hr : Reachable s) {t : Nat} (hc : Compound t) {d : Cdt} (hd : s.cdts[t - 2147483648]? = some d) {m : Member} (hm : m ∈ d.members) : m.type < t := by
  have hc := hc.1
  rcases hr.wf.cdts.acyc _ _ hd m hm with h | ⟨j, hj, h⟩
  · have hall : ∀ t ∈ baseTypes, t < 2147483648 := by decide
    exact Nat.lt_of_lt_of_le (hall _ h) hc
  · have : DAX_CUSTOM = 2147483648 := rfl
    rw [h]; unfold cdtToType; omega

theorem fuel_step {a b f K : Nat} (h : b - K < f + 1) (h1 : a < b) (h2 : K ≤ a) : a - K < f := by omega

theorem readStruct_ok {cap : Nat} {s : Server} (hr : Reachable s) {fd : Int} {data : List Byte} {fuel : Nat} : ∀ {t : Nat}, t - 2147483648 < fuel → Fits cap s t →
    (∀ e, ElemBits s.cdts t e → e ≤ 2147483600) → RecReads s data (readStruct s fd data fuel) t := by
  induction fuel with
  | zero => exact fun h => absurd h (Nat.not_lt_zero _)
  | succ fuel ih =>
    intro t hfu hf hsm c off e hc he hl hreal
    obtain ⟨d, q, K⟩ := hf.known hr.wf
    have heq : e = 8 * ((q + 7) / 8) := he.det K.elem
    have hq := hsm e he
    obtain ⟨c1, its, h1, h2, h3⟩ := cdtIter_ok hr K hc (fd := fd) (by omega)
    have hu := members_uniq hr K.ent
    have hin : ∀ m ∈ d.members, Compound m.type → RecReads s data (readStruct s fd data fuel) m.type := fun m hm hcm => by
      have hlt := member_type_lt hr K.comp K.ent hm
      have hlt2 : m.type - 2147483648 < fuel := fuel_step hfu hlt hcm.1
      refine ih hlt2 (K.sub m hm hcm) fun e' he' => ?_
      obtain ⟨e2, he2, hle⟩ := K.ends.elem m hm
      have := he2.det he'
      subst this
      have := (K.counts m hm).1
      have : e2 * 1 ≤ e2 * m.count := Nat.mul_le_mul_left _ this
      omega
    obtain ⟨c', l, h4, h5, h6, -⟩ := readMembers_ok hr h3 (fd := fd) (data := data) (rec := readStruct s fd data fuel) (off := off) (c := c1) (l := []) K.ends (by omega) (by omega) hu
      (fun m hm => (K.counts m hm).1) K.sub hin (fun n m r hb ks o h => by
        have := hreal (.str n :: ks) _ (.member t d n m r ks _ _ _ K.comp K.ent hb h)
        rwa [← Nat.add_assoc] at this) h2
    refine ⟨c', l, ?_, h5, fun ks ty k o ha => ?_⟩
    · conv => lhs; unfold readStruct
      rw [h1]
      exact h4
    · cases ha with
      | one _ h => exact absurd K.comp h
      | all _ _ h => exact absurd K.comp h
      | elem _ _ _ _ _ _ _ _ h => omega
      | member _ d' n m r ks _ _ o hc' hd hb ha =>
        have := K.det hd
        subst this
        have h7 := h6 n m r hb _ _ _ _ ha
        rw [← Nat.add_assoc]
        have hv : valAt (.tbl l) (.str n :: ks) = valAt (get l (.str n)) ks := rfl
        rw [hv]
        refine ⟨h7.bool, fun w sg a b cc => h7.int w sg a b fun e i => cc e ?_, h7.time, h7.lreal, h7.real, h7.text⟩
        cases ks with
        | nil => obtain ⟨_, i⟩ := i; cases i
        | cons k ks => rw [indexed_cons (by simp)]; exact i


/-! ## Bits -/

theorem bitAt_get {d : List Byte} {b : Nat} {x : Byte} (h : d[b / 8]? = some x) : bitAt d b = x.getLsbD (b % 8) := by
  unfold bitAt bitOf
  rw [h]

theorem bitAt_congr {d d' : List Byte} {b : Nat} (h : d'[b / 8]? = d[b / 8]?) : bitAt d' b = bitAt d b := by
  unfold bitAt bitOf
  rw [h]

theorem slice_bits {d d' : List Byte} {o w : Nat} (hl : d'.length = d.length) (h : ∀ b, 8 * o ≤ b → b < 8 * o + 8 * w → bitAt d' b = bitAt d b) : slice d' o w = slice d o w := by
  unfold slice
  apply List.ext_getElem?
  intro i
  rw [List.getElem?_take, List.getElem?_take]
  split
  · rename_i hi
    rw [List.getElem?_drop, List.getElem?_drop]
    by_cases hlt : o + i < d.length
    · rw [List.getElem?_eq_getElem hlt, List.getElem?_eq_getElem (by omega)]
      congr 1
      apply BitVec.eq_of_getLsbD_eq
      intro j hj
      have := h (8 * (o + i) + j) (by omega) (by omega)
      have e1 : (8 * (o + i) + j) / 8 = o + i := by omega
      have e2 : (8 * (o + i) + j) % 8 = j := by omega
      rw [bitAt_get (d := d) (by rw [e1]; exact List.getElem?_eq_getElem hlt), bitAt_get (d := d') (by rw [e1]; exact List.getElem?_eq_getElem (by omega)), e2] at this
      exact this
    · rw [List.getElem?_eq_none (by omega), List.getElem?_eq_none (by omega)]
  · rfl

theorem Goes.congr {env : LuaEnv} {ty p e : Nat} {v : Val} {d m d1 m1 d0 m0 d2 m2 : List Byte} (h : Goes env ty p v d m d1 m1) (hw : Width ty e) (ha : ty ≠ DAX_BOOL → p % 8 = 0)
    (h0 : ∀ b, p ≤ b → b < p + e → bitAt d0 b = bitAt d b ∧ bitAt m0 b = bitAt m b) (h2 : ∀ b, p ≤ b → b < p + e → bitAt d2 b = bitAt d1 b ∧ bitAt m2 b = bitAt m1 b)
    (hl : d2.length = d1.length) : Goes env ty p v d0 m0 d2 m2 := by
  have det : ∀ e', Width ty e' → e' = e := fun e' h' => by
    have lift : ∀ x, Width ty x → ElemBits [] ty x := fun x hx => by
      rcases hx with h | h
      · exact .inl h
      · exact .inr (.inl h)
    exact (lift _ h').det (lift _ hw)
  have hs : ∀ w, e = 8 * w → ty ≠ DAX_BOOL → slice d2 (p / 8) w = slice d1 (p / 8) w := fun w he hb => by
    have := ha hb
    exact slice_bits hl fun b h1 h3 => (h2 b (by omega) (by omega)).1
  refine ⟨fun hv e' he' b h1 h3 => ?_, fun hv e' he' b h1 h3 => ?_, fun hv hb => ?_, fun w sg x hi hn => ?_, fun hv ht => ?_, fun hv ht => ?_⟩
  · have := det e' he'; subst this
    have := h.kept hv _ hw b h1 h3
    unfold Changed at this ⊢
    rw [(h0 b h1 h3).1, (h0 b h1 h3).2, (h2 b h1 h3).1, (h2 b h1 h3).2]
    exact this
  · have := det e' he'; subst this
    rw [(h2 b h1 h3).2]
    exact h.masked hv _ hw b h1 h3
  · have he : e = 1 := (det 1 (.inl ⟨hb, rfl⟩)).symm
    rw [(h2 p (by omega) (by omega)).1]
    exact h.bool hv hb
  · have := int_elem hi
    rw [hs w (det _ (.inr ⟨w, this.1, rfl⟩)).symm (int_not hi).1]
    exact h.int w sg x hi hn
  · subst ht
    rw [hs 8 (det _ (.inr ⟨8, by decide, rfl⟩)).symm (by decide)]
    exact h.lreal hv rfl
  · subst ht
    rw [hs 4 (det _ (.inr ⟨4, by decide, rfl⟩)).symm (by decide)]
    exact h.real hv rfl

/-! ## Sets of items -/

/-- What has become of a set of items: those at bit `p`, of type `ty`, to be given the value `v`. -/
structure Done (env : LuaEnv) (Q : Nat → Nat → Val → Prop) (w w' : W) : Prop where
  dlen : w'.data.length = w.data.length
  mlen : w'.mask.length = w.mask.length
  frame : ∀ b, Changed w.data w.mask w'.data w'.mask b → ∃ p ty v e, Q p ty v ∧ v ≠ .nil ∧ Width ty e ∧ p ≤ b ∧ b < p + e
  goes : ∀ p ty v, Q p ty v → Goes env ty p v w.data w.mask w'.data w'.mask

/-- The items are between two bits, and at whole bytes if they are not BOOLs. -/
structure Lies (Q : Nat → Nat → Val → Prop) (a z : Nat) : Prop where
  width : ∀ p ty v, Q p ty v → ∃ e, Width ty e ∧ a ≤ p ∧ p + e ≤ z
  align : ∀ p ty v, Q p ty v → ty ≠ DAX_BOOL → p % 8 = 0

theorem width_det {ty e e' : Nat} (h : Width ty e) (h' : Width ty e') : e = e' := by
  have lift : ∀ x, Width ty x → ElemBits [] ty x := fun x hx => by
    rcases hx with h | h
    · exact .inl h
    · exact .inr (.inl h)
  exact (lift _ h).det (lift _ h')

theorem not_changed {d m d' m' : List Byte} {b : Nat} (h : ¬ Changed d m d' m' b) : bitAt d' b = bitAt d b ∧ bitAt m' b = bitAt m b := by
  unfold Changed at h
  constructor
  · apply Classical.byContradiction
    exact fun h1 => h (.inl h1)
  · apply Classical.byContradiction
    exact fun h1 => h (.inr h1)

theorem Done.within {env : LuaEnv} {Q : Nat → Nat → Val → Prop} {w w' : W} {a z : Nat} (h : Done env Q w w') (hl : Lies Q a z) {b : Nat} (hb : b < a ∨ z ≤ b) :
    bitAt w'.data b = bitAt w.data b ∧ bitAt w'.mask b = bitAt w.mask b := by
  apply not_changed
  intro hc
  obtain ⟨p, ty, v, e, h1, _, h3, h4, h5⟩ := h.frame b hc
  obtain ⟨e', h6, h7, h8⟩ := hl.width p ty v h1
  have := width_det h3 h6
  omega

theorem Done.seq {env : LuaEnv} {Q1 Q2 Q : Nat → Nat → Val → Prop} {w w1 w2 : W} {a m z : Nat} (h1 : Done env Q1 w w1) (h2 : Done env Q2 w1 w2) (l1 : Lies Q1 a m) (l2 : Lies Q2 m z)
    (hQ : ∀ p ty v, Q p ty v ↔ Q1 p ty v ∨ Q2 p ty v) : Done env Q w w2 := by
  refine ⟨h2.dlen.trans h1.dlen, h2.mlen.trans h1.mlen, fun b hc => ?_, fun p ty v hq => ?_⟩
  · by_cases hb : Changed w.data w.mask w1.data w1.mask b
    · obtain ⟨p, ty, v, e, h3, h4⟩ := h1.frame b hb
      exact ⟨p, ty, v, e, (hQ p ty v).mpr (.inl h3), h4⟩
    · have h3 := not_changed hb
      have hc2 : Changed w1.data w1.mask w2.data w2.mask b := by
        unfold Changed at hc ⊢
        rwa [h3.1, h3.2]
      obtain ⟨p, ty, v, e, h3, h4⟩ := h2.frame b hc2
      exact ⟨p, ty, v, e, (hQ p ty v).mpr (.inr h3), h4⟩
  · rcases (hQ p ty v).mp hq with hq | hq
    · obtain ⟨e, h3, h4, h5⟩ := l1.width p ty v hq
      exact (h1.goes p ty v hq).congr h3 (l1.align p ty v hq) (fun _ _ _ => ⟨rfl, rfl⟩) (fun b hb1 hb2 => h2.within l2 (.inl (by omega))) h2.dlen
    · obtain ⟨e, h3, h4, h5⟩ := l2.width p ty v hq
      exact (h2.goes p ty v hq).congr h3 (l2.align p ty v hq) (fun b hb1 hb2 => ⟨(h1.within l1 (.inr (by omega))).1.symm, (h1.within l1 (.inr (by omega))).2.symm⟩)
        (fun _ _ _ => ⟨rfl, rfl⟩) rfl

theorem Done.iff {env : LuaEnv} {Q Q' : Nat → Nat → Val → Prop} {w w' : W} (h : Done env Q w w') (hQ : ∀ p ty v, Q' p ty v ↔ Q p ty v) : Done env Q' w w' :=
  ⟨h.dlen, h.mlen, fun b hb => by
    obtain ⟨p, ty, v, e, h1, h2⟩ := h.frame b hb
    exact ⟨p, ty, v, e, (hQ p ty v).mpr h1, h2⟩, fun p ty v hq => h.goes p ty v ((hQ p ty v).mp hq)⟩

theorem goes_nil {env : LuaEnv} {ty p : Nat} {d m : List Byte} : Goes env ty p .nil d m d m :=
  ⟨fun _ _ _ _ _ _ h => by rcases h with h | h <;> exact h rfl, fun h => absurd rfl h, fun h => absurd rfl h,
   fun _ _ _ _ h => (by rcases h with h | ⟨_, h, _⟩ <;> cases h), fun h => absurd rfl h, fun h => absurd rfl h⟩

/-- Nothing is done for items that are all to be given nil. -/
theorem Done.none {env : LuaEnv} {Q : Nat → Nat → Val → Prop} {w w' : W} (hd : w'.data = w.data) (hm : w'.mask = w.mask) (h : ∀ p ty v, Q p ty v → v = .nil) : Done env Q w w' := by
  refine ⟨by rw [hd], by rw [hm], fun b hb => ?_, fun p ty v hq => ?_⟩
  · unfold Changed at hb
    rw [hd, hm] at hb
    rcases hb with hb | hb <;> exact absurd rfl hb
  · rw [h p ty v hq, hd, hm]
    exact goes_nil

/-- Only the buffers count. -/
theorem Done.stack {env : LuaEnv} {Q : Nat → Nat → Val → Prop} {w w' u u' : W} (h : Done env Q w w') (h1 : u.data = w.data) (h2 : u.mask = w.mask) (h3 : u'.data = w'.data)
    (h4 : u'.mask = w'.mask) : Done env Q u u' :=
  ⟨by rw [h1, h3]; exact h.dlen, by rw [h2, h4]; exact h.mlen, by rw [h1, h2, h3, h4]; exact h.frame, by rw [h1, h2, h3, h4]; exact h.goes⟩

/-- The items in `n` elements of type `t` at bit `pos`, with their values in `v`. -/
def Items (tbl : List Cdt) (t n pos : Nat) (v : Val) (p ty : Nat) (u : Val) : Prop := ∃ ks off, At tbl t n ks ty 1 off ∧ p = pos + off ∧ u = valAt v ks

theorem valAt_nil (ks : List Key) : valAt .nil ks = .nil := by
  induction ks with
  | nil => rfl
  | cons k ks ih => exact ih


theorem At.within {cap : Nat} {s : Server} (hr : Reachable s) {t n : Nat} {ks : List Key} {ty k off : Nat} (h : At s.cdts t n ks ty k off) :
    ∀ {e : Nat}, k = 1 → (Compound t → Fits cap s t) → ElemBits s.cdts t e → ∃ e', Width ty e' ∧ off + e' ≤ e * n ∧ (ty ≠ DAX_BOOL → off % 8 = 0) := by
  induction h with
  | one t hb =>
    intro e _ _ he
    refine ⟨e, ?_, by omega, fun _ => rfl⟩
    rcases he with h | h | ⟨h, _⟩
    · exact .inl h
    · exact .inr h
    · exact absurd h hb
  | all t n _ hn => intro e hk; omega
  | elem t n i e0 ks ty k off hn hi he0 ha ih =>
    intro e hk hf he
    have := he0.det he
    subst this
    obtain ⟨e', h1, h2, h3⟩ := ih hk hf he
    refine ⟨e', h1, ?_, fun hty => ?_⟩
    · have : e0 * (i + 1) ≤ e0 * n := Nat.mul_le_mul_left _ hi
      rw [Nat.mul_add] at this
      omega
    · have htb : t ≠ DAX_BOOL := fun hb => by
        subst hb
        rcases ha.base (fun h => compound_notBool h rfl) with ⟨_, _, h, _⟩ | ⟨_, _, h, _⟩ | ⟨_, _, _, _, _, _, h, _⟩ <;> exact hty h
      have h8 := he.bytes htb
      have := h3 hty
      have : e0 * i % 8 = 0 := by rw [Nat.mul_mod, h8]; simp
      omega
  | member t d name m r ks ty k off hc hd hb ha ih =>
    intro e hk hf he
    obtain ⟨d', q, K⟩ := (hf hc).known hr.wf
    have := K.det hd
    subst this
    have heq : e = 8 * ((q + 7) / 8) := he.det K.elem
    obtain ⟨em, hem, -⟩ := K.ends.elem m hb.mem
    obtain ⟨e', h1, h2, h3⟩ := ih hk (K.sub m hb.mem) hem
    have hle := (hb.le K.ends hem).2
    refine ⟨e', h1, by omega, fun hty => ?_⟩
    have := h3 hty
    have hmb : m.type ≠ DAX_BOOL := fun hmb => by
      rw [hmb] at ha
      rcases ha.base (fun h => compound_notBool h rfl) with ⟨_, _, h, _⟩ | ⟨_, _, h, _⟩ | ⟨_, _, _, _, _, _, h, _⟩ <;> exact hty h
    unfold place
    rw [if_neg hmb]
    have := align8_ge r
    omega

theorem items_lie {cap : Nat} {s : Server} (hr : Reachable s) {t n pos e : Nat} {v : Val} (hf : Compound t → Fits cap s t) (he : ElemBits s.cdts t e) (hp : t ≠ DAX_BOOL → pos % 8 = 0) :
    Lies (Items s.cdts t n pos v) pos (pos + e * n) := by
  refine ⟨fun p ty u h => ?_, fun p ty u h hty => ?_⟩ <;> obtain ⟨ks, off, ha, rfl, rfl⟩ := h <;> obtain ⟨e', h1, h2, h3⟩ := ha.within hr rfl hf he
  · exact ⟨e', h1, by omega, by omega⟩
  · have htb : t ≠ DAX_BOOL := fun hb => by
      subst hb
      rcases ha.base (fun h => compound_notBool h rfl) with ⟨_, _, h, _⟩ | ⟨_, _, h, _⟩ | ⟨_, _, _, _, _, _, h, _⟩ <;> exact hty h
    have := h3 hty
    have := hp htb
    omega


/-! ## Writing base types -/

theorem intVal_bytes {t w : Nat} {sg : Bool} (h : (t, w, sg) ∈ intTypes) {x : Int}
    (hx : if sg then -(256 ^ w : Nat) ≤ 2 * x ∧ 2 * x < (256 ^ w : Nat) else 0 ≤ x ∧ x < (256 ^ w : Nat)) : intVal sg (intBytes w x) = x := by
  have hw : w = 1 ∨ w = 2 ∨ w = 4 ∨ w = 8 := by
    have : ∀ a ∈ intTypes, a.2.1 = 1 ∨ a.2.1 = 2 ∨ a.2.1 = 4 ∨ a.2.1 = 8 := by decide
    exact this _ h
  have hm : leNat (intBytes w x) = (x % (256 ^ w : Nat)).toNat % 256 ^ w := leNat_toLE _ _
  have hlen : (intBytes w x).length = w := toLE_length _ _
  unfold intVal
  rw [unsignedVal_eq, signedVal_eq]
  unfold leInt
  rw [hm, hlen]
  rcases hw with rfl | rfl | rfl | rfl <;> cases sg <;>
    simp only [Bool.false_eq_true, if_false, if_true, Nat.reducePow, Nat.reduceMul, Nat.reduceSub] at hx ⊢ <;> (try split) <;> omega

theorem num_trunc {env : LuaEnv} {v : Val} {x : Int} (h : IsNum v x) (hx : x.natAbs < 2 ^ 53) : fltTrunc 52 11 (toNumber env v).toNat = some (x, true) := by
  rcases h with rfl | ⟨d, rfl, h⟩
  · exact trunc_dbl (isDbl_ofInt hx)
  · exact trunc_dbl h

theorem num_int {env : LuaEnv} {v : Val} {x : Int} (h : IsNum v x) (hx : x.natAbs < 2 ^ 53) : toInteger env v = x := by
  rcases h with rfl | ⟨d, rfl, h⟩
  · rfl
  · unfold toInteger asNumber
    simp only
    rw [trunc_dbl h]
    simp only
    rw [if_pos (by omega)]

theorem num_det {v : Val} {x y : Int} (h : IsNum v x) (h' : IsNum v y) : x = y := by
  rcases h with rfl | ⟨d, rfl, h⟩ <;> rcases h' with h' | ⟨d', h', h2⟩ <;> cases h'
  · rfl
  · have := trunc_dbl h
    rw [trunc_dbl h2] at this
    simp only [Option.some.injEq, Prod.mk.injEq, and_true] at this
    exact this.symm

/-- Bytes stored at `off`, with the mask. -/
structure Stored (w w' : W) (off : Nat) (d : List Byte) : Prop where
  stack : w'.stack = w.stack
  dlen : w'.data.length = w.data.length
  mlen : w'.mask.length = w.mask.length
  out : ∀ b, b < 8 * off ∨ 8 * off + 8 * d.length ≤ b → ¬ Changed w.data w.mask w'.data w'.mask b
  ins : ∀ b, 8 * off ≤ b → b < 8 * off + 8 * d.length → bitAt w'.mask b = true
  val : slice w'.data off d.length = d

theorem wr_nat {b d : List Byte} {off : Nat} (h : off + d.length ≤ b.length) : ∃ b', wr b (off : Int) d = .ok b' ∧ b'.length = b.length ∧
    (∀ i, b'[i]? = if off ≤ i ∧ i < off + d.length then d[i - off]? else b[i]?) := by
  have h1 : wr b (off : Int) d = .ok (b.take (off : Int).toNat ++ d ++ b.drop ((off : Int).toNat + d.length)) := by
    unfold wr
    rw [if_pos (by omega)]
  refine ⟨_, h1, wr_length h1, fun i => ?_⟩
  have := wr_get h1 i
  simpa using this

theorem store_ok {w : W} {off : Nat} {d : List Byte} (h1 : off + d.length ≤ w.data.length) (h2 : off + d.length ≤ w.mask.length) :
    ∃ w', store w off d = .ok w' ∧ Stored w w' off d := by
  obtain ⟨d', a1, a2, a3⟩ := wr_nat h1
  obtain ⟨m', b1, b2, b3⟩ := wr_nat (b := w.mask) (d := List.replicate d.length 0xFF) (off := off) (by simpa using h2)
  rw [List.length_replicate] at b3
  have hs : store w off d = .ok { w with data := d', mask := m' } := by
    unfold store
    rw [a1]; simp only [C.ok_bind]
    rw [b1]; rfl
  refine ⟨_, hs, rfl, a2, b2, fun b hb => ?_, fun b hb1 hb2 => ?_, ?_⟩
  · unfold Changed
    have e1 : bitAt d' b = bitAt w.data b := bitAt_congr (by rw [a3, if_neg (by omega)])
    have e2 : bitAt m' b = bitAt w.mask b := bitAt_congr (by rw [b3, if_neg (by omega)])
    show ¬ (bitAt d' b ≠ _ ∨ bitAt m' b ≠ _)
    rw [e1, e2]
    simp
  · have : m'[b / 8]? = some 0xFF := by
      rw [b3, if_pos (by omega), List.getElem?_replicate, if_pos (by omega)]
    show bitAt m' b = true
    rw [bitAt_get this]
    have hb3 : b % 8 < 8 := Nat.mod_lt _ (by omega)
    generalize b % 8 = j at hb3
    have : ∀ j : Fin 8, (0xFF#8).getLsbD j.val = true := by decide
    exact this ⟨j, hb3⟩
  · show slice d' off d.length = d
    unfold slice
    apply List.ext_getElem?
    intro i
    rw [List.getElem?_take]
    split
    · rename_i hi
      rw [List.getElem?_drop, a3, if_pos (by omega)]
      congr 1; omega
    · rw [List.getElem?_eq_none (by omega)]

/-- What storing the right bytes does for an item that is no BOOL. -/
theorem Stored.done {env : LuaEnv} {tbl : List Cdt} {w w' : W} {off t k : Nat} {d : List Byte} {v : Val} (h : Stored w w' off d) (hk : (t, k) ∈ elemBytes) (hd : d.length = k) (hv : v ≠ .nil)
    (hi : ∀ sg x, (t, k, sg) ∈ intTypes → IsNum v x → intVal sg d = x) (hlr : t = DAX_LREAL → ∃ x, IsReal v x ∧ unsignedVal d = x.toNat)
    (hre : t = DAX_REAL → ∃ x, IsReal v x ∧ unsignedVal d = (env.toSingle x).toNat) : Done env (Items tbl t 1 (8 * off) v) w w' := by
  have hnc := elem_notCompound hk
  have he : 8 * off / 8 = off := by omega
  refine ⟨h.dlen, h.mlen, fun b hb => ?_, fun p ty u hq => ?_⟩
  · refine ⟨8 * off, t, v, 8 * k, ⟨[], 0, .one t hnc, rfl, rfl⟩, hv, .inr ⟨k, hk, rfl⟩, ?_⟩
    apply Classical.byContradiction
    intro hn
    exact h.out b (by omega) hb
  · obtain ⟨ks, o, ha, rfl, rfl⟩ := hq
    rcases ha.base hnc with ⟨_, rfl, rfl, _, rfl⟩ | ⟨h, _⟩ | ⟨_, _, h, _⟩
    · have hw : ∀ e, Width ty e → e = 8 * k := fun e h' => width_det h' (.inr ⟨k, hk, rfl⟩)
      have hval : slice w'.data ((8 * off + 0) / 8) k = d := by rw [Nat.add_zero, he, ← hd]; exact h.val
      refine ⟨fun e => absurd e hv, fun _ e hw' b h1 h2 => ?_, fun _ hb => absurd hb (elem_notBool hk), fun w2 sg x hi' hn => ?_, fun _ ht => ?_, fun _ ht => ?_⟩
      · have := hw e hw'
        subst this
        exact h.ins b (by omega) (by omega)
      · have : w2 = k := elem_det (int_elem hi').1 hk
        subst this
        rw [hval]
        exact hi sg x hi' hn
      · have : k = 8 := elem_det hk (by rw [ht]; decide)
        rw [this] at hval
        rw [hval]
        exact hlr ht
      · have : k = 4 := elem_det hk (by rw [ht]; decide)
        rw [this] at hval
        rw [hval]
        exact hre ht
    · omega
    · omega

theorem top_ok {w : W} {v : Val} {r : List Val} (h : w.stack = v :: r) : top w = .ok v := by
  unfold top; rw [h]

theorem not_num_nil {x : Int} : ¬ IsNum .nil x := by
  rintro (h | ⟨_, h, _⟩) <;> cases h

theorem toReal {env : LuaEnv} {v : Val} {d : BitVec 64} (h : IsReal v d) : v ≠ .nil ∧ IsReal v (toNumber env v) := by
  rcases h with rfl | ⟨x, hx, rfl, h⟩
  · exact ⟨by simp, .inl rfl⟩
  · exact ⟨by simp, .inr ⟨x, hx, rfl, isDbl_ofInt hx⟩⟩

theorem suits_int {t w : Nat} {sg : Bool} {v : Val} (h : Suits t v) (hi : (t, w, sg) ∈ intTypes) :
    ∃ x, IsNum v x ∧ x.natAbs < 2 ^ 53 ∧ (if sg then -(256 ^ w : Nat) ≤ 2 * x ∧ 2 * x < (256 ^ w : Nat) else 0 ≤ x ∧ x < (256 ^ w : Nat)) := by
  obtain ⟨n1, n2, n3, n4⟩ := int_not hi
  rcases h with ⟨h, _⟩ | ⟨w', sg', x, h1, h2⟩ | ⟨h | h, _⟩
  · exact absurd h n1
  · obtain ⟨rfl, rfl⟩ := int_det' hi h1
    exact ⟨x, h2⟩
  · exact absurd h n4
  · exact absurd h n3

/-- What is stored for an integer. -/
theorem write_int {env : LuaEnv} {w : W} {v : Val} {r : List Val} (hs : w.stack = v :: r) {t k : Nat} {sg : Bool} (hi : (t, k, sg) ∈ intTypes) {x : Int} (hn : IsNum v x) (hx : x.natAbs < 2 ^ 53)
    (hrng : if sg then -(256 ^ k : Nat) ≤ 2 * x ∧ 2 * x < (256 ^ k : Nat) else 0 ≤ x ∧ x < (256 ^ k : Nat)) {off : Int} {i : Nat} :
    writeFromStack env w t off i = store w (off + k * i) (intBytes k x) := by
  unfold writeFromStack
  rw [top_ok hs]
  simp only [C.ok_bind]
  rw [num_trunc hn hx, num_int hn hx]
  simp only [intTypes, List.mem_cons, Prod.mk.injEq, List.not_mem_nil, or_false] at hi
  rcases hi with h | h | h | h | h | h | h | h | h | h | h | h <;> obtain ⟨rfl, rfl, rfl⟩ := h <;>
    simp only [Bool.false_eq_true, if_false, if_true, Nat.reducePow] at hrng <;>
    simp only [DAX_BYTE, DAX_SINT, DAX_CHAR, DAX_WORD, DAX_UINT, DAX_INT, DAX_DWORD, DAX_UDINT, DAX_DINT, DAX_REAL, DAX_LWORD, DAX_ULINT, DAX_TIME, DAX_LINT, DAX_LREAL] <;>
    simp only [Nat.reduceEqDiff, if_true, if_false, or_self, or_true, true_or, or_false, false_or, Bool.false_eq_true] <;>
    first
    | (rw [castFlt_ok (by omega)]; rfl)
    | (have h1 : x.tmod 256 = x := by
         rcases Int.lt_or_le x 0 with h0 | h0
         · have := Int.neg_tmod (a := -x) (b := 256)
           rw [Int.neg_neg, Int.tmod_eq_emod_of_nonneg (by omega : 0 ≤ -x)] at this
           omega
         · rw [Int.tmod_eq_emod_of_nonneg h0]; omega
       rw [h1]
       have h2 : off + ((1 : Nat) : Int) * (i : Int) = off + i := by omega
       rw [h2])

theorem writeFromStack_ok {env : LuaEnv} {tbl : List Cdt} {w : W} {v : Val} {r : List Val} (hs : w.stack = v :: r) {t k : Nat} (hk : (t, k) ∈ elemBytes) (hv : Suits t v) {off i : Nat}
    (h1 : off + k * i + k ≤ w.data.length) (h2 : w.mask.length = w.data.length) :
    ∃ w', writeFromStack env w t off i = .ok w' ∧ w'.stack = w.stack ∧ Done env (Items tbl t 1 (8 * (off + k * i)) v) w w' := by
  have e1 : (off : Int) + (k : Int) * (i : Int) = ((off + k * i : Nat) : Int) := by push_cast; rfl
  by_cases hi : ∃ sg, (t, k, sg) ∈ intTypes
  · obtain ⟨sg, hi⟩ := hi
    obtain ⟨x, hn, hx, hrng⟩ := suits_int hv hi
    have hlen : (intBytes k x).length = k := toLE_length _ _
    obtain ⟨w', a1, a2⟩ := store_ok (w := w) (off := off + k * i) (d := intBytes k x) (by omega) (by omega)
    refine ⟨w', by rw [write_int hs hi hn hx hrng, e1]; exact a1, a2.stack, a2.done hk hlen (fun h => by subst h; exact not_num_nil hn) (fun sg' y hi' hn' => ?_) (fun h => ?_) (fun h => ?_)⟩
    · obtain ⟨-, rfl⟩ := int_det' hi hi'
      rw [num_det hn' hn]
      exact intVal_bytes hi hrng
    · exact absurd h (int_not hi).2.2.1
    · exact absurd h (int_not hi).2.2.2
  · have h3 : (t = DAX_REAL ∧ k = 4) ∨ (t = DAX_TIME ∧ k = 8) ∨ (t = DAX_LREAL ∧ k = 8) := by
      have : ∀ a ∈ elemBytes, (∃ b ∈ intTypes, b.1 = a.1 ∧ b.2.1 = a.2) ∨ (a.1 = DAX_REAL ∧ a.2 = 4) ∨ (a.1 = DAX_TIME ∧ a.2 = 8) ∨ (a.1 = DAX_LREAL ∧ a.2 = 8) := by decide
      rcases this _ hk with ⟨⟨a, b, c⟩, g1, g2, g3⟩ | h
      · simp only at g2 g3
        subst g2 g3
        exact absurd ⟨_, g1⟩ hi
      · exact h
    have hnum : (t = DAX_REAL ∨ t = DAX_LREAL) ∧ ∃ d, IsReal v d := by
      rcases hv with ⟨rfl, _⟩ | ⟨w', sg', x, g1, g2⟩ | h
      · exact absurd rfl (elem_notBool hk)
      · have := elem_det (int_elem g1).1 hk
        subst this
        exact absurd ⟨_, g1⟩ hi
      · exact h
    obtain ⟨ht, d, hd⟩ := hnum
    obtain ⟨hn, hreal⟩ := toReal (env := env) hd
    rcases h3 with ⟨rfl, rfl⟩ | ⟨rfl, rfl⟩ | ⟨rfl, rfl⟩
    · obtain ⟨w', a1, a2⟩ := store_ok (w := w) (off := off + 4 * i) (d := toLE 4 (env.toSingle (toNumber env v)).toNat) (by rw [toLE_length]; omega) (by rw [toLE_length]; omega)
      refine ⟨w', ?_, a2.stack, a2.done hk (toLE_length _ _) hn (fun sg x hi' => absurd ⟨sg, hi'⟩ hi) (fun h => absurd h (by decide)) (fun _ => ⟨_, hreal, ?_⟩)⟩
      · unfold writeFromStack
        rw [top_ok hs]
        simp only [C.ok_bind, DAX_BYTE, DAX_SINT, DAX_CHAR, DAX_WORD, DAX_UINT, DAX_INT, DAX_DWORD, DAX_UDINT, DAX_DINT, DAX_REAL, DAX_TIME]
        simp only [Nat.reduceEqDiff, if_true, if_false, or_self]
        have e1 : (off : Int) + 4 * (i : Int) = ((off + 4 * i : Nat) : Int) := e1
        rw [e1]
        exact a1
      · rw [unsignedVal_eq, leNat_toLE]
        exact Nat.mod_eq_of_lt (env.toSingle (toNumber env v)).isLt
    · rcases ht with ht | ht <;> cases ht
    · obtain ⟨w', a1, a2⟩ := store_ok (w := w) (off := off + 8 * i) (d := toLE 8 (toNumber env v).toNat) (by rw [toLE_length]; omega) (by rw [toLE_length]; omega)
      refine ⟨w', ?_, a2.stack, a2.done hk (toLE_length _ _) hn (fun sg x hi' => absurd ⟨sg, hi'⟩ hi) (fun _ => ⟨_, hreal, ?_⟩) (fun h => absurd h (by decide))⟩
      · unfold writeFromStack
        rw [top_ok hs]
        simp only [C.ok_bind, DAX_BYTE, DAX_SINT, DAX_CHAR, DAX_WORD, DAX_UINT, DAX_INT, DAX_DWORD, DAX_UDINT, DAX_DINT, DAX_REAL, DAX_TIME, DAX_LWORD, DAX_ULINT, DAX_LINT, DAX_LREAL]
        simp only [Nat.reduceEqDiff, if_true, if_false, or_self]
        have e1 : (off : Int) + 8 * (i : Int) = ((off + 8 * i : Nat) : Int) := e1
        rw [e1]
        exact a1
      · rw [unsignedVal_eq, leNat_toLE]
        exact Nat.mod_eq_of_lt (toNumber env v).isLt

end Dax.Lua
