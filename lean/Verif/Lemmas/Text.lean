import Verif.Model.Text
import Verif.Lemmas.Basic
/-!
# Decimal numbers and tokens
-/
set_option autoImplicit false
namespace Dax

theorem digit_byte : ∀ k, k < 10 → digitVal (BitVec.ofNat 8 (48 + k)) = k ∧ BitVec.ofNat 8 (48 + k) ≠ 0 ∧
    BitVec.ofNat 8 (48 + k) ≠ COLON ∧ BitVec.ofNat 8 (48 + k) ≠ COMMA ∧
    isSpace (BitVec.ofNat 8 (48 + k)) = false ∧ BitVec.ofNat 8 (48 + k) ≠ 45#8 ∧
    BitVec.ofNat 8 (48 + k) ≠ 43#8 ∧ isDigit (BitVec.ofNat 8 (48 + k)) = true := by decide

/-- A byte is a decimal digit. -/
def DigitByte (b : Byte) : Prop := ∃ k, k < 10 ∧ b = BitVec.ofNat 8 (48 + k)

theorem decNatF_digits : ∀ (fuel n : Nat), ∀ b ∈ decNatF fuel n, DigitByte b
  | 0, _ => by simp [decNatF]
  | fuel + 1, n => by
    intro b hb
    unfold decNatF at hb
    split at hb
    · rename_i h
      simp only [List.mem_singleton] at hb
      exact ⟨n, h, hb⟩
    · simp only [List.mem_append, List.mem_singleton] at hb
      rcases hb with hb | hb
      · exact decNatF_digits fuel _ b hb
      · exact ⟨n % 10, by omega, hb⟩

theorem decNat_digits (n : Nat) : ∀ b ∈ decNat n, DigitByte b := decNatF_digits _ _

theorem digitsVal_append (acc : Nat) (a b : Name) (h : ∀ x ∈ a, DigitByte x) :
    digitsVal 10 acc (a ++ b) = digitsVal 10 (digitsVal 10 acc a) b := by
  induction a generalizing acc with
  | nil => rfl
  | cons x a ih =>
    obtain ⟨k, hk, rfl⟩ := h x (by simp)
    have := (digit_byte k hk).1
    simp only [List.cons_append, digitsVal, this, if_pos hk]
    exact ih _ (fun y hy => h y (by simp [hy]))

theorem digitsVal_decNatF : ∀ (fuel n : Nat), n < fuel → digitsVal 10 0 (decNatF fuel n) = n
  | 0, _, h => by omega
  | fuel + 1, n, h => by
    unfold decNatF
    split
    · rename_i hn
      simp only [digitsVal, (digit_byte n hn).1, if_pos hn]; omega
    · rename_i hn
      rw [digitsVal_append _ _ _ (decNatF_digits _ _), digitsVal_decNatF fuel (n / 10) (by omega)]
      have hk : n % 10 < 10 := by omega
      simp only [digitsVal, (digit_byte _ hk).1, if_pos hk]; omega

theorem digitsVal_decNat (n : Nat) : digitsVal 10 0 (decNat n) = n := digitsVal_decNatF _ _ (by omega)

theorem decNat_ne_nil (n : Nat) : decNat n ≠ [] := by
  unfold decNat decNatF
  split <;> simp

/-- Nothing is skipped in front of a digit. -/
theorem digits_start {d : Name} (h : ∀ b ∈ d, DigitByte b) :
    d.dropWhile isSpace = d ∧ takeSign d = (false, d) := by
  cases d with
  | nil => exact ⟨rfl, rfl⟩
  | cons b d =>
    obtain ⟨k, hk, rfl⟩ := h b (by simp)
    have hb := digit_byte k hk
    refine ⟨?_, ?_⟩
    · rw [List.dropWhile_cons_of_neg]; simp [hb.2.2.2.2.1]
    · unfold takeSign
      split
      · rename_i heq; simp only [List.cons.injEq] at heq; exact absurd heq.1 hb.2.2.2.2.2.1
      · rename_i heq; simp only [List.cons.injEq] at heq; exact absurd heq.1 hb.2.2.2.2.2.2.1
      · rfl

theorem atoi_decNat {n : Nat} (h : n < 2147483648) : atoi (decNat n) = n := by
  unfold atoi
  obtain ⟨h1, h2⟩ := digits_start (decNat_digits n)
  simp only [h1, h2, digitsVal_decNat]
  have hc : clampLong ((n : Nat) : Int) = n := by
    unfold clampLong
    rw [if_neg (by omega), if_neg (by omega)]
  simp only [Bool.false_eq_true, if_false, hc]
  unfold i32
  rw [if_pos (by omega)]
  omega

theorem decInt_nonneg (n : Nat) : decInt (n : Int) = decNat n := by
  unfold decInt
  rw [if_neg (by omega)]
  simp

theorem decNatF_head : ∀ (fuel n : Nat), 0 < n → n < fuel → ∃ k, 0 < k ∧ k < 10 ∧ ∃ r, decNatF fuel n = BitVec.ofNat 8 (48 + k) :: r
  | 0, _, _, h => by omega
  | fuel + 1, n, hp, h => by
    unfold decNatF
    split
    · rename_i hn; exact ⟨n, hp, hn, [], rfl⟩
    · obtain ⟨k, h1, h2, r, hr⟩ := decNatF_head fuel (n / 10) (by omega) (by omega)
      rw [hr]
      exact ⟨k, h1, h2, r ++ _, rfl⟩

theorem strtol0_decNat {n : Nat} (h0 : 0 < n) (h : n < 2147483648) : strtol0 (decNat n) = n := by
  unfold strtol0
  obtain ⟨h1, h2⟩ := digits_start (decNat_digits n)
  have hb : takeBase (decNat n) = (10, decNat n) := by
    obtain ⟨k, k1, k2, r, hr⟩ := decNatF_head (n + 1) n h0 (by omega)
    have h48 : ∀ k, 0 < k → k < 10 → BitVec.ofNat 8 (48 + k) ≠ 48#8 := by
      intro k h1 h2
      intro h
      have := congrArg BitVec.toNat h
      simp at this
      omega
    have hne := h48 k k1 k2
    have hr' : decNat n = BitVec.ofNat 8 (48 + k) :: r := hr
    rw [hr']
    unfold takeBase
    split
    · rename_i heq; simp only [List.cons.injEq] at heq; exact absurd heq.1 hne
    · rename_i heq; simp only [List.cons.injEq] at heq; exact absurd heq.1 hne
    · rfl
  simp only [h1, h2, hb, digitsVal_decNat]
  unfold clampLong
  simp only [Bool.false_eq_true, if_false]
  rw [if_neg (by omega), if_neg (by omega)]

end Dax
