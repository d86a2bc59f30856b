import Verif.Lemmas.Text
import Verif.Model.LibFunc
import Verif.Spec.Conv
set_option autoImplicit false
/-!
# Numbers in text
-/
namespace Dax.Conv

theorem decimal_digitByte {ds : Name} (h : Decimal ds) : ∀ b ∈ ds, DigitByte b := by
  intro b hb
  obtain ⟨h1, h2⟩ := h.digit b hb
  refine ⟨b.toNat - 48, by omega, ?_⟩
  apply BitVec.eq_of_toNat_eq
  simp
  omega

theorem digitsVal_fold : ∀ (ds : Name) (acc : Nat), (∀ b ∈ ds, DigitByte b) →
    digitsVal 10 acc ds = ds.foldl (fun a b => 10 * a + (b.toNat - 48)) acc := by
  intro ds
  induction ds with
  | nil => intro acc _; rfl
  | cons b ds ih =>
    intro acc h
    obtain ⟨k, hk, hb⟩ := h b (by simp)
    have h1 := (digit_byte k hk).1
    rw [← hb] at h1
    have h2 : b.toNat - 48 = k := by rw [hb]; simp; omega
    simp only [digitsVal, h1, if_pos hk, List.foldl_cons, h2]
    rw [Nat.mul_comm acc 10]
    exact ih _ (fun x hx => h x (by simp [hx]))

theorem takeBase_digits {ds : Name} (h : Decimal ds) :
    digitsVal (takeBase ds).1 0 (takeBase ds).2 = decVal ds := by
  rcases h.lead with hl | hl
  · have : takeBase ds = (10, ds) := by
      unfold takeBase
      split
      · exact absurd rfl hl
      · exact absurd rfl hl
      · rfl
    rw [this]
    exact digitsVal_fold ds 0 (decimal_digitByte h)
  · subst hl
    rfl

theorem dropWhile_head {c : Byte} {r : Name} (h : isSpace c = false) :
    (c :: r).dropWhile isSpace = c :: r := by
  rw [List.dropWhile_cons_of_neg]; simp [h]

/-- What the C library finds in a decimal text. -/
theorem parse_dec {t : Name} {v : Int} (h : IsDec t v) :
    ∃ neg m, parse0 t = (neg, m) ∧ v = (if neg then -(m : Int) else m) ∧
      (t.head? = some 45#8 ↔ neg = true) := by
  obtain ⟨ds, hd, ⟨h1, h2⟩ | ⟨h1, h2⟩⟩ := h
  · refine ⟨false, decVal ds, ?_, by simpa using h2, ?_⟩
    · rcases h1 with h1 | h1
      · rw [h1]
        obtain ⟨e1, e2⟩ := digits_start (decimal_digitByte hd)
        simp only [parse0, e1, e2, takeBase_digits hd]
      · rw [h1]
        have e1 : (43#8 :: ds).dropWhile isSpace = 43#8 :: ds := dropWhile_head (by decide)
        have e2 : takeSign (43#8 :: ds) = (false, ds) := rfl
        simp only [parse0, e1, e2, takeBase_digits hd]
    · rcases h1 with h1 | h1
      · rw [h1]
        cases ds with
        | nil => simp
        | cons b ds =>
          obtain ⟨g1, g2⟩ := hd.digit b (by simp)
          simp only [List.head?_cons, Option.some.injEq, Bool.false_eq_true, iff_false]
          intro hb
          rw [hb] at g1
          revert g1; decide
      · rw [h1]; simp
  · refine ⟨true, decVal ds, ?_, by simpa using h2, by rw [h1]; simp⟩
    rw [h1]
    have e1 : (45#8 :: ds).dropWhile isSpace = 45#8 :: ds := dropWhile_head (by decide)
    have e2 : takeSign (45#8 :: ds) = (true, ds) := rfl
    simp only [parse0, e1, e2, takeBase_digits hd]

theorem signed0_dec {t : Name} {v : Int} (h : IsDec t v) : signed0 t = v := by
  obtain ⟨neg, m, h1, h2, _⟩ := parse_dec h
  simp only [signed0, h1, h2]

theorem strtol0_parse (t : Name) : strtol0 t = clampLong (signed0 t) := rfl

theorem strtol0_dec {t : Name} {v : Int} (h : IsDec t v) : strtol0 t = clampLong v := by
  rw [strtol0_parse, signed0_dec h]

theorem dec_noT {t : Name} {v : Int} (h : IsDec t v) (e : TextEnv) : dateOf e t = none := by
  unfold dateOf
  rw [if_neg]
  simp only [List.contains_eq_mem, decide_eq_true_eq]
  intro hm
  obtain ⟨ds, hd, ⟨h1 | h1, _⟩ | ⟨h1, _⟩⟩ := h
  · rw [h1] at hm
    have := hd.digit _ hm
    revert this; decide
  all_goals
    rw [h1] at hm
    simp only [List.mem_cons] at hm
    rcases hm with hm | hm
    · revert hm; decide
    · have := hd.digit _ hm
      revert this; decide

theorem dec_ne_nil {t : Name} {v : Int} (h : IsDec t v) : t ≠ [] := by
  obtain ⟨ds, hd, ⟨h1 | h1, _⟩ | ⟨h1, _⟩⟩ := h
  · rw [h1]; exact hd.ne
  · rw [h1]; simp
  · rw [h1]; simp

theorem intLE_length (n : Nat) (v : Int) : (intLE n v).length = n := by simp [intLE, toLE_length]

theorem leNat_intLE (n : Nat) (v : Int) : (leNat (intLE n v) : Int) = v % (256 ^ n : Nat) := by
  have hp : (0 : Int) < (256 ^ n : Nat) := by
    have : 0 < 256 ^ n := Nat.pow_pos (by decide)
    omega
  have h1 := Int.emod_nonneg v (Int.ne_of_gt hp)
  have h2 := Int.emod_lt_of_pos v hp
  unfold intLE
  rw [leNat_toLE, Nat.mod_eq_of_lt (by omega)]
  omega

theorem wr_elem {b b' d : List Byte} {n : Nat} {i : Nat} (hd : d.length = n)
    (h : wr b ((n : Int) * (i : Int)) d = .ok b') :
    OnlyElem b b' n i ∧ n * i + n ≤ b'.length ∧ (b'.drop (n * i)).take n = d := by
  unfold wr at h
  split at h
  · rename_i hc
    have hc2 := hc.2
    have e : ((n : Int) * (i : Int)).toNat = n * i := by
      rw [← Int.natCast_mul]; exact Int.toNat_natCast _
    have e2 : ((n : Int) * (i : Int)) = ((n * i : Nat) : Int) := by rw [Int.natCast_mul]
    rw [e2, hd] at hc2
    have hle : n * i + n ≤ b.length := by omega
    rw [e, hd] at h
    simp only [C.ok.injEq] at h
    have hl : (b.take (n * i)).length = n * i := by simp; omega
    subst h
    refine ⟨⟨?_, ?_⟩, ?_, ?_⟩
    · simp [hd]; omega
    · intro j hj
      rcases hj with hj | hj
      · rw [List.append_assoc, List.getElem?_append_left (by omega), List.getElem?_take_of_lt hj]
      · rw [List.getElem?_append_right (by simp [hd]; omega)]
        simp only [List.length_append, hl, hd, List.getElem?_drop]
        congr 1
        omega
    · simp [hd]; omega
    · rw [List.append_assoc, List.drop_left' hl, List.take_left' hd]
  · cases h

theorem put_elem {buff d : List Byte} {mask : Option (List Byte)} {n : Nat} {i : Nat} (ret : Int)
    (hd : d.length = n) (hb : n * i + n ≤ buff.length)
    (hm : ∀ m, mask = some m → n * i + n ≤ m.length) :
    ∃ b m, put buff mask n i ret d = .ok (ret, b, m) ∧ OnlyElem buff b n i ∧
      n * i + n ≤ b.length ∧ (b.drop (n * i)).take n = d ∧
      (∀ m0, mask = some m0 → ∃ m1, m = some m1 ∧ OnlyElem m0 m1 n i ∧
        (m1.drop (n * i)).take n = List.replicate n 255#8) ∧ (mask = none → m = none) := by
  have go : ∀ (b d : List Byte), d.length = n → n * i + n ≤ b.length →
      ∃ b', wr b ((n : Int) * (i : Int)) d = .ok b' := by
    intro b d h1 h2
    unfold wr
    rw [if_pos]
    · exact ⟨_, rfl⟩
    · rw [← Int.natCast_mul, h1]; omega
  obtain ⟨b, e1⟩ := go buff d hd hb
  obtain ⟨g1, g2, g3⟩ := wr_elem hd e1
  cases hmask : mask with
  | none =>
    exact ⟨b, none, by simp [put, e1], g1, g2, g3, by simp, by simp⟩
  | some m =>
    obtain ⟨m1, e2⟩ := go m (List.replicate n 255#8) (by simp) (hm m hmask)
    obtain ⟨f1, f2, f3⟩ := wr_elem (by simp) e2
    refine ⟨b, some m1, by simp [put, e1, e2], g1, g2, g3, ?_, by simp⟩
    intro m0 h0
    simp only [Option.some.injEq] at h0
    exact ⟨m1, rfl, h0 ▸ f1, f3⟩

theorem decNatF_length : ∀ (k fuel n : Nat), n < 10 ^ (k + 1) → (decNatF fuel n).length ≤ k + 1 := by
  intro k
  induction k with
  | zero =>
    intro fuel n h
    cases fuel with
    | zero => simp [decNatF]
    | succ f =>
      unfold decNatF
      rw [if_pos (by omega)]
      simp
  | succ k ih =>
    intro fuel n h
    cases fuel with
    | zero => simp [decNatF]
    | succ f =>
      unfold decNatF
      split
      · simp
      · simp only [List.length_append, List.length_singleton]
        have := ih f (n / 10) (by
          rw [Nat.pow_succ] at h
          omega)
        omega

theorem decimal_decNat (n : Nat) : Decimal (decNat n) := by
  refine ⟨decNat_ne_nil n, ?_, ?_⟩
  · intro b hb
    obtain ⟨k, hk, rfl⟩ := decNat_digits n b hb
    simp only [BitVec.toNat_ofNat]
    omega
  · by_cases h0 : n = 0
    · right; subst h0; rfl
    · left
      obtain ⟨k, h1, h2, r, hr⟩ := decNatF_head (n + 1) n (by omega) (by omega)
      unfold decNat
      rw [hr]
      simp only [List.head?_cons, ne_eq, Option.some.injEq]
      intro h
      have := congrArg BitVec.toNat h
      simp only [BitVec.toNat_ofNat] at this
      omega

theorem decVal_decNat (n : Nat) : decVal (decNat n) = n := by
  rw [decVal, ← digitsVal_fold _ _ (decNat_digits n), digitsVal_decNat]

theorem isDec_decInt (v : Int) : IsDec (decInt v) v := by
  refine ⟨decNat v.natAbs, decimal_decNat _, ?_⟩
  rw [decVal_decNat]
  unfold decInt
  split
  · right; exact ⟨rfl, by omega⟩
  · left; exact ⟨.inl rfl, by omega⟩

theorem printed_dec {size : Nat} {v : Int} (hs : 22 ≤ size) (h1 : -9223372036854775808 ≤ v)
    (h2 : v ≤ 18446744073709551615) : printed size (decInt v) = .ok (decInt v) := by
  unfold printed
  rw [if_neg (by omega), List.take_of_length_le]
  have := decNatF_length 19 (v.natAbs + 1) v.natAbs (by omega)
  have h3 : (decNat v.natAbs).length ≤ 20 := this
  unfold decInt
  split
  · simp only [List.length_cons]; omega
  · omega

theorem leNat_inj {a b : List Byte} (hl : a.length = b.length) (h : leNat a = leNat b) : a = b := by
  rw [← toLE_leNat a, ← toLE_leNat b, hl, h]

/-- Without a mask none comes out. -/
def NoMask (c : C (Int × List Byte × Option (List Byte))) : Prop :=
  ∀ r b m, c = .ok (r, b, m) → m = none

theorem noMask_ite {p : Prop} [Decidable p] {a b : C (Int × List Byte × Option (List Byte))}
    (ha : NoMask a) (hb : NoMask b) : NoMask (if p then a else b) := by
  split
  · exact ha
  · exact hb

theorem noMask_ok (r : Int) (b : List Byte) : NoMask (.ok (r, b, none)) := by
  intro r b m h
  simp only [C.ok.injEq, Prod.mk.injEq] at h
  exact h.2.2.symm

theorem noMask_ub (w : String) : NoMask (.ub w) := by
  intro r b m h
  cases h

theorem noMask_put (buff d : List Byte) (n : Nat) (i ret : Int) :
    NoMask (put buff none n i ret d) := by
  intro r b m h
  unfold put at h
  obtain ⟨b1, _, h⟩ := C.bind_eq_ok.mp h
  exact noMask_ok _ _ r b m h

theorem noMask_putBit (buff : List Byte) (i : Int) (v : Bool) :
    NoMask (putBit buff none i v) := by
  unfold putBit
  refine noMask_ite (noMask_ub _) ?_
  dsimp only
  split
  · exact noMask_ub _
  · exact noMask_ok _ _

theorem stringToVal_mask {e : TextEnv} {t : Name} {ty : Nat} {buff b : List Byte} {i r : Int}
    {m : Option (List Byte)} (h : stringToVal e t ty buff none i = .ok (r, b, m)) : m = none := by
  refine (?_ : NoMask (stringToVal e t ty buff none i)) r b m h
  unfold stringToVal
  refine noMask_ite (noMask_putBit _ _ _) (noMask_ite (noMask_put _ _ _ _ _) (noMask_ite ?_
    (noMask_ite (noMask_put _ _ _ _ _) (noMask_ite (noMask_put _ _ _ _ _)
    (noMask_ite (noMask_put _ _ _ _ _) (noMask_ite (noMask_put _ _ _ _ _)
    (noMask_ite (noMask_put _ _ _ _ _) (noMask_ite (noMask_put _ _ _ _ _)
    (noMask_ite (noMask_ite ?_ (noMask_put _ _ _ _ _)) (noMask_ite (noMask_put _ _ _ _ _)
    (noMask_ite ?_ (noMask_ite (noMask_put _ _ _ _ _) (noMask_ok _ _)))))))))))))
  · split
    · exact noMask_ub _
    · exact noMask_put _ _ _ _ _
    · exact noMask_put _ _ _ _ _
  · intro r b m h
    obtain ⟨b1, _, h⟩ := C.bind_eq_ok.mp h
    exact noMask_ok _ _ r b m h
  · split <;> exact noMask_put _ _ _ _ _

end Dax.Conv
