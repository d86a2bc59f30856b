import Verif.Lemmas.Conv
set_option autoImplicit false
/-!
# C51 and C62: values and text
-/
namespace Dax

local macro "fin0" : tactic => `(tactic| first | trivial | omega | simp)

open Dax.Conv

/-- **C51**, except for three cases: a 16-bit unsigned type and a number that does not fit into
64 bits (`C51_word_huge`), a 64-bit unsigned type and the text `-0` (`C51_minus_zero`), and a
`CHAR` text of one character, which is taken as that character.  For every decimal text, every
integer type and every place in the buffer the element is stored (the number itself, or the
limit of the type it exceeds), the code says which, and nothing else in the buffer changes. -/
theorem C51_saturates_partial (e : TextEnv) {t : Name} {v : Int} (ht : IsDec t v)
    {ty n : Nat} {lo hi : Int} (hty : IntType ty n lo hi)
    (hw : ty = DAX_WORD ∨ ty = DAX_UINT → -9223372036854775808 ≤ v ∧ v < 9223372036854775808)
    (hz : ty = DAX_LWORD ∨ ty = DAX_ULINT → v = 0 → t.head? ≠ some 45#8)
    (hc : ty = DAX_CHAR → t.length ≠ 1)
    (buff : List Byte) (mask : Option (List Byte)) (i : Nat) (hb : n * i + n ≤ buff.length)
    (hm : ∀ m, mask = some m → n * i + n ≤ m.length) :
    ∃ ret b m x, stringToVal e t ty buff mask i = .ok (ret, b, m) ∧ Saturates lo hi v ret x ∧
      Holds b n i x ∧ OnlyElem buff b n i := by
  have fin : ∀ (ret x : Int), Saturates lo hi v ret x →
      ∃ r b m x', put buff mask n i ret (intLE n x) = .ok (r, b, m) ∧ Saturates lo hi v r x' ∧
        Holds b n i x' ∧ OnlyElem buff b n i := by
    intro ret x hs
    obtain ⟨b, m, h1, h2, h3, h4, _⟩ := put_elem ret (intLE_length n x) hb hm
    refine ⟨ret, b, m, x, h1, hs, ⟨h3, ?_⟩, h2⟩
    rw [h4, leNat_intLE]
  have cl : ∀ (w : Int), -9223372036854775808 < lo → hi < 9223372036854775807 → lo ≤ hi →
      w = clampLong v → Saturates lo hi v (clampTo w lo hi).1 (clampTo w lo hi).2 := by
    intro w h1 h2 h3 hw
    unfold clampTo
    unfold clampLong at hw
    unfold Saturates
    split at hw
    · split
      · omega
      · split <;> omega
    · split at hw
      · split
        · omega
        · split <;> omega
      · split
        · omega
        · split <;> omega
  have hl := strtol0_dec ht
  have lint : n = 8 → lo = -9223372036854775808 → hi = 9223372036854775807 →
      ∃ ret b m x, putLint t buff mask i = .ok (ret, b, m) ∧ Saturates lo hi v ret x ∧
      Holds b n i x ∧ OnlyElem buff b n i := by
    intro h1 h2 h3
    subst h1
    refine fin _ _ ?_
    obtain ⟨neg, m, h4, h5, h6⟩ := parse_dec ht
    rw [hl]
    simp only [strtolRange, signed0_dec ht, h6]
    subst h2 h3
    unfold clampLong Saturates
    cases neg
    · simp only [Bool.false_eq_true, if_false] at h5 ⊢
      by_cases g : v > 9223372036854775807
      · simp only [g, decide_true, Bool.true_or, if_true]
        exact .inr (.inr ⟨by fin0, by fin0, by fin0⟩)
      · have g2 : ¬ v < -9223372036854775808 := by omega
        simp only [g, g2, decide_false, Bool.or_false, Bool.false_eq_true, if_false]
        exact .inl ⟨by fin0, by fin0, by fin0, by fin0⟩
    · simp only [if_true] at h5 ⊢
      have g : ¬ v > 9223372036854775807 := by omega
      by_cases g2 : v < -9223372036854775808
      · simp only [g, g2, decide_true, Bool.or_true, if_true, if_false]
        exact .inr (.inl ⟨by fin0, by fin0, by fin0⟩)
      · simp only [g, g2, decide_false, Bool.or_false, Bool.false_eq_true, if_false]
        exact .inl ⟨by fin0, by fin0, by fin0, by fin0⟩
  have word : lo = 0 → hi = 65535 → (ty = DAX_WORD ∨ ty = DAX_UINT) →
      Saturates lo hi v (clampTo (toLong (strtoul0 t)) lo hi).1
        (clampTo (toLong (strtoul0 t)) lo hi).2 := by
    intro h1 h2 h3
    have hv := hw h3
    have : toLong (strtoul0 t) = v := by
      obtain ⟨neg, m, h4, h5, _⟩ := parse_dec ht
      simp only [strtoul0, h4]
      unfold toLong
      cases neg
      · simp only [Bool.false_eq_true, if_false] at h5 ⊢
        have e : (if m > 18446744073709551615 then 18446744073709551615 else m) = m := by
          rw [if_neg (by omega)]
        rw [e, if_pos (by omega)]; omega
      · simp only [if_true] at h5 ⊢
        have e : (if m > 18446744073709551615 then 18446744073709551615
            else (18446744073709551616 - m) % 18446744073709551616) =
            (18446744073709551616 - m) % 18446744073709551616 := by
          rw [if_neg (by omega)]
        rw [e]
        by_cases hm0 : m = 0
        · subst hm0; omega
        · rw [Nat.mod_eq_of_lt (by omega), if_neg (by omega)]; omega
    rw [this]
    subst h1 h2
    unfold clampTo Saturates
    split
    · omega
    · split <;> omega
  have sint : n = 1 → lo = -128 → hi = 127 →
      ∃ ret b m x, putSint t buff mask i = .ok (ret, b, m) ∧ Saturates lo hi v ret x ∧
      Holds b n i x ∧ OnlyElem buff b n i := by
    intro h1 h2 h3
    subst h1 h2 h3
    exact fin _ _ (cl _ (by omega) (by omega) (by omega) hl)
  have lw : n = 8 → lo = 0 → hi = 18446744073709551615 → (ty = DAX_LWORD ∨ ty = DAX_ULINT) →
      ∃ ret b m x, (if t.head? = some 45#8 then do
          let b ← wr buff (8 * (i : Int)) (intLE 8 0)
          .ok (ERR_UNDERFLOW, b, mask)
        else put buff mask 8 i (if strtoulRange t then ERR_OVERFLOW else 0)
          (intLE 8 (strtoul0 t)) : C (Int × List Byte × Option (List Byte))) = .ok (ret, b, m) ∧
        Saturates lo hi v ret x ∧ Holds b n i x ∧ OnlyElem buff b n i := by
    intro h1 h2 h3 h4
    subst h1 h2 h3
    obtain ⟨neg, m, h5, h6, h7⟩ := parse_dec ht
    by_cases hd : t.head? = some 45#8
    · rw [if_pos hd]
      have hneg := h7.mp hd
      rw [hneg, if_pos rfl] at h6
      have hne : v ≠ 0 := fun h0 => hz h4 h0 hd
      have e : wr buff (8 * (i : Int)) (intLE 8 0) =
          .ok (buff.take (8 * i) ++ intLE 8 0 ++ buff.drop (8 * i + 8)) := by
        unfold wr
        rw [intLE_length, if_pos (by omega)]
        have : (8 * (i : Int)).toNat = 8 * i := by omega
        rw [this]
      have g := wr_elem (n := 8) (i := i) (intLE_length 8 0) e
      rw [e]
      refine ⟨_, _, _, 0, rfl, ?_, ⟨g.2.1, ?_⟩, g.1⟩
      · right; left; exact ⟨by omega, rfl, rfl⟩
      · rw [g.2.2, leNat_intLE]
    · rw [if_neg hd]
      have hneg : neg = false := by
        cases neg
        · rfl
        · exact absurd (h7.mpr rfl) hd
      rw [hneg] at h6
      simp only [Bool.false_eq_true, if_false] at h6
      refine fin _ _ ?_
      simp only [strtoulRange, strtoul0, h5, hneg, Bool.false_eq_true, if_false]
      unfold Saturates
      by_cases g : m > 18446744073709551615
      · simp only [g, decide_true, if_true]
        exact .inr (.inr ⟨by fin0, by fin0, by fin0⟩)
      · simp only [g, decide_false, Bool.false_eq_true, if_false]
        exact .inl ⟨by fin0, by fin0, by fin0, by fin0⟩
  cases hty with
  | byte => exact fin _ _ (cl _ (by omega) (by omega) (by omega) hl)
  | sint => exact sint rfl rfl rfl
  | char =>
    have : stringToVal e t DAX_CHAR buff mask i = putSint t buff mask i := by
      have h1 := hc rfl
      have h2 := dec_ne_nil ht
      match t, h1, h2 with
      | a :: b :: r, _, _ => rfl
      | [], _, h2 => exact absurd rfl h2
      | [a], h1, _ => exact absurd rfl h1
    rw [this]
    exact sint rfl rfl rfl
  | word => exact fin _ _ (word rfl rfl (.inl rfl))
  | uint => exact fin _ _ (word rfl rfl (.inr rfl))
  | int => exact fin _ _ (cl _ (by omega) (by omega) (by omega) hl)
  | dword => exact fin _ _ (cl _ (by omega) (by omega) (by omega) hl)
  | udint => exact fin _ _ (cl _ (by omega) (by omega) (by omega) hl)
  | dint => exact fin _ _ (cl _ (by omega) (by omega) (by omega) hl)
  | lword => exact lw rfl rfl rfl (.inl rfl)
  | ulint => exact lw rfl rfl rfl (.inr rfl)
  | lint => exact lint rfl rfl rfl
  | time =>
    have : stringToVal e t DAX_TIME buff mask i = putLint t buff mask i := by
      have h0 : stringToVal e t DAX_TIME buff mask i = (match dateOf e t with
        | none => putLint t buff mask i
        | some ms => put buff mask 8 i 0 (intLE 8 ms)) := rfl
      rw [h0, dec_noT ht e]
    rw [this]
    exact lint rfl rfl rfl

/-! ## The limits of C51 -/

/-- A 16-bit unsigned type and a number beyond 64 bits: the answer is "underflow" and zero is
stored, instead of "overflow" and 65535. -/
theorem C51_word_huge (e : TextEnv) :
    IsDec (nm "9223372036854775808") 9223372036854775808 ∧
    stringToVal e (nm "9223372036854775808") DAX_UINT [7, 7] none 0 =
      .ok (ERR_UNDERFLOW, [0, 0], none) := by
  refine ⟨⟨nm "9223372036854775808", ⟨by decide, by decide, by decide⟩, .inl ⟨.inl rfl, by decide⟩⟩,
    by rfl⟩

/-- A 64-bit unsigned type and the text `-0`: zero is stored, but the answer is "underflow". -/
theorem C51_minus_zero (e : TextEnv) :
    IsDec (nm "-0") 0 ∧ stringToVal e (nm "-0") DAX_ULINT (List.replicate 8 7) none 0 =
      .ok (ERR_UNDERFLOW, List.replicate 8 0, none) :=
  ⟨⟨nm "0", ⟨by decide, by decide, by decide⟩, .inr ⟨rfl, by decide⟩⟩, by rfl⟩

example (e : TextEnv) : stringToVal e (nm "-129") DAX_SINT [1, 2, 3] none 1 =
    .ok (ERR_UNDERFLOW, [1, 128, 3], none) := by rfl
example (e : TextEnv) : stringToVal e (nm "70000") DAX_INT [1, 2, 3, 4] (some [0, 0, 0, 0]) 1 =
    .ok (ERR_OVERFLOW, [1, 2, 255, 127], some [0, 0, 255, 255]) := by rfl
example : IsDec (nm "-129") (-129) :=
  ⟨nm "129", ⟨by decide, by decide, by decide⟩, .inr ⟨rfl, by decide⟩⟩

/-! ## C62 -/

/-- **C62** for the integer types and `CHAR`: an element printed into a buffer of at least 22
bytes and read back is the same element, with code 0, whatever is stored around it.  Excluded
is the NUL character, which is printed as an empty text. -/
theorem C62_round_trip_partial (e : TextEnv) {ty n : Nat} {lo hi : Int} (hty : IntType ty n lo hi)
    (htm : ty ≠ DAX_TIME) (size : Nat) (hs : 22 ≤ size) (val buff : List Byte) (i j : Nat)
    (hi' : n * i + n ≤ val.length) (hj : n * j + n ≤ buff.length)
    (hc : ty = DAX_CHAR → (val.drop i).take 1 ≠ [0]) :
    ∃ t b, valToString size ty val i = .ok t ∧ stringToVal e t ty buff none j = .ok (0, b, none) ∧
      (b.drop (n * j)).take n = (val.drop (n * i)).take n ∧ OnlyElem buff b n j := by
  have hrd : rd val ((n : Int) * (i : Int)) n = .ok ((val.drop (n * i)).take n) := by
    unfold rd
    rw [← Int.natCast_mul, if_pos (by omega)]
    simp only [Int.toNat_natCast]
  generalize hd : (val.drop (n * i)).take n = d at hrd ⊢
  have hdl : d.length = n := by rw [← hd]; simp; omega
  have hlt := leNat_lt d
  rw [hdl] at hlt
  -- any number printed in decimal
  have num : ∀ v : Int, lo ≤ v → v ≤ hi → -9223372036854775808 ≤ v → v ≤ 18446744073709551615 →
      (leNat d : Int) = v % (256 ^ n : Nat) →
      ty ≠ DAX_CHAR → (ty = DAX_WORD ∨ ty = DAX_UINT → v < 9223372036854775808) →
      printed size (decInt v) = .ok (decInt v) ∧
      ∃ b, stringToVal e (decInt v) ty buff none j = .ok (0, b, none) ∧
        (b.drop (n * j)).take n = d ∧ OnlyElem buff b n j := by
    intro v h1 h2 h3 h4 h5 h6 h7
    refine ⟨printed_dec hs h3 h4, ?_⟩
    obtain ⟨ret, b, m, x, g1, g2, g3, g4⟩ := C51_saturates_partial e (isDec_decInt v) hty
      (fun h => ⟨h3, h7 h⟩) (fun _ h0 => by rw [h0]; decide) (fun h => absurd h h6) buff none j hj
      (by simp)
    have hm : m = none := stringToVal_mask g1
    unfold Saturates at g2
    have g5 : ret = 0 ∧ x = v := by omega
    rw [g5.1, hm] at g1
    refine ⟨b, g1, ?_, g4⟩
    obtain ⟨g6, g7⟩ := g3
    have hlen : ((b.drop (n * j)).take n).length = n := by simp; omega
    apply leNat_inj (by rw [hlen, hdl])
    rw [g5.2, ← h5] at g7
    omega
  have pr : ∀ f : List Byte → Name, valToString size ty val i =
      (rd val ((n : Int) * (i : Int)) n >>= fun d => printed size (f d)) →
      valToString size ty val i = printed size (f d) := by
    intro f hf
    rw [hf, hrd]
    rfl
  have one : ∀ f : List Byte → Name, (rd val (i : Int) 1 >>= fun d => printed size (f d)) =
      (rd val (((1 : Nat) : Int) * (i : Int)) (1 : Nat) >>= fun d => printed size (f d)) := by
    intro f
    rw [Int.natCast_one, Int.one_mul]
  have sg : sintOf d = if 2 * leNat d < 256 ^ n then (leNat d : Int)
      else (leNat d : Int) - (256 ^ n : Nat) := by rw [sintOf, hdl]
  have sm : (leNat d : Int) = sintOf d % (256 ^ n : Nat) ∧
      -(256 ^ n : Nat) ≤ 2 * sintOf d ∧ 2 * sintOf d < (256 ^ n : Nat) := by
    rw [sg]
    generalize hk : 256 ^ n = k at *
    split
    · rw [Int.emod_eq_of_lt (by omega) (by omega)]; omega
    · have : ((leNat d : Int) - (k : Int)) % (k : Int) = leNat d := by
        rw [Int.sub_emod_right, Int.emod_eq_of_lt (by omega) (by omega)]
      rw [this]; omega
  clear sg
  obtain ⟨sm1, sm2, sm3⟩ := sm
  have um : (leNat d : Int) = (leNat d : Int) % (256 ^ n : Nat) := by
    rw [Int.emod_eq_of_lt (by omega) (by omega)]
  cases hty with
  | byte =>
    obtain ⟨p1, b, p2⟩ := num (leNat d) (by omega) (by omega) (by omega) (by omega)
      (by omega) (by decide) (by intro _; omega)
    exact ⟨_, b, (pr _ (one _)).trans p1, p2⟩
  | sint =>
    obtain ⟨p1, b, p2⟩ := num (sintOf d) (by omega) (by omega) (by omega) (by omega)
      (by omega) (by decide) (fun _ => by omega)
    exact ⟨_, b, (pr _ (one _)).trans p1, p2⟩
  | char =>
    have hc := hc rfl
    match d, hdl with
    | [c], _ =>
      have hc0 : c ≠ 0 := by
        intro h0
        apply hc
        rw [Nat.one_mul] at hd
        rw [hd, h0]
      have p1 : printed size ([c].takeWhile (· != 0)) = .ok [c] := by
        have : [c].takeWhile (· != 0) = [c] := by
          rw [List.takeWhile_cons_of_pos (by simpa using hc0)]; rfl
        rw [this, printed, if_neg (by omega), List.take_of_length_le (by simp; omega)]
      obtain ⟨b, m, g1, g2, g3, g4, _, g6⟩ := put_elem (buff := buff) (mask := none) (n := 1) (i := j)
        (d := [c]) 0 rfl hj (by simp)
      rw [g6 rfl] at g1
      exact ⟨[c], b, (pr (fun d => d.takeWhile (· != 0)) (one _)).trans p1, g1, g4, g2⟩
  | word =>
    obtain ⟨p1, b, p2⟩ := num (leNat d) (by omega) (by omega) (by omega) (by omega)
      (by omega) (by decide) (by intro _; omega)
    exact ⟨_, b, (pr _ rfl).trans p1, p2⟩
  | uint =>
    obtain ⟨p1, b, p2⟩ := num (leNat d) (by omega) (by omega) (by omega) (by omega)
      (by omega) (by decide) (by intro _; omega)
    exact ⟨_, b, (pr _ rfl).trans p1, p2⟩
  | int =>
    obtain ⟨p1, b, p2⟩ := num (sintOf d) (by omega) (by omega) (by omega) (by omega)
      (by omega) (by decide) (fun _ => by omega)
    exact ⟨_, b, (pr _ rfl).trans p1, p2⟩
  | dword =>
    obtain ⟨p1, b, p2⟩ := num (leNat d) (by omega) (by omega) (by omega) (by omega)
      (by omega) (by decide) (by intro _; omega)
    exact ⟨_, b, (pr _ rfl).trans p1, p2⟩
  | udint =>
    obtain ⟨p1, b, p2⟩ := num (leNat d) (by omega) (by omega) (by omega) (by omega)
      (by omega) (by decide) (by intro _; omega)
    exact ⟨_, b, (pr _ rfl).trans p1, p2⟩
  | dint =>
    obtain ⟨p1, b, p2⟩ := num (sintOf d) (by omega) (by omega) (by omega) (by omega)
      (by omega) (by decide) (fun _ => by omega)
    exact ⟨_, b, (pr _ rfl).trans p1, p2⟩
  | lword =>
    obtain ⟨p1, b, p2⟩ := num (leNat d) (by omega) (by omega) (by omega) (by omega)
      (by omega) (by decide) (fun h => absurd h (by decide))
    exact ⟨_, b, (pr _ rfl).trans p1, p2⟩
  | ulint =>
    obtain ⟨p1, b, p2⟩ := num (leNat d) (by omega) (by omega) (by omega) (by omega)
      (by omega) (by decide) (fun h => absurd h (by decide))
    exact ⟨_, b, (pr _ rfl).trans p1, p2⟩
  | lint =>
    obtain ⟨p1, b, p2⟩ := num (sintOf d) (by omega) (by omega) (by omega) (by omega)
      (by omega) (by decide) (fun _ => by omega)
    exact ⟨_, b, (pr _ rfl).trans p1, p2⟩
  | time => exact absurd rfl htm

example (e : TextEnv) : valToString 32 DAX_INT [0x01, 0x00, 0xFE, 0xFF] 1 = .ok (nm "-2") ∧
    stringToVal e (nm "-2") DAX_INT [9, 9, 9, 9] none 0 = .ok (0, [0xFE, 0xFF, 9, 9], none) :=
  ⟨by rfl, by rfl⟩

/-- Bit `k` of an array of bytes. -/
def bitIn (b : List Byte) (k : Nat) : Option Bool := b[k / 8]?.map (fun x => x.getLsbD (k % 8))

theorem bit_or (x : Byte) (c k : Nat) (hc : c < 8) (hk : k < 8) :
    (x ||| BitVec.ofNat 8 (2 ^ c)).getLsbD k = (x.getLsbD k || decide (c = k)) := by
  rw [BitVec.getLsbD_or, BitVec.getLsbD_ofNat, Nat.testBit_two_pow]
  simp [hk]

theorem bit_andnot (x : Byte) (c k : Nat) (hc : c < 8) (hk : k < 8) :
    (x &&& ~~~BitVec.ofNat 8 (2 ^ c)).getLsbD k = (x.getLsbD k && !decide (c = k)) := by
  rw [BitVec.getLsbD_and, BitVec.getLsbD_not, BitVec.getLsbD_ofNat, Nat.testBit_two_pow]
  simp [hk]

/-- **C62** for `BOOL`: the bit comes back and no other bit changes. -/
theorem C62_bool (e : TextEnv) (size : Nat) (hs : 2 ≤ size) (val buff : List Byte) (i j : Nat)
    (hi : i / 8 < val.length) (hj : j / 8 < buff.length) :
    ∃ t b, valToString size DAX_BOOL val i = .ok t ∧
      stringToVal e t DAX_BOOL buff none j = .ok (0, b, none) ∧
      bitIn b j = bitIn val i ∧ b.length = buff.length ∧ ∀ k, k ≠ j → bitIn b k = bitIn buff k := by
  obtain ⟨x, hx⟩ : ∃ x, val[i / 8]? = some x := ⟨_, List.getElem?_eq_getElem hi⟩
  obtain ⟨y, hy⟩ : ∃ y, buff[j / 8]? = some y := ⟨_, List.getElem?_eq_getElem hj⟩
  have h1 : valToString size DAX_BOOL val i =
      printed size (if x.getLsbD (i % 8) then nm "1" else nm "0") := by
    unfold valToString
    rw [if_pos rfl, if_neg (by omega), Int.toNat_natCast, hx]
  have h2 : ∀ v, putBit buff none j v = .ok (0, buff.set (j / 8)
      (if v then y ||| BitVec.ofNat 8 (2 ^ (j % 8)) else y &&& ~~~BitVec.ofNat 8 (2 ^ (j % 8))),
      none) := by
    intro v
    unfold putBit
    rw [if_neg (by omega)]
    dsimp only
    rw [Int.toNat_natCast, hy]
  have h3 : ∀ t, stringToVal e t DAX_BOOL buff none j = putBit buff none j (strtol0 t != 0) := by
    intro t; unfold stringToVal; rw [if_pos rfl]
  have h4 : printed size (if x.getLsbD (i % 8) then nm "1" else nm "0") =
      .ok (if x.getLsbD (i % 8) then nm "1" else nm "0") := by
    unfold printed
    rw [if_neg (by omega), List.take_of_length_le]
    split <;> (simp [nm]; omega)
  have h5 : (strtol0 (if x.getLsbD (i % 8) then nm "1" else nm "0") != 0) = x.getLsbD (i % 8) := by
    cases x.getLsbD (i % 8)
    · decide
    · decide
  refine ⟨_, _, h1.trans h4, (h3 _).trans (h2 _), ?_, by simp, ?_⟩
  · rw [h5]
    unfold bitIn
    rw [List.getElem?_set_self hj, hx]
    simp only [Option.map_some, Option.some.injEq]
    cases x.getLsbD (i % 8)
    · simp only [Bool.false_eq_true, if_false]
      rw [bit_andnot _ _ _ (by omega) (by omega)]; simp
    · simp only [if_true]
      rw [bit_or _ _ _ (by omega) (by omega)]; simp
  · intro k hk
    unfold bitIn
    by_cases hkj : k / 8 = j / 8
    · rw [hkj, List.getElem?_set_self hj, hy]
      simp only [Option.map_some, Option.some.injEq]
      have : ¬ j % 8 = k % 8 := by omega
      rw [h5]
      split
      · rw [bit_or _ _ _ (by omega) (by omega)]; simp [this]
      · rw [bit_andnot _ _ _ (by omega) (by omega)]; simp [this]
    · rw [List.getElem?_set_ne (by omega)]

end Dax
