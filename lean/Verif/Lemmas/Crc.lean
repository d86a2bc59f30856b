import Verif.Spec.Crc
import Verif.Lemmas.Basic
/-!
# The checksum as a linear shift register
-/
set_option autoImplicit false
namespace Dax
namespace Crc

/-- One shift of the register. -/
def S (c : BitVec 16) : BitVec 16 := (c >>> 1) ^^^ (if c.getLsbD 0 then 0xA001#16 else 0#16)

theorem S_bit (c : BitVec 16) (i : Nat) :
    (S c).getLsbD i = (c.getLsbD (i + 1) ^^ (c.getLsbD 0 && (0xA001#16).getLsbD i)) := by
  unfold S
  rw [BitVec.getLsbD_xor, BitVec.getLsbD_ushiftRight, Nat.add_comm 1 i]
  cases c.getLsbD 0 <;> simp

theorem S_xor (a b : BitVec 16) : S (a ^^^ b) = S a ^^^ S b := by
  apply BitVec.eq_of_getLsbD_eq
  intro i _
  rw [BitVec.getLsbD_xor, S_bit, S_bit, S_bit, BitVec.getLsbD_xor, BitVec.getLsbD_xor]
  generalize (40961#16).getLsbD i = p
  generalize a.getLsbD (i+1) = x
  generalize b.getLsbD (i+1) = y
  generalize a.getLsbD 0 = z
  generalize b.getLsbD 0 = w
  revert p x y z w
  decide

theorem S_zero : S 0 = 0 := by decide

theorem S_ne {c : BitVec 16} (h : c ≠ 0) : S c ≠ 0 := by
  intro hs
  apply h
  have h15 : c.getLsbD 0 = false := by
    have := congrArg (fun x => x.getLsbD 15) hs
    simp only [S_bit] at this
    rw [BitVec.getLsbD_of_ge c 16 (by decide)] at this
    simpa using this
  apply BitVec.eq_of_getLsbD_eq
  intro i hi
  cases i with
  | zero => simpa using h15
  | succ j =>
    have := congrArg (fun x => x.getLsbD j) hs
    simp only [S_bit, h15] at this
    simpa using this

/-- `n` shifts. -/
def Sn : Nat → BitVec 16 → BitVec 16
  | 0, c => c
  | n + 1, c => Sn n (S c)

theorem Sn_xor (n : Nat) : ∀ a b : BitVec 16, Sn n (a ^^^ b) = Sn n a ^^^ Sn n b := by
  induction n with
  | zero => intro a b; rfl
  | succ n ih => intro a b; simp only [Sn, S_xor, ih]

theorem Sn_zero (n : Nat) : Sn n 0 = 0 := by
  induction n with
  | zero => rfl
  | succ n ih => simp only [Sn, S_zero, ih]

theorem Sn_ne (n : Nat) : ∀ {c : BitVec 16}, c ≠ 0 → Sn n c ≠ 0 := by
  induction n with
  | zero => intro c h; exact h
  | succ n ih => intro c h; exact ih (S_ne h)

/-- One bit as a word. -/
def bw (b : Bool) : BitVec 16 := if b then 1 else 0

theorem bw_xor (a b : Bool) : bw (a ^^ b) = bw a ^^^ bw b := by revert a b; decide

/-- The register fed with a list of bits. -/
def feed : BitVec 16 → List Bool → BitVec 16
  | c, [] => c
  | c, b :: bs => feed (S (c ^^^ bw b)) bs

theorem polyBit_eq (c : BitVec 16) (b : Bool) : polyBit c b = S (c ^^^ bw b) := by
  unfold polyBit S bw
  dsimp only
  generalize c ^^^ (if b = true then 1 else 0) = x
  cases x.getLsbD 0 <;> simp

theorem z_xor (x : BitVec 16) : 0 ^^^ x = x := by simp

theorem feed_append (c : BitVec 16) (a b : List Bool) : feed c (a ++ b) = feed (feed c a) b := by
  induction a generalizing c with
  | nil => rfl
  | cons x a ih => exact ih _

theorem feed_lin (bs : List Bool) : ∀ c, feed c bs = Sn bs.length c ^^^ feed 0 bs := by
  induction bs with
  | nil => intro c; simp [feed, Sn]
  | cons b bs ih =>
    intro c
    simp only [feed, List.length_cons, Sn]
    rw [ih, ih (S (0 ^^^ bw b)), S_xor c, Sn_xor, z_xor, BitVec.xor_assoc]

theorem xor4 (a b c d : BitVec 16) : a ^^^ b ^^^ (c ^^^ d) = a ^^^ c ^^^ (b ^^^ d) := by
  rw [BitVec.xor_assoc, BitVec.xor_assoc, ← BitVec.xor_assoc b, BitVec.xor_comm b c,
    BitVec.xor_assoc]

theorem feed_xor : ∀ (as bs : List Bool) (c d : BitVec 16), as.length = bs.length →
    feed c as ^^^ feed d bs = feed (c ^^^ d) (as.zipWith (· ^^ ·) bs)
  | [], [], c, d, _ => rfl
  | a :: as, b :: bs, c, d, h => by
    simp only [feed, List.zipWith_cons_cons]
    rw [feed_xor as bs _ _ (by simpa using h), ← S_xor, bw_xor, xor4]

/-- The eight bits of a byte in transmission order. -/
def bits (b : Byte) : List Bool :=
  [b.getLsbD 0, b.getLsbD 1, b.getLsbD 2, b.getLsbD 3, b.getLsbD 4, b.getLsbD 5, b.getLsbD 6,
   b.getLsbD 7]

/-- The bits of a frame. -/
def frameBits : List Byte → List Bool
  | [] => []
  | b :: f => bits b ++ frameBits f

theorem frameBits_length (f : List Byte) : (frameBits f).length = 8 * f.length := by
  induction f with
  | nil => rfl
  | cons b f ih => simp only [frameBits, List.length_append, ih, List.length_cons, bits]; simp; omega

theorem frameBits_append (f g : List Byte) : frameBits (f ++ g) = frameBits f ++ frameBits g := by
  induction f with
  | nil => rfl
  | cons b f ih => simp only [frameBits, List.cons_append, ih, List.append_assoc]

theorem bits_get (b : Byte) : ∀ k, (bits b).getD k false = b.getLsbD k := by
  intro k
  match k with
  | 0 | 1 | 2 | 3 | 4 | 5 | 6 | 7 => rfl
  | k + 8 =>
    rw [BitVec.getLsbD_of_ge _ _ (by omega)]
    rfl

theorem frameBits_get (f : List Byte) : ∀ k, (frameBits f).getD k false = frameBit f k := by
  induction f with
  | nil => intro k; simp [frameBits, frameBit]
  | cons b f ih =>
    intro k
    have hl : (bits b).length = 8 := rfl
    by_cases hk : k < 8
    · have h0 : k / 8 = 0 := by omega
      have h1 : k % 8 = k := by omega
      unfold frameBit
      rw [h0, h1, List.getD_cons_zero, ← bits_get b k]
      simp only [frameBits, List.getD_eq_getElem?_getD]
      rw [List.getElem?_append_left (by omega)]
    · have h0 : k / 8 = (k - 8) / 8 + 1 := by omega
      have h1 : k % 8 = (k - 8) % 8 := by omega
      have := ih (k - 8)
      unfold frameBit at this ⊢
      rw [h0, h1, List.getD_cons_succ, ← this]
      simp only [frameBits, List.getD_eq_getElem?_getD]
      rw [List.getElem?_append_right (by omega), hl]

/-- Register contents with `CRCHi` as the low byte. -/
def reg (hi lo : Byte) : BitVec 16 := lo ++ hi

theorem split16 (hi lo b : Byte) :
    reg hi lo ^^^ reg b 0 = reg 0 lo ^^^ reg (hi ^^^ b) 0 := by
  unfold reg
  apply BitVec.eq_of_getLsbD_eq
  intro i hi'
  simp only [BitVec.getLsbD_xor, BitVec.getLsbD_append]
  split <;> simp

theorem feed_byte0 : ∀ b : Byte, feed 0 (bits b) = Sn 8 (reg b 0) := by decide +kernel

theorem shift_hi : ∀ lo : Byte, Sn 8 (reg 0 lo) = reg lo 0 := by decide +kernel

theorem table_all : ∀ i : Byte,
    Sn 8 (reg i 0) = reg (aCRCHi.getD i.toNat 0) (aCRCLo.getD i.toNat 0) := by decide +kernel

theorem reg_xor (a b c : Byte) : reg a 0 ^^^ reg b c = reg (a ^^^ b) c := by
  unfold reg
  apply BitVec.eq_of_getLsbD_eq
  intro i hi'
  simp only [BitVec.getLsbD_xor, BitVec.getLsbD_append]
  split <;> simp

/-- One step of the code's loop is eight bits of the shift register. -/
theorem step_eq (hi lo b : Byte) :
    reg (lo ^^^ aCRCHi.getD (hi ^^^ b).toNat 0) (aCRCLo.getD (hi ^^^ b).toNat 0)
      = feed (reg hi lo) (bits b) := by
  rw [feed_lin, feed_byte0, show (bits b).length = 8 from rfl, ← Sn_xor, split16, Sn_xor, shift_hi,
    table_all, reg_xor]

theorem loop_eq : ∀ (msg rest : List Byte) (hi lo : Byte),
    ∃ h l, crcLoop hi lo (msg ++ rest) msg.length = .ok (h, l) ∧
      reg h l = feed (reg hi lo) (frameBits msg)
  | [], rest, hi, lo => ⟨hi, lo, by cases rest <;> rfl, rfl⟩
  | b :: msg, rest, hi, lo => by
    obtain ⟨h, l, h1, h2⟩ := loop_eq msg rest (lo ^^^ aCRCHi.getD (hi ^^^ b).toNat 0)
      (aCRCLo.getD (hi ^^^ b).toNat 0)
    refine ⟨h, l, h1, ?_⟩
    rw [h2, step_eq, frameBits, feed_append]

/-- A word whose bits are the given list. -/
def W : List Bool → BitVec 16
  | [] => 0
  | b :: bs => bw b ^^^ (W bs <<< 1)

theorem bw_bit (b : Bool) (i : Nat) : (bw b).getLsbD i = (b && i == 0) := by
  cases b with
  | false => simp [bw]
  | true =>
    cases i with
    | zero => rfl
    | succ i =>
      simp [bw]

theorem W_bit : ∀ (bs : List Bool) (i : Nat), i < 16 → (W bs).getLsbD i = bs.getD i false
  | [], i, _ => by simp [W]
  | b :: bs, 0, _ => by
    rw [W, BitVec.getLsbD_xor, bw_bit, BitVec.getLsbD_shiftLeft]; simp
  | b :: bs, i + 1, h => by
    simp only [W, BitVec.getLsbD_xor, bw_bit, BitVec.getLsbD_shiftLeft, List.getD_cons_succ]
    rw [← W_bit bs i (by omega)]
    simp
    omega

theorem S_shift {x : BitVec 16} (h : x.getLsbD 15 = false) : S (x <<< 1) = x := by
  apply BitVec.eq_of_getLsbD_eq
  intro i hi
  rw [S_bit]
  simp only [BitVec.getLsbD_shiftLeft]
  by_cases h15 : i = 15
  · subst h15; rw [h]; simp
  · have : i + 1 < 16 := by omega
    simp [this]

theorem feed_word : ∀ (bs : List Bool) (c : BitVec 16), bs.length ≤ 16 →
    feed c bs = Sn bs.length (c ^^^ W bs)
  | [], c, _ => by simp [feed, W, Sn]
  | b :: bs, c, h => by
    have hl : bs.length ≤ 15 := by simpa using h
    have ht : (W bs).getLsbD 15 = false := by
      rw [W_bit _ _ (by decide), List.getD_eq_getElem?_getD, List.getElem?_eq_none hl]
      rfl
    simp only [feed, List.length_cons, Sn, W]
    rw [feed_word bs _ (by omega), ← BitVec.xor_assoc, S_xor (c ^^^ bw b), S_shift ht]

theorem feed_zeros : ∀ (bs : List Bool) (c : BitVec 16), (∀ b ∈ bs, b = false) →
    feed c bs = Sn bs.length c
  | [], c, _ => rfl
  | b :: bs, c, h => by
    have hb : b = false := h b (by simp)
    subst hb
    simp only [feed, List.length_cons, Sn]
    rw [feed_zeros bs _ (fun b hb => h b (by simp [hb]))]
    simp [bw]

/-- A burst leaves the register different from zero. -/
theorem feed_burst : ∀ (bs : List Bool) (p : Nat), (∃ k, bs.getD k false = true) →
    (∀ k, bs.getD k false = true → p ≤ k ∧ k < p + 16) → feed 0 bs ≠ 0 := by
  intro bs p
  induction p generalizing bs with
  | zero =>
    intro ⟨k, hk⟩ hall
    have hk16 : k < 16 := by have := hall k hk; omega
    rw [← List.take_append_drop 16 bs, feed_append, feed_zeros _ _ (by
      intro b hb
      obtain ⟨j, hj⟩ := List.getElem?_of_mem hb
      rw [List.getElem?_drop] at hj
      cases b with
      | false => rfl
      | true =>
        have := hall (16 + j) (by rw [List.getD_eq_getElem?_getD, hj]; rfl)
        omega)]
    apply Sn_ne
    rw [feed_word _ _ (by simp; omega)]
    apply Sn_ne
    rw [z_xor]
    intro h0
    have := congrArg (fun x => x.getLsbD k) h0
    simp only [W_bit _ _ hk16] at this
    rw [List.getD_eq_getElem?_getD, List.getElem?_take_of_lt hk16, ← List.getD_eq_getElem?_getD, hk] at this
    simp at this
  | succ p ih =>
    intro ⟨k, hk⟩ hall
    cases bs with
    | nil => simp at hk
    | cons b bs =>
      have hb : b = false := by
        cases b with
        | false => rfl
        | true => have := hall 0 rfl; omega
      subst hb
      simp only [feed]
      have : S (0 ^^^ bw false) = 0 := by decide
      rw [this]
      apply ih
      · cases k with
        | zero => simp at hk
        | succ k => exact ⟨k, by simpa using hk⟩
      · intro j hj
        have := hall (j + 1) (by simpa using hj)
        omega

end Crc
end Dax
