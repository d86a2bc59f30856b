import Verif.Lemmas.Crc
import Verif.Lemmas.Tactic
/-!
# C53: the Modbus checksum detects corruption
-/
set_option autoImplicit false
namespace Dax
open Crc

theorem crc16_eq (msg rest : List Byte) (hl : msg.length ≤ 65535) :
    ∃ h l, crc16 (msg ++ rest) msg.length = .ok (h, l) ∧
      reg h l = feed (reg 0xFF 0xFF) (frameBits msg) := by
  unfold crc16
  rw [Nat.mod_eq_of_lt (by omega)]
  exact loop_eq msg rest _ _

theorem polyCrc_eq (f : List Byte) (n : Nat) (h : n ≤ 8 * f.length) :
    polyCrc f n = feed (reg 0xFF 0xFF) ((frameBits f).take n) := by
  induction n with
  | zero => rfl
  | succ n ih =>
    have hn : n < (frameBits f).length := by rw [frameBits_length]; omega
    rw [polyCrc, ih (by omega), polyBit_eq, List.take_succ_eq_append_getElem hn, feed_append,
      ← frameBits_get, List.getD_eq_getElem?_getD, List.getElem?_eq_getElem hn]
    rfl

/-- The table driven `crc16` computes the checksum that the Modbus polynomial defines, for every
message that its length argument can describe; `CRCHi` (sent first) is the low byte. -/
theorem C53_polynomial (msg rest : List Byte) (hl : msg.length ≤ 65535) :
    ∃ h l : Byte, crc16 (msg ++ rest) msg.length = .ok (h, l) ∧
      (l ++ h : BitVec 16) = polyCrc msg (8 * msg.length) := by
  obtain ⟨h, l, h1, h2⟩ := crc16_eq msg rest hl
  refine ⟨h, l, h1, ?_⟩
  rw [polyCrc_eq _ _ (Nat.le_refl _), ← frameBits_length, List.take_length]
  exact h2

/-- Every message of up to 65535 bytes in a buffer with room for the checksum is accepted once
its checksum has been appended the way the sender does it. -/
theorem C53_accepted (msg rest : List Byte) (x y : Byte) (hl : msg.length ≤ 65535) :
    ∃ crc buff, crc16 (msg ++ x :: y :: rest) msg.length = .ok crc ∧
      putWord (msg ++ x :: y :: rest) msg.length crc = .ok buff ∧
      crc16check buff (msg.length + 2) = .ok true := by
  obtain ⟨h, l, h1, h2⟩ := crc16_eq msg (x :: y :: rest) hl
  refine ⟨(h, l), msg ++ h :: l :: rest, h1, ?_, ?_⟩
  · unfold putWord wr
    rw [if_pos (by simp; omega)]
    simp only [Int.toNat_natCast, List.take_left', List.length_cons, List.length_nil]
    rw [List.drop_append]
    simp
  · obtain ⟨h', l', h1', h2'⟩ := crc16_eq msg (h :: l :: rest) hl
    have hu : crcLoop 0xFF 0xFF (msg ++ h :: l :: rest) msg.length = .ok (h, l) := by
      have : ∀ (m r r' : List Byte) (a b : Byte),
          crcLoop a b (m ++ r) m.length = crcLoop a b (m ++ r') m.length := by
        intro m
        induction m with
        | nil => intro r r' a b; cases r <;> cases r' <;> rfl
        | cons c m ih => intro r r' a b; exact ih _ _ _ _
      rw [this msg _ (x :: y :: rest)]
      unfold crc16 at h1
      rwa [Nat.mod_eq_of_lt (by omega)] at h1
    unfold crc16check
    rw [if_neg (by omega)]
    have hn : msg.length + 2 - 2 = msg.length := by omega
    rw [hn]
    have hg : getWord (msg ++ h :: l :: rest) msg.length = .ok (h, l) := by
      unfold getWord rd
      rw [if_pos (by simp; omega)]
      simp
    unfold crc16
    rw [Nat.mod_eq_of_lt (by omega), hu, hg]
    simp

/-- A frame of at least two bytes splits into message and checksum. -/
theorem frame_split {f : List Byte} (h : 2 ≤ f.length) :
    ∃ m a b, f = m ++ [a, b] ∧ m.length = f.length - 2 := by
  refine ⟨f.take (f.length - 2), f[f.length - 2], f[f.length - 1], ?_, by simp⟩
  have h1 := List.take_append_drop (f.length - 2) f
  rw [List.drop_eq_getElem_cons (by omega), List.drop_eq_getElem_cons (by omega),
    List.drop_eq_nil_of_le (by omega)] at h1
  have h2 : f[f.length - 1] = f[f.length - 2 + 1] := by congr 1; omega
  rw [h2]
  exact h1.symm

theorem W_two (a b : Byte) : W (frameBits [a, b]) = reg a b := by
  apply BitVec.eq_of_getLsbD_eq
  intro i hi
  rw [W_bit _ _ hi, frameBits_get]
  unfold reg frameBit
  rw [BitVec.getLsbD_append]
  by_cases h8 : i < 8
  · have h0 : i / 8 = 0 := by omega
    have h1 : i % 8 = i := by omega
    simp [h0, h1, h8]
  · have h0 : i / 8 = 1 := by omega
    have h1 : i % 8 = i - 8 := by omega
    simp [h0, h1, h8]

/-- The check succeeds exactly when the register ends at zero. -/
theorem check_iff {f : List Byte} (h2 : 2 ≤ f.length) (hl : f.length ≤ 65537) :
    ∃ r, crc16check f f.length = .ok r ∧
      (r = true ↔ feed (reg 0xFF 0xFF) (frameBits f) = 0) := by
  obtain ⟨m, a, b, rfl, hm⟩ := frame_split h2
  simp only [List.length_append, List.length_cons, List.length_nil] at hl ⊢
  obtain ⟨h, l, h1, h3⟩ := crc16_eq m [a, b] (by omega)
  have hg : getWord (m ++ [a, b]) m.length = .ok (a, b) := by
    unfold getWord rd
    rw [if_pos (by simp)]
    simp
  have hn : m.length + (0 + 1 + 1) - 2 = m.length := by omega
  refine ⟨word16 (h, l) == word16 (a, b), ?_, ?_⟩
  · unfold crc16check
    rw [if_neg (by omega), hn, h1, hg]
    simp
  · rw [frameBits_append, feed_append, ← h3, feed_word _ _ (by rw [frameBits_length]; exact Nat.le_refl 16), W_two]
    have hw : word16 (h, l) = word16 (a, b) ↔ h = a ∧ l = b := by
      unfold word16
      have := h.isLt; have := l.isLt; have := a.isLt; have := b.isLt
      simp only [← BitVec.toNat_inj]
      omega
    rw [beq_iff_eq, hw]
    constructor
    · rintro ⟨rfl, rfl⟩
      rw [BitVec.xor_self]; exact Sn_zero _
    · intro h0
      have hz : reg h l ^^^ reg a b = 0 := by
        apply Classical.byContradiction
        intro hc
        exact Sn_ne _ hc h0
      have he : reg h l = reg a b := by
        have := congrArg (· ^^^ reg a b) hz
        simpa [BitVec.xor_assoc] using this
      constructor <;>
      · apply BitVec.eq_of_getLsbD_eq
        intro i hi
        have e1 := congrArg (fun x => x.getLsbD i) he
        have e2 := congrArg (fun x => x.getLsbD (i + 8)) he
        simp only [reg, BitVec.getLsbD_append] at e1 e2
        simp [hi] at e1 e2
        first | exact e1 | exact e2

theorem frameBits_eq {f g : List Byte} (hl : g.length = f.length)
    (h : ∀ k, frameBit g k = frameBit f k) : g = f := by
  apply List.ext_getElem hl
  intro i h1 h2
  apply BitVec.eq_of_getLsbD_eq
  intro j hj
  have := h (8 * i + j)
  unfold frameBit at this
  have d1 : (8 * i + j) / 8 = i := by omega
  have d2 : (8 * i + j) % 8 = j := by omega
  rw [d1, d2] at this
  simpa [List.getD_eq_getElem?_getD, List.getElem?_eq_getElem, h1, h2] using this

/-- **C53**, for frames of up to 65537 bytes including the checksum (what the 16-bit length
argument of `crc16` can describe): if a frame passes the check, every frame that differs from it
only within 16 consecutive bits, checksum bytes included, fails it.  Missing: longer frames, for
which it is false (`C53_long`). -/
theorem C53_burst_partial (f g : List Byte) (hl : f.length ≤ 65537)
    (ha : crc16check f f.length = .ok true) (hb : Burst f g) :
    crc16check g g.length = .ok false := by
  obtain ⟨he, hne, p, hp⟩ := hb
  have h2 : 2 ≤ f.length := by
    apply Classical.byContradiction
    intro hc
    unfold crc16check at ha
    rw [if_pos (by omega)] at ha
    simp at ha
  obtain ⟨r, hr, hri⟩ := check_iff h2 hl
  rw [ha] at hr
  cases hr
  obtain ⟨r', hr', hri'⟩ := check_iff (f := g) (by omega) (by omega)
  rw [hr']
  cases hq : r' with
  | false => rfl
  | true =>
    exfalso
    have z1 := hri.mp rfl
    have z2 := hri'.mp hq
    have hx := feed_xor (frameBits g) (frameBits f) (reg 0xFF 0xFF) (reg 0xFF 0xFF)
      (by rw [frameBits_length, frameBits_length, he])
    have hz : ∀ x : BitVec 16, x ^^^ x = 0 := by intro x; simp
    rw [z1, z2, hz, hz] at hx
    have key : ∀ k, ((frameBits g).zipWith (· ^^ ·) (frameBits f)).getD k false
        = (frameBit g k ^^ frameBit f k) := by
      intro k
      rw [← frameBits_get, ← frameBits_get]
      simp only [List.getD_eq_getElem?_getD, List.getElem?_zipWith]
      have hlen : (frameBits g).length = (frameBits f).length := by
        rw [frameBits_length, frameBits_length, he]
      by_cases hk : k < (frameBits g).length
      · rw [List.getElem?_eq_getElem hk, List.getElem?_eq_getElem (by omega)]; rfl
      · rw [List.getElem?_eq_none (by omega), List.getElem?_eq_none (by omega)]; rfl
    refine feed_burst _ p ?_ ?_ hx.symm
    · apply Classical.byContradiction
      intro hc
      apply hne
      apply frameBits_eq he
      intro k
      apply Classical.byContradiction
      intro hd
      apply hc
      refine ⟨k, ?_⟩
      rw [key]
      revert hd
      cases frameBit g k <;> cases frameBit f k <;> simp
    · intro k hk
      rw [key] at hk
      apply hp
      intro h0
      rw [h0] at hk
      simp at hk

/-- Not vacuous: the request "read holding register 0x6B of slave 17" passes, and a corrupted
copy of it is within the bursts covered. -/
example : ∃ f g, f.length ≤ 65537 ∧ crc16check f f.length = .ok true ∧ Burst f g :=
  ⟨[0x11, 0x03, 0x00, 0x6B, 0x00, 0x03, 0x76, 0x87],
   [0x11, 0x03, 0x00, 0x6A, 0x80, 0x03, 0x76, 0x87], by decide, by kernel_rfl, by decide, by decide, 24, by
    intro k
    match k with
    | 0 | 1 | 2 | 3 | 4 | 5 | 6 | 7 | 8 | 9 | 10 | 11 | 12 | 13 | 14 | 15 | 16 | 17 | 18 | 19 | 20
    | 21 | 22 | 23 | 24 | 25 | 26 | 27 | 28 | 29 | 30 | 31 | 32 | 33 | 34 | 35 | 36 | 37 | 38
    | 39 => decide
    | k + 40 =>
      intro h
      exfalso; apply h
      unfold frameBit
      have : (k + 40) / 8 = k / 8 + 5 := by omega
      rw [this]
      simp [List.getD_cons_succ]⟩

/-- The code does not keep the promise for longer frames: the length is cut to 16 bits, so with
65536 message bytes the check looks at none of them.  Here a frame passes and so does the same
frame with one bit flipped. -/
theorem C53_long : ∃ f g, crc16check f f.length = .ok true ∧ Burst f g ∧
    crc16check g g.length = .ok true := by
  have key : ∀ m : List Byte, m.length = 65536 →
      crc16check (m ++ [0xFF, 0xFF]) (m ++ [0xFF, 0xFF]).length = .ok true := by
    intro m hm
    have hg : getWord (m ++ [0xFF, 0xFF]) 65536 = .ok (0xFF, 0xFF) := by
      unfold getWord rd
      rw [if_pos (by simp; omega)]
      simp [hm]
    have hn : (m ++ [0xFF, 0xFF]).length = 65538 := by simp [hm]
    have hc : crc16 (m ++ [0xFF, 0xFF]) 65536 = .ok (0xFF, 0xFF) := by
      unfold crc16
      have : 65536 % 65536 = 0 := by omega
      rw [this]
      cases m <;> rfl
    rw [hn]
    have h2 : 65538 - 2 = 65536 := by omega
    have gen : ∀ n : Nat, ¬ n < 2 → n - 2 = 65536 → crc16check (m ++ [0xFF, 0xFF]) n = .ok true := by
      intro n h1 h2
      unfold crc16check
      rw [if_neg h1, h2, hc, hg]
      simp
    exact gen 65538 (by omega) h2
  obtain ⟨z, hz⟩ : ∃ z : List Byte, z.length = 65535 := ⟨List.replicate 65535 0, List.length_replicate⟩
  refine ⟨(0 :: z) ++ [0xFF, 0xFF], (1 :: z) ++ [0xFF, 0xFF],
    key _ (by rw [List.length_cons, hz]), ⟨by simp, by simp, 0, ?_⟩, key _ (by rw [List.length_cons, hz])⟩
  intro k hk
  refine ⟨Nat.zero_le _, ?_⟩
  apply Classical.byContradiction
  intro hc
  apply hk
  unfold frameBit
  have : k / 8 = (k / 8 - 1) + 1 := by omega
  rw [this, List.cons_append, List.cons_append, List.getD_cons_succ, List.getD_cons_succ]

end Dax
