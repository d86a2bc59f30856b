import Verif.Spec.Atomic
import Verif.Lemmas.EventHist
/-!
# Atomic operations, bit by bit
-/
set_option autoImplicit false
namespace Dax

theorem modB_get {b b' : List Byte} {i : Nat} {f : Byte → Byte} (h : modB b i f = .ok b') (n : Nat) :
    b'[n]? = b[n]?.map (fun x => if n = i then f x else x) := by
  unfold modB at h
  split at h
  · simp at h
  · rename_i x hx
    simp only [C.ok.injEq] at h
    subst h
    have hl := (List.getElem?_eq_some_iff.mp hx).1
    by_cases hn : n = i
    · subst hn; rw [List.getElem?_set_self hl, hx]; simp
    · rw [List.getElem?_set_ne (fun e => hn e.symm)]; simp [hn]

theorem modB_lt {b b' : List Byte} {i : Nat} {f : Byte → Byte} (h : modB b i f = .ok b') : i < b.length := by
  unfold modB at h
  split at h
  · simp at h
  · rename_i x hx
    exact (List.getElem?_eq_some_iff.mp hx).1

theorem toggleMid_get {r : Nat} : ∀ {i : Nat} {b b' : List Byte}, toggleMid r i b = .ok b' → ∀ n : Nat,
    b'[n]? = b[n]?.map (fun x => if i ≤ n ∧ n < i + r then x ^^^ 0xFF#8 else x) := by
  induction r with
  | zero =>
    intro i b b' h n
    simp only [toggleMid, C.ok.injEq] at h
    subst h
    have : (fun x : Byte => if i ≤ n ∧ n < i + 0 then x ^^^ 0xFF#8 else x) = id := by
      funext x; rw [if_neg (by omega)]; rfl
    rw [this, Option.map_id]; rfl
  | succ r ih =>
    intro i b b' h n
    simp only [toggleMid] at h
    obtain ⟨b1, h1, h⟩ := C.bind_eq_ok.mp h
    rw [ih h n, modB_get h1 n, Option.map_map]
    congr 1
    funext x
    simp only [Function.comp]
    by_cases hn : n = i
    · subst hn; simp [show ¬ (n + 1 ≤ n ∧ n < n + 1 + r) by omega]
    · rw [if_neg hn]
      by_cases h1 : i + 1 ≤ n ∧ n < i + 1 + r
      · rw [if_pos h1, if_pos (by omega)]
      · rw [if_neg h1, if_neg (by omega)]

theorem shiftFrom_length (bit : Nat) : ∀ (p : Byte) (l : List Byte), (shiftFrom bit p l).length = l.length := by
  intro p l
  induction l generalizing p with
  | nil => rfl
  | cons b l ih => simp [shiftFrom, ih]

theorem leftShift_length (bit : Nat) (l : List Byte) : (leftShift bit l).length = l.length := by
  cases l with
  | nil => rfl
  | cons b l => simp [leftShift, shiftFrom_length]

theorem shiftFrom_get (bit : Nat) : ∀ (l : List Byte) (p : Byte) (n : Nat),
    (shiftFrom bit p l)[n]? = (l[n]?).bind (fun b => ((p :: l)[n]?).map (fun a : Byte => (a >>> (8 - bit)) ||| (b <<< bit))) := by
  intro l
  induction l with
  | nil => intro p n; simp [shiftFrom]
  | cons b l ih =>
    intro p n
    cases n with
    | zero => simp [shiftFrom]
    | succ n => simp [shiftFrom, ih]

/-- Bits of a shifted buffer. -/
theorem leftShift_bit {bit : Nat} (hb : bit < 8) {l : List Byte} {n : Nat} (hn : n < l.length) :
    ∃ y, (leftShift bit l)[n]? = some y ∧ ∀ j, j < 8 →
      y.getLsbD j = if bit ≤ 8 * n + j then bitAt l (8 * n + j - bit) else false := by
  cases l with
  | nil => simp at hn
  | cons b l =>
    cases n with
    | zero =>
      refine ⟨b <<< bit, by simp [leftShift], fun j hj => ?_⟩
      rw [BitVec.getLsbD_shiftLeft]
      simp only [hj, decide_true, Bool.true_and, Nat.mul_zero, Nat.zero_add]
      by_cases h : j < bit
      · simp [h, show ¬ bit ≤ j by omega]
      · rw [if_pos (by omega)]
        simp only [h, decide_false, Bool.not_false, Bool.true_and, bitAt, bitOf]
        rw [show (j - bit) / 8 = 0 by omega, Nat.mod_eq_of_lt (by omega)]
        simp
    | succ n =>
      have hl : n < l.length := by simpa using hn
      have hn' : n < (b :: l).length := by simp; omega
      refine ⟨((b :: l)[n] >>> (8 - bit)) ||| (l[n] <<< bit), ?_, fun j hj => ?_⟩
      · simp only [leftShift, List.getElem?_cons_succ, shiftFrom_get, List.getElem?_eq_getElem hl, Option.bind_some,
          List.getElem?_eq_getElem hn', Option.map_some]
      · rw [if_pos (by omega), BitVec.getLsbD_or, BitVec.getLsbD_shiftLeft, BitVec.getLsbD_ushiftRight]
        simp only [hj, decide_true, Bool.true_and, bitAt, bitOf]
        by_cases h : j < bit
        · rw [show (8 * (n + 1) + j - bit) / 8 = n by omega, show (8 * (n + 1) + j - bit) % 8 = 8 - bit + j by omega,
            List.getElem?_eq_getElem hn']
          simp [h]
        · rw [show (8 * (n + 1) + j - bit) / 8 = n + 1 by omega, show (8 * (n + 1) + j - bit) % 8 = j - bit by omega]
          rw [BitVec.getLsbD_of_ge (b :: l)[n] (8 - bit + j) (by omega)]
          simp [h, List.getElem?_eq_getElem hl]

theorem hMask_bit (h : Handle) {j : Nat} (hj : j < 8) : (hMask h).getLsbD j = decide ((h.bit + h.count) % 8 ≤ j) := by
  have e : (h.bit + h.count % 8) % 8 = (h.bit + h.count) % 8 := by omega
  unfold hMask
  rw [e]
  have hm : (h.bit + h.count) % 8 < 8 := Nat.mod_lt _ (by omega)
  generalize (h.bit + h.count) % 8 = m at hm
  rw [BitVec.getLsbD_shiftLeft]
  have : ∀ k, k < 8 → (0xFF#8).getLsbD k = true := by decide
  rw [this (j - m) (by omega)]
  by_cases h2 : m ≤ j
  · simp [hj, h2, show ¬ j < m by omega]
  · simp [hj, h2, show j < m by omega]

theorem lMask_bit (h : Handle) (hb : h.bit < 8) {j : Nat} (hj : j < 8) : (lMask h).getLsbD j = decide (j < h.bit) := by
  unfold lMask
  rw [BitVec.getLsbD_ushiftRight]
  by_cases hlt : j < h.bit
  · have : ∀ k, k < 8 → (0xFF#8).getLsbD k = true := by decide
    rw [this _ (by omega)]
    simp [hlt]
  · rw [BitVec.getLsbD_of_ge _ _ (by omega)]
    simp [hlt]

theorem mask_bit {h : Handle} (hb : h.bit < 8) (hc : 0 < h.count) (hsz : h.size = (h.bit + h.count + 7) / 8)
    (hm : (h.bit + h.count) % 8 ≠ 0) {ones : Bool} {src : List Byte} {n : Nat} (hn : n < h.size) {x : Byte}
    (hbits : ∀ j, j < 8 → x.getLsbD j = if h.bit ≤ 8 * n + j then bitAt src (8 * n + j - h.bit) else false)
    (f g : Byte → Byte) (j : Nat) (hj : j < 8) (hf : ∀ z : Byte, (f z).getLsbD j = if j < (h.bit + h.count) % 8 then z.getLsbD j else ones)
    (hg : ∀ z : Byte, (g z).getLsbD j = if h.bit ≤ j then z.getLsbD j else ones) :
    (if n = 0 then g (if n = h.size - 1 then f x else x) else (if n = h.size - 1 then f x else x)).getLsbD j =
      if h.bit ≤ 8 * n + j ∧ 8 * n + j < h.bit + h.count then bitAt src (8 * n + j - h.bit) else ones := by
  have hA : h.bit ≤ 8 * n + j ↔ (n = 0 → h.bit ≤ j) := by omega
  have hB : 8 * n + j < h.bit + h.count ↔ (n = h.size - 1 → j < (h.bit + h.count) % 8) := by omega
  have hb1 := hbits j hj
  by_cases h0 : n = 0
  · rw [if_pos h0, hg]
    by_cases hc : h.bit ≤ j
    · rw [if_pos hc]
      rw [if_pos (by omega)] at hb1
      by_cases hl : n = h.size - 1
      · rw [if_pos hl, hf]
        by_cases hd : j < (h.bit + h.count) % 8
        · rw [if_pos hd, if_pos (by omega), hb1]
        · rw [if_neg hd, if_neg (by omega)]
      · rw [if_neg hl, if_pos (by omega), hb1]
    · rw [if_neg hc, if_neg (by omega)]
  · rw [if_neg h0]
    rw [if_pos (by omega)] at hb1
    by_cases hl : n = h.size - 1
    · rw [if_pos hl, hf]
      by_cases hd : j < (h.bit + h.count) % 8
      · rw [if_pos hd, if_pos (by omega), hb1]
      · rw [if_neg hd, if_neg (by omega)]
    · rw [if_neg hl, if_pos (by omega), hb1]

/-- Bits of the operand after shifting and masking. -/
theorem temp_bit {h : Handle} (hb : h.bit < 8) (hc : 0 < h.count) (hsz : h.size = (h.bit + h.count + 7) / 8)
    (hm : (h.bit + h.count) % 8 ≠ 0) {ones : Bool} {src tmp : List Byte} (hl : src.length = h.size)
    (ht : (if ones then maskTempSet h (leftShift h.bit src) else maskTempClear h (leftShift h.bit src)) = .ok tmp)
    {n : Nat} (hn : n < h.size) :
    ∃ y, tmp[n]? = some y ∧ ∀ j, j < 8 → y.getLsbD j =
      if h.bit ≤ 8 * n + j ∧ 8 * n + j < h.bit + h.count then bitAt src (8 * n + j - h.bit) else ones := by
  obtain ⟨x, hx, hbits⟩ := leftShift_bit hb (l := src) (n := n) (by omega)
  cases ones
  · simp only [Bool.false_eq_true, if_false, maskTempClear] at ht
    obtain ⟨t1, h1, h2⟩ := C.bind_eq_ok.mp ht
    have g := modB_get h2 n
    rw [modB_get h1 n, hx] at g
    simp only [Option.map_some] at g
    refine ⟨_, g, fun j hj => mask_bit hb hc hsz hm hn hbits (fun z => z &&& ~~~ hMask h) (fun z => z &&& ~~~ lMask h) j hj (fun z => ?_) (fun z => ?_)⟩
    · simp only [BitVec.getLsbD_and, BitVec.getLsbD_not, hMask_bit h hj, hj, decide_true, Bool.true_and]
      by_cases hd : j < (h.bit + h.count) % 8
      · simp [hd]
      · simp [hd, show (h.bit + h.count) % 8 ≤ j by omega]
    · simp only [BitVec.getLsbD_and, BitVec.getLsbD_not, lMask_bit h hb hj, hj, decide_true, Bool.true_and]
      by_cases hd : h.bit ≤ j
      · simp [hd, show ¬ j < h.bit by omega]
      · simp [hd, show j < h.bit by omega]
  · simp only [if_true, maskTempSet] at ht
    obtain ⟨t1, h1, h2⟩ := C.bind_eq_ok.mp ht
    have g := modB_get h2 n
    rw [modB_get h1 n, hx] at g
    simp only [Option.map_some] at g
    refine ⟨_, g, fun j hj => mask_bit hb hc hsz hm hn hbits (fun z => z ||| hMask h) (fun z => z ||| lMask h) j hj (fun z => ?_) (fun z => ?_)⟩
    · simp only [BitVec.getLsbD_or, hMask_bit h hj]
      by_cases hd : j < (h.bit + h.count) % 8
      · simp [hd, show ¬ (h.bit + h.count) % 8 ≤ j by omega]
      · simp [hd, show (h.bit + h.count) % 8 ≤ j by omega]
    · simp only [BitVec.getLsbD_or, lMask_bit h hb hj]
      by_cases hd : h.bit ≤ j
      · simp [hd, show ¬ j < h.bit by omega]
      · simp [hd, show j < h.bit by omega]

/-- The one-bit function of an operation before negation. -/
def Logic.bit1 : Logic → Bool → Bool → Bool
  | .or, a, b => a || b
  | .nor, a, b => a || b
  | .and, a, b => a && b
  | .nand, a, b => a && b
  | .xor, a, b => a != b
  | .xnor, a, b => a != b

theorem Logic.base_bit (op : Logic) (a b : Byte) (j : Nat) :
    (op.base a b).getLsbD j = op.bit1 (a.getLsbD j) (b.getLsbD j) := by
  cases op <;> simp [Logic.base, Logic.bit1]

theorem Logic.bit1_fill (op : Logic) (a : Bool) : op.bit1 a op.ones = a := by
  cases op <;> cases a <;> rfl

/-- The one-bit function of an operation. -/
def Logic.fn (op : Logic) (a b : Bool) : Bool := if op.neg then !(op.bit1 a b) else op.bit1 a b

theorem bits_of_bytes {new : List Byte} {f : Nat → Bool}
    (h : ∀ n j, j < 8 → bitOf new n j = f (8 * n + j)) (k : Nat) : bitAt new k = f k := by
  unfold bitAt
  rw [h _ _ (Nat.mod_lt _ (by omega))]
  congr 1
  omega

theorem rd_bit {b d : List Byte} {off n : Nat} (h : rd b off n = .ok d) {k : Nat} (hk : k < 8 * n) :
    bitAt d k = bitAt b (8 * off + k) := by
  unfold bitAt bitOf
  rw [rd_get h]
  simp only [Int.toNat_natCast]
  rw [if_pos (by omega), show off + k / 8 = (8 * off + k) / 8 by omega, show (8 * off + k) % 8 = k % 8 by omega]

theorem zip_bit {f : Byte → Byte → Byte} {old src : List Byte} {n : Nat} {x y : Byte} (h1 : old[n]? = some x) (h2 : src[n]? = some y) :
    (List.zipWith f old src)[n]? = some (f x y) := by
  rw [List.getElem?_zipWith, h1, h2]

/-- The BOOL branch of the logic operations. -/
theorem logicShift_done {op : Logic} {h : Handle} {block d b : List Byte} (hty : h.type = DAX_BOOL) (hc : 0 < h.count)
    (hsz : h.size = (h.bit + h.count + 7) / 8) (hm : (h.bit + h.count) % 8 ≠ 0)
    (hneg : op.neg = true → h.byte = 0 ∧ 2 ≤ h.size) (hh : logicShift op h block d = .ok b) :
    BitsDone op.fn h d block b := by
  refine ⟨logicShift_length hh, ?_⟩
  unfold logicShift at hh
  split at hh
  · simp at hh
  rename_i hb
  have hb : h.bit < 8 := by omega
  split at hh
  · simp at hh
  rename_i hs0
  obtain ⟨src, hsrc, hh⟩ := C.bind_eq_ok.mp hh
  have hsl : src.length = h.size := by have := rd_length hsrc; simpa using this
  have hsbit : ∀ k, k < 8 * h.size → bitAt src k = bitAt d k := by
    intro k hk
    have := rd_bit (off := 0) hsrc hk
    simpa using this
  dsimp only at hh
  have hh' : ∃ tmp, (if op.ones then maskTempSet h (leftShift h.bit src) else maskTempClear h (leftShift h.bit src)) = .ok tmp ∧
      (do let old ← rd block h.byte h.size
          let b ← wr block h.byte (List.zipWith op.base old tmp)
          if op.neg then do
            let b ← toggleMid (h.size - 2) (h.byte + 1) b
            let b ← modB b (h.size - 1) (fun x => x ^^^ ~~~ hMask h)
            modB b 0 (fun x => x ^^^ ~~~ lMask h)
          else C.ok b) = C.ok b := by
    split at hh
    · rename_i ho
      obtain ⟨tmp, ht, hh⟩ := C.bind_eq_ok.mp hh
      exact ⟨tmp, by rw [if_pos ho]; exact ht, hh⟩
    · rename_i ho
      obtain ⟨tmp, ht, hh⟩ := C.bind_eq_ok.mp hh
      exact ⟨tmp, by rw [if_neg ho]; exact ht, hh⟩
  clear hh
  obtain ⟨tmp, ht, hh⟩ := hh'
  obtain ⟨old, hold, hh⟩ := C.bind_eq_ok.mp hh
  obtain ⟨b1, hw, hh⟩ := C.bind_eq_ok.mp hh
  have htb := fun n hn => temp_bit hb hc hsz hm (ones := op.ones) hsl ht (n := n) hn
  have hol : old.length = h.size := by have := rd_length hold; simpa using this
  have hblk : h.byte + h.size ≤ block.length := by have := (rd_ok.mp hold).1; omega
  have htl : h.size ≤ tmp.length := by
    obtain ⟨y, hy, -⟩ := htb (h.size - 1) (by omega)
    have := (List.getElem?_eq_some_iff.mp hy).1
    omega
  have hzl : (List.zipWith op.base old tmp).length = h.size := by rw [List.length_zipWith]; omega
  -- the bits before negation
  have hbit1 : ∀ n j, j < 8 → bitOf b1 n j =
      if 8 * h.byte + h.bit ≤ 8 * n + j ∧ 8 * n + j < 8 * h.byte + h.bit + h.count then
        op.bit1 (bitOf block n j) (bitAt d (8 * n + j - (8 * h.byte + h.bit))) else bitOf block n j := by
    intro n j hj
    have hg := wr_get hw n
    rw [hzl] at hg
    simp only [Int.toNat_natCast] at hg
    by_cases hin : h.byte ≤ n ∧ n < h.byte + h.size
    · rw [if_pos hin] at hg
      obtain ⟨y, hy, hyb⟩ := htb (n - h.byte) (by omega)
      have ho : old[n - h.byte]? = block[n]? := by
        rw [rd_get hold, if_pos (by simp; omega)]
        simp only [Int.toNat_natCast]
        rw [show h.byte + (n - h.byte) = n by omega]
      have hbn : block[n]? = some block[n] := List.getElem?_eq_getElem (by omega)
      rw [zip_bit (ho.trans hbn) hy] at hg
      simp only [bitOf, hg, hbn, op.base_bit, hyb j hj]
      by_cases hr : h.bit ≤ 8 * (n - h.byte) + j ∧ 8 * (n - h.byte) + j < h.bit + h.count
      · rw [if_pos hr, if_pos (by omega), hsbit _ (by omega)]
        congr 2
        omega
      · rw [if_neg hr, if_neg (by omega), op.bit1_fill]
    · rw [if_neg hin] at hg
      have : ¬ (8 * h.byte + h.bit ≤ 8 * n + j ∧ 8 * n + j < 8 * h.byte + h.bit + h.count) := by omega
      rw [if_neg this]
      simp only [bitOf, hg]
  have hfb : h.firstBit = 8 * h.byte + h.bit := by simp [Handle.firstBit, hty]
  have hbc : h.bitCount = h.count := by simp [Handle.bitCount, hty]
  rw [hfb, hbc]
  have hab : ∀ n j, j < 8 → bitAt block (8 * n + j) = bitOf block n j := by
    intro n j hj
    unfold bitAt
    rw [show (8 * n + j) / 8 = n by omega, show (8 * n + j) % 8 = j by omega]
  refine bits_of_bytes (f := fun k => if 8 * h.byte + h.bit ≤ k ∧ k < 8 * h.byte + h.bit + h.count then
    op.fn (bitAt block k) (bitAt d (k - (8 * h.byte + h.bit))) else bitAt block k) ?_
  intro n j hj
  rw [hab n j hj]
  split at hh
  · rename_i hn
    obtain ⟨hz, hs2⟩ := hneg hn
    obtain ⟨b2, h2, hh⟩ := C.bind_eq_ok.mp hh
    obtain ⟨b3, h3, h4⟩ := C.bind_eq_ok.mp hh
    have g := modB_get h4 n
    rw [modB_get h3 n, toggleMid_get h2 n, Option.map_map, Option.map_map] at g
    have hb1 := hbit1 n j hj
    by_cases hlen : n < b1.length
    · rw [List.getElem?_eq_getElem hlen] at g
      simp only [Option.map_some, Function.comp] at g
      have hb1' : b1[n].getLsbD j = bitOf b1 n j := by simp only [bitOf, List.getElem?_eq_getElem hlen]
      have hgoal : bitOf b n j = if 8 * h.byte + h.bit ≤ 8 * n + j ∧ 8 * n + j < 8 * h.byte + h.bit + h.count then !(bitOf b1 n j) else bitOf b1 n j := by
        unfold bitOf at hb1' ⊢
        rw [g, ← hb1']
        dsimp only
        have hff : ∀ j, j < 8 → (0xFF#8).getLsbD j = true := by decide
        by_cases h0 : n = 0
        · rw [if_pos h0, if_neg (show ¬ n = h.size - 1 by omega), if_neg (by omega), BitVec.getLsbD_xor, BitVec.getLsbD_not, lMask_bit h hb hj]
          by_cases hr : h.bit ≤ j
          · rw [if_pos (by omega)]; simp [hj, show ¬ j < h.bit by omega]
          · rw [if_neg (by omega)]; simp [hj, show j < h.bit by omega]
        · rw [if_neg h0]
          by_cases hl : n = h.size - 1
          · rw [if_pos hl, if_neg (by omega), BitVec.getLsbD_xor, BitVec.getLsbD_not, hMask_bit h hj]
            by_cases hr : j < (h.bit + h.count) % 8
            · rw [if_pos (by omega)]; simp [hj, show ¬ (h.bit + h.count) % 8 ≤ j by omega]
            · rw [if_neg (by omega)]; simp [hj, show (h.bit + h.count) % 8 ≤ j by omega]
          · rw [if_neg hl]
            by_cases hr : h.byte + 1 ≤ n ∧ n < h.byte + 1 + (h.size - 2)
            · rw [if_pos hr, if_pos (by omega), BitVec.getLsbD_xor, hff j hj]; simp
            · rw [if_neg hr, if_neg (by omega)]
      rw [hgoal, hb1]
      unfold Logic.fn
      rw [if_pos hn]
      split <;> rfl
    · rw [List.getElem?_eq_none (show b1.length ≤ n by omega), Option.map_none] at g
      have hbl : block.length = b1.length := (wr_length hw).symm
      rw [if_neg (by omega)]
      simp only [bitOf, g, List.getElem?_eq_none (show block.length ≤ n by omega)]
  · rename_i hn
    simp only [C.ok.injEq] at hh
    subst hh
    rw [hbit1 n j hj]
    unfold Logic.fn
    rw [if_neg hn]

theorem Logic.plain_bit (op : Logic) (a b : Byte) {j : Nat} (hj : j < 8) :
    (op.plain a b).getLsbD j = op.fn (a.getLsbD j) (b.getLsbD j) := by
  unfold Logic.plain Logic.fn
  split
  · rw [BitVec.getLsbD_not, op.base_bit]; simp [hj]
  · exact op.base_bit a b j

theorem bitAt_pair (b : List Byte) (n : Nat) {j : Nat} (hj : j < 8) : bitAt b (8 * n + j) = bitOf b n j := by
  unfold bitAt
  rw [show (8 * n + j) / 8 = n by omega, show (8 * n + j) % 8 = j by omega]

/-- A bytewise operation on a range, bit by bit. -/
theorem range_done {f : Byte → Byte} {g : Nat → Nat → Bool → Bool} {block new b : List Byte} {off size : Nat}
    (hl : new.length = size) (hw : wr block off new = .ok b)
    (hg : ∀ n x, n < size → block[off + n]? = some x → ∃ y, new[n]? = some y ∧ ∀ j, j < 8 → y.getLsbD j = g n j (x.getLsbD j)) (k : Nat) :
    bitAt b k = if 8 * off ≤ k ∧ k < 8 * off + 8 * size then g (k / 8 - off) (k % 8) (bitAt block k) else bitAt block k := by
  have hbl : off + size ≤ block.length := by have := (wr_ok.mp hw).1; omega
  have h1 := wr_get hw (k / 8)
  rw [hl] at h1
  simp only [Int.toNat_natCast] at h1
  by_cases hin : off ≤ k / 8 ∧ k / 8 < off + size
  · rw [if_pos hin] at h1
    rw [if_pos (by omega)]
    obtain ⟨y, hy, hb⟩ := hg (k / 8 - off) block[k / 8] (by omega) (by
      rw [show off + (k / 8 - off) = k / 8 by omega]; exact List.getElem?_eq_getElem (by omega))
    simp only [bitAt, bitOf, h1, hy, hb _ (Nat.mod_lt k (show 0 < 8 by omega)), List.getElem?_eq_getElem (show k / 8 < block.length by omega)]
  · rw [if_neg hin] at h1
    rw [if_neg (by omega)]
    simp only [bitAt, bitOf, h1]

theorem logicPlain_done {op : Logic} {h : Handle} {block d b : List Byte} (hb0 : h.byte = 0)
    (hf : h.firstBit = 8 * h.byte) (hc : h.bitCount = 8 * h.size) (hh : logicPlain op h block d = .ok b) :
    BitsDone op.fn h d block b := by
  refine ⟨logicPlain_length hh, fun k => ?_⟩
  unfold logicPlain at hh
  split at hh
  · rename_i h0
    simp only [C.ok.injEq] at hh
    rw [if_neg (by omega), hh]
  · obtain ⟨src, hsrc, hh⟩ := C.bind_eq_ok.mp hh
    obtain ⟨old, hold, hh⟩ := C.bind_eq_ok.mp hh
    have hsl : src.length = h.size := by have := rd_length hsrc; simpa using this
    have hol : old.length = h.size := by have := rd_length hold; simpa using this
    have := range_done (f := id) (g := fun n j a => op.fn a (bitAt src (8 * n + j))) (size := h.size)
      (by rw [List.length_zipWith]; omega) hh (by
        intro n x hn hx
        have hsn : src[n]? = some src[n] := List.getElem?_eq_getElem (by omega)
        have hon : old[n]? = some x := by
          rw [rd_get hold, if_pos (by simpa using hn)]; simpa using hx
        refine ⟨_, zip_bit hon hsn, fun j hj => ?_⟩
        rw [op.plain_bit _ _ hj, bitAt_pair _ _ hj]
        simp only [bitOf, hsn]) k
    rw [this, hf, hc]
    by_cases hr : 8 * h.byte ≤ k ∧ k < 8 * h.byte + 8 * h.size
    · rw [if_pos hr, if_pos hr]
      rw [rd_bit hsrc (by omega)]
      congr 2
      omega
    · rw [if_neg hr, if_neg hr]

theorem notBits_bit {r : Nat} : ∀ {p : Nat} {b b' : List Byte}, notBits r p b = .ok b' → ∀ k,
    bitAt b' k = if p ≤ k ∧ k < p + r then !(bitAt b k) else bitAt b k := by
  induction r with
  | zero =>
    intro p b b' h k
    simp only [notBits, C.ok.injEq] at h
    subst h
    rw [if_neg (by omega)]
  | succ r ih =>
    intro p b b' h k
    simp only [notBits] at h
    obtain ⟨b1, h1, h⟩ := C.bind_eq_ok.mp h
    have hl := modB_lt h1
    have hx : b[p / 8]? = some b[p / 8] := List.getElem?_eq_getElem hl
    have h1' : b1 = b.set (p / 8) (b[p / 8] ^^^ bitMask (p % 8)) := by
      unfold modB at h1; rw [hx] at h1; simpa using h1.symm
    rw [ih h k]
    have hk : bitAt b1 k = if k = p then !(bitAt b k) else bitAt b k := by
      rw [h1', bitAt_set hx]
      by_cases he : k / 8 = p / 8
      · rw [if_pos he]
        have hbk : bitAt b k = b[p / 8].getLsbD (k % 8) := bitAt_get (by rw [he]; exact hx)
        rw [hbk, BitVec.getLsbD_xor]
        unfold bitMask
        rw [BitVec.getLsbD_twoPow]
        by_cases hp : k = p
        · subst hp
          have : k % 8 < 8 := Nat.mod_lt _ (by omega)
          simp [this]
        · have : ¬ p % 8 = k % 8 := by omega
          simp [hp, this]
      · rw [if_neg he, if_neg (fun e => he (by rw [e]))]
    rw [hk]
    by_cases hp : k = p
    · rw [if_pos hp, if_neg (by omega), if_pos (by omega)]
    · rw [if_neg hp]
      by_cases hr : p + 1 ≤ k ∧ k < p + 1 + r
      · rw [if_pos hr, if_pos (by omega)]
      · rw [if_neg hr, if_neg (by omega)]

theorem atomicNot_done {h : Handle} {block d b : List Byte} (hh : atomicNot h block = .ok (some b)) :
    BitsDone (fun a _ => !a) h d block b := by
  refine ⟨atomicNot_length hh, fun k => ?_⟩
  unfold atomicNot at hh
  split at hh
  · simp at hh
  · split at hh
    · rename_i hty
      split at hh
      · simp at hh
      · obtain ⟨b1, h1, hh⟩ := C.bind_eq_ok.mp hh
        simp only [C.ok.injEq, Option.some.injEq] at hh
        subst hh
        rw [notBits_bit h1 k]
        simp [Handle.firstBit, Handle.bitCount, hty]
    · rename_i hty
      obtain ⟨old, hold, hh⟩ := C.bind_eq_ok.mp hh
      obtain ⟨b1, h1, hh⟩ := C.bind_eq_ok.mp hh
      simp only [C.ok.injEq, Option.some.injEq] at hh
      subst hh
      have hol : old.length = h.size := by have := rd_length hold; simpa using this
      rw [range_done (f := id) (g := fun _ _ a => !a) (size := h.size) (by simpa using hol) h1 (by
        intro n x hn hx
        have hon : old[n]? = some x := by
          rw [rd_get hold, if_pos (by simpa using hn)]; simpa using hx
        refine ⟨~~~ x, by simp [hon], fun j hj => ?_⟩
        rw [BitVec.getLsbD_not]; simp [hj]) k]
      simp [Handle.firstBit, Handle.bitCount, hty]

theorem atomicLogic_done {op : Logic} {code : Nat} {h : Handle} {block d b : List Byte} (hf : h.Fitted)
    (hcode : op.neg = true → code = 6 ∨ code = 7 ∨ code = 9) (h3 : code ≠ 3)
    (hw : h.Works code) (hh : atomicLogic op h block d = .ok (some b)) : BitsDone op.fn h d block b := by
  unfold atomicLogic at hh
  split at hh
  · simp at hh
  · split at hh
    · rename_i hb
      obtain ⟨b1, h1, hh⟩ := C.bind_eq_ok.mp hh
      simp only [C.ok.injEq, Option.some.injEq] at hh
      subst hh
      obtain ⟨k1, k2, k3⟩ := hf hb.1
      rcases hw with hw | ⟨hw | hw, -⟩ | ⟨-, hw, hn⟩
      · exact absurd hw h3
      · exact absurd hb.1 hw
      · exact absurd ⟨hw.2, hw.1⟩ hb.2
      · exact logicShift_done hb.1 k2 k3 hw (fun e => hn (hcode e)) h1
    · rename_i hb
      obtain ⟨b1, h1, hh⟩ := C.bind_eq_ok.mp hh
      simp only [C.ok.injEq, Option.some.injEq] at hh
      subst hh
      by_cases hty : h.type = DAX_BOOL
      · obtain ⟨k1, k2, k3⟩ := hf hty
        have hp : h.count % 8 = 0 ∧ h.bit = 0 := Classical.byContradiction fun hc => hb ⟨hty, hc⟩
        refine logicPlain_done ?_ (by simp [Handle.firstBit, hty, hp.2]) (by simp only [Handle.bitCount, hty, if_true]; omega) h1
        rcases hw with hw | ⟨-, hw⟩ | ⟨-, hw, -⟩
        · exact absurd hw h3
        · exact hw
        · omega
      · refine logicPlain_done ?_ (by simp [Handle.firstBit, hty]) (by simp [Handle.bitCount, hty]) h1
        rcases hw with hw | ⟨-, hw⟩ | ⟨hw, -⟩
        · exact absurd hw h3
        · exact hw
        · exact absurd hw hty

theorem atomicApply_done {e : Env} {op : Nat} {f : Bool → Bool → Bool} {h : Handle} {block d b : List Byte} (ho : bitFn op = some f)
    (hf : h.Fitted) (hw : h.Works op) (hh : atomicApply e h block d op = .ok (.ok b)) : BitsDone f h d block b := by
  have hbad : ∀ {x : C (Option (List Byte))}, (do let r ← x; C.ok (badType r)) = .ok (.ok b) →
      x = .ok (some b) := by
    intro x hx
    obtain ⟨o, ho, hx⟩ := C.bind_eq_ok.mp hx
    cases o with
    | none => simp [badType] at hx
    | some y => simp only [badType, C.ok.injEq, Except.ok.injEq] at hx; rw [ho, hx]
  unfold bitFn at ho
  split at ho
  · simp only [Option.some.injEq] at ho; subst ho
    exact atomicNot_done (hbad hh)
  · simp only [Option.some.injEq] at ho; subst ho
    have := atomicLogic_done (op := .or) hf (by simp [Logic.neg]) (by decide) hw (hbad hh)
    exact this
  · simp only [Option.some.injEq] at ho; subst ho
    exact atomicLogic_done (op := .and) hf (by simp [Logic.neg]) (by decide) hw (hbad hh)
  · simp only [Option.some.injEq] at ho; subst ho
    exact atomicLogic_done (op := .nor) hf (by simp) (by decide) hw (hbad hh)
  · simp only [Option.some.injEq] at ho; subst ho
    exact atomicLogic_done (op := .nand) hf (by simp) (by decide) hw (hbad hh)
  · simp only [Option.some.injEq] at ho; subst ho
    exact atomicLogic_done (op := .xor) hf (by simp [Logic.neg]) (by decide) hw (hbad hh)
  · simp only [Option.some.injEq] at ho; subst ho
    have := atomicLogic_done (op := .xnor) hf (by simp) (by decide) hw (hbad hh)
    have e : (fun a b : Bool => a == b) = Logic.fn .xnor := by
      funext a b; cases a <;> cases b <;> rfl
    rw [e]; exact this
  · simp at ho

theorem atomicApply_error {e : Env} {h : Handle} {block d : List Byte} {op : Nat} {r : Int}
    (hh : atomicApply e h block d op = .ok (.error r)) : r < 0 := by
  have hbad : ∀ {x : C (Option (List Byte))}, (do let r ← x; C.ok (badType r)) = .ok (.error r) → r < 0 := by
    intro x hx
    obtain ⟨o, ho, hx⟩ := C.bind_eq_ok.mp hx
    cases o with
    | none => simp only [badType, C.ok.injEq, Except.error.injEq] at hx; subst hx; decide
    | some y => simp [badType] at hx
  have hinc : ∀ {sub : Bool}, atomicInc e sub h block d = .ok (.error r) → r < 0 := by
    intro sub hx
    unfold atomicInc at hx
    split at hx
    · simp only [C.ok.injEq, Except.error.injEq] at hx; subst hx; decide
    · split at hx
      · simp only [C.ok.injEq, Except.error.injEq] at hx; subst hx; decide
      · obtain ⟨x, -, hx⟩ := C.bind_eq_ok.mp hx
        obtain ⟨y, -, hx⟩ := C.bind_eq_ok.mp hx
        dsimp only at hx
        split at hx
        all_goals
          obtain ⟨v, -, hx⟩ := C.bind_eq_ok.mp hx
          obtain ⟨b1, h1, hx⟩ := C.bind_eq_ok.mp hx
          simp at hx
  unfold atomicApply at hh
  repeat' split at hh
  all_goals first
    | exact hinc hh
    | exact hbad hh
    | (simp only [C.ok.injEq, Except.error.injEq] at hh; subst hh; decide)

theorem atomicOp_inv' {s s' : Server} {h : Handle} {d : List Byte} {op : Nat} {r : Int}
    (hh : atomicOp s h d op = .ok (s', r)) :
    (s' = s ∧ r < 0) ∨ (r = 0 ∧ ∃ t block b evs ns rt, s.tag? h.index = some t ∧ t.data = .mem block ∧
      atomicApply s.env h block d op = .ok (.ok b) ∧
      s' = { s.setTag h.index { t with data := .mem b, events := evs } with
             sent := s.sent ++ ns, ret := rt }) := by
  have hneg : ∀ {e : Int}, e < 0 → C.ok (s, e) = C.ok (s', r) → s' = s ∧ r < 0 := by
    intro e he h
    simp only [C.ok.injEq, Prod.mk.injEq] at h
    exact ⟨h.1.symm, by omega⟩
  unfold atomicOp at hh
  split at hh
  · exact .inl (hneg (by decide) hh)
  · split at hh
    · exact .inl (hneg (by decide) hh)
    · rename_i t ht
      split at hh
      · exact .inl (hneg (by decide) hh)
      · split at hh
        · exact .inl (hneg (by decide) hh)
        · split at hh
          · exact .inl (hneg (by decide) hh)
          · rename_i block hb
            obtain ⟨x, hx, hh⟩ := C.bind_eq_ok.mp hh
            cases x with
            | error e => exact .inl (hneg (atomicApply_error hx) hh)
            | ok b =>
              obtain ⟨hr, evs, ns, rt, he, hs⟩ := commitWrite_inv hh
              exact .inr ⟨hr, t, block, b, evs, ns, rt, ht, hb, hx, hs⟩
          · simp at hh

/-- What an atomic request does to a tag without mappings. -/
theorem atomic_inv {s s' : Server} {fd : Int} {h : Handle} {op i : Nat} {buf : List Byte} {r : Reply} (hi : h.index = i)
    (hm : NoMaps s i) (hh : handle s fd (.atomic h op buf) = .ok (s', r)) :
    (s' = s ∧ ∃ e, r = .err e) ∨ (r = .resp [] ∧ ∃ t block b evs ns rt, s.db[i]? = some t ∧ t.data = .mem block ∧
      atomicApply s.env h block buf op = .ok (.ok b) ∧
      s' = { s.setTag h.index { t with data := .mem b, events := evs } with
             sent := s.sent ++ ns, ret := rt }) := by
  simp only [handle, hAtomic] at hh
  obtain ⟨ro, -, hh⟩ := C.bind_eq_ok.mp hh
  split at hh
  · simp only [C.ok.injEq, Prod.mk.injEq] at hh
    exact .inl ⟨hh.1.symm, _, hh.2.symm⟩
  · obtain ⟨⟨s1, r1⟩, h1, hh⟩ := C.bind_eq_ok.mp hh
    dsimp only at hh
    rcases atomicOp_inv' h1 with ⟨hs, hneg⟩ | ⟨rfl, t, block, b, evs, ns, rt, ht, hb, ha, hs⟩
    · rw [if_pos hneg] at hh
      simp only [C.ok.injEq, Prod.mk.injEq] at hh
      exact .inl ⟨hh.1.symm.trans hs, _, hh.2.symm⟩
    · right
      rw [if_neg (by omega)] at hh
      have hlt := (List.getElem?_eq_some_iff.mp (tag?_eq.mp ht).2).1
      have hdb : s.db[i]? = some t := by rw [hi, tag?_natCast] at ht; exact ht
      obtain ⟨w1, w2⟩ := hm.rep t hdb (by rw [hb]; simp)
      have hg : s1.tag? h.index = some { t with data := .mem b, events := evs } := by
        rw [hs, hi, tag?_natCast]
        simp only [Server.setTag, Int.toNat_natCast]
        rw [List.getElem?_set_self (by rw [hi] at hlt; simpa using hlt)]
      rw [mapCheck_nil hg w1 w2] at hh
      simp only [C.ok_bind, C.ok.injEq, Prod.mk.injEq] at hh
      obtain ⟨rfl, rfl⟩ := hh
      exact ⟨rfl, t, block, b, evs, ns, rt, hdb, hb, ha, hs⟩

end Dax
