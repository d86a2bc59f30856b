import Verif.Spec.Wire
import Verif.Lemmas.Basic
/-!
# Lemmas for encoding and decoding
-/
set_option autoImplicit false
namespace Dax.Wire
open LibEv (be4)

theorem drop_toLE (n v k : Nat) (l : List Byte) (h : n ≤ k) : (toLE n v ++ l).drop k = l.drop (k - n) := by
  rw [List.drop_append, List.drop_eq_nil_of_le (by rw [toLE_length]; exact h), toLE_length, List.nil_append]

theorem drop_le4 (v : Int) (k : Nat) (l : List Byte) (h : 4 ≤ k) : (le4 v ++ l).drop k = l.drop (k - 4) :=
  drop_toLE 4 _ k l h

theorem take_toLE (n v : Nat) (l : List Byte) : (toLE n v ++ l).take n = toLE n v := by
  rw [List.take_append_of_le_length (by rw [toLE_length]; omega), List.take_of_length_le (by rw [toLE_length]; omega)]

theorem take_toLE' (n v : Nat) : (toLE n v).take n = toLE n v :=
  List.take_of_length_le (by rw [toLE_length]; omega)

theorem take_le4 (v : Int) (l : List Byte) : (le4 v ++ l).take 4 = le4 v := take_toLE 4 _ l

theorem drop_here (n : Nat) (d l : List Byte) (h : d.length = n) : (d ++ l).drop n = l := by
  subst h; exact List.drop_left

theorem take_here (n : Nat) (d l : List Byte) (h : d.length = n) : (d ++ l).take n = d := by
  subst h; exact List.take_left

theorem leNat4 {v : Nat} (h : v < 4294967296) : leNat (toLE 4 v) = v := by
  rw [leNat_toLE]; exact Nat.mod_eq_of_lt h

theorem leNat1 {v : Nat} (h : v < 256) : leNat (toLE 1 v) = v := by
  rw [leNat_toLE]; exact Nat.mod_eq_of_lt h

theorem i32_le4 {v : Int} (h : IsInt v) : i32 (leNat (le4 v)) = v := i32_leNat_le4 h

theorem i32_toLE {v : Nat} (h : v < 2147483648) : i32 (leNat (toLE 4 v)) = (v : Int) := by
  rw [leNat4 (by omega)]; exact i32_of_range (by omega)

theorem cstr_append {n : Name} (l : List Byte) (h : 0#8 ∉ n) : cstr (n ++ 0 :: l) = n := by
  unfold cstr
  induction n with
  | nil => rfl
  | cons c n ih =>
    simp only [List.mem_cons, not_or] at h
    rw [List.cons_append, List.takeWhile_cons, if_pos (by simpa using fun e => h.1 e.symm), ih h.2]

theorem strAt_eq {buf l : List Byte} {off : Nat} {n : Name} (hd : buf.drop off = n ++ 0 :: l) (h : 0#8 ∉ n) :
    strAt buf off = .ok n := by
  unfold strAt
  rw [hd, if_pos (by simp), cstr_append l h]

theorem rd_drop {buf d l : List Byte} {off : Nat} (h0 : off ≤ buf.length) (hd : buf.drop off = d ++ l) :
    rd buf off d.length = .ok d := by
  have hl : (buf.drop off).length = d.length + l.length := by rw [hd, List.length_append]
  rw [List.length_drop] at hl
  refine rd_ok.mpr ⟨⟨by omega, by omega, by omega⟩, ?_⟩
  rw [Int.toNat_natCast, Int.toNat_natCast, hd, List.take_left]

theorem handle21_of {h : Handle} (ok : HandleOK h) (l : List Byte) : handle21 (handle21Of h ++ l) = h := by
  obtain ⟨h1, h2, h3, h4, h5, h6, h7⟩ := ok
  obtain ⟨i, by_, bi, c, s, t⟩ := h
  dsimp only at *
  unfold handle21 handle21Of
  dsimp only
  simp only [List.append_assoc, drop_le4, drop_toLE, take_le4, take_toLE, Nat.le_refl, Nat.reduceLeDiff, Nat.reduceSub,
    List.drop_zero, leNat4 h3, leNat4 h5, leNat4 h6, leNat4 h7, leNat1 h4, i32_le4 ⟨h1, h2⟩]

theorem handle21Of_length (h : Handle) : (handle21Of h).length = 21 := by
  simp [handle21Of, toLE_length, le4_length]

theorem group_handles {hs : List Handle} (ok : ∀ h ∈ hs, HandleOK h) (l : List Byte) :
    ((List.range hs.length).map fun n => handle21 ((hs.flatMap handle21Of ++ l).drop (21 * n))) = hs := by
  induction hs with
  | nil => rfl
  | cons h hs ih =>
    rw [List.length_cons, List.range_succ_eq_map, List.map_cons, List.map_map]
    refine List.cons_eq_cons.mpr ⟨?_, ?_⟩
    · rw [Nat.mul_zero, List.drop_zero, List.flatMap_cons, List.append_assoc]
      exact handle21_of (ok h (by simp)) _
    · conv => rhs; rw [← ih fun x hx => ok x (by simp [hx])]
      refine List.map_congr_left fun n _ => ?_
      show handle21 (((h :: hs).flatMap handle21Of ++ l).drop (21 * (n + 1))) = _
      rw [List.flatMap_cons, List.append_assoc, show 21 * (n + 1) = (handle21Of h).length + 21 * n by
        rw [handle21Of_length]; omega, ← List.drop_drop, List.drop_left]

theorem bitOf_set (l : List Byte) (i j b : Nat) (x : Byte) :
    bitOf (l.set i x) j b = if i = j ∧ j < l.length then x.getLsbD b else bitOf l j b := by
  unfold bitOf
  by_cases h : i = j
  · subst h
    by_cases h2 : i < l.length
    · rw [List.getElem?_set_self h2, if_pos ⟨rfl, h2⟩]
    · rw [if_neg (by omega), List.getElem?_eq_none (by rw [List.length_set]; omega),
        List.getElem?_eq_none (by omega)]
  · rw [List.getElem?_set_ne h, if_neg (by omega)]

theorem or_bit (x : Byte) {c k : Nat} (hc : c < 8) (hk : k < 8) :
    (x ||| BitVec.ofNat 8 (2 ^ c)).getLsbD k = (x.getLsbD k || decide (c = k)) := by
  rw [BitVec.getLsbD_or, BitVec.getLsbD_ofNat, Nat.testBit_two_pow]
  simp [hk]

/-- Setting one bit. -/
theorem bitOf_or {l : List Byte} {q : Nat} {x : Byte} (hx : l[q / 8]? = some x) (p : Nat) :
    bitOf (l.set (q / 8) (x ||| BitVec.ofNat 8 (2 ^ (q % 8)))) (p / 8) (p % 8) =
      (bitOf l (p / 8) (p % 8) || decide (p = q)) := by
  have hl : q / 8 < l.length := (List.getElem?_eq_some_iff.mp hx).1
  rw [bitOf_set]
  by_cases h : q / 8 = p / 8
  · rw [if_pos ⟨h, h ▸ hl⟩, or_bit x (by omega) (by omega)]
    have : bitOf l (p / 8) (p % 8) = x.getLsbD (p % 8) := by unfold bitOf; rw [← h, hx]
    rw [this]
    congr 1
    simp only [decide_eq_decide]; omega
  · rw [if_neg (by omega)]
    have : p ≠ q := by rintro rfl; exact h rfl
    simp [this]

theorem shiftLoop_ok (data : List Byte) (bit : Nat) : ∀ (k n : Nat) (nd mk : List Byte),
    n + k ≤ 8 * data.length → bit + n + k ≤ 8 * nd.length → mk.length = nd.length →
    ∃ nd' mk', shiftLoop data bit k n (nd, mk) = .ok (nd', mk') ∧ nd'.length = nd.length ∧ mk'.length = mk.length ∧
      (∀ p, bitOf mk' (p / 8) (p % 8) = (bitOf mk (p / 8) (p % 8) || decide (bit + n ≤ p ∧ p < bit + n + k))) ∧
      (∀ p, bitOf nd' (p / 8) (p % 8) = (bitOf nd (p / 8) (p % 8) ||
        (decide (bit + n ≤ p ∧ p < bit + n + k) && bitOf data ((p - bit) / 8) ((p - bit) % 8)))) := by
  intro k
  induction k with
  | zero =>
    intro n nd mk _ _ _
    refine ⟨nd, mk, rfl, rfl, rfl, fun p => ?_, fun p => ?_⟩ <;>
    · rw [show decide (bit + n ≤ p ∧ p < bit + n + 0) = false from decide_eq_false (by omega)]; simp
  | succ k ih =>
    intro n nd mk h1 h2 h3
    have hx : data[n / 8]? = some data[n / 8] := List.getElem?_eq_getElem (by omega)
    have hy : nd[(bit + n) / 8]? = some nd[(bit + n) / 8] := List.getElem?_eq_getElem (by omega)
    have hz : mk[(bit + n) / 8]? = some mk[(bit + n) / 8] := List.getElem?_eq_getElem (by omega)
    obtain ⟨nd', mk', e, l1, l2, b1, b2⟩ := ih (n + 1)
      (if data[n / 8].getLsbD (n % 8) then nd.set ((bit + n) / 8) (nd[(bit + n) / 8] ||| BitVec.ofNat 8 (2 ^ ((bit + n) % 8)))
        else nd) (mk.set ((bit + n) / 8) (mk[(bit + n) / 8] ||| BitVec.ofNat 8 (2 ^ ((bit + n) % 8))))
      (by omega) (by split <;> (try simp only [List.length_set]) <;> omega)
      (by split <;> simp only [List.length_set] <;> omega)
    refine ⟨nd', mk', ?_, ?_, ?_, fun p => ?_, fun p => ?_⟩
    · rw [shiftLoop, hx, hy, hz]; exact e
    · rw [l1]; split <;> simp
    · rw [l2]; simp
    · rw [b1 p, bitOf_or hz p, Bool.or_assoc]
      congr 1
      rw [← Bool.decide_or, decide_eq_decide]; omega
    · rw [b2 p]
      have hd : bitOf data (n / 8) (n % 8) = data[n / 8].getLsbD (n % 8) := by unfold bitOf; rw [hx]
      by_cases hp : p = bit + n
      · subst hp
        rw [show bit + n - bit = n by omega, hd, show decide (bit + (n + 1) ≤ bit + n ∧ bit + n < bit + (n + 1) + k) = false
          from decide_eq_false (by omega), show decide (bit + n ≤ bit + n ∧ bit + n < bit + n + (k + 1)) = true
          from decide_eq_true (by omega)]
        split
        · next h => rw [bitOf_or hy, h]; simp
        · next h => simp at h; rw [h]; simp
      · have e1 : (bitOf (if data[n / 8].getLsbD (n % 8) then
            nd.set ((bit + n) / 8) (nd[(bit + n) / 8] ||| BitVec.ofNat 8 (2 ^ ((bit + n) % 8))) else nd) (p / 8) (p % 8)) =
            bitOf nd (p / 8) (p % 8) := by
          split
          · rw [bitOf_or hy]; simp [hp]
          · rfl
        rw [e1]
        congr 2
        rw [decide_eq_decide]; omega

theorem bitOf_replicate (n : Nat) (x : Byte) (k b : Nat) :
    bitOf (List.replicate n x) k b = (decide (k < n) && x.getLsbD b) := by
  unfold bitOf
  rw [List.getElem?_replicate]
  by_cases h : k < n
  · rw [if_pos h]; simp [h]
  · rw [if_neg h]; simp [h]

/-- The data and mask an override is made with. -/
theorem shiftedBits_ok {h : Handle} {d : List Byte} (hb : BitsFit h) (hn : numBits h ≤ 8 * d.length) :
    ∃ nd mk, shiftedBits h d = .ok (nd, mk) ∧ nd.length = h.size + extraByte h ∧ mk.length = h.size + extraByte h ∧
      Marks h mk ∧ Carries h d nd := by
  unfold shiftedBits
  by_cases hs : shifted h = true
  · have hs' := hs
    unfold shifted at hs'
    simp only [Bool.and_eq_true, beq_iff_eq, Bool.or_eq_true, decide_eq_true_eq, bne_iff_ne, ne_eq] at hs'
    obtain ⟨hb1, hb2, -⟩ := hb hs'.1
    have hsz : shiftSize h = h.size + extraByte h := by
      unfold shiftSize extraByte
      by_cases hc : h.bit > 0 ∧ h.count % 8 = 0
      · rw [if_pos hc, if_pos ⟨hs'.1, hc⟩]
      · rw [if_neg hc, if_neg (fun x => hc x.2)]; rfl
    have hf : firstBit h = h.bit := if_pos hs'.1
    have hm : numBits h = h.count := if_pos hs'.1
    rw [hm] at hn
    rw [if_pos hs, Nat.mod_eq_of_lt hb1, hsz]
    obtain ⟨nd, mk, e, l1, l2, b1, b2⟩ := shiftLoop_ok d h.bit h.count 0 (List.replicate (h.size + extraByte h) 0)
      (List.replicate (h.size + extraByte h) 0) (by omega) (by rw [List.length_replicate]; omega) (by simp)
    refine ⟨nd, mk, e, by simpa using l1, by simpa using l2, fun p => ?_, fun n hk => ?_⟩
    · rw [b1 p, bitOf_replicate, hf, hm]; simp
    · rw [b2, bitOf_replicate, hf]
      rw [hm] at hk
      rw [show decide (h.bit + 0 ≤ h.bit + n ∧ h.bit + n < h.bit + 0 + h.count) = true from decide_eq_true (by omega),
        show h.bit + n - h.bit = n by omega]
      simp
  · have hx : extraByte h = 0 := by
      unfold extraByte
      refine if_neg fun x => hs ?_
      simp [shifted, x.1, x.2.1]
    have hnum : numBits h = 8 * h.size ∧ firstBit h = 0 := by
      unfold numBits firstBit
      split
      · next hb' =>
        simp only [shifted, Bool.and_eq_true, beq_iff_eq, Bool.or_eq_true, decide_eq_true_eq, bne_iff_ne, ne_eq, not_and,
          not_or, Decidable.not_not] at hs
        have := hs hb'
        have h0 : h.bit = 0 := by omega
        exact ⟨(hb hb').2.2 h0 this.2, h0⟩
      · exact ⟨rfl, rfl⟩
    rw [hnum.1] at hn
    rw [if_neg hs, (rd_ok (b := d) (off := 0) (n := (h.size : Int)) (d := (d.drop (0 : Int).toNat).take (h.size : Int).toNat)).mpr
      ⟨by omega, rfl⟩]
    refine ⟨_, _, rfl, ?_, by simp [hx], fun p => ?_, fun n hk => ?_⟩
    · simp; omega
    · rw [bitOf_replicate, hnum.1, hnum.2]
      have : (255 : Byte).getLsbD (p % 8) = true := by
        have : ∀ k : Fin 8, (255 : Byte).getLsbD k = true := by decide
        exact this ⟨p % 8, by omega⟩
      rw [this, Bool.and_true, decide_eq_decide]; omega
    · rw [hnum.1] at hk
      rw [hnum.2, Nat.zero_add]
      unfold bitOf
      rw [Int.toNat_zero, List.drop_zero, List.getElem?_take, if_pos (by omega)]


/-- What a call sends is understood as the request it stands for. -/
def Sent (junk : List Byte) (c : Call) : Prop :=
  ∃ cmd p, encode junk c = .ok (.ok (cmd, p)) ∧ 1 ≤ cmd ∧ cmd ≤ 27 ∧ p.length ≤ 4088 ∧
    ∀ rest, p.length + rest.length = 4088 → ∃ r, decode cmd p.length (p ++ rest) = .ok r ∧ Means c r

syntax "fields" "[" Lean.Parser.Tactic.simpLemma,* "]" : tactic
macro_rules
  | `(tactic| fields [$ls,*]) => `(tactic| simp only [u4, List.append_assoc, List.cons_append, List.nil_append, drop_le4,
      drop_toLE, take_le4, take_toLE, Nat.le_refl, Nat.reduceLeDiff, Nat.reduceSub, List.drop_zero, List.drop_succ_cons,
      List.drop_succ_cons, $ls,*])

theorem set_tail {a b : List Byte} {i : Nat} (h : a.length ≤ i) : (a ++ b).set i 0 = a ++ b.set (i - a.length) 0 :=
  List.set_append_right _ _ h

theorem mem_elem {t : Nat} (h : t ∈ baseTypes) : typeBits t / 8 = eventBytes t ∧ eventBytes t ≤ 8 := by
  revert t; decide

theorem typesize_le {t : Nat} (h : t ∈ baseTypes) : baseTypes.contains t = true := by simpa using h

theorem decode_write (n : Nat) (buf : List Byte) : decode 7 n buf = (do
    let d ← rd buf 8 ((n : Int) - 8)
    C.ok (Req.tagWrite (i32 (u4 buf 0)) (i32 (u4 buf 4)) d)) := rfl

theorem decode_mask (n : Nat) (buf : List Byte) (h : ¬ n < 8) : decode 8 n buf = (do
    let d ← rd buf 8 ((n - 8) / 2 : Nat)
    let m ← rd buf (8 + ((n - 8) / 2 : Nat)) ((n - 8) / 2 : Nat)
    C.ok (Req.tagMWrite (i32 (u4 buf 0)) (i32 (u4 buf 4)) d m)) := if_neg h

theorem decode_ovrAdd (n : Nat) (buf : List Byte) (h : ¬ n < 12) : decode 24 n buf = (do
    let d ← rd buf 12 ((n - 12) / 2 : Nat)
    let m ← rd buf (12 + ((n - 12) / 2 : Nat)) ((n - 12) / 2 : Nat)
    C.ok (Req.ovrAdd (i32 (u4 buf 0)) (i32 (u4 buf 4)) d m)) := if_neg h

theorem decode_ovrDel (n : Nat) (buf : List Byte) : decode 25 n buf = (do
    let m ← rd buf 8 ((n : Int) - 8)
    C.ok (Req.ovrDel (i32 (u4 buf 0)) (i32 (u4 buf 4)) m)) := rfl

theorem decode_atomic (n : Nat) (buf : List Byte) : decode 23 n buf =
    .ok (.atomic { index := i32 (u4 buf 0), byte := u4 buf 4, count := u4 buf 8, type := u4 buf 12,
                   bit := leNat ((buf.drop 16).take 1), size := u32 ((n : Int) - 21) }
      (leNat ((buf.drop 17).take 2)) (buf.drop 21)) := rfl

theorem leNat_two {v : Nat} (h : v < 65536) : leNat ((toLE 4 v).take 2) = v := by
  have : (toLE 4 v).take 2 = toLE 2 v := rfl
  rw [this, leNat_toLE]
  exact Nat.mod_eq_of_lt h

theorem take_two (v : Nat) (l : List Byte) : (toLE 4 v ++ l).take 2 = (toLE 4 v).take 2 :=
  List.take_append_of_le_length (by rw [toLE_length]; omega)

theorem cstr_all {n : Name} (h : 0#8 ∉ n) : cstr n = n := by
  unfold cstr
  induction n with
  | nil => rfl
  | cons c n ih =>
    simp only [List.mem_cons, not_or] at h
    rw [List.takeWhile_cons, if_pos (by simpa using fun e => h.1 e.symm), ih h.2]

theorem sent_of_valid {junk : List Byte} (hj : junk.length = 4088) {c : Call} (v : Valid c) : Sent junk c := by
  cases c with
  | register n =>
    obtain ⟨h0, hl⟩ := v
    refine ⟨1, [0, 0, 3, 232, 0, 0, 0, 1] ++ n ++ [0], ?_, by decide, by decide, by simp; omega, fun rest _ => ⟨_, ?_, rfl⟩⟩
    · exact if_neg (by omega)
    · have e : strAt ([0, 0, 3, 232, 0, 0, 0, 1] ++ n ++ [0] ++ rest) 8 = .ok n :=
        strAt_eq (l := rest) (by fields []) h0
      unfold decode
      rw [if_pos rfl, if_pos (by simp), e]
      rfl
  | tagAdd t cn a n =>
    obtain ⟨h1, h2, h3, h0, hl, hc⟩ := v
    refine ⟨2, toLE 4 t ++ toLE 4 cn ++ toLE 4 a ++ n ++ [0], ?_, by decide, by decide, by simp [toLE_length]; omega,
      fun rest _ => ⟨_, ?_, rfl⟩⟩
    · exact (if_neg (by omega)).trans ((if_neg (by unfold TAGNAME_SIZE; omega)).trans (if_neg (by omega)))
    · have e : strAt (toLE 4 t ++ toLE 4 cn ++ toLE 4 a ++ n ++ [0] ++ rest) 12 = .ok n :=
        strAt_eq (l := rest) (by fields []) h0
      unfold decode
      rw [if_neg (by decide), if_pos rfl, e]
      fields [C.ok_bind, leNat4 h1, leNat4 h2, leNat4 h3]
  | tagDel i =>
    refine ⟨3, le4 i, rfl, by decide, by decide, by simp [le4_length], fun rest _ => ⟨_, rfl, ?_⟩⟩
    show Req.tagDel _ = _
    fields [i32_le4 v]
  | byName n =>
    obtain ⟨h0, hl, hne⟩ := v
    refine ⟨4, 1#8 :: n ++ [0], ?_, by decide, by decide, by simp; omega, fun rest hr => ⟨_, ?_, rfl⟩⟩
    · exact (if_neg (by unfold TAGNAME_SIZE; omega)).trans (if_neg hne)
    · have hs : ∃ l, (1#8 :: n ++ [0] ++ rest).set 33 0 = 1#8 :: (n ++ 0 :: l) := by
        by_cases hm : n.length = 32
        · refine ⟨rest, ?_⟩
          rw [List.cons_append, List.cons_append, List.set_cons_succ, List.append_assoc, set_tail (by omega), hm]
          rfl
        · refine ⟨rest.set (31 - n.length) 0, ?_⟩
          rw [List.cons_append, List.cons_append, List.set_cons_succ, List.append_assoc, set_tail (by omega),
            show 32 - n.length = (31 - n.length) + 1 by omega]
          rfl
      obtain ⟨l, hs⟩ := hs
      have e : strAt ((1#8 :: n ++ [0] ++ rest).set 33 0) 1 = .ok n := strAt_eq (l := l) (by rw [hs]; rfl) h0
      unfold decode
      rw [if_neg (by decide), if_neg (by decide), if_neg (by decide), if_pos rfl, if_neg (by simp), e]
      rfl
  | byIndex i =>
    refine ⟨4, 2#8 :: le4 i, rfl, by decide, by decide, by simp [le4_length], fun rest _ => ⟨.tagGetIdx i, ?_, rfl⟩⟩
    unfold decode
    rw [if_neg (by decide), if_neg (by decide), if_neg (by decide), if_pos rfl, if_pos (by simp)]
    fields [i32_le4 v]
  | read i o n =>
    obtain ⟨hi, ho, hn⟩ := v
    refine ⟨6, le4 i ++ toLE 4 o ++ toLE 4 n ++ (junk.drop 12).take 2, ?_, by decide, by decide,
      by simp [le4_length, toLE_length]; omega, fun rest _ => ⟨_, rfl, ?_⟩⟩
    · exact if_neg (by unfold MSG_DATA_SIZE; omega)
    · show Req.tagRead _ _ _ = _
      fields [i32_le4 hi, i32_toLE ho, i32_toLE (show n < 2147483648 by omega)]
  | write i o d =>
    obtain ⟨hi, ho, hn⟩ := v
    refine ⟨7, le4 i ++ toLE 4 o ++ d, ?_, by decide, by decide, by simp [le4_length, toLE_length]; omega,
      fun rest _ => ⟨.tagWrite i o d, ?_, rfl⟩⟩
    · exact if_neg (by unfold MSG_DATA_SIZE; omega)
    · have e : rd (le4 i ++ toLE 4 o ++ d ++ rest) 8 (((le4 i ++ toLE 4 o ++ d).length : Int) - 8) = .ok d := by
        have hl : ((le4 i ++ toLE 4 o ++ d).length : Int) - 8 = (d.length : Int) := by simp [le4_length, toLE_length]; omega
        rw [hl]
        exact rd_drop (off := 8) (l := rest) (by simp [le4_length, toLE_length]; omega) (by fields [])
      rw [decode_write, e]
      fields [C.ok_bind, i32_le4 hi, i32_toLE ho]
  | mask i o d m =>
    obtain ⟨hi, ho, hn, hm⟩ := v
    refine ⟨8, le4 i ++ toLE 4 o ++ d ++ m.take d.length, ?_, by decide, by decide,
      by simp [le4_length, toLE_length]; omega, fun rest _ => ⟨.tagMWrite i o d (m.take d.length), ?_, rfl⟩⟩
    · refine (if_neg (by unfold MSG_DATA_SIZE; omega)).trans ?_
      rw [(rd_ok (b := m) (off := 0) (n := (d.length : Int)) (d := m.take d.length)).mpr ⟨by omega, rfl⟩]
      rfl
    · have hl : ((le4 i ++ toLE 4 o ++ d ++ m.take d.length).length - 8) / 2 = d.length := by
        simp [le4_length, toLE_length]; omega
      have hk : (m.take d.length).length = d.length := by simp; omega
      have e1 : rd (le4 i ++ toLE 4 o ++ d ++ m.take d.length ++ rest) 8 (d.length : Int) = .ok d :=
        rd_drop (off := 8) (l := m.take d.length ++ rest) (by simp [le4_length, toLE_length]; omega) (by fields [])
      have e2 : rd (le4 i ++ toLE 4 o ++ d ++ m.take d.length ++ rest) ((8 + d.length : Nat) : Int) (d.length : Int) =
          .ok (m.take d.length) := by
        have := rd_drop (buf := le4 i ++ toLE 4 o ++ d ++ m.take d.length ++ rest) (d := m.take d.length) (off := 8 + d.length) (l := rest)
          (by simp [le4_length, toLE_length]; omega) (by rw [← List.drop_drop]; fields [List.drop_left])
        rwa [hk] at this
      rw [decode_mask _ _ (by simp [le4_length, toLE_length]; omega), hl, e1, C.ok_bind, show (8 : Int) + (d.length : Int) = ((8 + d.length : Nat) : Int) by push_cast; rfl, e2]
      fields [C.ok_bind, i32_le4 hi, i32_toLE ho]
  | ovrAdd h d =>
    obtain ⟨ok, hb, bf, hsz, hd⟩ := v
    obtain ⟨nd, mk, e, l1, l2, hm, hc⟩ := shiftedBits_ok bf hd
    have hjl : ((junk.drop 8).take 4).length = 4 := by simp; omega
    refine ⟨24, le4 h.index ++ toLE 4 h.byte ++ (junk.drop 8).take 4 ++ nd ++ mk, ?_, by decide, by decide,
      by simp [le4_length, toLE_length]; omega, fun rest _ => ⟨.ovrAdd h.index h.byte nd mk, ?_, _, _, rfl, by omega, hm, hc⟩⟩
    · show (shiftedBits h d >>= _) = _
      rw [e]
      exact if_neg (by unfold MSG_DATA_SIZE; omega)
    · generalize hX : (junk.drop 8).take 4 = X at hjl
      have hl : ((le4 h.index ++ toLE 4 h.byte ++ X ++ nd ++ mk).length - 12) / 2 = nd.length := by
        simp [le4_length, toLE_length]; omega
      have e1 : rd (le4 h.index ++ toLE 4 h.byte ++ X ++ nd ++ mk ++ rest) 12 (nd.length : Int) = .ok nd :=
        rd_drop (off := 12) (l := mk ++ rest) (by simp [le4_length, toLE_length]; omega)
          (by fields []; exact drop_here 4 _ _ hjl)
      have e2 : rd (le4 h.index ++ toLE 4 h.byte ++ X ++ nd ++ mk ++ rest) ((12 + nd.length : Nat) : Int) (nd.length : Int) =
          .ok mk := by
        have := rd_drop (buf := le4 h.index ++ toLE 4 h.byte ++ X ++ nd ++ mk ++ rest) (d := mk) (off := 12 + nd.length) (l := rest)
          (by simp [le4_length, toLE_length]; omega) (by rw [← List.drop_drop]; fields []; rw [drop_here 4 _ _ hjl, List.drop_left])
        rwa [show mk.length = nd.length by omega] at this
      rw [decode_ovrAdd _ _ (by simp [le4_length, toLE_length]; omega), hl, e1, C.ok_bind, show (12 : Int) + (nd.length : Int) = ((12 + nd.length : Nat) : Int) by push_cast; rfl, e2]
      fields [C.ok_bind, i32_le4 (show IsInt h.index from ⟨ok.1, ok.2.1⟩), i32_toLE hb]
  | ovrDel h =>
    obtain ⟨ok, hb, bf, hsz⟩ := v
    obtain ⟨nd, mk, e, l1, l2, hm, hc⟩ := shiftedBits_ok (d := List.replicate (h.size + h.count) 0) bf
      (by unfold numBits; rw [List.length_replicate]; split <;> omega)
    refine ⟨25, le4 h.index ++ toLE 4 h.byte ++ mk, ?_, by decide, by decide,
      by simp [le4_length, toLE_length]; omega, fun rest _ => ⟨.ovrDel h.index h.byte mk, ?_, _, rfl, hm⟩⟩
    · show (shiftedBits h _ >>= _) = _
      rw [e]
      exact if_neg (by unfold MSG_DATA_SIZE; omega)
    · have e1 : rd (le4 h.index ++ toLE 4 h.byte ++ mk ++ rest) 8 (((le4 h.index ++ toLE 4 h.byte ++ mk).length : Int) - 8) = .ok mk := by
        have hl : ((le4 h.index ++ toLE 4 h.byte ++ mk).length : Int) - 8 = (mk.length : Int) := by simp [le4_length, toLE_length]; omega
        rw [hl]
        exact rd_drop (off := 8) (l := rest) (by simp [le4_length, toLE_length]; omega) (by fields [])
      rw [decode_ovrDel, e1]
      fields [C.ok_bind, i32_le4 (show IsInt h.index from ⟨ok.1, ok.2.1⟩), i32_toLE hb]
  | ovrGet h =>
    obtain ⟨ok, hb, hs⟩ := v
    refine ⟨26, le4 h.index ++ toLE 4 h.byte ++ toLE 4 h.size, rfl, by decide, by decide,
      by simp [le4_length, toLE_length], fun rest _ => ⟨_, rfl, ?_⟩⟩
    show Req.ovrGet _ _ _ = _
    fields [i32_le4 (show IsInt h.index from ⟨ok.1, ok.2.1⟩), i32_toLE hb, i32_toLE hs]
  | ovrSet h =>
    refine ⟨27, le4 h.index ++ [255], rfl, by decide, by decide, by simp [le4_length], fun rest _ => ⟨_, rfl, ?_⟩⟩
    show Req.ovrSet _ _ = _
    fields [i32_le4 (show IsInt h.index from ⟨v.1, v.2.1⟩)]
    rfl
  | ovrClr h =>
    refine ⟨27, le4 h.index ++ [0], rfl, by decide, by decide, by simp [le4_length], fun rest _ => ⟨_, rfl, ?_⟩⟩
    show Req.ovrSet _ _ = _
    fields [i32_le4 (show IsInt h.index from ⟨v.1, v.2.1⟩)]
    rfl
  | atomic h d op =>
    obtain ⟨ok, hsz, ht, hop, hd⟩ := v
    have hX : ∃ X, X.length = h.size ∧ encode junk (.atomic h d op) = .ok (.ok (23, le4 h.index ++ toLE 4 h.byte ++
        toLE 4 h.count ++ toLE 4 h.type ++ toLE 1 h.bit ++ toLE 4 op ++ X)) ∧ ∀ x, d = some x → X = x.take h.size := by
      have hc : isCustom h.type = false := by
        unfold isCustom
        exact Nat.testBit_lt_two_pow (by omega)
      cases d with
      | none =>
        refine ⟨(junk.drop 21).take h.size, by simp; omega, ?_, by simp⟩
        exact (if_neg (by unfold MSG_DATA_SIZE; omega)).trans (if_neg (by simp [hc]))
      | some x =>
        have := hd x rfl
        refine ⟨x.take h.size, by simp; omega, ?_, by rintro y ⟨⟩; rfl⟩
        refine (if_neg (by unfold MSG_DATA_SIZE; omega)).trans ((if_neg (by simp [hc])).trans ?_)
        show (rd x 0 (h.size : Int) >>= _) = _
        rw [(rd_ok (b := x) (off := 0) (n := (h.size : Int)) (d := x.take h.size)).mpr ⟨by omega, rfl⟩]
        rfl
    obtain ⟨X, hl, e, hx⟩ := hX
    refine ⟨23, _, e, by decide, by decide, by simp [le4_length, toLE_length]; omega, fun rest _ => ⟨_, decode_atomic _ _, X ++ rest, ?_, ?_⟩⟩
    · obtain ⟨h1, h2, h3, h4, h5, h6, h7⟩ := ok
      have hu : u32 (((le4 h.index ++ toLE 4 h.byte ++ toLE 4 h.count ++ toLE 4 h.type ++ toLE 1 h.bit ++ toLE 4 op ++
          X).length : Int) - 21) = h.size := by
        rw [show (((le4 h.index ++ toLE 4 h.byte ++ toLE 4 h.count ++ toLE 4 h.type ++ toLE 1 h.bit ++ toLE 4 op ++
          X).length : Int) - 21) = (h.size : Int) by simp [le4_length, toLE_length]; omega]
        have := u32_of_range (x := (h.size : Int)) (by omega)
        omega
      rw [hu]
      fields [leNat4 h3, leNat4 h5, leNat4 h7, leNat1 h4, i32_le4 (show IsInt h.index from ⟨h1, h2⟩),
        take_two, leNat_two hop]
    · intro x hd'
      rw [← hx x hd', take_here _ _ _ hl]
  | evAdd h et d =>
    obtain ⟨ok, het, hd⟩ := v
    have hX : ∃ X, X.length ≤ 8 ∧ encode junk (.evAdd h et d) = .ok (.ok (9, le4 h.index ++ toLE 4 h.byte ++
        toLE 4 h.count ++ toLE 4 h.type ++ le4 et ++ toLE 4 h.size ++ toLE 1 h.bit ++ X)) ∧
        ∀ x, d = some x → X.length = eventBytes h.type ∧ X = x.take (eventBytes h.type) := by
      cases d with
      | none => exact ⟨[], by simp, rfl, by simp⟩
      | some x =>
        obtain ⟨hb, hlen⟩ := hd x rfl
        obtain ⟨m1, m2⟩ := mem_elem hb
        have hk : (x.take (eventBytes h.type)).length = eventBytes h.type := by simp; omega
        refine ⟨x.take (eventBytes h.type), by omega, ?_, by rintro y ⟨⟩; exact ⟨hk, rfl⟩⟩
        show (eventData junk h.type x >>= _) = _
        have : eventData junk h.type x = .ok (x.take (eventBytes h.type)) := by
          unfold eventData
          dsimp only
          rw [m1, if_neg (by unfold MSG_DATA_SIZE; omega), if_pos (typesize_le hb)]
          exact rd_ok.mpr ⟨by omega, rfl⟩
        rw [this]
        rfl
    obtain ⟨X, hl, e, hx⟩ := hX
    refine ⟨9, _, e, by decide, by decide, by simp [le4_length, toLE_length]; omega, fun rest _ => ⟨_, rfl, X ++ rest, ?_, ?_⟩⟩
    · obtain ⟨h1, h2, h3, h4, h5, h6, h7⟩ := ok
      show Req.evAdd _ _ _ = _
      fields [leNat4 h3, leNat4 h5, leNat4 h6, leNat4 h7, leNat1 h4, i32_le4 het, i32_le4 (show IsInt h.index from ⟨h1, h2⟩)]
    · intro x hd'
      obtain ⟨k1, k2⟩ := hx x hd'
      rw [← k2, take_here _ _ _ k1]
  | evDel i id =>
    refine ⟨10, le4 i ++ le4 id, rfl, by decide, by decide, by simp [le4_length], fun rest _ => ⟨_, rfl, ?_⟩⟩
    show Req.evDel _ _ = _
    fields [i32_le4 v.1, i32_le4 v.2]
  | evOpt i id o =>
    refine ⟨12, le4 i ++ le4 id ++ toLE 4 o, rfl, by decide, by decide, by simp [le4_length, toLE_length],
      fun rest _ => ⟨_, rfl, ?_⟩⟩
    show Req.evOpt _ _ _ = _
    fields [i32_le4 v.1, i32_le4 v.2.1, leNat4 v.2.2]
  | cdtCreate t =>
    obtain ⟨h0, hl⟩ := v
    refine ⟨13, t ++ [0], if_neg (by unfold MSG_DATA_SIZE; omega), by decide, by decide, by simp; omega,
      fun rest hr => ⟨.cdtCreate t, ?_, rfl⟩⟩
    have hs : ∃ l, (t ++ [0] ++ rest).set 4087 0 = t ++ 0 :: l := by
      by_cases hm : t.length = 4087
      · refine ⟨rest, ?_⟩
        rw [List.append_assoc, set_tail (by omega), hm]
        rfl
      · refine ⟨rest.set (4086 - t.length) 0, ?_⟩
        rw [List.append_assoc, set_tail (by omega), show 4087 - t.length = (4086 - t.length) + 1 by omega]
        rfl
    obtain ⟨l, hs⟩ := hs
    have e : strAt ((t ++ [0] ++ rest).set 4087 0) 0 = .ok t := strAt_eq (l := l) (by rw [hs]; rfl) h0
    show (strAt ((t ++ [0] ++ rest).set 4087 0) 0 >>= _) = _
    rw [e]
    rfl
  | cdtGetType t =>
    refine ⟨14, 2#8 :: toLE 4 t, rfl, by decide, by decide, by simp [toLE_length], fun rest _ => ⟨_, rfl, ?_⟩⟩
    show Req.cdtGetType _ = _
    fields [leNat4 v]
  | cdtGetName n =>
    obtain ⟨h0, hl⟩ := v
    refine ⟨14, 1#8 :: n ++ [0], if_neg (by unfold MSG_DATA_SIZE; omega), by decide, by decide, by simp; omega,
      fun rest hr => ⟨_, rfl, ?_⟩⟩
    show Req.cdtGetName _ = Req.cdtGetName _
    congr 1
    fields []
    by_cases hm : n.length = 32
    · rw [take_here _ _ _ hm, cstr_all h0]
    · rw [List.take_append, List.take_of_length_le (by omega), show 32 - n.length = (31 - n.length) + 1 by omega, List.take_succ_cons]
      exact cstr_append _ h0
  | mapAdd a b =>
    refine ⟨15, handle21Of a ++ handle21Of b ++ (junk.drop 42).take 6, rfl, by decide, by decide,
      by simp [handle21Of_length]; omega, fun rest _ => ⟨_, rfl, ?_⟩⟩
    show Req.mapAdd _ _ = _
    rw [List.append_assoc, List.append_assoc, handle21_of v.1, drop_here 21 _ _ (handle21Of_length a), handle21_of v.2]
  | mapDel i id =>
    refine ⟨16, le4 i ++ le4 id, rfl, by decide, by decide, by simp [le4_length], fun rest _ => ⟨_, rfl, ?_⟩⟩
    show Req.mapDel _ _ = _
    fields [i32_le4 v.1, i32_le4 v.2]
  | mapGet i id =>
    refine ⟨17, le4 i ++ le4 id, rfl, by decide, by decide, by simp [le4_length], fun rest _ => ⟨_, rfl, ?_⟩⟩
    show Req.mapGet _ _ = _
    fields [i32_le4 v.1, i32_le4 v.2]
  | grpAdd hs o =>
    obtain ⟨ok, hl, hsum⟩ := v
    have hfl : (hs.flatMap handle21Of).length = 21 * hs.length := by
      clear ok hl hsum
      induction hs with
      | nil => rfl
      | cons h hs ih => rw [List.flatMap_cons, List.length_append, handle21Of_length, ih, List.length_cons]; omega
    refine ⟨18, toLE 1 hs.length ++ [o] ++ hs.flatMap handle21Of, (if_neg (by omega)).trans (if_neg (by omega)), by decide,
      by decide, by simp [toLE_length, hfl]; omega, fun rest hr => ⟨_, rfl, ?_⟩⟩
    show Req.grpAdd _ = Req.grpAdd _
    congr 1
    have h1 : leNat ((toLE 1 hs.length ++ [o] ++ hs.flatMap handle21Of ++ rest).take 1) = hs.length := by
      rw [List.append_assoc, List.append_assoc, take_toLE, leNat1 (by omega)]
    rw [h1]
    conv => rhs; rw [← group_handles ok rest]
    refine List.map_congr_left fun n _ => ?_
    congr 1
    rw [← List.drop_drop]
    fields []
  | grpRead i =>
    refine ⟨20, toLE 4 i, rfl, by decide, by decide, by simp [toLE_length], fun rest _ => ⟨_, rfl, ?_⟩⟩
    show Req.grpRead _ = _
    fields [leNat4 v]
  | grpWrite i d =>
    refine ⟨21, toLE 4 i ++ d, if_neg (by have := v.2; unfold MSG_DATA_SIZE; omega), by decide, by decide,
      by have := v.2; simp [toLE_length]; omega, fun rest _ => ⟨_, rfl, d ++ rest, ?_, List.take_left⟩⟩
    show Req.grpWrite _ _ = _
    fields [leNat4 v.1]
  | grpDel i =>
    refine ⟨19, toLE 4 i, rfl, by decide, by decide, by simp [toLE_length], fun rest _ => ⟨_, rfl, ?_⟩⟩
    show Req.grpDel _ = _
    fields [leNat4 v]

end Dax.Wire
