import Verif.Spec.Modbus
import Verif.Lemmas.Wire
import Verif.Props.LibData
/-!
# Lemmas about the Modbus module
-/
set_option autoImplicit false
namespace Dax.Modbus
open LibData Wire

theorem wr_at {b d : List Byte} {off : Nat} (h : off + d.length ≤ b.length) :
    ∃ b', wr b off d = .ok b' ∧ b'.length = b.length ∧
      ∀ i, b'[i]? = if off ≤ i ∧ i < off + d.length then d[i - off]? else b[i]? := by
  obtain ⟨b', hb⟩ := wr_total (b := b) (off := (off : Int)) (d := d) ⟨by omega, by omega⟩
  refine ⟨b', hb, wr_length hb, fun i => ?_⟩
  have := wr_get hb i
  rw [Int.toNat_natCast] at this
  exact this

theorem rd2 {b : List Byte} {off : Nat} (h : off + 2 ≤ b.length) :
    ∃ x y, rd b (off : Int) 2 = .ok [x, y] ∧ b[off]? = some x ∧ b[off + 1]? = some y := by
  obtain ⟨d, hd⟩ := rd_total (b := b) (off := (off : Int)) (n := 2) ⟨by omega, by omega, by omega⟩
  have hl := rd_length hd
  have hg := rd_get hd
  match d, hl with
  | [x, y], _ =>
    refine ⟨x, y, hd, ?_, ?_⟩
    · have := hg 0; simpa using this.symm
    · have := hg 1; simpa using this.symm

/-- Words copied with their bytes swapped. -/
def swapLoop (src : List Byte) (a b : Nat) : Nat → Nat → List Byte → C (List Byte)
  | 0, _, dst => .ok dst
  | k + 1, n, dst => do
    let w ← rd src ((a + 2 * n : Nat) : Int) 2
    let dst ← wr dst ((b + 2 * n : Nat) : Int) w.reverse
    swapLoop src a b k (n + 1) dst

theorem wordsLoop_eq (reg : List Byte) : ∀ (k n : Nat) (buff : List Byte), wordsLoop reg k n buff = swapLoop reg 0 3 k n buff
  | 0, _, _ => rfl
  | k + 1, n, buff => by
    unfold wordsLoop swapLoop
    simp only [wordsLoop_eq reg k, Nat.zero_add, Int.natCast_add, Int.natCast_mul]
    rfl

theorem holdLoop_eq (reg : List Byte) : ∀ (k n : Nat) (buff : List Byte), holdLoop reg k n buff = swapLoop reg 7 0 k n buff
  | 0, _, _ => rfl
  | k + 1, n, buff => by
    unfold holdLoop swapLoop
    simp only [holdLoop_eq reg k, Nat.zero_add, Int.natCast_add, Int.natCast_mul]
    rfl

theorem cmdWords_eq (reg : List Byte) (base : Nat) : ∀ (k n : Nat) (buff : List Byte),
    cmdWords reg base k n buff = swapLoop reg 0 base k n buff
  | 0, _, _ => rfl
  | k + 1, n, buff => by
    unfold cmdWords swapLoop
    simp only [cmdWords_eq reg base k, Nat.zero_add, Int.natCast_add, Int.natCast_mul]
    rfl

theorem respWords_eq (reg : List Byte) : ∀ (k n : Nat) (buff : List Byte), respWords reg k n buff = swapLoop reg 3 0 k n buff
  | 0, _, _ => rfl
  | k + 1, n, buff => by
    unfold respWords swapLoop
    simp only [respWords_eq reg k, Nat.zero_add, Int.natCast_add, Int.natCast_mul, Int.add_comm]
    rfl

theorem swapLoop_ok (src : List Byte) (a b : Nat) : ∀ (k n : Nat) (dst : List Byte), a + 2 * (n + k) ≤ src.length →
    b + 2 * (n + k) ≤ dst.length → ∃ dst', swapLoop src a b k n dst = .ok dst' ∧ dst'.length = dst.length ∧
      (∀ m, n ≤ m → m < n + k → dst'[b + 2 * m]? = src[a + 2 * m + 1]? ∧ dst'[b + 2 * m + 1]? = src[a + 2 * m]?) ∧
      ∀ i, (i < b + 2 * n ∨ b + 2 * (n + k) ≤ i) → dst'[i]? = dst[i]? := by
  intro k
  induction k with
  | zero =>
    intro n dst _ _
    exact ⟨dst, rfl, rfl, fun m h1 h2 => by omega, fun _ _ => rfl⟩
  | succ k ih =>
    intro n dst hs hd
    obtain ⟨x, y, e1, hx, hy⟩ := rd2 (b := src) (off := a + 2 * n) (by omega)
    obtain ⟨d1, e2, l2, g2⟩ := wr_at (b := dst) (off := b + 2 * n) (d := [y, x]) (by simp; omega)
    obtain ⟨d2, e3, l3, g3, g4⟩ := ih (n + 1) d1 (by omega) (by omega)
    refine ⟨d2, ?_, by omega, ?_, ?_⟩
    · unfold swapLoop
      rw [e1]
      simp only [C.ok_bind, List.reverse_cons, List.reverse_nil, List.nil_append, List.cons_append]
      rw [e2]
      exact e3
    · intro m h1 h2
      by_cases hm : m = n
      · subst hm
        rw [g4 _ (by omega), g4 _ (by omega), g2, g2, hx, hy]
        simp only [List.length_cons, List.length_nil]
        rw [if_pos (by omega), if_pos (by omega), Nat.sub_self, Nat.add_sub_cancel_left]
        exact ⟨rfl, rfl⟩
      · exact g3 m (by omega) (by omega)
    · intro i hi
      rw [g4 i (by omega), g2, if_neg (by simp only [List.length_cons, List.length_nil]; omega)]

/-! ## Bits -/

theorem and_not_bit (x : Byte) {b c : Nat} (hb : b < 8) (hc : c < 8) :
    (x &&& ~~~ BitVec.ofNat 8 (2 ^ b)).getLsbD c = (x.getLsbD c && !decide (b = c)) := by
  have := Wire.or_bit (0 : Byte) hb hc
  simp only [BitVec.getLsbD_or, BitVec.getLsbD_zero, Bool.false_or] at this
  have e : (BitVec.ofNat 8 (2 ^ b)).getLsbD c = decide (b = c) := by simpa using this
  rw [BitVec.getLsbD_and, BitVec.getLsbD_not, e]
  simp [hc]

/-- A bit set or cleared in a byte of a list. -/
theorem bitOf_put {l : List Byte} {x : Byte} {k b : Nat} (hx : l[k]? = some x) (hb : b < 8) (v : Bool) (j c : Nat) (hc : c < 8) :
    bitOf (l.set k (if v then x ||| BitVec.ofNat 8 (2 ^ b) else x &&& ~~~ BitVec.ofNat 8 (2 ^ b))) j c =
      if j = k ∧ c = b then v else bitOf l j c := by
  have hl : k < l.length := by
    apply Classical.byContradiction; intro h
    rw [List.getElem?_eq_none (by omega)] at hx; cases hx
  unfold bitOf
  rw [List.getElem?_set]
  by_cases hk : k = j
  · subst hk
    rw [if_pos rfl, if_pos hl, hx]
    cases v with
    | true =>
      simp only [if_true]
      rw [Wire.or_bit x hb hc]
      by_cases h : c = b
      · simp [h]
      · simp [h, Ne.symm h]
    | false =>
      simp only [Bool.false_eq_true, if_false]
      rw [and_not_bit x hb hc]
      by_cases h : c = b
      · simp [h]
      · simp [h, Ne.symm h]
  · rw [if_neg hk, if_neg (by omega)]

theorem wordAt_bit {reg : List Byte} {n : Nat} (he : reg.length % 2 = 0) (h : n < 8 * reg.length) :
    ∃ w, wordAt reg (n / 16) = .ok w ∧ w.getLsbD (n % 16) = bitOf reg (n / 8) (n % 8) := by
  have h1 : reg[2 * (n / 16)]? = some reg[2 * (n / 16)] := List.getElem?_eq_getElem (by omega)
  have h2 : reg[2 * (n / 16) + 1]? = some reg[2 * (n / 16) + 1] := List.getElem?_eq_getElem (by omega)
  refine ⟨reg[2 * (n / 16) + 1] ++ reg[2 * (n / 16)], ?_, ?_⟩
  · unfold wordAt; rw [h1, h2]
  · rw [BitVec.getLsbD_append]
    unfold bitOf
    by_cases hb : n % 16 < 8
    · rw [show n / 8 = 2 * (n / 16) by omega, h1, show n % 8 = n % 16 by omega]
      simp [hb]
    · rw [show n / 8 = 2 * (n / 16) + 1 by omega, h2, show n % 8 = n % 16 - 8 by omega]
      simp [hb]

theorem bitsLoop_ok {reg : List Byte} (he : reg.length % 2 = 0) : ∀ (k n : Nat) (buff : List Byte), n + k ≤ 8 * reg.length →
    n + k ≤ 8 * (buff.length - 3) →
    ∃ buff', bitsLoop reg k (n % 16) (n / 16) (n % 8) (3 + n / 8) buff = .ok buff' ∧ buff'.length = buff.length ∧
      (∀ p, bitOf buff' (3 + p / 8) (p % 8) = if n ≤ p ∧ p < n + k then bitOf reg (p / 8) (p % 8) else bitOf buff (3 + p / 8) (p % 8)) ∧
      ∀ i, i < 3 → buff'[i]? = buff[i]? := by
  intro k
  induction k with
  | zero =>
    intro n buff _ _
    refine ⟨buff, rfl, rfl, fun p => ?_, fun _ _ => rfl⟩
    rw [if_neg (by omega)]
  | succ k ih =>
    intro n buff h1 h2
    obtain ⟨w, e1, e2⟩ := wordAt_bit he (n := n) (by omega)
    have hx : buff[3 + n / 8]? = some buff[3 + n / 8] := List.getElem?_eq_getElem (by omega)
    obtain ⟨b', g1, g2, g3, g4⟩ := ih (n + 1)
      (buff.set (3 + n / 8) (if w.getLsbD (n % 16) then buff[3 + n / 8] ||| BitVec.ofNat 8 (2 ^ (n % 8))
        else buff[3 + n / 8] &&& ~~~ BitVec.ofNat 8 (2 ^ (n % 8)))) (by omega) (by rw [List.length_set]; omega)
    refine ⟨b', ?_, by rw [g2, List.length_set], fun p => ?_, fun i hi => ?_⟩
    · rw [bitsLoop, e1]
      simp only [C.ok_bind]
      rw [hx]
      dsimp only
      rw [← g1]
      congr 1
      · split <;> omega
      · split <;> omega
      · split <;> omega
      · split <;> omega
    · rw [g3 p, bitOf_put hx (by omega) _ _ _ (by omega), e2]
      by_cases hp : p = n
      · subst hp
        rw [if_neg (by omega), if_pos ⟨rfl, rfl⟩, if_pos (by omega)]
      · have hne : ¬ (3 + p / 8 = 3 + n / 8 ∧ p % 8 = n % 8) := by omega
        rw [if_neg hne]
        by_cases hr : n + 1 ≤ p ∧ p < n + 1 + k
        · rw [if_pos hr, if_pos (by omega)]
        · rw [if_neg hr, if_neg (by omega)]
    · rw [g4 i hi, List.getElem?_set_ne (by omega)]

theorem coilsLoop_ok {buff : List Byte} : ∀ (k n : Nat) (data : List Byte), n + k ≤ 8 * data.length →
    n + k ≤ 8 * (buff.length - 7) →
    ∃ data', coilsLoop buff k n (n / 16) (n % 16) data = .ok data' ∧ data'.length = data.length ∧
      ∀ p, bitOf data' (p / 8) (p % 8) = if n ≤ p ∧ p < n + k then bitOf buff (7 + p / 8) (p % 8) else bitOf data (p / 8) (p % 8) := by
  intro k
  induction k with
  | zero =>
    intro n data _ _
    refine ⟨data, rfl, rfl, fun p => ?_⟩
    rw [if_neg (by omega)]
  | succ k ih =>
    intro n data h1 h2
    have hx : buff[7 + n / 8]? = some buff[7 + n / 8] := List.getElem?_eq_getElem (by omega)
    have hy : data[n / 8]? = some data[n / 8] := List.getElem?_eq_getElem (by omega)
    have hi : 2 * (n / 16) + n % 16 / 8 = n / 8 := by omega
    have hm : n % 16 % 8 = n % 8 := by omega
    obtain ⟨d', g1, g2, g3⟩ := ih (n + 1)
      (data.set (n / 8) (if buff[7 + n / 8].getLsbD (n % 8) then data[n / 8] ||| BitVec.ofNat 8 (2 ^ (n % 8))
        else data[n / 8] &&& ~~~ BitVec.ofNat 8 (2 ^ (n % 8)))) (by rw [List.length_set]; omega) (by omega)
    refine ⟨d', ?_, by rw [g2, List.length_set], fun p => ?_⟩
    · rw [coilsLoop, hi, hx, hy, hm]
      dsimp only
      rw [← g1]
      congr 1
      · split <;> omega
      · split <;> omega
    · rw [g3 p, bitOf_put hy (by omega) _ _ _ (by omega)]
      by_cases hp : p = n
      · subst hp
        rw [if_neg (by omega), if_pos ⟨rfl, rfl⟩, if_pos (by omega)]
        unfold bitOf; rw [hx]
      · have hne : ¬ (p / 8 = n / 8 ∧ p % 8 = n % 8) := by omega
        rw [if_neg hne]
        by_cases hr : n + 1 ≤ p ∧ p < n + 1 + k
        · rw [if_pos hr, if_pos (by omega)]
        · rw [if_neg hr, if_neg (by omega)]


/-! ## Transfers of at most 255 bytes -/

theorem read_length {s s' : Server} {fd i o : Int} {n : Nat} {d : List Byte} (h : handle s fd (.tagRead i o n) = .ok (s', .resp d)) :
    d.length = n := by
  simp only [handle, hTagRead] at h
  obtain ⟨⟨s1, x⟩, -, h⟩ := C.bind_eq_ok.mp h
  cases x with
  | error e => simp at h
  | ok y =>
    dsimp only at h
    split at h
    · simp at h
    · split at h
      · simp at h
      · simp only [C.ok.injEq, Prod.mk.injEq, Reply.resp.injEq] at h
        rw [← h.2]
        unfold Env.pad Env.junk
        simp only [List.length_take, List.length_append, List.length_map, List.length_range, Int.toNat_natCast]
        omega

theorem align_total (data : List Byte) (bit : Nat) : ∀ (k n : Nat) (nd : List Byte), bit + n + k ≤ 8 * data.length → n + k ≤ 8 * nd.length →
    ∃ nd', alignLoop data bit k n nd = .ok nd' := by
  intro k
  induction k with
  | zero => intro n nd _ _; exact ⟨nd, rfl⟩
  | succ k ih =>
    intro n nd h1 h2
    have hx : data[(bit + n) / 8]? = some data[(bit + n) / 8] := List.getElem?_eq_getElem (by omega)
    have hy : nd[n / 8]? = some nd[n / 8] := List.getElem?_eq_getElem (by omega)
    rw [alignLoop, hx]
    dsimp only
    split
    · rw [hy]
      exact ih (n + 1) _ (by omega) (by rw [List.length_set]; omega)
    · exact ih (n + 1) nd (by omega) (by omega)

/-- The server itself fails on a request for the tag. -/
def ServerFails (s : Server) (fd idx : Int) : Prop := ∃ q w, Transfer idx q ∧ handle s fd q = .ub w

/-- The handles of the module. -/
structure Small (h : Handle) : Prop where
  size : h.size ≤ 2000
  byte : h.byte ≤ 200000
  kind : (h.type = DAX_UINT ∧ h.size = 2 * h.count) ∨ (h.type = DAX_BOOL ∧ h.bit < 8 ∧ h.bit + h.count ≤ 8 * h.size)

theorem dbHandle_small (idx : Int) (reg : Reg) {off count : Nat} (ho : off < 65536) (hc : count ≤ 2024)
    (hw : reg = .hold ∨ reg = .input → count ≤ 150) : Small (dbHandle idx reg off count) := by
  unfold dbHandle
  cases reg with
  | hold => exact ⟨by have := hw (.inl rfl); simp only; omega, by simp only; omega, .inl ⟨rfl, by simp only; omega⟩⟩
  | input => exact ⟨by have := hw (.inr rfl); simp only; omega, by simp only; omega, .inl ⟨rfl, by simp only; omega⟩⟩
  | coil => exact ⟨by simp only; omega, by simp only; omega, .inr ⟨rfl, by simp only; omega, by simp only; omega⟩⟩
  | disc => exact ⟨by simp only; omega, by simp only; omega, .inr ⟨rfl, by simp only; omega, by simp only; omega⟩⟩

theorem format_uint {s : Server} {fd : Int} {c : TypeCache} {dbl : Bool} {len count : Nat} (h : 2 * count ≤ len) :
    format s fd dbl len c DAX_UINT count = .ok (c, 0) := by
  have e : stripQueue DAX_UINT = DAX_UINT := by decide
  unfold format formatF
  simp only [e]
  rw [if_neg (by decide), if_neg (by decide), if_pos (by decide), if_pos]
  rw [if_neg (by decide)]
  have : typeBits DAX_UINT / 8 = 2 := by decide
  rw [this]; omega

theorem format_bool {s : Server} {fd : Int} {c : TypeCache} {dbl : Bool} {len count : Nat} :
    format s fd dbl len c DAX_BOOL count = .ok (c, 0) := by
  have e : stripQueue DAX_BOOL = DAX_BOOL := by decide
  unfold format formatF
  simp only [e]
  rw [if_neg (by decide), if_pos (by decide)]

theorem transfer_small {send : Server → Nat → Nat → C (Server × Log × Int × List Byte)} {lim tlim : Nat} {s s' : Server} {fd : Int}
    {c : TypeCache} {type hsize size : Nat} {l : Log} {e : Int} {d : List Byte} (h : hsize ≤ lim) (hs : send s 0 size = .ok (s', l, e, d)) :
    transfer send lim tlim s fd c type hsize size = .ok (s', c, l, .done e, d) := by
  unfold transfer
  rw [if_neg (by omega), hs]
  rfl

/-- A read of a small handle is one request; the library itself does not fail. -/
theorem read_small {s : Server} {fd : Int} (c : TypeCache) {h : Handle} (hs : Small h) :
    (∃ w, handle s fd (.tagRead h.index h.byte h.size) = .ub w) ∨ ∃ s' r l e d, handle s fd (.tagRead h.index h.byte h.size) = .ok (s', r) ∧
      daxTagRead s fd c h = .ok (s', c, l, .done e, d) ∧ d.length ≤ h.size ∧ ((∃ x, r = .resp x) → e = 0 ∧ d.length = h.size) := by
  cases hq : handle s fd (.tagRead h.index h.byte h.size) with
  | ub w => exact .inl ⟨w, rfl⟩
  | ok x =>
    obtain ⟨s', r⟩ := x
    refine .inr ?_
    have hsz := hs.size
    have hby := hs.byte
    have hM : MSG_DATA_SIZE = 4088 := rfl
    have hi : i32 (((h.byte + 0) % 4294967296 : Nat) : Int) = h.byte := by
      rw [Nat.mod_eq_of_lt (by omega), Nat.add_zero]; exact i32_id (by omega)
    rcases read_answered (by omega) hq with ⟨d, rfl⟩ | ⟨e, rfl, he⟩
    · have hl := read_length hq
      have ht : transfer (fun s n k => daxRead s fd h.index ((h.byte + n) % 4294967296) k) MSG_DATA_SIZE MSG_DATA_SIZE s fd c h.type
          h.size h.size = .ok (s', c, [(Req.tagRead h.index h.byte h.size, .resp d)], .done 0, d) := by
        refine transfer_small (by omega) ?_
        unfold daxRead
        rw [if_neg (by omega), hi]
        unfold transact
        rw [hq]
        rfl
      unfold daxTagRead
      rw [ht]
      simp only [C.ok_bind, ne_eq, not_true_eq_false, if_false]
      rcases hs.kind with ⟨hk, hk2⟩ | ⟨hk, hk2, hk3⟩
      · rw [if_neg (by rw [hk]; decide), hk, format_uint (by omega)]
        exact ⟨s', .resp d, _, 0, d, rfl, rfl, by omega, fun _ => ⟨rfl, hl⟩⟩
      · rw [if_pos hk]
        obtain ⟨nd, hnd⟩ := align_total d h.bit h.count 0 (List.replicate h.size 0) (by omega) (by rw [List.length_replicate]; omega)
        have := (alignLoop_ok d h.bit h.count 0 _ nd (by rw [List.length_replicate]; omega) hnd).1
        rw [List.length_replicate] at this
        rw [hnd]
        exact ⟨s', .resp d, _, 0, nd, rfl, rfl, by omega, fun _ => ⟨rfl, this⟩⟩
    · have ht : transfer (fun s n k => daxRead s fd h.index ((h.byte + n) % 4294967296) k) MSG_DATA_SIZE MSG_DATA_SIZE s fd c h.type
          h.size h.size = .ok (s', c, [(Req.tagRead h.index h.byte h.size, .err e)], .done e, []) := by
        refine transfer_small (by omega) ?_
        unfold daxRead
        rw [if_neg (by omega), hi]
        unfold transact
        rw [hq]
        rfl
      unfold daxTagRead
      rw [ht]
      simp only [C.ok_bind]
      rw [if_pos (by simp [he])]
      exact ⟨s', .err e, _, e, [], rfl, rfl, by simp, by simp⟩

theorem slaveRead_small {s : Server} {fd : Int} (c : TypeCache) {h : Handle} (hs : Small h) {mem : List Byte} (hm : h.size ≤ mem.length) :
    ServerFails s fd h.index ∨ ∃ s' mem', slaveRead s fd c h mem = .ok (s', c, mem') ∧ mem'.length = mem.length := by
  rcases read_small c hs with ⟨w, hf⟩ | ⟨s', r, l, e, d, -, h2, h3, -⟩
  · exact .inl ⟨_, w, .read _ _ hs.byte hs.size, hf⟩
  · obtain ⟨m, hw, hl, -⟩ := wr_at (b := mem) (off := 0) (d := d) (by omega)
    refine .inr ⟨s', m, ?_, hl⟩
    unfold slaveRead
    rw [h2]
    simp only [C.ok_bind]
    rw [if_neg (by simp)]
    rw [show wr mem 0 d = .ok m from hw]
    rfl

theorem sent_small {s : Server} {fd idx : Int} {q : Req} (ht : Transfer idx q) (hq : ∀ s' r, handle s fd q = .ok (s', r) → Answered r) :
    ServerFails s fd idx ∨ ∃ s' l e d, transact s fd q = .ok (s', l, e, d) := by
  cases h : handle s fd q with
  | ub w => exact .inl ⟨q, w, ht, h⟩
  | ok x =>
    obtain ⟨s', r⟩ := x
    refine .inr ?_
    unfold transact
    rw [h]
    rcases hq _ _ h with ⟨d, rfl⟩ | ⟨e, rfl, -⟩
    · exact ⟨s', _, _, _, rfl⟩
    · exact ⟨s', _, _, _, rfl⟩

theorem slaveWrite_small {s : Server} {fd : Int} (c : TypeCache) {h : Handle} (hs : Small h) {mem : List Byte} (hm : h.size ≤ mem.length)
    (hc : h.count ≤ 8 * mem.length) (hb : h.type = DAX_BOOL → h.size ≤ 255) (hp : h.type = DAX_BOOL → h.size = (h.bit + h.count - 1) / 8 + 1):
    ServerFails s fd h.index ∨ ∃ s', slaveWrite s fd c h mem = .ok (s', c) := by
  have hsz := hs.size
  have hM : MSG_DATA_SIZE = 4088 := rfl
  have hby := hs.byte
  have hi : i32 (((h.byte + 0) % 4294967296 : Nat) : Int) = h.byte := by
    rw [Nat.mod_eq_of_lt (by omega), Nat.add_zero]; exact i32_id (by omega)
  have hss : shiftSize h ≤ h.size + 1 := by unfold shiftSize; split <;> omega
  unfold slaveWrite daxTagWrite
  split
  · rename_i hsh
    have hk : h.type = DAX_BOOL := by
      unfold shifted at hsh
      simp only [Bool.and_eq_true, beq_iff_eq] at hsh
      exact hsh.1
    have hp := hp hk
    have hb : h.bit < 8 := by
      rcases hs.kind with ⟨h1, -⟩ | ⟨-, h1, -⟩
      · rw [hk] at h1; exact absurd h1 (by decide)
      · exact h1
    have hge : h.size ≤ shiftSize h := by unfold shiftSize; split <;> omega
    obtain ⟨nd, mk, e1, l1, l2, -⟩ := shiftLoop_ok mem (h.bit % 8) h.count 0 (List.replicate (shiftSize h) 0) (List.replicate (shiftSize h) 0)
      (by omega) (by rw [List.length_replicate]; omega) rfl
    rw [List.length_replicate] at l1 l2
    rw [e1]
    simp only [C.ok_bind]
    obtain ⟨x, hx⟩ := rd_total (b := nd) (off := (0 : Nat)) (n := (shiftSize h : Nat)) (by omega)
    obtain ⟨y, hy⟩ := rd_total (b := mk) (off := (0 : Nat)) (n := (shiftSize h : Nat)) (by omega)
    have hxl := rd_length hx
    have hyl := rd_length hy
    rcases sent_small (s := s) (fd := fd) (q := .tagMWrite h.index (i32 (((h.byte + 0) % 4294967296 : Nat) : Int)) x y)
      (by rw [hi]; exact .mask _ _ _ hby (by omega) (by omega)) (fun s' r hh => mwrite_answered hh) with hf | ⟨s', l, e, d, ht⟩
    · exact .inl hf
    · refine .inr ⟨s', ?_⟩
      rw [transfer_small (s' := s') (l := l) (e := e) (d := d) (by omega) ?_]
      · rfl
      · unfold part
        rw [hx, hy]
        simp only [C.ok_bind]
        unfold daxMask
        rw [if_neg (by omega), ht]
  · have hf : format s fd true mem.length c h.type h.count = .ok (c, 0) := by
      rcases hs.kind with ⟨hk, hk2⟩ | ⟨hk, -⟩
      · rw [hk]; exact format_uint (by omega)
      · rw [hk]; exact format_bool
    rw [hf]
    simp only [C.ok_bind, ne_eq, not_true_eq_false, if_false]
    obtain ⟨x, hx⟩ := rd_total (b := mem) (off := (0 : Nat)) (n := (h.size : Nat)) (by omega)
    have hxl := rd_length hx
    rcases sent_small (s := s) (fd := fd) (q := .tagWrite h.index (i32 (((h.byte + 0) % 4294967296 : Nat) : Int)) x)
      (by rw [hi]; exact .write _ _ hby (by omega)) (fun s' r hh => write_answered hh) with hf | ⟨s', l, e, d, ht⟩
    · exact .inl hf
    · refine .inr ⟨s', ?_⟩
      rw [transfer_small (s' := s') (l := l) (e := e) (d := d) (by omega) ?_]
      · rfl
      · unfold part
        rw [hx]
        simp only [C.ok_bind]
        unfold daxWrite
        rw [if_neg (by omega), ht]


/-! ## Answers -/

theorem getWord_ok {b : List Byte} {off : Nat} (h : off + 2 ≤ b.length) : ∃ p, getWord b off = .ok p ∧ word16 p = field b off := by
  obtain ⟨x, y, e, hx, hy⟩ := rd2 h
  refine ⟨(x, y), ?_, ?_⟩
  · unfold getWord
    rw [e]
    rfl
  · unfold word16 field
    rw [List.getD_eq_getElem?_getD, List.getD_eq_getElem?_getD, hx, hy]
    rfl

theorem field_lt (b : List Byte) (k : Nat) : field b k < 65536 := by
  unfold field
  have := (b.getD k 0).isLt
  have := (b.getD (k + 1) 0).isLt
  omega

theorem take_head {b : List Byte} {x y z : Byte} {k : Nat} (h0 : b[0]? = some x) (h1 : b[1]? = some y) (h2 : b[2]? = some z) :
    b.take (3 + k) = x :: y :: z :: (b.drop 3).take k := by
  match b, h0, h1, h2 with
  | a :: a' :: a'' :: l, h0, h1, h2 =>
    simp only [List.getElem?_cons_zero, List.getElem?_cons_succ, Option.some.injEq] at h0 h1 h2
    subst h0 h1 h2
    rw [Nat.add_comm]
    rfl

theorem getD_some {b : List Byte} {k : Nat} (h : k < b.length) : b[k]? = some (b.getD k 0) := by
  rw [List.getD_eq_getElem?_getD, List.getElem?_eq_getElem h]
  rfl

theorem createException_bytes {b : List Byte} (h : 3 ≤ b.length) (e : Int) :
    ∃ b', createException b e = .ok (b', 3) ∧ b'.length = b.length ∧ b'.take 3 = [b.getD 0 0, b.getD 1 0 ||| 0x80, BitVec.ofInt 8 e] := by
  obtain ⟨b1, e1, l1, g1⟩ := wr_at (b := b) (off := 1) (d := [b.getD 1 0 ||| 0x80]) (by simp; omega)
  obtain ⟨b2, e2, l2, g2⟩ := wr_at (b := b1) (off := 2) (d := [BitVec.ofInt 8 e]) (by simp; omega)
  refine ⟨b2, ?_, by omega, ?_⟩
  · unfold createException
    rw [getD_some (by omega : 1 < b.length)]
    dsimp only
    rw [show wr b 1 [b.getD 1 0 ||| 0x80] = .ok b1 from e1]
    simp only [C.ok_bind]
    rw [show wr b1 2 [BitVec.ofInt 8 e] = .ok b2 from e2]
    rfl
  · have := take_head (b := b2) (x := b.getD 0 0) (y := b.getD 1 0 ||| 0x80) (z := BitVec.ofInt 8 e) (k := 0)
      (by rw [g2, if_neg (by simp), g1, if_neg (by simp)]; exact getD_some (by omega))
      (by rw [g2, if_neg (by simp), g1, if_pos (by simp)]; rfl)
      (by rw [g2, if_pos (by simp)]; rfl)
    rw [Nat.add_zero, List.take_zero] at this
    exact this

theorem createException_ok {b : List Byte} (h : 3 ≤ b.length) (e : Int) :
    ∃ b', createException b e = .ok (b', 3) ∧ b'.length = b.length ∧ Answer b (b'.take 3) := by
  obtain ⟨b', h1, h2, h3⟩ := createException_bytes h e
  exact ⟨b', h1, h2, by rw [h3]; exact .exception _⟩

theorem regs_length (j : Junk) : j.regs.length = 300 := by unfold Junk.regs; rw [List.length_map, List.length_range]
theorem datas_length (j : Junk) : j.datas.length = 256 := by unfold Junk.datas; rw [List.length_map, List.length_range]

/-- What the functions that answer to reads do once the registers have been read. -/
theorem readWords_ok {s s' : Server} {fd : Int} {c c' : TypeCache} {nd : Node} {buff mem : List Byte} {reg : Reg} {j : Junk} (h6 : 6 ≤ buff.length)
    (hfit : 3 + 2 * field buff 4 ≤ buff.length) (hmax : field buff 4 ≤ 150)
    (hrd : slaveRead s fd c (dbHandle (nd.idx reg) reg (field buff 2) (field buff 4)) j.regs = .ok (s', c', mem)) (hml : mem.length = 300) :
    ∃ b' : List Byte, b'.length = buff.length ∧
      ((nd.size reg < field buff 2 + field buff 4 ∧ readWords s fd c nd buff buff.length reg j = .ok (s', c', b', 3) ∧
        b'.take 3 = [buff.getD 0 0, buff.getD 1 0 ||| 0x80, 2]) ∨
       (field buff 2 + field buff 4 ≤ nd.size reg ∧ readWords s fd c nd buff buff.length reg j = .ok (s', c', b', ((3 + 2 * field buff 4 : Nat) : Int)) ∧
        b'.take (3 + 2 * field buff 4) = buff.getD 0 0 :: buff.getD 1 0 :: BitVec.ofNat 8 (2 * field buff 4) :: (b'.drop 3).take (2 * field buff 4) ∧
        ∀ m < field buff 4, b'[3 + 2 * m]? = mem[2 * m + 1]? ∧ b'[3 + 2 * m + 1]? = mem[2 * m]?)) := by
  obtain ⟨p1, e1, w1⟩ := getWord_ok (b := buff) (off := 2) (by omega)
  obtain ⟨p2, e2, w2⟩ := getWord_ok (b := buff) (off := 4) (by omega)
  by_cases hr : field buff 2 + field buff 4 ≤ nd.size reg
  · obtain ⟨b1, e3, l3, g3⟩ := wr_at (b := buff) (off := 2) (d := [BitVec.ofNat 8 (field buff 4 * 2)]) (by simp; omega)
    obtain ⟨b2, e4, l4, g4, g5⟩ := swapLoop_ok mem 0 3 (field buff 4) 0 b1 (by omega) (by omega)
    refine ⟨b2, by omega, .inr ⟨hr, ?_, ?_, fun m hm => ?_⟩⟩
    · unfold readWords
      rw [e1, C.ok_bind, e2, C.ok_bind, w1, w2]
      dsimp only
      rw [hrd, C.ok_bind]
      dsimp only
      rw [if_neg (by omega), if_neg (by omega), show wr buff 2 [BitVec.ofNat 8 (field buff 4 * 2)] = .ok b1 from e3, C.ok_bind,
        wordsLoop_eq, e4, C.ok_bind]
      congr 4
      omega
    · refine take_head ?_ ?_ ?_
      · rw [g5 0 (by omega), g3, if_neg (by simp)]; exact getD_some (by omega)
      · rw [g5 1 (by omega), g3, if_neg (by simp)]; exact getD_some (by omega)
      · rw [g5 2 (by omega), g3, if_pos (by simp), Nat.mul_comm]; rfl
    · have := g4 m (by omega) (by omega)
      rw [Nat.zero_add] at this
      exact this
  · obtain ⟨b1, e3, l3, h3⟩ := createException_bytes (b := buff) (by omega) ME_BAD_ADDRESS
    refine ⟨b1, l3, .inl ⟨by omega, ?_, h3⟩⟩
    unfold readWords
    rw [e1, C.ok_bind, e2, C.ok_bind, w1, w2]
    dsimp only
    rw [hrd, C.ok_bind]
    dsimp only
    rw [if_neg (by omega), if_pos (by omega), e3, C.ok_bind]

theorem readBits_ok {s s' : Server} {fd : Int} {c c' : TypeCache} {nd : Node} {buff mem : List Byte} {reg : Reg} {j : Junk} (h6 : 6 ≤ buff.length)
    (hpos : 1 ≤ field buff 4) (hfit : 3 + (field buff 4 + 7) / 8 ≤ buff.length) (hmax : field buff 4 ≤ 2400)
    (hrd : slaveRead s fd c (dbHandle (nd.idx reg) reg (field buff 2) (field buff 4)) j.regs = .ok (s', c', mem)) (hml : mem.length = 300) :
    ∃ b' : List Byte, b'.length = buff.length ∧
      ((nd.size reg < field buff 2 + field buff 4 ∧ readBits s fd c nd buff buff.length reg j = .ok (s', c', b', 3) ∧
        b'.take 3 = [buff.getD 0 0, buff.getD 1 0 ||| 0x80, 2]) ∨
       (field buff 2 + field buff 4 ≤ nd.size reg ∧ readBits s fd c nd buff buff.length reg j = .ok (s', c', b', ((3 + (field buff 4 + 7) / 8 : Nat) : Int)) ∧
        b'.take (3 + (field buff 4 + 7) / 8) = buff.getD 0 0 :: buff.getD 1 0 :: BitVec.ofNat 8 ((field buff 4 + 7) / 8) ::
          (b'.drop 3).take ((field buff 4 + 7) / 8) ∧
        ∀ q < field buff 4, bitOf b' (3 + q / 8) (q % 8) = bitOf mem (q / 8) (q % 8))) := by
  obtain ⟨p1, e1, w1⟩ := getWord_ok (b := buff) (off := 2) (by omega)
  obtain ⟨p2, e2, w2⟩ := getWord_ok (b := buff) (off := 4) (by omega)
  have hb : ((field buff 4 : Int) - 1).tdiv 8 + 1 = (((field buff 4 + 7) / 8 : Nat) : Int) := by
    rw [Int.tdiv_eq_ediv_of_nonneg (by omega)]; omega
  by_cases hr : field buff 2 + field buff 4 ≤ nd.size reg
  · obtain ⟨b1, e3, l3, g3⟩ := wr_at (b := buff) (off := 2) (d := [BitVec.ofInt 8 (((field buff 4 + 7) / 8 : Nat) : Int)]) (by simp; omega)
    obtain ⟨b2, e4, l4, g4, g5⟩ := bitsLoop_ok (reg := mem) (by omega) (field buff 4) 0 b1 (by omega) (by omega)
    refine ⟨b2, by omega, .inr ⟨hr, ?_, ?_, fun q hq => ?_⟩⟩
    · unfold readBits
      rw [e1, C.ok_bind, e2, C.ok_bind, w1, w2]
      dsimp only
      rw [hrd, C.ok_bind]
      dsimp only
      rw [hb, if_neg (by omega), if_neg (by omega),
        show wr buff 2 [BitVec.ofInt 8 (((field buff 4 + 7) / 8 : Nat) : Int)] = .ok b1 from e3, C.ok_bind,
        show bitsLoop mem (field buff 4) 0 0 0 3 b1 = .ok b2 from e4, C.ok_bind]
      congr 4
      omega
    · refine take_head ?_ ?_ ?_
      · rw [g5 0 (by omega), g3, if_neg (by simp)]; exact getD_some (by omega)
      · rw [g5 1 (by omega), g3, if_neg (by simp)]; exact getD_some (by omega)
      · rw [g5 2 (by omega), g3, if_pos (by simp), BitVec.ofInt_natCast]; rfl
    · rw [g4 q, if_pos (by omega)]
  · obtain ⟨b1, e3, l3, h3⟩ := createException_bytes (b := buff) (by omega) ME_BAD_ADDRESS
    refine ⟨b1, l3, .inl ⟨by omega, ?_, h3⟩⟩
    unfold readBits
    rw [e1, C.ok_bind, e2, C.ok_bind, w1, w2]
    dsimp only
    rw [hrd, C.ok_bind]
    dsimp only
    rw [hb, if_neg (by omega), if_pos (by omega), e3, C.ok_bind]


/-- Register set, and number of registers, of the functions that write. -/
def wreg (f : Nat) : Reg := if f = 5 ∨ f = 15 then .coil else .hold
def wcount (f : Nat) (buff : List Byte) : Nat := if f = 5 ∨ f = 6 then 1 else field buff 4

/-- The memory written to the tag holds what the request carries. -/
structure Carries (f : Nat) (buff data : List Byte) : Prop where
  one : f = 5 → data[0]? = some (if field buff 4 ≠ 0 then 1 else 0)
  word : f = 6 → data[0]? = buff[5]? ∧ data[1]? = buff[4]?
  bits : f = 15 → ∀ q < field buff 4, bitOf data (q / 8) (q % 8) = bitOf buff (7 + q / 8) (q % 8)
  words : f = 16 → ∀ m < field buff 4, data[2 * m]? = buff[7 + 2 * m + 1]? ∧ data[2 * m + 1]? = buff[7 + 2 * m]?

theorem field_lo (b : List Byte) (k : Nat) : BitVec.ofNat 8 (field b k) = b.getD (k + 1) 0 := by
  apply BitVec.eq_of_toNat_eq
  unfold field
  have := (b.getD (k + 1) 0).isLt
  simp only [BitVec.toNat_ofNat]; omega

theorem field_hi (b : List Byte) (k : Nat) : BitVec.ofNat 8 (field b k / 256) = b.getD k 0 := by
  apply BitVec.eq_of_toNat_eq
  unfold field
  have := (b.getD k 0).isLt
  have := (b.getD (k + 1) 0).isLt
  simp only [BitVec.toNat_ofNat]; omega

theorem writeFunction_eq {buff : List Byte} {f : Nat} (h6 : 6 ≤ buff.length) (hf : f = 5 ∨ f = 6 ∨ f = 15 ∨ f = 16)
    (h15 : f = 15 → 7 + (field buff 4 + 7) / 8 ≤ buff.length ∧ field buff 4 ≤ 2048)
    (h16 : f = 16 → 7 + 2 * field buff 4 ≤ buff.length ∧ field buff 4 ≤ 128) (j : Junk) :
    ∃ data : List Byte, data.length = 256 ∧ Carries f buff data ∧ ∀ (s : Server) (fd : Int) (c : TypeCache) (nd : Node) (node : Nat),
      writeFunction s fd c nd node f buff j =
        if nd.size (wreg f) < field buff 2 + wcount f buff then
          createException buff ME_BAD_ADDRESS >>= fun x => .ok (s, c, x.1, x.2)
        else slaveWrite s fd c (dbHandle (nd.idx (wreg f)) (wreg f) (field buff 2) (wcount f buff)) data >>= fun y =>
          afterWrite nd node f (field buff 2) (wcount f buff) buff >>= fun x => .ok (y.1, y.2, x.1, x.2) := by
  obtain ⟨p1, e1, w1⟩ := getWord_ok (b := buff) (off := 2) (by omega)
  obtain ⟨p2, e2, w2⟩ := getWord_ok (b := buff) (off := 4) (by omega)
  have hj := datas_length j
  rcases hf with rfl | rfl | rfl | rfl
  · obtain ⟨d, e3, l3, g3⟩ := wr_at (b := j.datas) (off := 0) (d := [if field buff 4 ≠ 0 then 1 else 0, 0]) (by simp; omega)
    refine ⟨d, by omega, ⟨fun _ => ?_, by omega, by omega, by omega⟩, fun s fd c nd node => ?_⟩
    · rw [g3, if_pos (by simp)]; rfl
    · unfold writeFunction
      rw [e1, C.ok_bind, e2, C.ok_bind, w1, w2]
      dsimp only
      rw [if_pos rfl]
      by_cases hlt : nd.size .coil < field buff 2 + 1
      · rw [if_pos (show field buff 2 ≥ nd.coilSize by simp only [Node.size] at hlt; omega), if_pos (show nd.size (wreg 5) < field buff 2 + wcount 5 buff from hlt)]
      · rw [if_neg (show ¬ field buff 2 ≥ nd.coilSize by simp only [Node.size] at hlt; omega), if_neg (show ¬ nd.size (wreg 5) < field buff 2 + wcount 5 buff from hlt),
          show wr j.datas 0 [if field buff 4 ≠ 0 then 1 else 0, 0] = .ok d from e3, C.ok_bind]
        rfl
  · obtain ⟨d, e3, l3, g3⟩ := wr_at (b := j.datas) (off := 0) (d := [BitVec.ofNat 8 (field buff 4), BitVec.ofNat 8 (field buff 4 / 256)]) (by simp; omega)
    refine ⟨d, by omega, ⟨by omega, fun _ => ?_, by omega, by omega⟩, fun s fd c nd node => ?_⟩
    · rw [g3, if_pos (by simp), g3, if_pos (by simp), field_lo, field_hi, getD_some (k := 5) (by omega), getD_some (k := 4) (by omega)]
      exact ⟨rfl, rfl⟩
    · unfold writeFunction
      rw [e1, C.ok_bind, e2, C.ok_bind, w1, w2]
      dsimp only
      rw [if_neg (by decide), if_pos rfl]
      by_cases hlt : nd.size .hold < field buff 2 + 1
      · rw [if_pos (show field buff 2 ≥ nd.holdSize by simp only [Node.size] at hlt; omega), if_pos (show nd.size (wreg 6) < field buff 2 + wcount 6 buff from hlt)]
      · rw [if_neg (show ¬ field buff 2 ≥ nd.holdSize by simp only [Node.size] at hlt; omega), if_neg (show ¬ nd.size (wreg 6) < field buff 2 + wcount 6 buff from hlt),
          show wr j.datas 0 [BitVec.ofNat 8 (field buff 4), BitVec.ofNat 8 (field buff 4 / 256)] = .ok d from e3, C.ok_bind]
        rfl
  · obtain ⟨h1, h2⟩ := h15 rfl
    obtain ⟨d, e3, l3, g3⟩ := coilsLoop_ok (buff := buff) (field buff 4) 0 j.datas (by omega) (by omega)
    refine ⟨d, by omega, ⟨by omega, by omega, fun _ q hq => ?_, by omega⟩, fun s fd c nd node => ?_⟩
    · rw [g3, if_pos (by omega)]
    · unfold writeFunction
      rw [e1, C.ok_bind, e2, C.ok_bind, w1, w2]
      dsimp only
      rw [if_neg (by decide), if_neg (by decide), if_pos rfl]
      by_cases hlt : nd.size .coil < field buff 2 + field buff 4
      · rw [if_pos (show field buff 2 + field buff 4 > nd.coilSize from hlt), if_pos (show nd.size (wreg 15) < field buff 2 + wcount 15 buff from hlt)]
      · rw [if_neg (show ¬ field buff 2 + field buff 4 > nd.coilSize from hlt), if_neg (show ¬ nd.size (wreg 15) < field buff 2 + wcount 15 buff from hlt),
          show coilsLoop buff (field buff 4) 0 0 0 j.datas = .ok d from e3, C.ok_bind]
        rfl
  · obtain ⟨h1, h2⟩ := h16 rfl
    obtain ⟨d, e3, l3, g3, -⟩ := swapLoop_ok buff 7 0 (field buff 4) 0 j.datas (by omega) (by omega)
    refine ⟨d, by omega, ⟨by omega, by omega, by omega, fun _ m hm => ?_⟩, fun s fd c nd node => ?_⟩
    · have := g3 m (by omega) (by omega)
      rw [Nat.zero_add] at this
      exact this
    · unfold writeFunction
      rw [e1, C.ok_bind, e2, C.ok_bind, w1, w2]
      dsimp only
      rw [if_neg (by decide), if_neg (by decide), if_neg (by decide)]
      by_cases hlt : nd.size .hold < field buff 2 + field buff 4
      · rw [if_pos (show field buff 2 + field buff 4 > nd.holdSize from hlt), if_pos (show nd.size (wreg 16) < field buff 2 + wcount 16 buff from hlt)]
      · rw [if_neg (show ¬ field buff 2 + field buff 4 > nd.holdSize from hlt), if_neg (show ¬ nd.size (wreg 16) < field buff 2 + wcount 16 buff from hlt), holdLoop_eq, e3, C.ok_bind]
        rfl

theorem afterWrite_ok {nd : Node} {node f index count : Nat} {buff : List Byte} (h6 : 6 ≤ buff.length)
    (hf : code buff = 5 ∨ code buff = 6 ∨ code buff = 15 ∨ code buff = 16) :
    ∃ b' n, afterWrite nd node f index count buff = .ok (b', ((n : Nat) : Int)) ∧ b'.length = buff.length ∧ 0 < n ∧ n ≤ 6 ∧ Answer buff (b'.take n) ∧
      (nd.writeCb = none → n = 6 ∧ b' = buff) := by
  have key : ∀ r : Int, ∃ b' n, (if r ≠ 0 then createException buff r else .ok (buff, 6)) = .ok (b', ((n : Nat) : Int)) ∧
      b'.length = buff.length ∧ 0 < n ∧ n ≤ 6 ∧ Answer buff (b'.take n) ∧ (r = 0 → n = 6 ∧ b' = buff) := by
    intro r
    by_cases hr : r = 0
    · exact ⟨buff, 6, by rw [if_neg (by simp [hr])]; rfl, rfl, by omega, by omega, .echo hf h6, fun _ => ⟨rfl, rfl⟩⟩
    · obtain ⟨b1, e3, l3, h3⟩ := createException_ok (b := buff) (by omega) r
      exact ⟨b1, 3, by rw [if_pos hr, e3]; rfl, l3, by omega, by omega, h3, fun h => absurd h hr⟩
  unfold afterWrite
  obtain ⟨b', n, h1, h2, h3, h4, h5, h7⟩ := key (match nd.writeCb with
    | none => 0
    | some g => match g node f index count with
      | none => 0
      | some r => i8 r)
  exact ⟨b', n, h1, h2, h3, h4, h5, fun hn => h7 (by rw [hn])⟩

end Dax.Modbus
