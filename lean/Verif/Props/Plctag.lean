import Verif.Model.Plctag
import Verif.Lemmas.LibLuaWrite
import Verif.Lemmas.Tactic
import Verif.Spec.Data
import Verif.Spec.ScriptQueue
import Verif.Lemmas.ScriptQueue
/-!
# C83 and C84: the module for programmable controllers
-/
set_option autoImplicit false
namespace Dax
open Plc

/-! ## Lemmas -/

/-- Bytes replaced. -/
def plcSplice (b : List Byte) (off : Nat) (v : List Byte) : List Byte := b.take off ++ v ++ b.drop (off + v.length)

theorem plc_splice_length {b v : List Byte} {off : Nat} (h : off + v.length ≤ b.length) : (plcSplice b off v).length = b.length := by
  unfold plcSplice
  simp
  omega

theorem plc_splice_get {b v : List Byte} {off : Nat} (h : off + v.length ≤ b.length) (j : Nat) : (plcSplice b off v)[j]? = if off ≤ j ∧ j < off + v.length then v[j - off]? else b[j]? := by
  unfold plcSplice
  rw [List.append_assoc]
  by_cases h1 : j < off
  · rw [if_neg (by omega), List.getElem?_append_left (by simp; omega), List.getElem?_take, if_pos h1]
  · rw [List.getElem?_append_right (by simp; omega)]
    have : (b.take off).length = off := by simp; omega
    rw [this]
    by_cases h2 : j < off + v.length
    · rw [if_pos ⟨by omega, h2⟩, List.getElem?_append_left (by omega)]
    · rw [if_neg (by omega), List.getElem?_append_right (by omega), List.getElem?_drop]
      congr 1
      omega

/-- A loop that replaces `w` bytes at every `s`-th place. -/
theorem times_splice {base s w N : Nat} {v : Nat → List Byte} {f : Nat → List Byte → C (List Byte)} (hs : 0 < s) (hw : w ≤ s) (n : Nat) {b : List Byte} (hv : ∀ i, i < n → (v i).length = w)
    (hb : b.length = N) (hn : ∀ i, i < n → base + i * s + w ≤ N) (hf : ∀ i, i < n → ∀ c : List Byte, c.length = N → f i c = .ok (plcSplice c (base + i * s) (v i))) :
    ∃ r, times f n b = .ok r ∧ r.length = N ∧ ∀ (j : Nat), r[j]? = if base ≤ j ∧ (j - base) / s < n ∧ (j - base) % s < w then (v ((j - base) / s))[(j - base) % s]? else b[j]? := by
  induction n with
  | zero => exact ⟨b, rfl, hb, fun j => by rw [if_neg (fun h => Nat.not_lt_zero _ h.2.1)]⟩
  | succ n ih =>
    obtain ⟨r, h1, h2, h3⟩ := ih (fun i h => hv i (by omega)) (fun i h => hn i (by omega)) (fun i h => hf i (by omega))
    have hvn := hv n (by omega)
    have hfit : base + n * s + (v n).length ≤ r.length := by rw [hvn, h2]; exact hn n (by omega)
    refine ⟨plcSplice r (base + n * s) (v n), ?_, ?_, ?_⟩
    · rw [times, h1]
      exact hf n (by omega) r h2
    · rw [plc_splice_length hfit, h2]
    · intro j
      rw [plc_splice_get hfit, hvn]
      by_cases hj : base + n * s ≤ j ∧ j < base + n * s + w
      · have hq : (j - base) / s = n := by
          rw [show j - base = (j - base - n * s) + n * s by omega, Nat.add_mul_div_right _ _ hs, Nat.div_eq_of_lt (by omega)]
          omega
        have hr : (j - base) % s = j - (base + n * s) := by
          rw [show j - base = (j - base - n * s) + n * s by omega, Nat.add_mul_mod_self_right, Nat.mod_eq_of_lt (by omega)]
          omega
        rw [if_pos hj, if_pos ⟨by omega, by omega, by omega⟩, hq, hr]
      · rw [if_neg hj, h3]
        by_cases hc : base ≤ j ∧ (j - base) / s < n ∧ (j - base) % s < w
        · rw [if_pos hc, if_pos ⟨hc.1, by omega, hc.2.2⟩]
        · rw [if_neg hc, if_neg]
          intro hc'
          have hd := Nat.div_add_mod (j - base) s
          have hq : (j - base) / s = n := by
            rcases Nat.lt_or_ge ((j - base) / s) n with h | h
            · exact absurd ⟨hc'.1, h, hc'.2.2⟩ hc
            · omega
          rw [hq, Nat.mul_comm] at hd
          exact hj (by omega)

theorem poke_splice {b v : List Byte} {off : Nat} (h : off + v.length ≤ b.length) : poke b off v = .ok (plcSplice b off v) := by
  unfold poke
  rw [if_pos h]
  rfl

theorem plcSet_splice {b v : List Byte} {off : Nat} (h : off + v.length ≤ b.length) : plcSet b off v = plcSplice b off v := by
  unfold plcSet
  rw [if_pos h]
  rfl

theorem plc_slice_length {b : List Byte} {off n : Nat} (h : off + n ≤ b.length) : ((b.drop off).take n).length = n := by
  simp
  omega

theorem plc_slice_get {b : List Byte} {off n j : Nat} (hj : j < n) : ((b.drop off).take n)[j]? = b[off + j]? := by
  rw [List.getElem?_take, if_pos hj, List.getElem?_drop]

theorem width_of {t w : Nat} (h : (t, w) ∈ elemBytes) (hl : t ≠ DAX_LREAL) : width t = some w ∧ t ≠ DAX_BOOL ∧ 0 < w := by
  have key : ∀ p ∈ elemBytes, p.1 ≠ DAX_LREAL → width p.1 = some p.2 ∧ p.1 ≠ DAX_BOOL ∧ 0 < p.2 := by decide
  exact key (t, w) h hl

theorem stride_div {k w j : Nat} (hj : j < w) : (k * w + j) / w = k ∧ (k * w + j) % w = j := by
  rw [Nat.add_comm, Nat.add_mul_div_right _ _ (by omega), Nat.add_mul_mod_self_right, Nat.div_eq_of_lt hj, Nat.mod_eq_of_lt hj]
  exact ⟨by omega, rfl⟩

/-! ## C83: data -/

/-- **C83**, reading: every element of the tag is the element of the controller at its place, for all types of fixed size.

Missing: LREAL (`C83_lreal`). -/
theorem C83_read_partial {L : Lib} {g : Conf} {mem buff : List Byte} {w es : Nat} (ht : (g.type, w) ∈ elemBytes) (hl : g.type ≠ DAX_LREAL) (he : g.elem = es) (h0 : 0 < es) (hb : buff.length = g.count * w)
    (hm : ∀ k, k < g.count → k * es + w ≤ mem.length) : ∃ r, readTag L g mem buff = .ok r ∧ r.length = buff.length ∧ ∀ (k j : Nat), k < g.count → j < w → r[k * w + j]? = mem[k * es + j]? := by
  obtain ⟨h1, h2, h3⟩ := width_of ht hl
  unfold readTag
  rw [if_neg (by omega), if_neg h2, h1, he]
  dsimp only
  rw [Int.toNat_natCast]
  have hlen : ∀ i, i < g.count → (L.get mem (i * es) w).length = w := by
    intro i hi
    unfold Lib.get
    rw [if_pos (hm i hi), plc_slice_length (hm i hi)]
  have hfit : ∀ i, i < g.count → 0 + i * w + w ≤ g.count * w := by
    intro i hi
    have := Nat.mul_le_mul_right w (show i + 1 ≤ g.count by omega)
    rw [Nat.add_mul, Nat.one_mul] at this
    omega
  obtain ⟨r, r1, r2, r3⟩ := times_splice (base := 0) (s := w) (w := w) (N := g.count * w) (v := fun i => L.get mem (i * es) w) (f := fun i b => poke b (i * w) (L.get mem (i * es) w)) h3 (Nat.le_refl _) g.count hlen hb hfit
    (fun i hi c hc => by rw [Nat.zero_add]; exact poke_splice (by rw [hlen i hi, hc]; have := hfit i hi; omega))
  refine ⟨r, r1, by rw [r2, hb], fun k j hk hj => ?_⟩
  obtain ⟨d1, d2⟩ := stride_div (k := k) hj
  rw [r3, Nat.sub_zero, d1, d2, if_pos ⟨by omega, hk, hj⟩]
  unfold Lib.get
  rw [if_pos (hm k hk), plc_slice_get hj]

/-- **C83**, writing: every element of the tag gets to its place in the controller, and nothing else is changed there, for all types of fixed size. -/
theorem C83_write {L : Lib} {g : Conf} {mem buff : List Byte} {w es : Nat} (ht : (g.type, w) ∈ elemBytes) (he : g.elem = es) (hw : w ≤ es) (hb : buff.length = g.count * w)
    (hm : ∀ k, k < g.count → k * es + w ≤ mem.length) :
    ∃ p, writeTag L g buff mem = .ok p ∧ p.length = mem.length ∧ ∀ (j : Nat), p[j]? = if j / es < g.count ∧ j % es < w then buff[j / es * w + j % es]? else mem[j]? := by
  have hfit : ∀ i, i < g.count → i * w + w ≤ buff.length := by
    intro i hi
    have := Nat.mul_le_mul_right w (show i + 1 ≤ g.count by omega)
    rw [Nat.add_mul, Nat.one_mul] at this
    omega
  have hw0 : 0 < w := by
    have key : ∀ p ∈ elemBytes, 0 < p.2 := by decide
    exact key _ ht
  have key : ∃ p, times (fun i p => do
      let v ← peek buff (i * w) w
      C.ok (plcSet p (i * es) v)) g.count mem = .ok p ∧ p.length = mem.length ∧ ∀ (j : Nat), p[j]? = if j / es < g.count ∧ j % es < w then buff[j / es * w + j % es]? else mem[j]? := by
    obtain ⟨r, r1, r2, r3⟩ := times_splice (base := 0) (s := es) (w := w) (N := mem.length) (v := fun i => (buff.drop (i * w)).take w) (f := fun i p => do
      let v ← peek buff (i * w) w
      C.ok (plcSet p (i * es) v)) (by omega) hw g.count (b := mem) (fun i hi => plc_slice_length (hfit i hi)) rfl (fun i hi => by have := hm i hi; omega)
      (fun i hi c hc => by
        unfold peek
        rw [if_pos (hfit i hi), C.ok_bind, Nat.zero_add, plcSet_splice]
        rw [plc_slice_length (hfit i hi), hc]
        exact hm i hi)
    refine ⟨r, r1, r2, fun j => ?_⟩
    rw [r3, Nat.sub_zero]
    by_cases hj : j / es < g.count ∧ j % es < w
    · rw [if_pos ⟨by omega, hj.1, hj.2⟩, if_pos hj]
      rw [plc_slice_get hj.2]
    · rw [if_neg (fun h => hj h.2), if_neg hj]
  unfold writeTag
  rw [if_neg (by omega), he]
  dsimp only
  rw [Int.toNat_natCast]
  by_cases hl : g.type = DAX_LREAL
  · have h8 : w = 8 := by
      have key : ∀ p ∈ elemBytes, p.1 = DAX_LREAL → p.2 = 8 := by decide
      exact key _ ht hl
    subst h8
    rw [if_neg (by rw [hl]; decide), show width g.type = none by rw [hl]; rfl, if_pos hl]
    exact key
  · obtain ⟨h1, h2, -⟩ := width_of ht hl
    rw [if_neg h2, h1]
    exact key

/-- **C83**, there and back: what is written to the controller is read back. -/
theorem C83_round_partial {L : Lib} {g : Conf} {mem buff old : List Byte} {w es : Nat} (ht : (g.type, w) ∈ elemBytes) (hl : g.type ≠ DAX_LREAL) (he : g.elem = es) (hw : w ≤ es) (hb : buff.length = g.count * w)
    (ho : old.length = buff.length) (hm : ∀ k, k < g.count → k * es + w ≤ mem.length) : ∃ p, writeTag L g buff mem = .ok p ∧ readTag L g p old = .ok buff := by
  have hw0 : 0 < w := (width_of ht hl).2.2
  obtain ⟨p, p1, p2, p3⟩ := C83_write (L := L) ht he hw hb hm
  obtain ⟨r, r1, r2, r3⟩ := C83_read_partial (L := L) (buff := old) ht hl he (by omega) (by rw [ho, hb]) (mem := p) (by rw [p2]; exact hm)
  refine ⟨p, p1, ?_⟩
  rw [r1]
  congr 1
  apply List.ext_getElem?
  intro i
  by_cases hi : i < g.count * w
  · have hk : i / w < g.count := (Nat.div_lt_iff_lt_mul hw0).mpr hi
    have hj : i % w < w := Nat.mod_lt _ hw0
    have hd := Nat.div_add_mod i w
    rw [Nat.mul_comm] at hd
    have h := r3 (i / w) (i % w) hk hj
    rw [hd] at h
    obtain ⟨d1, d2⟩ := stride_div (k := i / w) (show i % w < es by omega)
    rw [h, p3, d1, d2, if_pos ⟨hk, hj⟩, hd]
  · rw [List.getElem?_eq_none (by omega), List.getElem?_eq_none (by omega)]

theorem bit_set {l : List Byte} {i : Nat} {b : Byte} {v : Bool} (h : l[i / 8]? = some b) (j : Nat) : plcBit (l.set (i / 8) (Lua.putBit b (i % 8) v)) j = if j = i then some v else plcBit l j := by
  have hlt : i / 8 < l.length := by
    apply Classical.byContradiction
    intro hn
    rw [List.getElem?_eq_none (by omega)] at h
    cases h
  unfold plcBit
  by_cases hj : j / 8 = i / 8
  · rw [hj, List.getElem?_set_self hlt, h]
    simp only [Option.map_some]
    rw [Lua.putBit_get b (Nat.mod_lt _ (by decide)) (Nat.mod_lt _ (by decide))]
    by_cases hji : j = i
    · rw [if_pos hji, if_pos (by rw [hji])]
    · rw [if_neg hji, if_neg (by omega)]
  · rw [List.getElem?_set_ne (fun h => hj h.symm), if_neg (fun h => hj (by rw [h]))]

theorem bit_some {l : List Byte} {i : Nat} (h : i < l.length * 8) : ∃ b, l[i / 8]? = some b ∧ plcBit l i = some (b.getLsbD (i % 8)) := by
  have hlt : i / 8 < l.length := by omega
  exact ⟨l[i / 8], List.getElem?_eq_getElem hlt, by unfold plcBit; rw [List.getElem?_eq_getElem hlt]; rfl⟩

theorem times_bits {N : Nat} {v : Nat → Bool} {f : Nat → List Byte → C (List Byte)} (n : Nat) {l : List Byte} (hl : l.length = N)
    (hf : ∀ i, i < n → ∀ c : List Byte, c.length = N → ∃ c', f i c = .ok c' ∧ c'.length = N ∧ ∀ j, plcBit c' j = if j = i then some (v i) else plcBit c j) :
    ∃ r, times f n l = .ok r ∧ r.length = N ∧ ∀ j, plcBit r j = if j < n then some (v j) else plcBit l j := by
  induction n with
  | zero => exact ⟨l, rfl, hl, fun j => by rw [if_neg (by omega)]⟩
  | succ n ih =>
    obtain ⟨r, h1, h2, h3⟩ := ih fun i h => hf i (by omega)
    obtain ⟨r', g1, g2, g3⟩ := hf n (by omega) r h2
    refine ⟨r', by rw [times, h1]; exact g1, g2, fun j => ?_⟩
    rw [g3, h3]
    by_cases hj : j = n
    · rw [if_pos hj, if_pos (by omega), hj]
    · rw [if_neg hj]
      by_cases h : j < n
      · rw [if_pos h, if_pos (by omega)]
      · rw [if_neg h, if_neg (by omega)]

/-- **C83**, reading of BOOLs: each bit of the tag is that of the controller, and no other bit of the buffer changes. -/
theorem C83_bool_read {L : Lib} {g : Conf} {mem buff : List Byte} (ht : g.type = DAX_BOOL) (he : 0 < g.elem) (hb : g.count ≤ buff.length * 8) (hm : g.count ≤ mem.length * 8) :
    ∃ r, readTag L g mem buff = .ok r ∧ r.length = buff.length ∧ ∀ (j : Nat), plcBit r j = if j < g.count then plcBit mem j else plcBit buff j := by
  unfold readTag
  rw [if_neg (by omega), if_pos ht]
  obtain ⟨r, r1, r2, r3⟩ := times_bits (N := buff.length) (v := fun i => (plcBit mem i).getD false) (f := fun i b => match plcBit mem i with | none => .ok b | some v => pokeBit b i v) g.count (l := buff) rfl (by
    intro i hi c hc
    obtain ⟨x, -, hx⟩ := bit_some (l := mem) (i := i) (by omega)
    obtain ⟨y, hy, -⟩ := bit_some (l := c) (i := i) (by omega)
    rw [hx]
    dsimp only
    unfold pokeBit
    rw [hy]
    exact ⟨_, rfl, by rw [List.length_set]; exact hc, fun j => bit_set hy j⟩)
  refine ⟨r, r1, r2, fun j => ?_⟩
  rw [r3]
  by_cases hj : j < g.count
  · obtain ⟨x, -, hx⟩ := bit_some (l := mem) (i := j) (by omega)
    rw [if_pos hj, if_pos hj, hx]
    rfl
  · rw [if_neg hj, if_neg hj]

/-- **C83**, writing of BOOLs. -/
theorem C83_bool_write {L : Lib} {g : Conf} {mem buff : List Byte} (ht : g.type = DAX_BOOL) (he : 0 < g.elem) (hb : g.count ≤ buff.length * 8) (hm : g.count ≤ mem.length * 8) :
    ∃ p, writeTag L g buff mem = .ok p ∧ p.length = mem.length ∧ ∀ (j : Nat), plcBit p j = if j < g.count then plcBit buff j else plcBit mem j := by
  unfold writeTag
  rw [if_neg (by omega), if_pos ht]
  obtain ⟨r, r1, r2, r3⟩ := times_bits (N := mem.length) (v := fun i => (plcBit buff i).getD false) (f := fun i p => match plcBit buff i with | none => .ub "read outside the buffer" | some v => .ok (plcSetBit p i v)) g.count (l := mem) rfl (by
    intro i hi c hc
    obtain ⟨x, -, hx⟩ := bit_some (l := buff) (i := i) (by omega)
    obtain ⟨y, hy, -⟩ := bit_some (l := c) (i := i) (by omega)
    rw [hx]
    dsimp only
    unfold plcSetBit
    rw [hy]
    exact ⟨_, rfl, by rw [List.length_set]; exact hc, fun j => bit_set hy j⟩)
  refine ⟨r, r1, r2, fun j => ?_⟩
  rw [r3]
  by_cases hj : j < g.count
  · obtain ⟨x, -, hx⟩ := bit_some (l := buff) (i := j) (by omega)
    rw [if_pos hj, if_pos hj, hx]
    rfl
  · rw [if_neg hj, if_neg hj]

/-! ### Compound types -/

theorem stride_split {es n i k j : Nat} (hj : j < es) (h : i * es + j = k * es + n) (hn : n < es) : i = k ∧ j = n := by
  obtain ⟨a, b⟩ := stride_div (k := i) hj
  obtain ⟨c, d⟩ := stride_div (k := k) hn
  rw [h] at a b
  exact ⟨a.symm.trans c, b.symm.trans d⟩

theorem row_fit {i c es : Nat} (h : i < c) : i * es + es ≤ c * es := by
  have := Nat.mul_le_mul_right es (show i + 1 ≤ c by omega)
  rw [Nat.add_mul, Nat.one_mul] at this
  omega

theorem cdt_type {t : Nat} (h : DAX_CUSTOM ≤ t) : t ≠ DAX_BOOL ∧ width t = none ∧ t ≠ DAX_LREAL := by
  have h0 : 65536 ≤ DAX_CUSTOM := by decide
  generalize DAX_CUSTOM = c at h h0
  refine ⟨?_, ?_, ?_⟩
  · unfold DAX_BOOL; omega
  · unfold width
    rw [if_neg, if_neg, if_neg, if_neg]
    · unfold DAX_LWORD DAX_ULINT DAX_LINT DAX_TIME; omega
    · unfold DAX_DWORD DAX_UDINT DAX_DINT DAX_REAL; omega
    · unfold DAX_WORD DAX_UINT DAX_INT; omega
    · unfold DAX_BYTE DAX_SINT DAX_CHAR; omega
  · unfold DAX_LREAL; omega

/-- One element read through a map. -/
theorem read_row {m : List Nat} {raw b : List Byte} {es off : Nat} (hm : m.length = es) (hr : raw.length = es) (hk : ∀ k ∈ m, k < es) (hb : off + es ≤ b.length) :
    times (fun n b => match m[n]? with
      | none => .ub "read outside the map"
      | some k => do
        let v ← peek raw k 1
        poke b (off + n) v) es b = .ok (plcSplice b off (m.map fun k => raw.getD k 0)) := by
  have hbound : ∀ n, n < es → ∃ k, m[n]? = some k ∧ k < es := fun n hn => ⟨m[n], List.getElem?_eq_getElem (by omega), hk _ (List.getElem_mem _)⟩
  obtain ⟨r, r1, r2, r3⟩ := times_splice (base := off) (s := 1) (w := 1) (N := b.length) (v := fun n => [raw.getD (m.getD n 0) 0]) (f := fun n b => match m[n]? with
      | none => .ub "read outside the map"
      | some k => do
        let v ← peek raw k 1
        poke b (off + n) v) (by decide) (by decide) es (b := b) (fun i hi => rfl) rfl (fun i hi => by omega) (by
    intro i hi c hc
    obtain ⟨k, h1, h2⟩ := hbound i hi
    rw [h1]
    dsimp only
    unfold peek
    rw [if_pos (by omega), C.ok_bind]
    have hv : (raw.drop k).take 1 = [raw.getD (m.getD i 0) 0] := by
      rw [List.getD_eq_getElem?_getD (l := m), h1, Option.getD_some, List.getD_eq_getElem?_getD, List.getElem?_eq_getElem (by omega), Option.getD_some, List.drop_eq_getElem_cons (by omega)]
      rfl
    rw [hv, Nat.mul_one]
    exact poke_splice (by simp; omega))
  rw [r1]
  congr 1
  apply List.ext_getElem?
  intro j
  rw [r3, plc_splice_get (by simp; omega)]
  simp only [Nat.div_one, Nat.mod_one, List.length_map, hm]
  by_cases h : off ≤ j ∧ j < off + es
  · rw [if_pos ⟨h.1, by omega, by omega⟩, if_pos h]
    obtain ⟨k, h1, h2⟩ := hbound (j - off) (by omega)
    rw [List.getElem?_map, h1, List.getD_eq_getElem?_getD (l := m), h1]
    rfl
  · rw [if_neg (by omega), if_neg h]

/-- **C83**, reading of compound types with a map: byte `n` of each element is the one that the map names. -/
theorem C83_map_read {L : Lib} {g : Conf} {mem buff : List Byte} {m : List Nat} {es : Nat} (ht : DAX_CUSTOM ≤ g.type) (he : g.elem = es) (h0 : 0 < es) (hg : g.map = some m) (hm : m.length = es) (hk : ∀ k ∈ m, k < es)
    (hb : buff.length = g.count * es) (hp : g.count * es ≤ mem.length) :
    ∃ r, readTag L g mem buff = .ok r ∧ r.length = buff.length ∧ ∀ (i n k : Nat), i < g.count → m[n]? = some k → r[i * es + n]? = mem[i * es + k]? := by
  obtain ⟨t1, t2, t3⟩ := cdt_type ht
  unfold readTag
  rw [if_neg (by omega), if_neg t1, t2, if_neg t3, hg, he]
  dsimp only
  rw [Int.toNat_natCast]
  obtain ⟨r, r1, r2, r3⟩ := times_splice (base := 0) (s := es) (w := es) (N := g.count * es) (v := fun i => m.map fun k => ((mem.drop (i * es)).take es).getD k 0) (f := fun i b => do
          let raw := if i * es + es ≤ mem.length then (mem.drop (i * es)).take es else L.junk es
          times (fun n b => match m[n]? with
            | none => .ub "read outside the map"
            | some k => do
              let v ← peek raw k 1
              poke b (i * es + n) v) es b) h0 (Nat.le_refl _) g.count (b := buff) (fun i hi => by simp [hm]) hb (fun i hi => by have := row_fit (es := es) hi; omega) (by
    intro i hi c hc
    have := row_fit (es := es) hi
    dsimp only
    rw [if_pos (by omega), Nat.zero_add]
    exact read_row hm (plc_slice_length (by omega)) hk (by omega))
  refine ⟨r, r1, by rw [r2, hb], fun i n k hi hn => ?_⟩
  have hlt : n < es := by
    apply Classical.byContradiction
    intro h
    rw [List.getElem?_eq_none (by omega)] at hn
    cases hn
  have hkl := hk k (List.mem_of_getElem? hn)
  obtain ⟨d1, d2⟩ := stride_div (k := i) hlt
  have := row_fit (es := es) hi
  rw [r3, Nat.sub_zero, d1, d2, if_pos ⟨by omega, hi, hlt⟩, List.getElem?_map, hn, Option.map_some, List.getD_eq_getElem?_getD, plc_slice_get hkl, List.getElem?_eq_getElem (by omega)]
  rfl

/-- One element written through a map. -/
theorem write_row {m : List Nat} {buff r : List Byte} {es off : Nat} (hm : m.length = es) (hr : r.length = es) (hk : ∀ k ∈ m, k < es) (hi : ∀ (a b k : Nat), m[a]? = some k → m[b]? = some k → a = b) (hb : off + es ≤ buff.length) (n : Nat) (hn : n ≤ es) :
    ∃ r', times (fun n r => match m[n]? with
      | none => .ub "read outside the map"
      | some k => do
        let v ← peek buff (off + n) 1
        poke r k v) n r = .ok r' ∧ r'.length = es ∧ ∀ (a k : Nat), a < n → m[a]? = some k → r'[k]? = buff[off + a]? := by
  induction n with
  | zero => exact ⟨r, rfl, hr, fun a k h => absurd h (Nat.not_lt_zero _)⟩
  | succ n ih =>
    obtain ⟨r', h1, h2, h3⟩ := ih (by omega)
    have hmn : m[n]? = some m[n] := List.getElem?_eq_getElem (by omega)
    have hkn := hk m[n] (List.getElem_mem _)
    have hl1 : ((buff.drop (off + n)).take 1).length = 1 := plc_slice_length (by omega)
    have hfit : m[n] + ((buff.drop (off + n)).take 1).length ≤ r'.length := by omega
    refine ⟨plcSplice r' m[n] ((buff.drop (off + n)).take 1), ?_, ?_, ?_⟩
    · rw [times, h1, C.ok_bind, hmn]
      dsimp only
      unfold peek
      rw [if_pos (by omega), C.ok_bind, poke_splice hfit]
    · rw [plc_splice_length hfit, h2]
    · intro a k ha hak
      rw [plc_splice_get hfit, hl1]
      by_cases he : a = n
      · subst he
        rw [hmn, Option.some.injEq] at hak
        subst hak
        rw [if_pos ⟨by omega, by omega⟩, Nat.sub_self, plc_slice_get (by omega)]
        rfl
      · rw [if_neg, h3 a k (by omega) hak]
        intro hc
        have hk : k = m[n] := by omega
        exact he (hi a n k hak (by rw [hk]; exact hmn))

/-- **C83**, writing of compound types with a map that names every byte once: each byte gets to the place that the map names, whatever the memory used on the way contained. -/
theorem C83_map_write {L : Lib} {g : Conf} {mem buff : List Byte} {m : List Nat} {es : Nat} (ht : DAX_CUSTOM ≤ g.type) (he : g.elem = es) (h0 : 0 < es) (hg : g.map = some m) (hm : m.length = es) (hk : ∀ k ∈ m, k < es)
    (hi : ∀ (a b k : Nat), m[a]? = some k → m[b]? = some k → a = b) (hj : (L.junk es).length = es) (hb : buff.length = g.count * es) (hp : g.count * es ≤ mem.length) :
    ∃ p, writeTag L g buff mem = .ok p ∧ p.length = mem.length ∧ (∀ (i n k : Nat), i < g.count → m[n]? = some k → p[i * es + k]? = buff[i * es + n]?) ∧ ∀ (j : Nat), g.count * es ≤ j → p[j]? = mem[j]? := by
  obtain ⟨t1, t2, t3⟩ := cdt_type ht
  have key : ∀ c, c ≤ g.count → ∃ p r, times (fun i (p : List Byte × List Byte) => do
          let raw ← times (fun n r => match m[n]? with
            | none => .ub "read outside the map"
            | some k => do
              let v ← peek buff (i * es + n) 1
              poke r k v) es p.2
          C.ok (plcSet p.1 (i * es) raw, raw)) c (mem, L.junk es) = .ok (p, r) ∧ r.length = es ∧ p.length = mem.length ∧ (∀ (i n k : Nat), i < c → m[n]? = some k → p[i * es + k]? = buff[i * es + n]?) ∧ ∀ (j : Nat), c * es ≤ j → p[j]? = mem[j]? := by
    intro c
    induction c with
    | zero => exact fun _ => ⟨mem, L.junk es, rfl, hj, rfl, fun i n k h => absurd h (Nat.not_lt_zero _), fun _ _ => rfl⟩
    | succ c ih =>
      intro hc
      obtain ⟨p, r, h1, h2, h3, h4, h5⟩ := ih (by omega)
      have hrow := row_fit (es := es) (show c < g.count by omega)
      obtain ⟨r', w1, w2, w3⟩ := write_row (buff := buff) (off := c * es) hm h2 hk hi (by omega) es (Nat.le_refl _)
      have hfit : c * es + r'.length ≤ p.length := by omega
      refine ⟨plcSplice p (c * es) r', r', ?_, w2, ?_, ?_, ?_⟩
      · rw [times, h1, C.ok_bind]
        dsimp only
        rw [w1, C.ok_bind, plcSet_splice hfit]
      · rw [plc_splice_length hfit, h3]
      · intro i n k hic hn
        have hkl := hk k (List.mem_of_getElem? hn)
        have hnl : n < es := by
          apply Classical.byContradiction
          intro h
          rw [List.getElem?_eq_none (by omega)] at hn
          cases hn
        rw [plc_splice_get hfit, w2]
        by_cases he : i = c
        · subst he
          rw [if_pos ⟨by omega, by omega⟩, Nat.add_sub_cancel_left, w3 n k hnl hn]
        · have := row_fit (es := es) (show i < c by omega)
          rw [if_neg (by omega), h4 i n k (by omega) hn]
      · intro j hjc
        rw [Nat.add_mul, Nat.one_mul] at hjc
        rw [plc_splice_get hfit, if_neg (by omega), h5 j (by omega)]
  obtain ⟨p, r, h1, h2, h3, h4, h5⟩ := key g.count (Nat.le_refl _)
  refine ⟨p, ?_, h3, h4, h5⟩
  unfold writeTag
  rw [if_neg (by omega), if_neg t1, t2, if_neg t3, hg, he]
  dsimp only
  rw [Int.toNat_natCast]
  exact C.bind_eq_ok.mpr ⟨(p, r), h1, rfl⟩

/-- **C83**, compound types with a map, there and back. -/
theorem C83_map_round {L : Lib} {g : Conf} {mem buff old : List Byte} {m : List Nat} {es : Nat} (ht : DAX_CUSTOM ≤ g.type) (he : g.elem = es) (h0 : 0 < es) (hg : g.map = some m) (hm : m.length = es) (hk : ∀ k ∈ m, k < es)
    (hi : ∀ (a b k : Nat), m[a]? = some k → m[b]? = some k → a = b) (hj : (L.junk es).length = es) (hb : buff.length = g.count * es) (ho : old.length = buff.length) (hp : g.count * es ≤ mem.length) :
    ∃ p, writeTag L g buff mem = .ok p ∧ readTag L g p old = .ok buff := by
  obtain ⟨p, p1, p2, p3, -⟩ := C83_map_write (L := L) ht he h0 hg hm hk hi hj hb hp
  obtain ⟨r, r1, r2, r3⟩ := C83_map_read (L := L) (mem := p) (buff := old) ht he h0 hg hm hk (by omega) (by omega)
  refine ⟨p, p1, ?_⟩
  rw [r1]
  congr 1
  apply List.ext_getElem?
  intro i
  by_cases hi : i < g.count * es
  · have hq : i / es < g.count := (Nat.div_lt_iff_lt_mul h0).mpr hi
    have hr : i % es < es := Nat.mod_lt _ h0
    have hd := Nat.div_add_mod i es
    rw [Nat.mul_comm] at hd
    have hn : m[i % es]? = some (m[i % es]'(by omega)) := List.getElem?_eq_getElem (by omega)
    have h := r3 _ _ _ hq hn
    rw [p3 _ _ _ hq hn, hd] at h
    exact h
  · rw [List.getElem?_eq_none (by omega), List.getElem?_eq_none (by omega)]

/-- **C83**, reading of compound types without a map, if the elements have the same size on both sides: the bytes of the controller. -/
theorem C83_raw_read {L : Lib} {g : Conf} {mem buff : List Byte} {es : Nat} (ht : DAX_CUSTOM ≤ g.type) (he : g.elem = es) (h0 : 0 < es) (hg : g.map = none) (hs : g.size = g.count * es) (hb : buff.length = g.size) (hp : g.size ≤ mem.length) :
    readTag L g mem buff = .ok (mem.take g.size) := by
  obtain ⟨t1, t2, t3⟩ := cdt_type ht
  unfold readTag
  rw [if_neg (by omega), if_neg t1, t2, if_neg t3, hg, he]
  dsimp only
  rw [Int.toNat_natCast]
  obtain ⟨r, r1, r2, r3⟩ := times_splice (base := 0) (s := es) (w := es) (N := g.size) (v := fun i => (mem.drop (i * es)).take es)
    (f := fun i b => if i * es + es ≤ mem.length then poke b (i * g.size / g.count) ((mem.drop (i * es)).take es) else .ok b) h0 (Nat.le_refl _) g.count (b := buff)
    (fun i hi => plc_slice_length (by have := row_fit (es := es) hi; omega)) hb (fun i hi => by have := row_fit (es := es) hi; omega) (by
    intro i hi c hc
    have := row_fit (es := es) hi
    rw [if_pos (by omega), Nat.zero_add, hs, show i * (g.count * es) = i * es * g.count by rw [Nat.mul_comm g.count, Nat.mul_assoc], Nat.mul_div_cancel _ (by omega)]
    exact poke_splice (by rw [plc_slice_length (by omega)]; omega))
  rw [r1]
  congr 1
  apply List.ext_getElem?
  intro j
  rw [r3, Nat.sub_zero]
  by_cases h : j < g.size
  · have hq : j / es < g.count := (Nat.div_lt_iff_lt_mul h0).mpr (by omega)
    have hd := Nat.div_add_mod j es
    rw [Nat.mul_comm] at hd
    rw [if_pos ⟨by omega, hq, Nat.mod_lt _ h0⟩, plc_slice_get (Nat.mod_lt _ h0), hd, List.getElem?_take, if_pos h]
  · rw [if_neg, List.getElem?_take, if_neg h, List.getElem?_eq_none (by omega)]
    intro hc
    exact h (by rw [hs]; exact (Nat.div_lt_iff_lt_mul h0).mp hc.2.1)

/-- **C83**, writing of compound types without a map. -/
theorem C83_raw_write {L : Lib} {g : Conf} {mem buff : List Byte} {es : Nat} (ht : DAX_CUSTOM ≤ g.type) (he : g.elem = es) (h0 : 0 < es) (hg : g.map = none) (hs : g.size = g.count * es) (hb : buff.length = g.size) (hp : g.size ≤ mem.length) :
    writeTag L g buff mem = .ok (buff ++ mem.drop g.size) := by
  obtain ⟨t1, t2, t3⟩ := cdt_type ht
  unfold writeTag
  rw [if_neg (by omega), if_neg t1, t2, if_neg t3, hg, he]
  dsimp only
  rw [Int.toNat_natCast]
  obtain ⟨r, r1, r2, r3⟩ := times_splice (base := 0) (s := es) (w := es) (N := mem.length) (v := fun i => (buff.drop (i * es)).take es)
    (f := fun i p => do
          let v ← peek buff (i * g.size / g.count) es
          .ok (plcSet p (i * es) v)) h0 (Nat.le_refl _) g.count (b := mem)
    (fun i hi => plc_slice_length (by have := row_fit (es := es) hi; omega)) rfl (fun i hi => by have := row_fit (es := es) hi; omega) (by
    intro i hi c hc
    have := row_fit (es := es) hi
    rw [hs, show i * (g.count * es) = i * es * g.count by rw [Nat.mul_comm g.count, Nat.mul_assoc], Nat.mul_div_cancel _ (by omega)]
    unfold peek
    rw [if_pos (by omega), C.ok_bind, Nat.zero_add, plcSet_splice]
    rw [plc_slice_length (by omega)]
    omega)
  rw [r1]
  congr 1
  apply List.ext_getElem?
  intro j
  rw [r3, Nat.sub_zero]
  by_cases h : j < g.size
  · have hq : j / es < g.count := (Nat.div_lt_iff_lt_mul h0).mpr (by omega)
    have hd := Nat.div_add_mod j es
    rw [Nat.mul_comm] at hd
    rw [if_pos ⟨by omega, hq, Nat.mod_lt _ h0⟩, List.getElem?_append_left (by omega), plc_slice_get (Nat.mod_lt _ h0), hd]
  · rw [if_neg, List.getElem?_append_right (by omega), List.getElem?_drop]
    · congr 1
      omega
    · intro hc
      exact h (by rw [hs]; exact (Nat.div_lt_iff_lt_mul h0).mp hc.2.1)

/-! ### Where C83 fails -/

/-- **C83 fails** for LREAL: a controller's values of eight bytes are read as if they had four, so two tags that differ only in the upper halves of their elements, written to the controller, are read back alike: one of them is not
what was written, whatever the library does. -/
theorem C83_lreal (L : Lib) (a b c d e : Byte) : let g : Conf := { type := DAX_LREAL, count := 1, size := 8, elem := 8 }
    ∃ p q, writeTag L g [a, b, c, d, 0, 0, 0, e] (List.replicate 8 0) = .ok p ∧ writeTag L g [a, b, c, d, 0, 0, 0, e + 1] (List.replicate 8 0) = .ok q ∧ p ≠ q ∧
      readTag L g p (List.replicate 8 0) = readTag L g q (List.replicate 8 0) := by
  refine ⟨[a, b, c, d, 0, 0, 0, e], [a, b, c, d, 0, 0, 0, e + 1], rfl, rfl, ?_, rfl⟩
  intro h
  simp only [List.cons.injEq, true_and, and_true] at h
  bv_omega

/-- **C83 fails** for maps that name a byte twice, which are accepted: the byte that is named by none is sent to the controller from memory that was never written. -/
theorem C83_map_twice (L : Lib) (a b : Byte) (h : L.junk 2 = [a, b]) : writeTag L { type := DAX_CUSTOM, count := 1, size := 2, elem := 2, map := some [0, 0] } [1, 2] [7, 7] = .ok [2, b] := by
  have : writeTag L { type := DAX_CUSTOM, count := 1, size := 2, elem := 2, map := some [0, 0] } [1, 2] [7, 7] = (do
    let (mem, _) ← times (fun i (p : List Byte × List Byte) => do
          let raw ← times (fun n r => match [0, 0][n]? with
            | none => .ub "read outside the map"
            | some k => do
              let v ← peek [1, 2] (i * 2 + n) 1
              poke r k v) 2 p.2
          .ok (plcSet p.1 (i * 2) raw, raw)) 1 ([7, 7], L.junk 2)
    .ok mem) := rfl
  rw [this, h]
  rfl

/-- **C83 fails** if the elements of the controller are larger than those of the compound type, which is not compared: the answer is written past the end of the buffer. -/
theorem C83_overrun (L : Lib) : ∃ w, readTag L { type := DAX_CUSTOM, count := 1, size := 2, elem := 4 } [1, 2, 3, 4] [0, 0] = .ub w := ⟨_, rfl⟩

/-- **C83 fails** if the first read ends before the size of the elements is known, or the library does not know it. -/
theorem C83_unknown (L : Lib) (mem : List Byte) : ∃ w, readTag L { type := DAX_INT, count := 1, size := 2, elem := -1 } mem [0, 0] = .ub w := ⟨_, rfl⟩

/-! ## C84: the queue -/

/-- Once the lock is kept, nothing is seen any more. -/
theorem lane_locked {α : Type} {l : Lane α} (h : l.locked = true) (os : List (LaneOp α)) : l.run os = .ok (l, []) := by
  induction os with
  | nil => rfl
  | cons o os ih =>
    have : l.step o = .ok (l, []) := by
      cases o with
      | push x =>
        unfold Lane.step Lane.push
        dsimp only
        rw [if_pos h]
        rfl
      | take =>
        unfold Lane.step Lane.take
        dsimp only
        rw [if_pos h]
        rfl
    rw [Lane.run, this, C.ok_bind]
    dsimp only
    rw [ih]
    rfl

/-- The tags that leave the queue are those that were put in, in their order, until one is refused, if the queue does not fill up at a bad moment. -/
theorem lane_holds {α : Type} [DecidableEq α] (os : List (LaneOp α)) : ∀ {l l' : Lane α} {s : List (ScriptQ.Seen α)} {w : List α} {r : Nat}, ScriptQ.Holds l.q w r → l.run os = .ok (l', s) → (∀ s', s' <+: s → w.length + ScriptQ.accepts s' = l.q.slots.length + ScriptQ.starts s' →
    (r + ScriptQ.starts s') % l.q.slots.length ≠ 0) → ∃ w', ScriptQ.fifo l.q.slots.length w s = some w' := by
  induction os with
  | nil =>
    intro l l' s w r h hr hs
    simp only [Lane.run, C.ok.injEq, Prod.mk.injEq] at hr
    obtain ⟨-, rfl⟩ := hr
    exact ⟨w, by unfold ScriptQ.fifo; rfl⟩
  | cons o os ih =>
    intro l l' s w r h hr hs
    by_cases hl : l.locked = true
    · rw [lane_locked hl] at hr
      simp only [C.ok.injEq, Prod.mk.injEq] at hr
      obtain ⟨-, rfl⟩ := hr
      exact ⟨w, by unfold ScriptQ.fifo; rfl⟩
    · rw [Lane.run] at hr
      obtain ⟨⟨l1, a⟩, h1, h2⟩ := C.bind_eq_ok.mp hr
      obtain ⟨⟨l2, b⟩, h3, h4⟩ := C.bind_eq_ok.mp h2
      simp only [C.ok.injEq, Prod.mk.injEq] at h4
      obtain ⟨-, rfl⟩ := h4
      cases o with
      | push x =>
        unfold Lane.step Lane.push at h1
        dsimp only at h1
        rw [if_neg hl] at h1
        by_cases hf : l.q.full = true
        · have hp : ScriptQ.push l.q x = .ok (l.q, false) := by unfold ScriptQ.push; rw [if_pos hf]
          rw [hp, C.ok_bind, C.ok_bind] at h1
          simp only [Bool.not_false, Bool.false_eq_true, if_false, C.ok.injEq, Prod.mk.injEq] at h1
          obtain ⟨rfl, rfl⟩ := h1
          rw [lane_locked rfl] at h3
          simp only [C.ok.injEq, Prod.mk.injEq] at h3
          obtain ⟨-, rfl⟩ := h3
          rw [h.full, decide_eq_true_iff] at hf
          refine ⟨w, ?_⟩
          show ScriptQ.fifo _ w [.refused x] = some w
          rw [ScriptQ.fifo, if_neg (by omega), ScriptQ.fifo]
        · have hf : l.q.full = false := by simpa using hf
          have hlen : w.length < l.q.slots.length := by
            have := h.full
            rw [hf] at this
            have hne : w.length ≠ l.q.slots.length := fun e => by simp [e] at this
            have := h.fits
            omega
          have hp : ScriptQ.push l.q x = .ok ({ slots := l.q.slots.set l.q.last x, first := l.q.first, last := (if l.q.last + 1 ≥ l.q.slots.length then 0 else l.q.last + 1), full := decide (l.q.last + 1 = l.q.first), empty := false }, true) := by
            unfold ScriptQ.push
            rw [if_neg (by simp [hf]), if_neg (by have := h.lt.2; omega)]
          rw [hp, C.ok_bind, C.ok_bind] at h1
          simp only [Bool.not_true, if_true, C.ok.injEq, Prod.mk.injEq] at h1
          obtain ⟨rfl, rfl⟩ := h1
          have hh := ScriptQ.Holds.push (x := x) (.inl h) hf (fun e => by
            have := hs [.accepted x] ⟨b, rfl⟩
            simp only [ScriptQ.accepts, ScriptQ.starts, Nat.add_zero] at this
            exact this (by omega))
          obtain ⟨w', hw⟩ := ih (l := { q := _, locked := false }) hh h3 (fun s' hs' e => by
            have := hs (.accepted x :: s') ((List.prefix_append_right_inj [ScriptQ.Seen.accepted x]).mpr hs')
            simp only [ScriptQ.accepts, ScriptQ.starts, List.length_append, List.length_cons, List.length_nil, List.length_set] at this e ⊢
            exact this (by omega))
          simp only [List.length_set] at hw
          refine ⟨w', ?_⟩
          show ScriptQ.fifo _ w (.accepted x :: b) = some w'
          rw [ScriptQ.fifo, if_pos hlen]
          exact hw
      | take =>
        unfold Lane.step Lane.take at h1
        dsimp only at h1
        rw [if_neg hl] at h1
        cases w with
        | nil =>
          rw [ScriptQ.pop_empty h, C.ok_bind, C.ok_bind] at h1
          simp only [C.ok.injEq, Prod.mk.injEq] at h1
          obtain ⟨rfl, rfl⟩ := h1
          exact ih (l := { l with q := l.q }) h h3 hs
        | cons y w =>
          obtain ⟨q', k1, k2, k3⟩ := h.pop
          rw [k1, C.ok_bind, C.ok_bind] at h1
          simp only [C.ok.injEq, Prod.mk.injEq] at h1
          obtain ⟨rfl, rfl⟩ := h1
          obtain ⟨w', hw⟩ := ih (l := { l with q := q' }) k2 h3 (fun s' hs' e => by
            have := hs (.ran y :: s') ((List.prefix_append_right_inj [ScriptQ.Seen.ran y]).mpr hs')
            simp only [ScriptQ.accepts, ScriptQ.starts, List.length_cons] at this
            dsimp only at e ⊢
            rw [k3] at e ⊢
            rw [show r + 1 + ScriptQ.starts s' = r + (ScriptQ.starts s' + 1) by omega]
            exact this (by omega))
          dsimp only at hw
          rw [k3] at hw
          refine ⟨w', ?_⟩
          show ScriptQ.fifo _ (y :: w) (.ran y :: b) = some w'
          rw [ScriptQ.fifo, if_pos rfl]
          exact hw

/-- **C84**: from the first tag on, the tags that were read leave the queue in the order in which they came, each once, if the queue does not fill up when the number of tags taken is a multiple of its size.

Missing: the other cases (`C84_overwritten`), wakes before the first tag (as `C72_spurious`), and what happens after a tag was refused (`C84_stuck`). -/
theorem C84_order_partial {α : Type} [DecidableEq α] {slots : List α} {x : α} {os : List (LaneOp α)} {l' : Lane α} {s : List (ScriptQ.Seen α)} (hpos : 0 < slots.length) (hr : Lane.run { q := { slots := slots } } (.push x :: os) = .ok (l', s)) (hs : ScriptQ.Safe slots.length s) :
    ∃ w, ScriptQ.fifo slots.length [] s = some w := by
  rw [Lane.run] at hr
  obtain ⟨⟨l1, a⟩, h1, h2⟩ := C.bind_eq_ok.mp hr
  obtain ⟨⟨l2, b⟩, h3, h4⟩ := C.bind_eq_ok.mp h2
  simp only [C.ok.injEq, Prod.mk.injEq] at h4
  obtain ⟨-, rfl⟩ := h4
  unfold Lane.step Lane.push ScriptQ.push at h1
  dsimp only at h1
  rw [if_neg (by decide), if_neg (by decide), if_neg (by omega), C.ok_bind, C.ok_bind] at h1
  simp only [Bool.not_true, if_true, C.ok.injEq, Prod.mk.injEq] at h1
  obtain ⟨rfl, rfl⟩ := h1
  have hh := ScriptQ.Holds.push (q := { slots := slots }) (x := x) (w := []) (r := 0) (.inr ⟨rfl, rfl, rfl, rfl, rfl, hpos⟩) rfl (fun e => by
    have := hs [.accepted x] ⟨b, rfl⟩
    simp only [ScriptQ.accepts, ScriptQ.starts] at this
    dsimp only [List.length_nil] at e ⊢
    exact this (by omega))
  obtain ⟨w', hw⟩ := lane_holds os (l := { q := _, locked := false }) hh h3 (fun s' hs' e => by
    have := hs (.accepted x :: s') ((List.prefix_append_right_inj [ScriptQ.Seen.accepted x]).mpr hs')
    simp only [ScriptQ.accepts, ScriptQ.starts, List.nil_append, List.length_cons, List.length_nil, List.length_set, Nat.zero_add] at this e ⊢
    exact this (by omega))
  simp only [List.length_set] at hw
  refine ⟨w', ?_⟩
  show ScriptQ.fifo _ [] (.accepted x :: b) = some w'
  rw [ScriptQ.fifo, if_pos (by simpa using hpos)]
  exact hw

/-- **C84 fails**: a tag that is refused because the queue is full is the last that is ever seen.  The lock is not given back; both the thread of the library and the one that writes to the server wait for ever. -/
theorem C84_stuck {α : Type} {l l1 : Lane α} {x : α} {s : List (ScriptQ.Seen α)} (h : l.step (.push x) = .ok (l1, s)) (hs : .refused x ∈ s) (os : List (LaneOp α)) : l1.run os = .ok (l1, []) := by
  apply lane_locked
  unfold Lane.step at h
  obtain ⟨o, h1, h2⟩ := C.bind_eq_ok.mp h
  unfold Lane.push at h1
  by_cases hl : l.locked = true
  · rw [if_pos hl, C.ok.injEq] at h1
    subst h1
    simp only [C.ok.injEq, Prod.mk.injEq] at h2
    obtain ⟨-, rfl⟩ := h2
    cases hs
  · rw [if_neg hl] at h1
    obtain ⟨⟨q, b⟩, -, h3⟩ := C.bind_eq_ok.mp h1
    simp only [C.ok.injEq] at h3
    subst h3
    simp only [C.ok.injEq, Prod.mk.injEq] at h2
    obtain ⟨rfl, rfl⟩ := h2
    cases b with
    | false => rfl
    | true => simp at hs

/-- **C84 fails**: a queue that fills up for the first time is not seen to be full; the tags in it are lost. -/
theorem C84_overwritten : (∃ l, Lane.run { q := { slots := [0, 0] } } [.push 1, .push 2, .push 3, .take, .take, .take] = .ok (l, [.accepted 1, .accepted 2, .accepted 3, .ran 3])) ∧
    ScriptQ.fifo 2 [] [.accepted 1, .accepted 2, .accepted (3 : Nat)] = none := ⟨⟨_, rfl⟩, by decide⟩

/-! ## Cases -/

/-- A library for the cases. -/
def plcLib : Lib := { bad := fun n => List.replicate n 255, widen := fun l => l ++ l, junk := fun n => List.replicate n 9 }

/-- Three INTs, each in four bytes of the controller. -/
def plcInts : Conf := { type := DAX_INT, count := 3, size := 6, elem := 4 }

/-- Two compound values of three bytes with the bytes turned round. -/
def plcMapped : Conf := { type := DAX_CUSTOM + 1, count := 2, size := 6, elem := 3, map := some [2, 1, 0] }

example : (plcInts.type, 2) ∈ elemBytes ∧ plcInts.type ≠ DAX_LREAL ∧ plcInts.elem = (4 : Nat) ∧ ([1, 2, 3, 4, 5, 6] : List Byte).length = plcInts.count * 2 ∧
    (∀ k, k < plcInts.count → k * 4 + 2 ≤ (List.replicate 12 (7 : Byte)).length) ∧
    writeTag plcLib plcInts [1, 2, 3, 4, 5, 6] (List.replicate 12 7) = .ok [1, 2, 7, 7, 3, 4, 7, 7, 5, 6, 7, 7] ∧
    readTag plcLib plcInts [1, 2, 7, 7, 3, 4, 7, 7, 5, 6, 7, 7] (List.replicate 6 0) = .ok [1, 2, 3, 4, 5, 6] :=
  ⟨by decide, by decide, rfl, rfl, by decide, rfl, rfl⟩

example : let g : Conf := { type := DAX_BOOL, count := 11, size := 2, elem := 2 }
    g.count ≤ ([0, 0xff] : List Byte).length * 8 ∧ readTag plcLib g [0xa5, 0x05] [0, 0xff] = .ok [0xa5, 0xfd] ∧ writeTag plcLib g [0xa5, 0x05] [0, 0xff] = .ok [0xa5, 0xfd] := ⟨by decide, rfl, rfl⟩

example : DAX_CUSTOM ≤ plcMapped.type ∧ (∀ k ∈ [2, 1, 0], k < 3) ∧ (plcLib.junk 3).length = 3 ∧ writeTag plcLib plcMapped [1, 2, 3, 4, 5, 6] (List.replicate 7 0) = .ok [3, 2, 1, 6, 5, 4, 0] ∧
    readTag plcLib plcMapped [3, 2, 1, 6, 5, 4, 0] (List.replicate 6 0) = .ok [1, 2, 3, 4, 5, 6] := ⟨by decide, by decide, rfl, rfl, rfl⟩

example : ∀ (a b k : Nat), [2, 1, 0][a]? = some k → [2, 1, 0][b]? = some k → a = b := by
  intro a b k ha hb
  match a, b with
  | 0, 0 | 1, 1 | 2, 2 => rfl
  | 0, 1 | 0, 2 | 1, 0 | 1, 2 | 2, 0 | 2, 1 => simp at ha hb; omega
  | a + 3, _ => simp at ha
  | _, b + 3 => simp at hb

example : readTag plcLib { plcMapped with map := none } [3, 2, 1, 6, 5, 4, 0] (List.replicate 6 0) = .ok [3, 2, 1, 6, 5, 4] ∧
    writeTag plcLib { plcMapped with map := none } [1, 2, 3, 4, 5, 6] (List.replicate 7 0) = .ok [1, 2, 3, 4, 5, 6, 0] := ⟨rfl, rfl⟩

/-- Three places; the queue fills up after one tag was taken, then one is refused and nothing follows. -/
def laneOps : List (LaneOp Nat) := [.push 1, .push 2, .take, .push 3, .push 4, .push 5, .take, .push 6]

example : (∃ l, Lane.run { q := { slots := [0, 0, 0] } } laneOps = .ok (l, [.accepted 1, .accepted 2, .ran 1, .accepted 3, .accepted 4, .refused 5])) ∧
    ScriptQ.fifo 3 [] [.accepted 1, .accepted 2, .ran 1, .accepted 3, .accepted 4, .refused (5 : Nat)] = some [2, 3, 4] := ⟨⟨_, rfl⟩, by decide⟩

example : ScriptQ.Safe 3 [.accepted 1, .accepted 2, .ran 1, .accepted 3, .accepted 4, .refused (5 : Nat)] := by
  intro l' hl he
  obtain ⟨t, ht⟩ := hl
  match l' with
  | [] => simp [ScriptQ.accepts, ScriptQ.starts] at he
  | [a] => simp at ht; obtain ⟨rfl, -⟩ := ht; simp [ScriptQ.accepts, ScriptQ.starts] at he
  | [a, b] => simp at ht; obtain ⟨rfl, rfl, -⟩ := ht; simp [ScriptQ.accepts, ScriptQ.starts] at he
  | [a, b, c] => simp at ht; obtain ⟨rfl, rfl, rfl, -⟩ := ht; simp [ScriptQ.accepts, ScriptQ.starts] at he
  | [a, b, c, d] => simp at ht; obtain ⟨rfl, rfl, rfl, rfl, -⟩ := ht; simp [ScriptQ.accepts, ScriptQ.starts] at he
  | [a, b, c, d, e] => simp at ht; obtain ⟨rfl, rfl, rfl, rfl, rfl, -⟩ := ht; simp [ScriptQ.starts]
  | [a, b, c, d, e, f] => simp at ht; obtain ⟨rfl, rfl, rfl, rfl, rfl, rfl, -⟩ := ht; simp [ScriptQ.starts]
  | a :: b :: c :: d :: e :: f :: g :: h => simp at ht

end Dax
