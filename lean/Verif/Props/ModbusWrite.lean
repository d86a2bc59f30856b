import Verif.Props.Modbus
import Verif.Spec.ModbusWrite
/-!
# C63: what a Modbus master writes is what the tags hold
-/
set_option autoImplicit false
namespace Dax
open Modbus LibData
open Wire (shifted shiftSize)

/-- The writing functions, once the node is found and the uninitialised variable has been looked at. -/
theorem createResponse_write {s : Server} {fd : Int} {c : TypeCache} {nodes : List (Option Node)} {tcp : Bool} {buff : List Byte} {j : Junk} {node : Nat}
    {nd : Node} (h6 : 6 ≤ buff.length) (hr : Responsible nodes (buff.getD 0 0).toNat node nd) (hj : j.result % 256 = 0)
    (hf : code buff = 5 ∨ code buff = 6 ∨ code buff = 15 ∨ code buff = 16) (hz : nd.size (wreg (code buff)) ≠ 0) (size : Int) :
    createResponse s fd c nodes tcp buff size j = writeFunction s fd c nd node (code buff) buff j := by
  have hres : readResult nd node (code buff) buff j = .ok 0 := by
    unfold readResult
    rw [i8_zero.mpr hj]
    split
    · rfl
    · rw [if_neg (by omega)]
  unfold createResponse
  rw [getD_some (b := buff) (k := 0) (by omega), getD_some (b := buff) (k := 1) (by omega)]
  dsimp only
  rw [responsible_find hr]
  dsimp only
  rw [show (buff.getD 1 0).toNat = code buff from rfl, hres, C.ok_bind, if_neg (by simp)]
  unfold badFunction
  rcases hf with e | e | e | e <;> rw [e] at hz ⊢ <;> simp only [Node.size, wreg] at hz
  · rw [if_neg (by simpa using hz)]; rfl
  · rw [if_neg (by simpa using hz)]; rfl
  · rw [if_neg (by simpa using hz)]; rfl
  · rw [if_neg (by simpa using hz)]; rfl

/-- A tag of a base type of `n` bytes that anybody may write, on a server without mappings. -/
theorem good_of {s : Server} {i a type count n : Nat} {name : Name} (hr : Reachable s) (hm : ∀ i name, LiveAt s i name → NoMaps s i)
    (ha : AttrAt s i a) (h0 : a.testBit 0 = false) (h1 : a.testBit 1 = false) (h3 : a.testBit 3 = false) (h4 : a.testBit 4 = false)
    (hl : LiveTag s i name type count) (hn : TagBytes type count n) (hlt : n < 2147483648) : Good i n s := by
  have hw := hr.wf
  refine ⟨hr, ?_, ?_⟩
  · intro j t htj hf
    have hnn : t.name ≠ none := fun hn => hf ((hw.tag j t htj).name.mp hn)
    obtain ⟨nn, hnn⟩ := Option.ne_none_iff_exists'.mp hnn
    exact (noMaps_iff htj).mp (hm j nn ((liveAt_iff hw).mpr ⟨t, htj, hnn⟩))
  · obtain ⟨t, ht', hn', ha'⟩ := (attrAt_iff hw).mp ha
    obtain ⟨t1, b, P⟩ := (ordinary_iff hw).mp ⟨a, ha, h1, h3⟩
    have e := ht'.symm.trans P.db
    cases e
    obtain ⟨t2, ht2, -, rfl, rfl⟩ := (liveTag_iff hw).mp hl
    have e := ht2.symm.trans P.db
    cases e
    have ok := hw.tag i t P.db
    have hbl : b.length = n := by
      have ha := (ok.mem b P.data).1
      unfold allocSize at ha
      rcases hn with ⟨hb, rfl⟩ | ⟨w, hm, rfl⟩
      · rw [if_pos hb] at ha
        simp only [C.ok.injEq] at ha
        omega
      · obtain ⟨hts, hnb⟩ := typeSize_elem (tbl := s.cdts) hm
        rw [if_neg hnb, hts] at ha
        simp only [C.ok_bind, C.ok.injEq] at ha
        have e : ((w * t.count : Nat) : Int) = (w : Int) * (t.count : Int) := by simp
        rw [← e] at ha
        unfold u32 at ha
        omega
    exact ⟨t, b, P, by rw [← Attr.bit0, ha']; exact h0, by rw [← Attr.bit4, ha']; exact h4, hbl, tagGetSize_small ok P.data (by omega)⟩

theorem Good.ordinary {s : Server} {i n : Nat} (g : Good i n s) : Ordinary s i := by
  obtain ⟨t, b, P, -⟩ := g.tag
  exact (ordinary_iff g.reach.wf).mpr ⟨t, b, P⟩

/-- Registers are written completely. -/
theorem uint_written {s s' : Server} {fd : Int} {c c' : TypeCache} {h : Handle} {i n : Nat} {data : List Byte} {M : Mem} (g : Good i n s)
    (hm : ∀ i name, LiveAt s i name → NoMaps s i) (hM : Agrees M s) (hi : h.index = i) (ht : h.type = DAX_UINT) (hpos : 0 < h.size) (hs : h.size ≤ 2000)
    (hd : 2 ∣ h.size) (hc : 2 * h.count ≤ data.length) (hl : h.size ≤ data.length) (hin : h.byte + h.size ≤ n) (hn : n ≤ 200000)
    (hh : slaveWrite s fd c h data = .ok (s', c')) :
    Reachable s' ∧ Ordinary s' i ∧ Agrees (M.store i h.byte (data.take h.size)) s' := by
  have hsh : shifted h = false := by
    unfold shifted; rw [ht]; rfl
  unfold slaveWrite at hh
  obtain ⟨⟨s1, c1, l, o, d⟩, hw, hh⟩ := C.bind_eq_ok.mp hh
  dsimp only at hh
  split at hh
  · cases hh
  simp only [C.ok.injEq, Prod.mk.injEq] at hh
  obtain ⟨rfl, rfl⟩ := hh
  have hw' := hw
  obtain ⟨c2, r, g1, ⟨hr', hx⟩ | ⟨rfl, hw⟩⟩ := daxTagWrite_plain hsh hw
  · exfalso
    rw [ht, format_uint hc] at g1
    simp only [C.ok.injEq, Prod.mk.injEq] at g1
    exact hr' g1.2.symm
  · obtain ⟨code, rfl, g2, g3, -⟩ := transfer_ok (ts := 2) (sends_write (base := h.byte) (by omega) (Nat.le_refl _)) (by decide) (by decide) hd
      (by decide) (fun h => by omega) (by omega) (by omega) (fun h => h) hw
    rw [hi] at g2
    obtain ⟨rfl, g4⟩ := split_accepted g2 (G := Good i n) (fun s s' q k r a b cc gg hq =>
      good_write gg (by rw [slice_length (by omega)]; omega) (by omega) (by rw [slice_length (by omega)]; omega) hq) g g3
    exact ⟨g4.reach, g4.ordinary, C25_written (unit := 2) g.reach hm hM hi hsh hl
      (fun c1 r hf => ⟨hpos, by omega, fun h => by omega, by decide, by decide, hd⟩) hw'⟩

/-- **C63**, registers: a request to write registers that are configured puts the values it carries into these registers and changes no
other byte of any tag; it is answered with its own beginning unless the module's write callback objects.  A request that goes beyond the registers
changes nothing and is answered with exception 2. -/
theorem C63_registers_partial {s s' : Server} {fd : Int} {c c' : TypeCache} {nodes : List (Option Node)} {tcp : Bool} {buff b' : List Byte} {j : Junk}
    {node i n a : Nat} {k : Int} {nd : Node} {name : Name} {M : Mem} (h6 : 6 ≤ buff.length) (h256 : buff.length ≤ 256)
    (hresp : Responsible nodes (buff.getD 0 0).toNat node nd) (hj : j.result % 256 = 0) (hc : code buff = 6 ∨ code buff = 16)
    (hpos : 1 ≤ sentCount buff) (hfit : code buff = 16 → 7 + 2 * field buff 4 ≤ buff.length) (hz : nd.holdSize ≠ 0)
    (hr : Reachable s) (hm : ∀ i name, LiveAt s i name → NoMaps s i) (hM : Agrees M s) (ha : AttrAt s i a) (h0 : a.testBit 0 = false)
    (h1 : a.testBit 1 = false) (h3 : a.testBit 3 = false) (h4 : a.testBit 4 = false) (hi : nd.holdIdx = i) (hl : LiveTag s i name DAX_UINT n)
    (hn : nd.holdSize ≤ n) (hn2 : n ≤ 100000) (hh : createResponse s fd c nodes tcp buff buff.length j = .ok (s', c', b', k)) :
    (field buff 2 + sentCount buff ≤ nd.holdSize →
      Reachable s' ∧ Ordinary s' i ∧ (nd.writeCb = none → k = 6 ∧ b' = buff) ∧
      ∃ M', Agrees M' s' ∧
        (∀ m < sentCount buff, (M' i (2 * (field buff 2 + m) + 1), M' i (2 * (field buff 2 + m))) = sentWord buff m) ∧
        ∀ t p, ¬ (t = i ∧ 2 * field buff 2 ≤ p ∧ p < 2 * (field buff 2 + sentCount buff)) → M' t p = M t p) ∧
    (nd.holdSize < field buff 2 + sentCount buff → s' = s ∧ k = 3 ∧ b'.take 3 = [buff.getD 0 0, buff.getD 1 0 ||| 0x80, 2]) := by
  have hf2 := field_lt buff 2
  have hwr : wreg (code buff) = .hold := by unfold wreg; rw [if_neg (by omega)]
  have hwc : wcount (code buff) buff = sentCount buff := by
    unfold wcount sentCount
    rfl
  have hcnt : sentCount buff ≤ 125 := by
    unfold sentCount
    split
    · omega
    · have := hfit (by omega); omega
  rw [createResponse_write h6 hresp hj (by omega) (by rw [hwr]; exact hz)] at hh
  obtain ⟨data, hdl, hcar, heq⟩ := writeFunction_eq (buff := buff) (f := code buff) h6 (by omega) (by omega) (fun h => by have := hfit h; omega) j
  rw [heq, hwr, hwc] at hh
  by_cases hin : field buff 2 + sentCount buff ≤ nd.holdSize
  · refine ⟨fun _ => ?_, fun h => by omega⟩
    rw [if_neg (show ¬ nd.size .hold < field buff 2 + sentCount buff by simp only [Node.size]; omega)] at hh
    obtain ⟨⟨s1, c1⟩, hw1, hh⟩ := C.bind_eq_ok.mp hh
    obtain ⟨⟨b1, k1⟩, hw2, hh⟩ := C.bind_eq_ok.mp hh
    simp only [C.ok.injEq, Prod.mk.injEq] at hh
    obtain ⟨rfl, rfl, rfl, rfl⟩ := hh
    have hH : dbHandle (nd.idx .hold) .hold (field buff 2) (sentCount buff) =
      ⟨(i : Int), field buff 2 * 2, 0, sentCount buff, sentCount buff * 2, DAX_UINT⟩ := by
      show (⟨nd.holdIdx, _, _, _, _, _⟩ : Handle) = _
      rw [hi]
    rw [hH] at hw1
    have g := good_of hr hm ha h0 h1 h3 h4 hl (n := 2 * n) (.inr ⟨2, by decide, rfl⟩) (by omega)
    obtain ⟨g1, g2, g3⟩ := uint_written g hm hM (by rfl) (by rfl) (by dsimp only; omega) (by dsimp only; omega) (by dsimp only; omega)
      (by dsimp only; omega) (by dsimp only; omega) (by dsimp only; omega) (by omega) hw1
    obtain ⟨b2, n2, e2, -, -, -, -, hcb⟩ := afterWrite_ok (nd := nd) (node := node) (f := code buff) (index := field buff 2) (count := sentCount buff) h6
      (by omega)
    rw [hw2] at e2
    simp only [C.ok.injEq, Prod.mk.injEq] at e2
    obtain ⟨rfl, rfl⟩ := e2
    refine ⟨g1, g2, fun h => ⟨by rw [(hcb h).1]; rfl, (hcb h).2⟩, _, g3, fun m hm => ?_, fun t p hp => ?_⟩
    · have ev : ∀ q, q < 2 * sentCount buff → (M.store i (field buff 2 * 2) (data.take (sentCount buff * 2))) i (2 * field buff 2 + q) = data.getD q 0 := by
        intro q hq
        unfold Mem.store
        rw [if_pos ⟨rfl, by omega⟩, show 2 * field buff 2 + q - field buff 2 * 2 = q by omega, List.getElem?_take, if_pos (by omega),
          getD_some (b := data) (k := q) (by omega)]
        rfl
      rw [show 2 * (field buff 2 + m) + 1 = 2 * field buff 2 + (2 * m + 1) by omega, show 2 * (field buff 2 + m) = 2 * field buff 2 + 2 * m by omega]
      dsimp only
      rw [ev _ (by omega), ev _ (by omega)]
      unfold sentWord
      rcases hc with hc | hc
      · rw [if_pos hc]
        have h1 : sentCount buff = 1 := by unfold sentCount; rw [if_pos (.inr hc)]
        obtain ⟨w1, w2⟩ := hcar.word hc
        have : m = 0 := by omega
        subst this
        rw [List.getD_eq_getElem?_getD, List.getD_eq_getElem?_getD, w1, w2, ← List.getD_eq_getElem?_getD, ← List.getD_eq_getElem?_getD]
      · rw [if_neg (by omega)]
        have h1 : sentCount buff = field buff 4 := by unfold sentCount; rw [if_neg (by omega)]
        obtain ⟨w1, w2⟩ := hcar.words hc m (by omega)
        rw [List.getD_eq_getElem?_getD, List.getD_eq_getElem?_getD, w1, w2, ← List.getD_eq_getElem?_getD, ← List.getD_eq_getElem?_getD,
          show 7 + 2 * m + 1 = 8 + 2 * m by omega]
    · unfold Mem.store
      dsimp only
      split
      · rename_i hx
        rw [List.getElem?_eq_none (by rw [List.length_take]; omega)]
        rfl
      · rfl
  · refine ⟨fun h => by omega, fun _ => ?_⟩
    rw [if_pos (show nd.size .hold < field buff 2 + sentCount buff by simp only [Node.size]; omega)] at hh
    obtain ⟨⟨b1, k1⟩, hw2, hh⟩ := C.bind_eq_ok.mp hh
    simp only [C.ok.injEq, Prod.mk.injEq] at hh
    obtain ⟨rfl, rfl, rfl, rfl⟩ := hh
    obtain ⟨b2, e2, -, h2⟩ := createException_bytes (b := buff) (by omega) ME_BAD_ADDRESS
    rw [hw2] at e2
    simp only [C.ok.injEq, Prod.mk.injEq] at e2
    obtain ⟨rfl, rfl⟩ := e2
    exact ⟨rfl, rfl, h2⟩

/-- **C63**, coils: a request to write coils that are configured sets exactly these coils, to the values it carries, and changes no other bit of any
tag; it is answered with its own beginning unless the module's write callback objects.  A request that goes beyond the coils changes nothing and is answered
with exception 2.

Missing: whole bytes of coils next to the end of the tag, which the library refuses to write, though the master is told they were (`C63_lost`). -/
theorem C63_coils_partial {s s' : Server} {fd : Int} {c c' : TypeCache} {nodes : List (Option Node)} {tcp : Bool} {buff b' : List Byte} {j : Junk}
    {node i n a : Nat} {k : Int} {nd : Node} {name : Name} {M : Mem} (h6 : 6 ≤ buff.length) (h256 : buff.length ≤ 256)
    (hresp : Responsible nodes (buff.getD 0 0).toNat node nd) (hj : j.result % 256 = 0) (hc : code buff = 5 ∨ code buff = 15)
    (hpos : 1 ≤ sentCount buff) (hfit : code buff = 15 → 7 + (field buff 4 + 7) / 8 ≤ buff.length) (hz : nd.coilSize ≠ 0)
    (hr : Reachable s) (hm : ∀ i name, LiveAt s i name → NoMaps s i) (hM : Agrees M s) (ha : AttrAt s i a) (h0 : a.testBit 0 = false)
    (h1 : a.testBit 1 = false) (h3 : a.testBit 3 = false) (h4 : a.testBit 4 = false) (hi : nd.coilIdx = i) (hl : LiveTag s i name DAX_BOOL n)
    (hn : nd.coilSize ≤ n) (hn2 : n ≤ 100000) (hend : field buff 2 % 8 ≠ 0 → sentCount buff % 8 = 0 → (field buff 2 + sentCount buff) / 8 + 1 ≤ n / 8)
    (hh : createResponse s fd c nodes tcp buff buff.length j = .ok (s', c', b', k)) :
    (field buff 2 + sentCount buff ≤ nd.coilSize →
      Reachable s' ∧ Ordinary s' i ∧ (nd.writeCb = none → k = 6 ∧ b' = buff) ∧
      ∃ M', Agrees M' s' ∧ (∀ q < sentCount buff, memBit M' i (field buff 2 + q) = sentBit buff q) ∧
        ∀ t p, ¬ (t = i ∧ field buff 2 ≤ p ∧ p < field buff 2 + sentCount buff) → memBit M' t p = memBit M t p) ∧
    (nd.coilSize < field buff 2 + sentCount buff → s' = s ∧ k = 3 ∧ b'.take 3 = [buff.getD 0 0, buff.getD 1 0 ||| 0x80, 2]) := by
  have hf2 := field_lt buff 2
  have hwr : wreg (code buff) = .coil := by unfold wreg; rw [if_pos (by omega)]
  have hwc : wcount (code buff) buff = sentCount buff := rfl
  have hcnt : sentCount buff ≤ 1992 := by
    unfold sentCount
    split
    · omega
    · have := hfit (by omega); omega
  rw [createResponse_write h6 hresp hj (by omega) (by rw [hwr]; exact hz)] at hh
  obtain ⟨data, hdl, hcar, heq⟩ := writeFunction_eq (buff := buff) (f := code buff) h6 (by omega) (fun h => by have := hfit h; omega) (by omega) j
  rw [heq, hwr, hwc] at hh
  by_cases hin : field buff 2 + sentCount buff ≤ nd.coilSize
  · refine ⟨fun _ => ?_, fun h => by omega⟩
    rw [if_neg (show ¬ nd.size .coil < field buff 2 + sentCount buff by simp only [Node.size]; omega)] at hh
    obtain ⟨⟨s1, c1⟩, hw1, hh⟩ := C.bind_eq_ok.mp hh
    obtain ⟨⟨b1, k1⟩, hw2, hh⟩ := C.bind_eq_ok.mp hh
    simp only [C.ok.injEq, Prod.mk.injEq] at hh
    obtain ⟨rfl, rfl, rfl, rfl⟩ := hh
    have hH : dbHandle (nd.idx .coil) .coil (field buff 2) (sentCount buff) =
      ⟨(i : Int), field buff 2 / 8, field buff 2 % 8, sentCount buff, (field buff 2 % 8 + sentCount buff - 1) / 8 + 1, DAX_BOOL⟩ := by
      show (⟨nd.coilIdx, _, _, _, _, _⟩ : Handle) = _
      rw [hi]
    rw [hH] at hw1
    unfold slaveWrite at hw1
    obtain ⟨⟨s2, c2, l, o, d⟩, hw, hw1⟩ := C.bind_eq_ok.mp hw1
    dsimp only at hw1
    split at hw1
    · cases hw1
    simp only [C.ok.injEq, Prod.mk.injEq] at hw1
    obtain ⟨rfl, rfl⟩ := hw1
    have hB : Bools ⟨(i : Int), field buff 2 / 8, field buff 2 % 8, sentCount buff, (field buff 2 % 8 + sentCount buff - 1) / 8 + 1, DAX_BOOL⟩ :=
      ⟨rfl, by dsimp only; omega, hpos, rfl⟩
    have hex : Wire.extraByte ⟨(i : Int), field buff 2 / 8, field buff 2 % 8, sentCount buff, (field buff 2 % 8 + sentCount buff - 1) / 8 + 1, DAX_BOOL⟩ =
      if field buff 2 % 8 > 0 ∧ sentCount buff % 8 = 0 then 1 else 0 := by
      unfold Wire.extraByte
      simp only [true_and]
    obtain ⟨rfl, g1, g2⟩ := C24_accepted_partial hr hm ha h0 h1 h3 h4 hl rfl hB (by dsimp only; omega) (by omega) (by
      rw [hex]
      dsimp only
      split
      · rename_i hx
        have := hend (by omega) hx.2
        omega
      · omega) (by dsimp only; omega) hw
    obtain ⟨M', hM', hb1, hb2⟩ := C24_write hr hm hM rfl hB (by dsimp only; omega) (by dsimp only; omega) hw
    obtain ⟨b2, n2, e2, -, -, -, -, hcb⟩ := afterWrite_ok (nd := nd) (node := node) (f := code buff) (index := field buff 2) (count := sentCount buff) h6
      (by omega)
    rw [hw2] at e2
    simp only [C.ok.injEq, Prod.mk.injEq] at e2
    obtain ⟨rfl, rfl⟩ := e2
    refine ⟨g1, g2, fun h => ⟨by rw [(hcb h).1]; rfl, (hcb h).2⟩, M', hM', fun q hq => ?_, fun t p hp => ?_⟩
    · have := hb1 q hq
      dsimp only at this
      rw [show 8 * (field buff 2 / 8) + field buff 2 % 8 + q = field buff 2 + q by omega] at this
      rw [this]
      unfold sentBit
      rcases hc with hc | hc
      · rw [if_pos hc]
        have h1 : sentCount buff = 1 := by unfold sentCount; rw [if_pos (.inl hc)]
        have : q = 0 := by omega
        subst this
        unfold bitOf
        rw [hcar.one hc]
        by_cases hx : field buff 4 = 0
        · simp [hx]
        · simp [hx]
      · rw [if_neg (by omega)]
        have h1 : sentCount buff = field buff 4 := by unfold sentCount; rw [if_neg (by omega)]
        rw [hcar.bits hc q (by omega)]
        unfold bitOf
        have := hfit hc
        rw [getD_some (b := buff) (k := 7 + q / 8) (by omega)]
    · exact hb2 t p (by dsimp only; omega)
  · refine ⟨fun h => by omega, fun _ => ?_⟩
    rw [if_pos (show nd.size .coil < field buff 2 + sentCount buff by simp only [Node.size]; omega)] at hh
    obtain ⟨⟨b1, k1⟩, hw2, hh⟩ := C.bind_eq_ok.mp hh
    simp only [C.ok.injEq, Prod.mk.injEq] at hh
    obtain ⟨rfl, rfl, rfl, rfl⟩ := hh
    obtain ⟨b2, e2, -, h2⟩ := createException_bytes (b := buff) (by omega) ME_BAD_ADDRESS
    rw [hw2] at e2
    simp only [C.ok.injEq, Prod.mk.injEq] at e2
    obtain ⟨rfl, rfl⟩ := e2
    exact ⟨rfl, rfl, h2⟩

/-! ## Where the code departs from C63 -/

/-- A module with 47 coils (tag 12). -/
def coilOps : List Op :=
  [.req 5 (.modReg 1 (nm "modbus")),
   .req 5 (.tagAdd DAX_BOOL 47 0 (nm "coil"))]

/-- **C63 fails**: coils 39 to 46 are configured and part of the tag.  The library sends one byte too many, the server refuses the request, and
`slave_write_database` ignores the error (`src/modules/modbus/database.c:67-72`): the master is told that the coils were set, and nothing has changed. -/
theorem C63_lost : Reachable (demo coilOps) ∧ LiveTag (demo coilOps) 12 (nm "coil") DAX_BOOL 47 ∧
    (createResponse (demo coilOps) 5 [] [none, some { coilIdx := 12, coilSize := 47 }] false (frame 256 [1, 15, 0, 39, 0, 8, 1, 0xff]) 256 {} >>=
      fun x => handle x.1 5 (.tagRead 12 0 6) >>= fun y => C.ok (x.2.2.1.take 6, x.2.2.2, y.2)) =
    .ok ([1, 15, 0, 39, 0, 8], 6, .resp [0, 0, 0, 0, 0, 0]) :=
  ⟨demo_reachable (by decide +kernel), ⟨by decide, by decide, 0, fun fd => by kernel_rfl⟩, by kernel_rfl⟩

/-- **C63 fails**: a request to write no coil at all writes eight, with what happens to be in the uninitialised array `data`
(`src/modules/modbus/modbus.c:963-974`, `src/modules/modbus/database.c:56-66`: the size of no bits is one byte). -/
theorem C63_no_coils : (createResponse (demo mbOps) 5 [] [none, some mbNode] false (frame 256 [1, 15, 0, 0, 0, 0, 0]) 256 { data := fun _ => 0x77 } >>=
      fun x => handle x.1 5 (.tagRead 13 0 1) >>= fun y => C.ok (x.2.2.2, y.2)) = .ok (6, .resp [0x77]) ∧
    handle (demo mbOps) 5 (.tagRead 13 0 1) = .ok (demo mbOps, .resp [0xA5]) :=
  ⟨by kernel_rfl, by kernel_rfl⟩

/-- **C63 fails**: the write callback is asked when the register has been written, so that an exception does not mean that nothing has changed
(`src/modules/modbus/modbus.c:993-1021`). -/
theorem C63_exception_written : (createResponse (demo mbOps) 5 [] [none, some { mbNode with writeCb := some fun _ _ _ _ => some 3 }] false
      (frame 256 [1, 6, 0, 5, 0xAB, 0xCD]) 256 {} >>=
      fun x => handle x.1 5 (.tagRead 12 10 2) >>= fun y => C.ok (x.2.2.1.take 3, x.2.2.2, y.2)) = .ok ([1, 0x86, 3], 3, .resp [0xCD, 0xAB]) := by
  kernel_rfl

/-- **C63 fails**: for the writing functions the variable `result` is never set before it is tested
(`src/modules/modbus/modbus.c:893-916`): a request the node should serve is refused with whatever it holds. -/
theorem C63_uninitialised : (createResponse (demo mbOps) 5 [] [none, some mbNode] false (frame 256 [1, 6, 0, 5, 0xAB, 0xCD]) 256 { result := 7 } >>=
      fun x => handle x.1 5 (.tagRead 12 10 2) >>= fun y => C.ok (x.2.2.1.take 3, x.2.2.2, y.2)) = .ok ([1, 0x86, 7], 3, .resp [0, 0]) := by
  kernel_rfl

/-- A coil is switched on by every value but 0, where the protocol knows only 0xFF00 and 0x0000. -/
theorem C63_any_value : (createResponse (demo mbOps) 5 [] [none, some mbNode] false (frame 256 [1, 5, 0, 1, 0, 1]) 256 {} >>=
      fun x => handle x.1 5 (.tagRead 13 0 1) >>= fun y => C.ok (x.2.2.2, y.2)) = .ok (6, .resp [0xA7]) := by
  kernel_rfl

/-! ## Instances -/

/-- Instance of `C63_registers_partial`: registers 1 and 2 of 200. -/
example : (createResponse (demo mbOps) 5 [] [none, some mbNode] false (frame 256 [1, 16, 0, 1, 0, 2, 4, 0xAB, 0xCD, 0x12, 0x34]) 256 {} >>=
      fun x => handle x.1 5 (.tagRead 12 0 8) >>= fun y => C.ok (x.2.2.1.take 6, x.2.2.2, y.2)) =
    .ok ([1, 16, 0, 1, 0, 2], 6, .resp [0x34, 0x12, 0xCD, 0xAB, 0x34, 0x12, 0, 0]) := by kernel_rfl

/-- Instance of `C63_coils_partial`: coils 6 to 15. -/
example : (createResponse (demo mbOps) 5 [] [none, some mbNode] false (frame 256 [1, 15, 0, 6, 0, 10, 2, 0x01, 0x02]) 256 {} >>=
      fun x => handle x.1 5 (.tagRead 13 0 3) >>= fun y => C.ok (x.2.2.1.take 6, x.2.2.2, y.2)) =
    .ok ([1, 15, 0, 6, 0, 10], 6, .resp [0x65, 0x80, 0]) := by kernel_rfl

theorem noMaps_mb (i : Nat) (name : Name) (h : LiveAt (demo mbOps) i name) : NoMaps (demo mbOps) i := by
  obtain ⟨t, ht, -⟩ := (liveAt_iff mb_reachable.wf).mp h
  have key : ∀ t ∈ (demo mbOps).db, t.wildMaps = false ∧ t.maps = [] := by decide +kernel
  exact (noMaps_iff ht).mpr (key t (List.mem_of_getElem? ht))

/-- The hypotheses of both theorems are met by the instances. -/
example : (∃ M, Agrees M (demo mbOps)) ∧ (∀ i name, LiveAt (demo mbOps) i name → NoMaps (demo mbOps) i) ∧
    Responsible [none, some mbNode] ((frame 256 [1, 16, 0, 1, 0, 2, 4, 0xAB, 0xCD, 0x12, 0x34]).getD 0 0).toNat 1 mbNode ∧
    AttrAt (demo mbOps) 12 0 ∧ AttrAt (demo mbOps) 13 0 ∧ LiveTag (demo mbOps) 12 (nm "hold") DAX_UINT 200 ∧
    LiveTag (demo mbOps) 13 (nm "coil") DAX_BOOL 40 :=
  ⟨agrees_exists mb_reachable, noMaps_mb, .inl ⟨rfl, rfl⟩, ⟨by decide, nm "hold", DAX_UINT, 200, fun fd => by kernel_rfl⟩,
    ⟨by decide, nm "coil", DAX_BOOL, 40, fun fd => by kernel_rfl⟩, ⟨by decide, by decide, 0, fun fd => by kernel_rfl⟩,
    ⟨by decide, by decide, 0, fun fd => by kernel_rfl⟩⟩

end Dax
