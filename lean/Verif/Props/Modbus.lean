import Verif.Lemmas.Modbus
import Verif.Props.Maps
import Verif.Props.Atomic
import Verif.Props.Crc
/-!
# C54–C56: the Modbus module
-/
set_option autoImplicit false
namespace Dax
open Modbus LibData

/-! ## C54 -/

/-- Every request for a tag that is used for registers only is served. -/
theorem regTag_serves {s : Server} {i : Nat} {fd : Int} {q : Req} (hr : Reachable s) (h : RegTag s i) (ht : Transfer i q) :
    ∃ x, handle s fd q = .ok x := by
  obtain ⟨ho, hn, b, hq, hb⟩ := h
  have hwf := hr.wf
  obtain ⟨t, b', P⟩ := (ordinary_iff hwf).mp ho
  obtain ⟨t', ht', hd, hv, hs, hro, hre, hev⟩ := id hq
  rw [P.db] at ht'; cases ht'
  obtain ⟨hwm, hmm⟩ := (noMaps_iff P.db).mp hn
  have hsz := tagGetSize_small (hwf.tag i t P.db) hd hb
  have hl := (List.getElem?_eq_some_iff.mp P.db).1
  have hlt : (i : Int) < s.dbsize := by have := hwf.dbsz; omega
  have hra : rawAttr s i = .ok (t.attr, some t.fd) := by
    unfold rawAttr
    rw [if_neg (by omega), tag?_natCast, P.db]
  cases ht with
  | read p k hp hk =>
    simp only [handle, hTagRead]
    have e : ∃ d, tagRead s fd i p k = .ok (s, d) ∧ ∀ x, d = .ok x → x.length = k := by
      unfold tagRead
      rw [tag?_natCast, P.db]
      simp only [hv, Bool.false_eq_true, if_false]
      rw [show addI32 (p : Int) k = .ok (p + k) from addI32_ok.mpr ⟨by omega, rfl⟩, C.ok_bind, hsz, C.ok_bind]
      by_cases hin : (p : Int) + k > b.length
      · rw [if_pos hin]
        exact ⟨_, rfl, by simp⟩
      · rw [if_neg hin, hd]
        obtain ⟨x, hx⟩ := rd_total (b := b) (off := (p : Int)) (n := (k : Int)) (by omega)
        dsimp only
        rw [hx, C.ok_bind]
        simp only [P.ovr, Bool.false_eq_true, if_false]
        refine ⟨_, rfl, fun y hy => ?_⟩
        cases hy
        have := rd_length hx
        omega
    obtain ⟨d, e1, e2⟩ := e
    rw [e1, C.ok_bind]
    cases d with
    | error e => exact ⟨_, rfl⟩
    | ok x =>
      have := e2 x rfl
      have hM : MSG_DATA_SIZE = 4088 := rfl
      dsimp only
      rw [if_neg (by omega), if_neg (by omega)]
      exact ⟨_, rfl⟩
  | write p d hp hk =>
    by_cases hin : p + d.length ≤ b.length
    · obtain ⟨s', hs'⟩ := C35_completes_partial (fd := fd) (off := (p : Int)) (d := d) hr hq (by omega) (by omega) hb
        (fun t1 h1 => by rw [P.db] at h1; cases h1; exact hwm)
        (fun src dst hm => by
          obtain ⟨id, u, m, hu, -, hm, -⟩ := hm
          rw [P.db] at hu; cases hu
          rw [hmm] at hm; simp at hm)
      exact ⟨_, hs'⟩
    · have e : tagWrite s fd i p d = .ok (s, ERR_2BIG) := by
        unfold tagWrite
        rw [tag?_natCast, P.db]
        simp only [hv, Bool.false_eq_true, if_false]
        rw [show addI32 (p : Int) d.length = .ok (p + d.length) from addI32_ok.mpr ⟨by omega, rfl⟩, C.ok_bind, hsz, C.ok_bind, if_pos (by omega)]
      have hrw : roForeign s fd i = .ok false := by
        unfold roForeign
        rw [hra]
        simp [hro]
      simp only [handle, hTagWrite, hrw, C.ok_bind, e, Bool.false_eq_true, if_false]
      rw [if_pos (by decide)]
      exact ⟨_, rfl⟩
  | mask p d m hp hk hml =>
    by_cases hin : p + d.length ≤ b.length
    · obtain ⟨s1, h1, -⟩ := tagMaskWrite_quietData (fd := fd) (off := p) (d := d) (m := m) (by have := hwf.dbsz; omega)
        (fun u hu hd' => tagGetSize_small (hwf.tag i u hu) hd' hb) hq hin hb
      have hmp := tagMaskWrite_maps h1
      have hw1 := (tagMaskWrite_quietData (fd := fd) (off := p) (d := d) (m := m) (by have := hwf.dbsz; omega)
        (fun u hu hd' => tagGetSize_small (hwf.tag i u hu) hd' hb) hq hin hb)
      obtain ⟨s1', h1', hk1⟩ := hw1
      rw [h1] at h1'; cases h1'
      obtain ⟨c', ⟨t1, ht1, -⟩, -⟩ := hk1.2.2 i b hq
      obtain ⟨t0, ht0, e1, e2⟩ := hmp i t1 ht1
      rw [P.db] at ht0; cases ht0
      simp only [handle, hTagMWrite, hra, C.ok_bind, hro, Bool.false_eq_true, if_false, h1, ne_eq, not_true]
      unfold mapCheck
      rw [tag?_natCast, ht1]
      simp only [e1, e2, hwm, hmm, Bool.false_eq_true, if_false, mapLoop, C.ok_bind]
      exact ⟨_, rfl⟩
    · have e : tagMaskWrite s fd i p d m = .ok (s, ERR_2BIG) := by
        unfold tagMaskWrite
        rw [if_neg (by omega), tag?_natCast, P.db]
        simp only [hv, Bool.false_eq_true, if_false]
        rw [show addI32 (p : Int) d.length = .ok (p + d.length) from addI32_ok.mpr ⟨by omega, rfl⟩, C.ok_bind, hsz, C.ok_bind, if_pos (by omega)]
      simp only [handle, hTagMWrite, hra, C.ok_bind, hro, e, Bool.false_eq_true, if_false]
      rw [if_pos (by decide)]
      exact ⟨_, rfl⟩

theorem serves_read {s : Server} {fd : Int} {nd : Node} {reg : Reg} (c : TypeCache) {h : Handle} (hv : Serves s fd nd) (hz : nd.size reg ≠ 0)
    (hi : h.index = nd.idx reg) (hs : Small h) {mem : List Byte} (hm : h.size ≤ mem.length) :
    ∃ s' mem', slaveRead s fd c h mem = .ok (s', c, mem') ∧ mem'.length = mem.length := by
  rcases slaveRead_small c hs hm with ⟨q, w, hq, hw⟩ | h
  · rw [hi] at hq
    obtain ⟨x, hx⟩ := hv reg q hz hq
    rw [hw] at hx; cases hx
  · exact h

theorem serves_write {s : Server} {fd : Int} {nd : Node} {reg : Reg} (c : TypeCache) {h : Handle} (hv : Serves s fd nd) (hz : nd.size reg ≠ 0)
    (hi : h.index = nd.idx reg) (hs : Small h) {mem : List Byte} (hm : h.size ≤ mem.length)
    (hc : h.count ≤ 8 * mem.length) (hb : h.type = DAX_BOOL → h.size ≤ 255) (hp : h.type = DAX_BOOL → h.size = (h.bit + h.count - 1) / 8 + 1) :
    ∃ s', slaveWrite s fd c h mem = .ok (s', c) := by
  rcases slaveWrite_small c hs hm hc hb hp with ⟨q, w, hq, hw⟩ | h
  · rw [hi] at hq
    obtain ⟨x, hx⟩ := hv reg q hz hq
    rw [hw] at hx; cases hx
  · exact h

theorem findNode_mem {nodes : List (Option Node)} {k node : Nat} {nd : Node} (h : findNode nodes k = some (node, nd)) : some nd ∈ nodes := by
  unfold findNode at h
  split at h
  · rename_i x hx
    simp only [Option.some.injEq, Prod.mk.injEq] at h
    obtain ⟨rfl, rfl⟩ := h
    exact List.mem_of_getElem? hx
  · split at h
    · rename_i hx
      simp only [Option.some.injEq, Prod.mk.injEq] at h
      obtain ⟨rfl, rfl⟩ := h
      exact List.mem_of_getElem? hx
    · simp at h

theorem readResult_ok {nd : Node} {node f : Nat} {buff : List Byte} (j : Junk) (h : 6 ≤ buff.length) : ∃ r, readResult nd node f buff j = .ok r := by
  obtain ⟨p1, e1, w1⟩ := getWord_ok (b := buff) (off := 2) (by omega)
  obtain ⟨p2, e2, w2⟩ := getWord_ok (b := buff) (off := 4) (by omega)
  unfold readResult
  split
  · exact ⟨_, rfl⟩
  · split
    · rw [e1, C.ok_bind, e2, C.ok_bind]
      dsimp only
      split <;> exact ⟨_, rfl⟩
    · exact ⟨_, rfl⟩

theorem dbHandle_index (idx : Int) (reg : Reg) (off count : Nat) : (dbHandle idx reg off count).index = idx := by cases reg <;> rfl

/-- **C54**, `create_response`: whatever the request, the slave answers with a well formed response that fits the buffer, or with an exception, or
not at all, and stays within its buffers — on the serial line and for TCP (`tcp`), whatever nodes are configured, whatever their callbacks
return and whatever is in uninitialised memory.  `Serves`: the server itself does not fail on the requests of the module (`C54_registers`).

Missing: function 8 on the serial line (`C54_diagnostics`); requests for more than fits (`Limits`), some of which make the
slave write behind its registers (`C54_registers_overrun`) or read behind the buffer (`C54_lying_count`) or are
not answered (`C54_unanswered`); and the checksum, for which there may be no room (`C54_checksum_overrun`). -/
theorem C54_response_partial {s : Server} {fd : Int} {c : TypeCache} {nodes : List (Option Node)} {tcp : Bool} {buff : List Byte} {j : Junk}
    (h7 : 7 ≤ buff.length) (h256 : buff.length ≤ 256) (hlim : Limits buff buff.length) (h8 : code buff = 8 → tcp = true)
    (hsv : ∀ nd, some nd ∈ nodes → Serves s fd nd) :
    ∃ s' b' n, createResponse s fd c nodes tcp buff buff.length j = .ok (s', c, b', ((n : Nat) : Int)) ∧ b'.length = buff.length ∧
      n ≤ buff.length ∧ (n = 0 ∨ Answer buff (b'.take n)) := by
  obtain ⟨hl1, hl2, hl3, hl4⟩ := hlim
  have hf2 := field_lt buff 2
  have hf4 := field_lt buff 4
  have hregs := regs_length j
  unfold createResponse
  rw [getD_some (b := buff) (k := 0) (by omega), getD_some (b := buff) (k := 1) (by omega)]
  dsimp only
  cases hn : findNode nodes (buff.getD 0 0).toNat with
  | none => exact ⟨s, buff, 0, rfl, rfl, by omega, .inl rfl⟩
  | some x =>
    obtain ⟨node, nd⟩ := x
    have hsn := hsv nd (findNode_mem hn)
    obtain ⟨r, hr⟩ := readResult_ok (nd := nd) (node := node) (f := (buff.getD 1 0).toNat) j (by omega : 6 ≤ buff.length)
    dsimp only
    rw [hr, C.ok_bind]
    split
    · obtain ⟨b1, e3, l3, h3⟩ := createException_ok (b := buff) (by omega) r
      rw [e3]
      exact ⟨s, b1, 3, rfl, l3, by omega, .inr h3⟩
    split
    · obtain ⟨b1, e3, l3, h3⟩ := createException_ok (b := buff) (by omega) ME_WRONG_FUNCTION
      rw [e3]
      exact ⟨s, b1, 3, rfl, l3, by omega, .inr h3⟩
    rename_i hbad
    have hcode : code buff = (buff.getD 1 0).toNat := rfl
    rw [← hcode] at hbad ⊢
    have bits : ∀ reg, (reg = .coil ∨ reg = .disc) → (code buff = 1 ∨ code buff = 2) → nd.size reg ≠ 0 →
        ∃ s' b' n, readBits s fd c nd buff buff.length reg j = .ok (s', c, b', ((n : Nat) : Int)) ∧ b'.length = buff.length ∧
          n ≤ buff.length ∧ (n = 0 ∨ Answer buff (b'.take n)) := by
      intro reg hreg hc hz
      obtain ⟨hp, hfit⟩ := hl1 hc
      obtain ⟨s', mem, hrd, hml⟩ := serves_read c hsn hz (dbHandle_index _ _ _ _)
        (dbHandle_small (nd.idx reg) reg hf2 (by omega : field buff 4 ≤ 2024) (by rcases hreg with rfl | rfl <;> simp)) (mem := j.regs)
        (by rcases hreg with rfl | rfl <;> · unfold dbHandle; dsimp only; omega)
      obtain ⟨b', hbl, ⟨-, e, ha⟩ | ⟨-, e, ha, -⟩⟩ := readBits_ok (by omega) hp hfit (by omega) hrd (by omega)
      · exact ⟨s', b', 3, e, hbl, by omega, .inr (by rw [ha]; exact .exception _)⟩
      · refine ⟨s', b', _, e, hbl, hfit, .inr ?_⟩
        rw [ha]
        have hdl : ((b'.drop 3).take ((field buff 4 + 7) / 8)).length = (field buff 4 + 7) / 8 := by
          rw [List.length_take, List.length_drop]; omega
        have := Answer.bits (req := buff) ((b'.drop 3).take ((field buff 4 + 7) / 8)) hc hdl (by omega)
        rw [hdl] at this
        exact this
    have words : ∀ reg, (reg = .hold ∨ reg = .input) → (code buff = 3 ∨ code buff = 4) → nd.size reg ≠ 0 →
        ∃ s' b' n, readWords s fd c nd buff buff.length reg j = .ok (s', c, b', ((n : Nat) : Int)) ∧ b'.length = buff.length ∧
          n ≤ buff.length ∧ (n = 0 ∨ Answer buff (b'.take n)) := by
      intro reg hreg hc hz
      have hfit := hl2 hc
      obtain ⟨s', mem, hrd, hml⟩ := serves_read c hsn hz (dbHandle_index _ _ _ _)
        (dbHandle_small (nd.idx reg) reg hf2 (by omega : field buff 4 ≤ 2024) (by intro; omega)) (mem := j.regs)
        (by rcases hreg with rfl | rfl <;> · unfold dbHandle; dsimp only; omega)
      obtain ⟨b', hbl, ⟨-, e, ha⟩ | ⟨-, e, ha, -⟩⟩ := readWords_ok (by omega) hfit (by omega) hrd (by omega)
      · exact ⟨s', b', 3, e, hbl, by omega, .inr (by rw [ha]; exact .exception _)⟩
      · refine ⟨s', b', _, e, hbl, hfit, .inr ?_⟩
        rw [ha]
        have hdl : ((b'.drop 3).take (2 * field buff 4)).length = 2 * field buff 4 := by
          rw [List.length_take, List.length_drop]; omega
        have := Answer.words (req := buff) ((b'.drop 3).take (2 * field buff 4)) hc hdl (by omega)
        rw [hdl] at this
        exact this
    unfold badFunction at hbad
    by_cases c1 : code buff = 1
    · rw [if_pos c1]
      rw [if_pos (.inl c1)] at hbad
      exact bits .coil (.inl rfl) (.inl c1) (by simpa [Node.size] using hbad)
    by_cases c2 : code buff = 2
    · rw [if_neg c1, if_pos c2]
      rw [if_neg (by omega), if_pos c2] at hbad
      exact bits .disc (.inr rfl) (.inr c2) (by simpa [Node.size] using hbad)
    by_cases c3 : code buff = 3
    · rw [if_neg c1, if_neg c2, if_pos c3]
      rw [if_neg (by omega), if_neg (by omega), if_pos (.inl c3)] at hbad
      exact words .hold (.inl rfl) (.inl c3) (by simpa [Node.size] using hbad)
    by_cases c4 : code buff = 4
    · rw [if_neg c1, if_neg c2, if_neg c3, if_pos c4]
      rw [if_neg (by omega), if_neg (by omega), if_neg (by omega), if_pos c4] at hbad
      exact words .input (.inr rfl) (.inr c4) (by simpa [Node.size] using hbad)
    by_cases c8 : code buff = 8
    · rw [if_neg (by omega), if_neg (by omega), if_neg (by omega), if_neg (by omega), if_pos c8] at hbad
      exact absurd (h8 c8) hbad
    rw [if_neg c1, if_neg c2, if_neg c3, if_neg c4, if_neg c8]
    have hw : (code buff = 5 ∨ code buff = 6 ∨ code buff = 15 ∨ code buff = 16) ∧ nd.size (wreg (code buff)) ≠ 0 := by
      unfold wreg
      by_cases k1 : code buff = 5 ∨ code buff = 15
      · rw [if_pos (by omega)] at hbad
        rw [if_pos k1]
        exact ⟨by omega, by simpa [Node.size] using hbad⟩
      · by_cases k2 : code buff = 6 ∨ code buff = 16
        · rw [if_neg (by omega), if_neg (by omega), if_pos (by omega)] at hbad
          rw [if_neg k1]
          exact ⟨by omega, by simpa [Node.size] using hbad⟩
        · rw [if_neg (by omega), if_neg (by omega), if_neg (by omega), if_neg (by omega), if_neg (by omega)] at hbad
          exact absurd rfl hbad
    obtain ⟨hcs, hz⟩ := hw
    obtain ⟨data, hdl, -, hwf⟩ := writeFunction_eq (by omega : 6 ≤ buff.length) hcs (fun h => ⟨hl3 h, by have := hl3 h; omega⟩)
      (fun h => ⟨hl4 h, by have := hl4 h; omega⟩) j
    rw [hwf]
    split
    · obtain ⟨b1, e3, l3, h3⟩ := createException_ok (b := buff) (by omega) ME_BAD_ADDRESS
      rw [e3]
      exact ⟨s, b1, 3, rfl, l3, by omega, .inr h3⟩
    · have hc1 : wcount (code buff) buff ≤ 1992 ∧ (wreg (code buff) = .hold → wcount (code buff) buff ≤ 124) := by
        unfold wcount wreg
        split
        · exact ⟨by omega, fun _ => by omega⟩
        · rename_i hne
          have : code buff = 15 ∨ code buff = 16 := by omega
          rcases this with k | k
          · have := hl3 k
            refine ⟨by omega, fun hh => ?_⟩
            rw [if_pos (by omega)] at hh; cases hh
          · have := hl4 k
            exact ⟨by omega, fun _ => by omega⟩
      have hreg : wreg (code buff) = .coil ∨ wreg (code buff) = .hold := by
        unfold wreg; split <;> simp
      obtain ⟨s', hsw⟩ := serves_write c hsn hz (dbHandle_index _ _ (field buff 2) (wcount (code buff) buff)) (mem := data)
        (dbHandle_small (nd.idx (wreg (code buff))) (wreg (code buff)) hf2 (by omega) (by
          intro hh
          rcases hreg with k | k
          · rw [k] at hh; simp at hh
          · have := hc1.2 k; omega))
        (by
          rcases hreg with k | k
          · rw [k]; unfold dbHandle; dsimp only; omega
          · have := hc1.2 k; rw [k]; unfold dbHandle; dsimp only; omega)
        (by
          rcases hreg with k | k <;> rw [k] <;> unfold dbHandle <;> dsimp only <;> omega)
        (by
          intro _
          rcases hreg with k | k
          · rw [k]; unfold dbHandle; dsimp only; omega
          · have := hc1.2 k; rw [k]; unfold dbHandle; dsimp only; omega)
        (by
          intro hh
          rcases hreg with k | k
          · rw [k]; rfl
          · rw [k] at hh; exact absurd hh (show ¬ DAX_UINT = DAX_BOOL by decide))
      rw [hsw, C.ok_bind]
      obtain ⟨b', n, e1, e2, e3, e4, e5, -⟩ := afterWrite_ok (nd := nd) (node := node) (f := code buff) (index := field buff 2)
        (count := wcount (code buff) buff) (by omega : 6 ≤ buff.length) hcs
      rw [e1]
      exact ⟨s', b', n, rfl, e2, by omega, .inr e5⟩


/-- **C54** with the condition on the server replaced: the registers are in tags that are used for nothing else. -/
theorem C54_registers_partial {s : Server} {fd : Int} {c : TypeCache} {nodes : List (Option Node)} {tcp : Bool} {buff : List Byte} {j : Junk}
    (h7 : 7 ≤ buff.length) (h256 : buff.length ≤ 256) (hlim : Limits buff buff.length) (h8 : code buff = 8 → tcp = true) (hr : Reachable s)
    (hreg : ∀ nd, some nd ∈ nodes → ∀ reg, nd.size reg ≠ 0 → ∃ i : Nat, nd.idx reg = i ∧ RegTag s i) :
    ∃ s' b' n, createResponse s fd c nodes tcp buff buff.length j = .ok (s', c, b', ((n : Nat) : Int)) ∧ b'.length = buff.length ∧
      n ≤ buff.length ∧ (n = 0 ∨ Answer buff (b'.take n)) :=
  C54_response_partial h7 h256 hlim h8 fun nd hnd reg q hz ht => by
    obtain ⟨i, hi, h⟩ := hreg nd hnd reg hz
    rw [hi] at ht
    exact regTag_serves hr h ht

theorem crc_prefix {buff : List Byte} {k : Nat} (hk : k ≤ buff.length) (hl : k ≤ 65535) :
    ∃ x, crc16 buff k = .ok x := by
  obtain ⟨h, l, e, -⟩ := crc16_eq (buff.take k) (buff.drop k) (by rw [List.length_take]; omega)
  rw [List.take_append_drop, List.length_take, Nat.min_eq_left hk] at e
  exact ⟨_, e⟩

theorem check_prefix {buff : List Byte} {k : Nat} (hk : k ≤ buff.length) (hl : k ≤ 65535) : ∃ r, crc16check buff k = .ok r := by
  unfold crc16check
  split
  · exact ⟨_, rfl⟩
  · obtain ⟨x, e⟩ := crc_prefix (buff := buff) (k := k - 2) (by omega) (by omega)
    obtain ⟨p, e2, -⟩ := getWord_ok (b := buff) (off := k - 2) (by omega)
    rw [e, C.ok_bind, e2]
    exact ⟨_, rfl⟩

/-- The checksum of the first `n` bytes stored behind them makes a frame that is accepted. -/
theorem crc_append {buff : List Byte} {n : Nat} (hn : n + 2 ≤ buff.length) (hl : n ≤ 65535) :
    ∃ crc b' x y, crc16 buff n = .ok crc ∧ putWord buff n crc = .ok b' ∧ rd b' 0 ((n : Int) + 2) = .ok (buff.take n ++ [x, y]) ∧
      crc16check (buff.take n ++ [x, y]) (n + 2) = .ok true := by
  have hsplit : buff = buff.take n ++ buff.getD n 0 :: buff.getD (n + 1) 0 :: buff.drop (n + 2) := by
    conv => lhs; rw [← List.take_append_drop n buff]
    congr 1
    rw [List.drop_eq_getElem_cons (by omega), List.drop_eq_getElem_cons (by omega)]
    rw [List.getD_eq_getElem?_getD, List.getD_eq_getElem?_getD, List.getElem?_eq_getElem, List.getElem?_eq_getElem]
    rfl
  have hml : (buff.take n).length = n := by rw [List.length_take]; omega
  obtain ⟨crc, b', e1, e2, e3⟩ := C53_accepted (buff.take n) [] (buff.getD n 0) (buff.getD (n + 1) 0) (by omega)
  have e1' : crc16 buff n = .ok crc := by
    obtain ⟨h, l, k1, -⟩ := crc16_eq (buff.take n) [buff.getD n 0, buff.getD (n + 1) 0] (by omega)
    obtain ⟨h', l', k2, k3⟩ := crc16_eq (buff.take n) (buff.drop n) (by omega)
    rw [List.take_append_drop, hml] at k2
    rw [k1] at e1
    obtain ⟨h'', l'', k4, k5⟩ := crc16_eq (buff.take n) [buff.getD n 0, buff.getD (n + 1) 0] (by omega)
    rw [k1] at k4
    cases k4
    rw [k2, ← e1]
    rw [← k5] at k3
    unfold Crc.reg at k3
    have a : h' = h := by
      apply BitVec.eq_of_getLsbD_eq
      intro i hi
      have := congrArg (fun z => z.getLsbD i) k3
      simp only [BitVec.getLsbD_append] at this
      simpa [hi] using this
    have b : l' = l := by
      apply BitVec.eq_of_getLsbD_eq
      intro i hi
      have := congrArg (fun z => z.getLsbD (i + 8)) k3
      have h8 : ¬ i + 8 < 8 := by omega
      simp only [BitVec.getLsbD_append] at this
      simpa [hi, h8] using this
    rw [a, b]
  obtain ⟨b2, k1, k2, k3⟩ := wr_at (b := buff) (off := n) (d := [crc.1, crc.2]) (by simp; omega)
  have hb' : b' = buff.take n ++ [crc.1, crc.2] := by
    unfold putWord at e2
    obtain ⟨b3, m1, m2, m3⟩ := wr_at (b := buff.take n ++ [buff.getD n 0, buff.getD (n + 1) 0]) (off := n) (d := [crc.1, crc.2]) (by simp; omega)
    rw [hml, m1] at e2
    cases e2
    apply List.ext_getElem?
    intro i
    rw [m3]
    simp only [List.length_cons, List.length_nil]
    by_cases hi : i < n
    · rw [if_neg (by omega), List.getElem?_append_left (by omega), List.getElem?_append_left (by omega)]
    · by_cases h2 : i < n + 2
      · rw [if_pos (by omega), List.getElem?_append_right (by omega), hml]
      · rw [if_neg (by omega), List.getElem?_append_right (by omega), hml, List.getElem?_append_right (by omega), hml, List.getElem?_eq_none (by simp; omega), List.getElem?_eq_none (by simp; omega)]
  refine ⟨crc, b2, crc.1, crc.2, e1', k1, ?_, ?_⟩
  · obtain ⟨d, hd⟩ := rd_total (b := b2) (off := 0) (n := (n : Int) + 2) (by omega)
    rw [hd]
    congr 1
    have hdl := rd_length hd
    have hg := rd_get hd
    apply List.ext_getElem?
    intro i
    by_cases hi : i < n + 2
    · have := hg i
      rw [if_pos (by omega)] at this
      rw [this]
      simp only [Int.toNat_zero, Nat.zero_add]
      rw [k3]
      simp only [List.length_cons, List.length_nil]
      by_cases h2 : i < n
      · rw [if_neg (by omega), List.getElem?_append_left (by omega), List.getElem?_take, if_pos h2]
      · rw [if_pos (by omega), List.getElem?_append_right (by omega), hml]
    · rw [List.getElem?_eq_none (by omega), List.getElem?_eq_none (by simp; omega)]
  · rw [hml] at e3
    rw [← hb']
    exact e3


/-- **C54**, serial line: for every frame received, the slave sends nothing, or an answer to the request followed by a correct checksum; it stays
within its buffer of 256 bytes.  The limits leave room for the checksum. -/
theorem C54_rtu_partial {s : Server} {fd : Int} {c : TypeCache} {nodes : List (Option Node)} {buff : List Byte} {len : Nat} {j : Junk}
    (hb : buff.length = 256) (hlen : len ≤ 256) (hlim : Limits buff 254) (h8 : code buff ≠ 8)
    (hsv : ∀ nd, some nd ∈ nodes → Serves s fd nd) :
    ∃ s' out, rtuServe s fd c nodes buff len j = .ok (s', c, out, 0) ∧
      ∀ o, out = some o → crc16check buff len = .ok true ∧ ∃ rsp x y, o = rsp ++ [x, y] ∧ Answer buff rsp ∧ o.length ≤ 256 ∧
        crc16check o o.length = .ok true := by
  have hlim' : Limits buff buff.length := by
    obtain ⟨h1, h2, h3, h4⟩ := hlim
    exact ⟨fun h => ⟨(h1 h).1, by have := (h1 h).2; omega⟩, fun h => by have := h2 h; omega, fun h => by have := h3 h; omega, fun h => by have := h4 h; omega⟩
  unfold rtuServe
  split
  · exact ⟨s, none, rfl, by simp⟩
  · obtain ⟨r, hr⟩ := check_prefix (buff := buff) (k := len) (by omega) (by omega)
    rw [hr, C.ok_bind]
    cases r with
    | false => exact ⟨s, none, rfl, by simp⟩
    | true =>
      obtain ⟨s', b', n, e1, l1, hn, ha⟩ := C54_response_partial (s := s) (fd := fd) (c := c) (nodes := nodes) (tcp := false) (j := j)
        (by omega : 7 ≤ buff.length) (by omega) hlim' (fun h => absurd h h8) hsv
      rw [hb] at e1
      rw [if_pos rfl, show ((MB_BUFF_SIZE : Nat) : Int) = ((256 : Nat) : Int) from rfl, e1, C.ok_bind]
      dsimp only
      by_cases h0 : n = 0
      · subst h0
        rw [if_neg (by decide), if_neg (by decide)]
        exact ⟨s', none, rfl, by simp⟩
      · have ha : Answer buff (b'.take n) := by rcases ha with h | h; exact absurd h h0; exact h
        have hl : (b'.take n).length = n := by rw [List.length_take]; omega
        have hn2 : n + 2 ≤ 256 := by
          obtain ⟨h1, h2, -, -⟩ := hlim
          generalize b'.take n = rsp at ha hl
          cases ha with
          | exception x => simp at hl; omega
          | bits d hf hd hs =>
            have := (h1 hf).2
            simp at hl; omega
          | words d hf hd hs =>
            have := h2 hf
            simp at hl; omega
          | echo hf h6 =>
            rw [List.length_take] at hl; omega
        rw [if_pos (by omega), Int.toNat_natCast]
        obtain ⟨crc, b2, x, y, k1, k2, k3, k4⟩ := crc_append (buff := b') (n := n) (by omega) (by omega)
        rw [k1, C.ok_bind, k2, C.ok_bind, k3, C.ok_bind]
        refine ⟨s', _, rfl, fun o ho => ?_⟩
        simp only [Option.some.injEq] at ho
        subst ho
        refine ⟨rfl, _, x, y, rfl, ha, by simp; omega, ?_⟩
        rw [List.length_append, hl]
        exact k4

/-- **C54**, TCP: for every piece received, the server sends nothing, or the first four bytes of what it has received (transaction and protocol
number), the length of the answer, and the answer to the request; it stays within its buffer of 256 bytes. -/
theorem C54_tcp_partial {s : Server} {fd : Int} {c : TypeCache} {nodes : List (Option Node)} {buff d : List Byte} {n : Nat} {j : Junk}
    (hb : buff.length = 256) (hn : n + d.length ≤ 256) (hlim : ∀ b, wr buff n d = .ok b → Limits (b.drop 6) 250)
    (hsv : ∀ nd, some nd ∈ nodes → Serves s fd nd) :
    ∃ s' b' n' out, tcpServe s fd c nodes buff n d j = .ok (s', c, b', n', out, 0) ∧ b'.length = 256 ∧ n' ≤ 256 ∧
      ∀ o, out = some o → ∃ b rsp, wr buff n d = .ok b ∧ Answer (b.drop 6) rsp ∧ o = b.take 4 ++ big rsp.length ++ rsp ∧ o.length ≤ 256 ∧
        field b 4 + 6 ≤ n + d.length := by
  obtain ⟨b1, e1, l1, g1⟩ := wr_at (b := buff) (off := n) (d := d) (by omega)
  unfold tcpServe
  have hM : MB_BUFF_SIZE = 256 := rfl
  rw [if_neg (by omega), e1, C.ok_bind]
  dsimp only
  split
  · obtain ⟨p, e2, w2⟩ := getWord_ok (b := b1) (off := 4) (by omega)
    rw [e2, C.ok_bind, w2]
    split
    · rename_i hmsg
      have hdl : (b1.drop 6).length = 250 := by rw [List.length_drop]; omega
      obtain ⟨s', b', k, e3, l3, hk, ha⟩ := C54_response_partial (s := s) (fd := fd) (c := c) (nodes := nodes) (tcp := true) (j := j)
        (by omega : 7 ≤ (b1.drop 6).length) (by omega) (by rw [hdl]; exact hlim b1 e1) (fun _ => rfl) hsv
      rw [hdl] at e3 l3 hk
      rw [show ((MB_BUFF_SIZE : Nat) : Int) - 6 = ((250 : Nat) : Int) from rfl, e3, C.ok_bind]
      dsimp only
      have htl : (b1.take 6 ++ b').length = 256 := by rw [List.length_append, List.length_take]; omega
      by_cases h0 : k = 0
      · subst h0
        rw [if_neg (by decide), if_neg (by decide)]
        exact ⟨s', _, _, none, rfl, htl, by omega, by simp⟩
      · have ha : Answer (b1.drop 6) (b'.take k) := by rcases ha with h | h; exact absurd h h0; exact h
        have hl : (b'.take k).length = k := by rw [List.length_take]; omega
        obtain ⟨b2, e4, l4, g4⟩ := wr_at (b := b1.take 6 ++ b') (off := 4) (d := [BitVec.ofInt 8 ((k : Int) / 256), BitVec.ofInt 8 k]) (by simp; omega)
        obtain ⟨out, e5⟩ := rd_total (b := b2) (off := 0) (n := (k : Int) + 6) (by omega)
        rw [if_pos (by omega), show wr (b1.take 6 ++ b') 4 [BitVec.ofInt 8 ((k : Int) / 256), BitVec.ofInt 8 k] = .ok b2 from e4, C.ok_bind, e5, C.ok_bind]
        refine ⟨s', b2, 0, some out, rfl, by omega, by omega, fun o ho => ?_⟩
        simp only [Option.some.injEq] at ho
        subst ho
        have hol := rd_length e5
        have hg := rd_get e5
        have hbl : (big (b'.take k).length) = [BitVec.ofInt 8 ((k : Int) / 256), BitVec.ofInt 8 k] := by
          rw [hl]
          unfold big
          rw [show ((k : Int) / 256) = ((k / 256 : Nat) : Int) by omega, BitVec.ofInt_natCast, BitVec.ofInt_natCast]
        refine ⟨b1, _, rfl, ha, ?_, by omega, by omega⟩
        rw [hbl]
        apply List.ext_getElem?
        intro i
        have := hg i
        simp only [Int.toNat_zero, Nat.zero_add] at this
        rw [this]
        have ht4 : (b1.take 4).length = 4 := by rw [List.length_take]; omega
        by_cases hi : i < k + 6
        · rw [if_pos (by omega), g4]
          simp only [List.length_cons, List.length_nil]
          by_cases h4 : i < 4
          · rw [if_neg (by omega), List.getElem?_append_left (by rw [List.length_take]; omega), List.getElem?_append_left (by simp; omega),
              List.getElem?_append_left (by omega), List.getElem?_take, List.getElem?_take, if_pos (by omega), if_pos h4]
          · by_cases h6 : i < 6
            · rw [if_pos (by omega), List.getElem?_append_left (by simp; omega), List.getElem?_append_right (by omega), ht4]
            · rw [if_neg (by omega), List.getElem?_append_right (by rw [List.length_take]; omega), List.getElem?_append_right (by simp; omega)]
              simp only [List.length_append, List.length_cons, List.length_nil, ht4]
              rw [List.getElem?_take, if_pos (by omega)]
              congr 1
              rw [List.length_take]; omega
        · rw [if_neg (by omega), List.getElem?_eq_none]
          simp; omega
    · exact ⟨s, b1, _, none, rfl, by omega, by omega, by simp⟩
  · exact ⟨s, b1, _, none, rfl, by omega, by omega, by simp⟩


/-! ### What is missing -/

/-- A module with 200 holding registers (tag 12) and 40 coils (tag 13). -/
def mbOps : List Op :=
  [.req 5 (.modReg 1 (nm "modbus")),
   .req 5 (.tagAdd DAX_UINT 200 0 (nm "hold")),
   .req 5 (.tagAdd DAX_BOOL 40 0 (nm "coil")),
   .req 5 (.tagWrite 12 0 [0x34, 0x12, 0x78, 0x56]),
   .req 5 (.tagWrite 13 0 [0xA5, 0x3C])]

def mbNode : Node := { holdIdx := 12, holdSize := 200, coilIdx := 13, coilSize := 40 }

/-- A request in a buffer of `n` bytes that is otherwise zero. -/
def frame (n : Nat) (f : List Byte) : List Byte := f ++ List.replicate (n - f.length) 0

theorem mb_reachable : Reachable (demo mbOps) := demo_reachable (by decide +kernel)

theorem mb_hold : RegTag (demo mbOps) 12 := by
  refine ⟨?_, noMaps_of (by decide +kernel), [0x34, 0x12, 0x78, 0x56] ++ List.replicate 396 0, quietData_of (by decide +kernel), by decide +kernel⟩
  exact ⟨0, ⟨by decide, nm "hold", DAX_UINT, 200, fun fd => by kernel_rfl⟩, by decide, by decide⟩

theorem mb_coil : RegTag (demo mbOps) 13 := by
  refine ⟨?_, noMaps_of (by decide +kernel), [0xA5, 0x3C, 0, 0, 0, 0], quietData_of (by decide +kernel), by decide +kernel⟩
  exact ⟨0, ⟨by decide, nm "coil", DAX_BOOL, 40, fun fd => by kernel_rfl⟩, by decide, by decide⟩

theorem mb_regs : ∀ nd, some nd ∈ [none, some mbNode] → ∀ reg, nd.size reg ≠ 0 → ∃ i : Nat, nd.idx reg = i ∧ RegTag (demo mbOps) i := by
  intro nd hnd reg hz
  simp only [List.mem_cons, reduceCtorEq, Option.some.injEq, List.not_mem_nil, or_false, false_or] at hnd
  subst hnd
  cases reg with
  | hold => exact ⟨12, rfl, mb_hold⟩
  | coil => exact ⟨13, rfl, mb_coil⟩
  | input => exact absurd rfl hz
  | disc => exact absurd rfl hz

/-- Instance: 125 holding registers from node 1, over the serial line. -/
example (j : Junk) : ∃ s' b' n, createResponse (demo mbOps) 5 [] [none, some mbNode] false (frame 256 [1, 3, 0, 0, 0, 125])
    (frame 256 [1, 3, 0, 0, 0, 125]).length j = .ok (s', [], b', ((n : Nat) : Int)) ∧ b'.length = (frame 256 [1, 3, 0, 0, 0, 125]).length ∧
      n ≤ (frame 256 [1, 3, 0, 0, 0, 125]).length ∧ (n = 0 ∨ Answer (frame 256 [1, 3, 0, 0, 0, 125]) (b'.take n)) :=
  C54_registers_partial (by decide +kernel) (by decide +kernel) (by refine ⟨?_, ?_, ?_, ?_⟩ <;> decide +kernel) (by decide +kernel) mb_reachable mb_regs

/-- A request for 151 registers makes the slave write behind its array of 150 words (`src/modules/modbus/modbus.c:809,820`): the registers are
read before the number is checked. -/
theorem C54_registers_overrun : ∃ w, createResponse (demo mbOps) 5 [] [none, some mbNode] false (frame 256 [1, 3, 0, 0, 0, 151]) 256 {} = .ub w :=
  isOk_false (by decide +kernel)

/-- A request to write 125 registers makes the slave read behind its buffer, whatever was received
(`src/modules/modbus/modbus.c:983-985`). -/
theorem C54_lying_count : ∃ w, createResponse (demo mbOps) 5 [] [none, some mbNode] false (frame 256 [1, 16, 0, 0, 0, 125]) 256 {} = .ub w :=
  isOk_false (by decide +kernel)

/-- Over TCP 124 registers are refused without an answer, though the protocol allows 125. -/
theorem C54_unanswered : (createResponse (demo mbOps) 5 [] [none, some mbNode] true (frame 250 [1, 3, 0, 0, 0, 124]) 250 {} >>=
    fun x => C.ok x.2.2.2) = .ok MB_ERR_OVERFLOW := by kernel_rfl

/-- The answer with 126 registers has 255 bytes, so that the checksum is written behind the buffer. -/
theorem C54_checksum_overrun : (∃ crc, crc16check (frame 256 ([1, 3, 0, 0, 0, 126] ++ crc)) 8 = .ok true ∧
    ∃ w, rtuServe (demo mbOps) 5 [] [none, some mbNode] (frame 256 ([1, 3, 0, 0, 0, 126] ++ crc)) 8 {} = .ub w) :=
  ⟨[0xC5, 0xEA], by kernel_rfl, isOk_false (by decide +kernel)⟩

/-- Function 8 is answered with 128 bytes of the buffer, whatever the request. -/
theorem C54_diagnostics : (createResponse (demo mbOps) 5 [] [none, some mbNode] false (frame 256 [1, 8, 0, 0, 0x12, 0x34]) 256 {} >>=
    fun x => C.ok x.2.2.2) = .ok 128 := by kernel_rfl

/-- Instance of the limits: 126 registers are too many for the serial line. -/
example : ¬ Limits (frame 256 [1, 3, 0, 0, 0, 126]) 254 := fun h => absurd (h.2.1 (by decide)) (by decide)


/-! ## C55 -/

theorem i8_zero {r : Int} : i8 r = 0 ↔ r % 256 = 0 := by
  unfold i8
  dsimp only
  split <;> omega

theorem slaveRead_data {s : Server} {fd : Int} {c : TypeCache} {i type count n : Nat} {name : Name} {h : Handle} (hr : Reachable s) (ho : Ordinary s i)
    (hi : h.index = i) (hs : Small h) {mem : List Byte} (hm : h.size ≤ mem.length) (hl : LiveTag s i name type count) (hn : TagBytes type count n)
    (hlt : n < 2147483648) (hin : h.byte + h.size ≤ n) :
    ∃ l d mem', daxTagRead s fd c h = .ok (s, c, l, .done 0, d) ∧ slaveRead s fd c h mem = .ok (s, c, mem') ∧ mem'.length = mem.length ∧
      d.length = h.size ∧ ∀ k < h.size, mem'[k]? = d[k]? := by
  have h1 := hs.byte
  have h2 := hs.size
  obtain ⟨x, hx, hq⟩ := (C05_range_partial hr ho hl hn hlt fd h.byte h.size (by omega) (by omega) (by omega)).1 (by omega) (by omega)
  rw [← hi] at hq
  rcases read_small (s := s) (fd := fd) c hs with ⟨w, hw⟩ | ⟨s', r, l, e, d, k1, k2, k3, k4⟩
  · rw [hq] at hw; cases hw
  · rw [hq] at k1
    cases k1
    obtain ⟨rfl, k5⟩ := k4 ⟨x, rfl⟩
    obtain ⟨m, hw, hml, hg⟩ := wr_at (b := mem) (off := 0) (d := d) (by omega)
    refine ⟨l, d, m, k2, ?_, hml, k5, fun k hk => ?_⟩
    · unfold slaveRead
      rw [k2, C.ok_bind]
      dsimp only
      rw [if_neg (by simp), show wr mem 0 d = .ok m from hw]
      rfl
    · rw [hg, if_pos (by omega)]; rfl

theorem slaveRead_any {s : Server} {fd : Int} (c : TypeCache) {i type count n : Nat} {name : Name} {h : Handle} (hr : Reachable s) (ho : Ordinary s i)
    (hi : h.index = i) (hs : Small h) {mem : List Byte} (hm : h.size ≤ mem.length) (hl : LiveTag s i name type count) (hn : TagBytes type count n)
    (hlt : n < 2147483648) : ∃ mem', slaveRead s fd c h mem = .ok (s, c, mem') ∧ mem'.length = mem.length := by
  have h1 := hs.byte
  have h2 := hs.size
  by_cases hin : h.byte + h.size ≤ n
  · obtain ⟨l, d, mem', -, k2, k3, -⟩ := slaveRead_data (fd := fd) (c := c) hr ho hi hs hm hl hn hlt hin
    exact ⟨mem', k2, k3⟩
  · have hq := ((C05_range_partial hr ho hl hn hlt fd h.byte h.size (by omega) (by omega) (by omega)).2 (by omega)).1
    rw [← hi] at hq
    rcases read_small (s := s) (fd := fd) c hs with ⟨w, hw⟩ | ⟨s', r, l, e, d, k1, k2, k3, k4⟩
    · rw [hq] at hw; cases hw
    · rw [hq] at k1
      cases k1
      obtain ⟨m, hw, hml, -⟩ := wr_at (b := mem) (off := 0) (d := d) (by omega)
      refine ⟨m, ?_, hml⟩
      unfold slaveRead
      rw [k2, C.ok_bind]
      dsimp only
      rw [if_neg (by simp), show wr mem 0 d = .ok m from hw]
      rfl

theorem responsible_find {nodes : List (Option Node)} {k node : Nat} {nd : Node} (h : Responsible nodes k node nd) : findNode nodes k = some (node, nd) := by
  unfold findNode
  rcases h with ⟨h, rfl⟩ | ⟨h1, h2, rfl⟩
  · rw [h]
  · split
    · rename_i x hx
      exact absurd hx (h1 x)
    · rw [h2]

theorem allowed_result {nd : Node} {j : Junk} {node : Nat} {buff : List Byte} (h6 : 6 ≤ buff.length)
    (hc : code buff = 1 ∨ code buff = 2 ∨ code buff = 3 ∨ code buff = 4) (h : Allowed nd j node buff) :
    readResult nd node (code buff) buff j = .ok 0 := by
  obtain ⟨p1, e1, w1⟩ := getWord_ok (b := buff) (off := 2) (by omega)
  obtain ⟨p2, e2, w2⟩ := getWord_ok (b := buff) (off := 4) (by omega)
  unfold Allowed at h
  unfold readResult
  cases hcb : nd.readCb with
  | none =>
    rw [hcb] at h
    dsimp only at h ⊢
    rw [i8_zero.mpr h]
  | some g =>
    rw [hcb] at h
    dsimp only at h ⊢
    obtain ⟨r, hr, h0⟩ := h
    rw [if_pos hc, e1, C.ok_bind, e2, C.ok_bind, w1, w2]
    rw [hr]
    simp only [i8_zero.mpr h0]

/-- Functions 1 to 4, once the node is found and the read callback has been asked. -/
theorem createResponse_read {s : Server} {fd : Int} {c : TypeCache} {nodes : List (Option Node)} {tcp : Bool} {buff : List Byte} {j : Junk} {node : Nat}
    {nd : Node} {reg : Reg} (h6 : 6 ≤ buff.length) (hr : Responsible nodes (buff.getD 0 0).toNat node nd) (ha : Allowed nd j node buff)
    (hreg : (code buff = 1 ∧ reg = .coil) ∨ (code buff = 2 ∧ reg = .disc) ∨ (code buff = 3 ∧ reg = .hold) ∨ (code buff = 4 ∧ reg = .input))
    (hz : nd.size reg ≠ 0) (size : Int) :
    createResponse s fd c nodes tcp buff size j =
      if code buff ≤ 2 then readBits s fd c nd buff size reg j else readWords s fd c nd buff size reg j := by
  unfold createResponse
  rw [getD_some (b := buff) (k := 0) (by omega), getD_some (b := buff) (k := 1) (by omega)]
  dsimp only
  rw [responsible_find hr]
  dsimp only
  rw [show (buff.getD 1 0).toNat = code buff from rfl, allowed_result h6 (by omega) ha, C.ok_bind, if_neg (by simp)]
  unfold badFunction
  rcases hreg with ⟨e, rfl⟩ | ⟨e, rfl⟩ | ⟨e, rfl⟩ | ⟨e, rfl⟩ <;> rw [e] <;> simp only [Node.size] at hz
  · rw [if_neg (by simpa using hz)]; rfl
  · rw [if_neg (by simpa using hz)]; rfl
  · rw [if_neg (by simpa using hz)]; rfl
  · rw [if_neg (by simpa using hz)]; rfl

theorem registersOf_length (M : Mem) (i index : Nat) : ∀ count, (registersOf M i index count).length = 2 * count := by
  intro count
  unfold registersOf
  induction count with
  | zero => rfl
  | succ k ih => rw [List.range_succ, List.flatMap_append, List.length_append, ih]; simp; omega

theorem registersOf_get {M : Mem} {i index count q : Nat} (h : q < 2 * count) : (registersOf M i index count)[q]? =
    if q % 2 = 0 then some (M i (2 * (index + q / 2) + 1)) else some (M i (2 * (index + q / 2))) := by
  induction count with
  | zero => omega
  | succ k ih =>
    have hl := registersOf_length M i index k
    unfold registersOf at ih hl ⊢
    rw [List.range_succ, List.flatMap_append]
    by_cases hq : q < 2 * k
    · rw [List.getElem?_append_left (by omega)]
      exact ih hq
    · rw [List.getElem?_append_right (by omega), hl]
      have : q = 2 * k ∨ q = 2 * k + 1 := by omega
      rcases this with rfl | rfl
      · rw [if_pos (by omega), Nat.sub_self, show 2 * k / 2 = k by omega]; rfl
      · rw [if_neg (by omega), show 2 * k + 1 - 2 * k = 1 by omega, show (2 * k + 1) / 2 = k by omega]; rfl

/-- **C55**, registers: the answer to a request for registers that are configured has their values as they are in the tag, in the order of the
addresses, high byte first; reading changes nothing.  A request that goes beyond the registers is answered with exception 2. -/
theorem C55_registers_partial {s : Server} {fd : Int} {c : TypeCache} {nodes : List (Option Node)} {tcp : Bool} {buff : List Byte} {j : Junk}
    {node i n : Nat} {nd : Node} {reg : Reg} {name : Name} {M : Mem} (h6 : 6 ≤ buff.length) (h256 : buff.length ≤ 256)
    (hresp : Responsible nodes (buff.getD 0 0).toNat node nd) (ha : Allowed nd j node buff)
    (hreg : (code buff = 3 ∧ reg = .hold) ∨ (code buff = 4 ∧ reg = .input)) (hz : nd.size reg ≠ 0) (hfit : 3 + 2 * field buff 4 ≤ buff.length)
    (hr : Reachable s) (ho : Ordinary s i) (hM : Agrees M s) (hi : nd.idx reg = i) (hl : LiveTag s i name DAX_UINT n) (hn : nd.size reg ≤ n)
    (hn2 : n ≤ 100000) :
    ∃ b' k, createResponse s fd c nodes tcp buff buff.length j = .ok (s, c, b', ((k : Nat) : Int)) ∧ b'.length = buff.length ∧ k ≤ buff.length ∧
      (field buff 2 + field buff 4 ≤ nd.size reg → b'.take k = buff.getD 0 0 :: buff.getD 1 0 :: BitVec.ofNat 8 (2 * field buff 4) ::
        registersOf M i (field buff 2) (field buff 4)) ∧
      (nd.size reg < field buff 2 + field buff 4 → b'.take k = [buff.getD 0 0, buff.getD 1 0 ||| 0x80, 2]) := by
  have hf2 := field_lt buff 2
  have hregs := regs_length j
  have hsm : Small (dbHandle (nd.idx reg) reg (field buff 2) (field buff 4)) := dbHandle_small _ _ hf2 (by omega) (by intro; omega)
  have hH : dbHandle (nd.idx reg) reg (field buff 2) (field buff 4) = ⟨nd.idx reg, field buff 2 * 2, 0, field buff 4, field buff 4 * 2, DAX_UINT⟩ := by
    rcases hreg with ⟨-, rfl⟩ | ⟨-, rfl⟩ <;> rfl
  have hmem : (dbHandle (nd.idx reg) reg (field buff 2) (field buff 4)).size ≤ j.regs.length := by rw [hH]; dsimp only; omega
  have hidx : (dbHandle (nd.idx reg) reg (field buff 2) (field buff 4)).index = i := by rw [hH]; exact hi
  have htb : TagBytes DAX_UINT n (2 * n) := .inr ⟨2, by decide, rfl⟩
  rw [createResponse_read h6 hresp ha (by rcases hreg with h | h; exact .inr (.inr (.inl h)); exact .inr (.inr (.inr h))) hz, if_neg (by omega)]
  by_cases hin : field buff 2 + field buff 4 ≤ nd.size reg
  · obtain ⟨l, d, mem, k1, k2, k3, k4, k5⟩ := slaveRead_data (fd := fd) (c := c) hr ho hidx hsm hmem hl htb (by omega) (by rw [hH]; dsimp only; omega)
    obtain ⟨b', hbl, ⟨hlt, -⟩ | ⟨-, e, hh, hv⟩⟩ := readWords_ok h6 hfit (by omega) k2 (by omega)
    · omega
    · refine ⟨b', _, e, hbl, by omega, fun _ => ?_, fun h => by omega⟩
      rw [hh]
      congr 3
      by_cases h0 : field buff 4 = 0
      · rw [h0]; rfl
      have hdat := (C25_read_data (unit := 2) hr ho hM hidx (by rw [hH]; exact (by decide : DAX_UINT ≠ DAX_BOOL))
        ⟨by rw [hH]; dsimp only; omega, by rw [hH]; dsimp only; omega, fun h => by rw [hH] at h; dsimp only at h; omega, by decide, by decide,
          by rw [hH]; exact ⟨field buff 4, Nat.mul_comm _ _⟩⟩ k1).2.2
      rw [hH] at hdat k5
      dsimp only at hdat k5
      apply List.ext_getElem?
      intro q
      by_cases hq : q < 2 * field buff 4
      · rw [List.getElem?_take, if_pos hq, List.getElem?_drop, registersOf_get hq]
        have hb := hv (q / 2) (by omega)
        by_cases hpar : q % 2 = 0
        · rw [if_pos hpar, show 3 + q = 3 + 2 * (q / 2) by omega, hb.1, k5 _ (by omega), hdat _ (by omega)]
          congr 2; omega
        · rw [if_neg hpar, show 3 + q = 3 + 2 * (q / 2) + 1 by omega, hb.2, k5 _ (by omega), hdat _ (by omega)]
          congr 2; omega
      · rw [List.getElem?_eq_none (by rw [List.length_take]; omega), List.getElem?_eq_none (by rw [registersOf_length]; omega)]
  · obtain ⟨mem, k2, k3⟩ := slaveRead_any (fd := fd) c hr ho hidx hsm hmem hl htb (by omega)
    obtain ⟨b', hbl, ⟨-, e, hh⟩ | ⟨hlt, -⟩⟩ := readWords_ok h6 hfit (by omega) k2 (by omega)
    · exact ⟨b', 3, e, hbl, by omega, fun h => by omega, fun _ => hh⟩
    · omega


/-- **C55**, coils and discrete inputs: the answer to a request for bits that are configured has for every address the value in the tag, eight to a
byte, lowest bit first; reading changes nothing.  A request that goes beyond the bits is answered with exception 2.

Missing: the bits that fill up the last byte are not zero but what the request had there (`C55_padding`). -/
theorem C55_bits_partial {s : Server} {fd : Int} {c : TypeCache} {nodes : List (Option Node)} {tcp : Bool} {buff : List Byte} {j : Junk}
    {node i n : Nat} {nd : Node} {reg : Reg} {name : Name} {M : Mem} (h6 : 6 ≤ buff.length) (h256 : buff.length ≤ 256)
    (hresp : Responsible nodes (buff.getD 0 0).toNat node nd) (ha : Allowed nd j node buff)
    (hreg : (code buff = 1 ∧ reg = .coil) ∨ (code buff = 2 ∧ reg = .disc)) (hz : nd.size reg ≠ 0) (hpos : 1 ≤ field buff 4)
    (hfit : 3 + (field buff 4 + 7) / 8 ≤ buff.length)
    (hr : Reachable s) (ho : Ordinary s i) (hM : Agrees M s) (hi : nd.idx reg = i) (hl : LiveTag s i name DAX_BOOL n) (hn : nd.size reg ≤ n)
    (hn2 : n ≤ 100000) :
    ∃ b' k, createResponse s fd c nodes tcp buff buff.length j = .ok (s, c, b', ((k : Nat) : Int)) ∧ b'.length = buff.length ∧ k ≤ buff.length ∧
      (field buff 2 + field buff 4 ≤ nd.size reg → ∃ D, b'.take k = buff.getD 0 0 :: buff.getD 1 0 :: BitVec.ofNat 8 D.length :: D ∧
        D.length = (field buff 4 + 7) / 8 ∧ ∀ q < field buff 4, bitOf D (q / 8) (q % 8) = memBit M i (field buff 2 + q)) ∧
      (nd.size reg < field buff 2 + field buff 4 → b'.take k = [buff.getD 0 0, buff.getD 1 0 ||| 0x80, 2]) := by
  have hf2 := field_lt buff 2
  have hregs := regs_length j
  have hsm : Small (dbHandle (nd.idx reg) reg (field buff 2) (field buff 4)) := dbHandle_small _ _ hf2 (by omega) (by
    intro h
    rcases hreg with ⟨-, rfl⟩ | ⟨-, rfl⟩ <;> simp at h)
  have hH : dbHandle (nd.idx reg) reg (field buff 2) (field buff 4) =
      ⟨nd.idx reg, field buff 2 / 8, field buff 2 % 8, field buff 4, (field buff 2 % 8 + field buff 4 - 1) / 8 + 1, DAX_BOOL⟩ := by
    rcases hreg with ⟨-, rfl⟩ | ⟨-, rfl⟩ <;> rfl
  have hmem : (dbHandle (nd.idx reg) reg (field buff 2) (field buff 4)).size ≤ j.regs.length := by rw [hH]; dsimp only; omega
  have hidx : (dbHandle (nd.idx reg) reg (field buff 2) (field buff 4)).index = i := by rw [hH]; exact hi
  have htb : TagBytes DAX_BOOL n (n / 8 + 1) := .inl ⟨rfl, rfl⟩
  rw [createResponse_read h6 hresp ha (by rcases hreg with h | h; exact .inl h; exact .inr (.inl h)) hz, if_pos (by omega)]
  by_cases hin : field buff 2 + field buff 4 ≤ nd.size reg
  · obtain ⟨l, d, mem, k1, k2, k3, k4, k5⟩ := slaveRead_data (fd := fd) (c := c) hr ho hidx hsm hmem hl htb (by omega) (by rw [hH]; dsimp only; omega)
    obtain ⟨b', hbl, ⟨hlt, -⟩ | ⟨-, e, hh, hv⟩⟩ := readBits_ok h6 hpos hfit (by omega) k2 (by omega)
    · omega
    · have hdl : ((b'.drop 3).take ((field buff 4 + 7) / 8)).length = (field buff 4 + 7) / 8 := by
        rw [List.length_take, List.length_drop]; omega
      refine ⟨b', _, e, hbl, by omega, fun _ => ⟨_, by rw [hdl]; exact hh, hdl, fun q hq => ?_⟩, fun h => by omega⟩
      have hdat := (C24_read hr ho hM hidx ⟨by rw [hH], by rw [hH]; dsimp only; omega, by rw [hH]; exact hpos, by rw [hH]⟩
        (by rw [hH]; dsimp only; omega) k1).2.2.1 q (by rw [hH]; exact hq)
      rw [hH] at hdat k5
      dsimp only at hdat k5
      rw [show 8 * (field buff 2 / 8) + field buff 2 % 8 + q = field buff 2 + q by omega] at hdat
      rw [← hdat]
      have := hv q hq
      unfold bitOf at this ⊢
      rw [List.getElem?_take, if_pos (by omega), List.getElem?_drop, this, k5 _ (by omega)]
  · obtain ⟨mem, k2, k3⟩ := slaveRead_any (fd := fd) c hr ho hidx hsm hmem hl htb (by omega)
    obtain ⟨b', hbl, ⟨-, e, hh⟩ | ⟨hlt, -⟩⟩ := readBits_ok h6 hpos hfit (by omega) k2 (by omega)
    · exact ⟨b', 3, e, hbl, by omega, fun h => by omega, fun _ => hh⟩
    · omega

/-- Coils 32 to 36 are all off, but a request for them is answered with a byte that has a bit set: bit 5 of the low byte of the address in the request
was not cleared (`src/modules/modbus/modbus.c:780-798`). -/
theorem C55_padding : (createResponse (demo mbOps) 5 [] [none, some mbNode] false (frame 256 [1, 1, 0, 32, 0, 5]) 256 {} >>=
    fun x => C.ok (x.2.2.1.take 4, x.2.2.2)) = .ok ([1, 1, 1, 0x20], 4) ∧
    Answers (demo mbOps) 5 (.tagRead 13 4 1) (.resp [0]) := ⟨by kernel_rfl, exists_reply (by decide +kernel)⟩

/-- Without a read callback the slave tests a variable that was never set (`src/modules/modbus/modbus.c:878,893-919`): where it happens to be 4, every request
is answered with exception 4. -/
theorem C55_uninitialised : (createResponse (demo mbOps) 5 [] [none, some mbNode] false (frame 256 [1, 3, 0, 0, 0, 2]) 256 { result := 4 } >>=
    fun x => C.ok (x.2.2.1.take 3, x.2.2.2)) = .ok ([1, 0x83, 4], 3) := by kernel_rfl

/-- Instance: the two registers are 0x1234 and 0x5678. -/
example : (createResponse (demo mbOps) 5 [] [none, some mbNode] false (frame 256 [1, 3, 0, 0, 0, 2]) 256 {} >>=
    fun x => C.ok (x.2.2.1.take 7, x.2.2.2)) = .ok ([1, 3, 4, 0x12, 0x34, 0x56, 0x78], 7) := by kernel_rfl

/-- The hypotheses of `C55_registers_partial` and `C55_bits_partial` are met by the example. -/
example : (∃ M, Agrees M (demo mbOps)) ∧ Responsible [none, some mbNode] ((frame 256 [1, 3, 0, 0, 0, 2]).getD 0 0).toNat 1 mbNode ∧ Allowed mbNode {} 1 (frame 256 [1, 3, 0, 0, 0, 2]) ∧
    Ordinary (demo mbOps) 12 ∧ LiveTag (demo mbOps) 12 (nm "hold") DAX_UINT 200 ∧ Ordinary (demo mbOps) 13 ∧
    LiveTag (demo mbOps) 13 (nm "coil") DAX_BOOL 40 :=
  ⟨agrees_exists mb_reachable, .inl ⟨rfl, rfl⟩, rfl, mb_hold.1, ⟨by decide, by decide, 0, fun fd => by kernel_rfl⟩, mb_coil.1, ⟨by decide, by decide, 0, fun fd => by kernel_rfl⟩⟩


/-! ## C56 -/

/-- `d` is in `b` at `off`. -/
def At (b : List Byte) (off : Nat) (d : List Byte) : Prop := ∀ i < d.length, b[off + i]? = d[i]?

theorem wr_seg {b d : List Byte} {off : Nat} (h : off + d.length ≤ b.length) :
    ∃ b', wr b off d = .ok b' ∧ b'.length = b.length ∧ At b' off d ∧
      ∀ o e, At b o e → (o + e.length ≤ off ∨ off + d.length ≤ o) → At b' o e := by
  obtain ⟨b', e, l, g⟩ := wr_at h
  refine ⟨b', e, l, fun i hi => ?_, fun o e he ho i hi => ?_⟩
  · rw [g, if_pos (by omega)]; congr 1; omega
  · rw [g, if_neg (by omega)]; exact he i hi

theorem At.append {b d e : List Byte} {off k : Nat} (h : At b off d) (h' : At b k e) (hk : k = off + d.length) : At b off (d ++ e) := by
  intro i hi
  rw [List.length_append] at hi
  by_cases h1 : i < d.length
  · rw [List.getElem?_append_left h1]; exact h i h1
  · rw [List.getElem?_append_right (by omega), ← h' _ (by omega), hk]
    congr 1; omega

theorem At.take {b d : List Byte} {n : Nat} (h : At b 0 d) (hn : n = d.length) : b.take n = d := by
  subst hn
  apply List.ext_getElem?
  intro i
  rw [List.getElem?_take]
  split
  · rename_i h1
    have := h i h1
    rw [Nat.zero_add] at this
    exact this
  · rename_i h1
    rw [List.getElem?_eq_none (by omega)]

theorem At.rd {b d : List Byte} (h : At b 0 d) (hl : d.length ≤ b.length) : Dax.rd b 0 (d.length : Int) = .ok d := by
  obtain ⟨x, hx⟩ := rd_total (b := b) (off := 0) (n := (d.length : Int)) ⟨by omega, by omega, by omega⟩
  rw [hx]
  congr 1
  apply List.ext_getElem?
  intro i
  rw [rd_get hx, Int.toNat_natCast]
  split
  · rename_i h1
    exact h i h1
  · rename_i h1
    rw [List.getElem?_eq_none (by omega)]

theorem two_bytes {d : List Byte} (h : d.length = 2) : ∃ x y, d = [x, y] := by
  match d, h with
  | [x, y], _ => exact ⟨x, y, rfl⟩

theorem bigAll_length : ∀ (k : Nat) (d : List Byte), d.length = 2 * k → (bigAll d).length = 2 * k
  | 0, [], _ => rfl
  | k + 1, a :: b :: d, h => by
    simp only [List.length_cons] at h
    have := bigAll_length k d (by omega)
    simp only [bigAll, List.length_cons]
    omega

theorem bigAll_get : ∀ (d : List Byte) (m : Nat), 2 * m + 1 < d.length → (bigAll d)[2 * m]? = d[2 * m + 1]? ∧ (bigAll d)[2 * m + 1]? = d[2 * m]?
  | [], m, h => by simp at h
  | [a], m, h => by simp at h
  | a :: b :: d, 0, _ => ⟨rfl, rfl⟩
  | a :: b :: d, m + 1, h => by
    simp only [List.length_cons] at h
    have := bigAll_get d m (by omega)
    rw [show 2 * (m + 1) = 2 * m + 1 + 1 by omega]
    simp only [bigAll, List.getElem?_cons_succ]
    exact this

theorem cmdWords_ok {data buff : List Byte} {base k : Nat} (hd : data.length = 2 * k) (hb : base + 2 * k ≤ buff.length) :
    ∃ b', cmdWords data base k 0 buff = .ok b' ∧ b'.length = buff.length ∧ At b' base (bigAll data) ∧
      ∀ o e, At buff o e → o + e.length ≤ base → At b' o e := by
  obtain ⟨b', e, l, g, f⟩ := swapLoop_ok data 0 base k 0 buff (by omega) (by omega)
  refine ⟨b', by rw [cmdWords_eq]; exact e, l, fun i hi => ?_, fun o e he ho i hi => ?_⟩
  · rw [bigAll_length k data hd] at hi
    obtain ⟨g1, g2⟩ := g (i / 2) (by omega) (by omega)
    obtain ⟨k1, k2⟩ := bigAll_get data (i / 2) (by omega)
    rw [Nat.zero_add] at g1 g2
    rcases Nat.mod_two_eq_zero_or_one i with h | h
    · rw [show base + i = base + 2 * (i / 2) by omega, g1, ← k1]; congr 1; omega
    · rw [show base + i = base + 2 * (i / 2) + 1 by omega, g2, ← k2]; congr 1; omega
  · rw [f _ (.inl (by omega))]; exact he i hi

theorem byteLoop_ok {data : List Byte} {lim base : Nat} {x : Byte} (hlt : lim < base) : ∀ (k n fuel : Nat) (buff : List Byte), x.toNat = n + k → k < fuel →
    x.toNat ≤ data.length → base + x.toNat ≤ buff.length → buff[lim]? = some x →
    ∃ b', byteLoop data lim base fuel n buff = .ok b' ∧ b'.length = buff.length ∧
      (∀ i, n ≤ i → i < x.toNat → b'[base + i]? = data[i]?) ∧ ∀ i, (i < base + n) → b'[i]? = buff[i]? := by
  intro k
  induction k with
  | zero =>
    intro n fuel buff hx hf hd hb hl
    obtain ⟨fuel, rfl⟩ : ∃ f, fuel = f + 1 := ⟨fuel - 1, by omega⟩
    unfold byteLoop
    rw [hl]
    dsimp only
    rw [if_neg (by omega)]
    exact ⟨buff, rfl, rfl, fun i h1 h2 => by omega, fun _ _ => rfl⟩
  | succ k ih =>
    intro n fuel buff hx hf hd hb hl
    obtain ⟨fuel, rfl⟩ : ∃ f, fuel = f + 1 := ⟨fuel - 1, by omega⟩
    unfold byteLoop
    rw [hl]
    dsimp only
    rw [if_pos (by omega), List.getElem?_eq_getElem (show n < data.length by omega)]
    dsimp only
    obtain ⟨b1, e1, l1, g1⟩ := wr_at (b := buff) (d := [data[n]]) (off := base + n) (by simp; omega)
    simp only [List.length_singleton] at g1
    rw [show ((base : Int) + (n : Int)) = ((base + n : Nat) : Int) by omega, e1, C.ok_bind]
    obtain ⟨b2, e2, l2, g2, f2⟩ := ih (n + 1) fuel b1 (by omega) (by omega) hd (by omega) (by rw [g1, if_neg (by omega)]; exact hl)
    refine ⟨b2, e2, by omega, fun i h1 h2 => ?_, fun i h => ?_⟩
    · by_cases h : i = n
      · subst h
        rw [f2 _ (by omega), g1, if_pos (by omega), Nat.sub_self, List.getElem?_eq_getElem (show i < data.length by omega)]
        rfl
      · exact g2 i (by omega) h2
    · rw [f2 _ (by omega), g1, if_neg (by omega)]

theorem C56_configured {cmd cmd' : Cmd} {node function reg length : Nat} {junk : Nat → Byte} (hreg : reg < 65536) (hlen : length < 65536)
    (h : setCommand cmd node function reg length junk = (cmd', 0)) :
    Configured cmd' ∧ cmd'.node = node ∧ cmd'.function = function ∧ cmd'.register = reg ∧ cmd'.length = length := by
  unfold setCommand at h
  split at h
  · injection h with _ h; exact absurd h (by decide)
  · rename_i h1
    dsimp only at h
    split at h
    · injection h with _ h; exact absurd h (by decide)
    · rename_i h2
      split at h
      · injection h with _ h; exact absurd h (by decide)
      · rename_i h3
        split at h
        · injection h with _ h; exact absurd h (by decide)
        · rename_i h4
          injection h with h _
          subst h
          refine ⟨⟨by dsimp only; omega, ?_, by dsimp only; omega, ⟨?_, ?_, hlen⟩, ?_⟩, rfl, rfl, rfl, rfl⟩
          · simp; omega
          · simp; omega
          · simp; omega
          · dsimp only
            rw [List.length_map, List.length_range]
            have h2' : function = 1 ∨ function = 2 ∨ function = 3 ∨ function = 4 ∨ function = 5 ∨ function = 6 ∨ function = 15 ∨ function = 16 := by omega
            rcases h2' with rfl | rfl | rfl | rfl | rfl | rfl | rfl | rfl <;> simp [area] at h3 h4 ⊢ <;> omega

theorem condWord_ok {cmd : Cmd} (hc : Configured cmd) (hf : cmd.function = 15 ∨ cmd.function = 16) : ∃ w, condWord cmd = .ok w := by
  obtain ⟨-, -, h3, ⟨h4, h4', -⟩, h5⟩ := hc
  have hs : 1 ≤ cmd.data.length ∧ (cmd.function = 15 → 8 < cmd.length → 2 ≤ cmd.data.length) ∧ cmd.data.length ≤ 65535 := by
    rw [h5]; rcases hf with h | h <;> rw [h] at h4 h4' ⊢ <;> simp [area] at h4 h4' ⊢ <;> omega
  unfold condWord
  split
  · rename_i h
    split
    · match hd : cmd.data, hs.2.1 h.1 (by assumption) with
      | a :: b :: _, _ => exact ⟨_, rfl⟩
      | [a], hh => simp at hh
      | [], hh => simp at hh
    · match hd : cmd.data, hs.1 with
      | a :: _, _ => exact ⟨_, rfl⟩
      | [], hh => simp at hh
  · obtain ⟨x, hx⟩ := crc_prefix (buff := cmd.data) (k := cmd.data.length) (by omega) hs.2.2
    rw [hx]
    exact ⟨_, rfl⟩

/-- What is built is the frame of the protocol. -/
def BuiltAs (cmd : Cmd) (base : Nat) (o : Built) : Prop :=
  (o = none → cmd.enable ≠ 1 ∧ 5 ≤ cmd.function) ∧ ∀ b n cmd', o = some (b, n, cmd') → b.length = 1024 ∧
    (∃ f, request cmd.node cmd.function cmd.register cmd.length cmd.data = some f ∧ At b base f ∧ n = f.length ∧ n ≤ 300) ∧
    cmd' = { cmd with lastcrc := cmd'.lastcrc, firstrun := cmd'.firstrun }

theorem builtAs_none {cmd : Cmd} {base : Nat} (h : cmd.enable ≠ 1) (h5 : 5 ≤ cmd.function) : BuiltAs cmd base none :=
  ⟨fun _ => ⟨h, h5⟩, by simp⟩

theorem builtAs_some {cmd cmd' : Cmd} {base n : Nat} {b f : List Byte} (hb : b.length = 1024)
    (hf : request cmd.node cmd.function cmd.register cmd.length cmd.data = some f) (ha : At b base f) (hn : n = f.length) (h300 : n ≤ 300)
    (hc : cmd' = { cmd with lastcrc := cmd'.lastcrc, firstrun := cmd'.firstrun }) : BuiltAs cmd base (some (b, n, cmd')) :=
  ⟨by simp, fun b1 n1 c1 h => by
    injection h with h; injection h with h1 h; injection h with h2 h3; subst h1 h2 h3; exact ⟨hb, ⟨f, hf, ha, hn, h300⟩, hc⟩⟩

theorem buildRtu_ok {cmd : Cmd} {buff : List Byte} {junk : Nat} (hc : Configured cmd) (hb : buff.length = 1024) (h15 : cmd.function ≠ 15)
    (h16 : cmd.function = 16 → cmd.length ≤ 124) (h6 : cmd.function = 6 → cmd.data[1]? = some 0) :
    ∃ o, buildRtu cmd buff junk = .ok o ∧ BuiltAs cmd 0 o := by
  have hcw := fun h => condWord_ok hc (.inr h)
  obtain ⟨hnode, hfun, hreg, ⟨hl1, hl2, hl3⟩, hdata⟩ := hc
  unfold buildRtu
  obtain ⟨b1, e1, l1, a1, p1⟩ := wr_seg (b := buff) (off := 0) (d := [BitVec.ofNat 8 cmd.node, BitVec.ofNat 8 cmd.function]) (by simp; omega)
  obtain ⟨b2, e2, l2, a2, p2⟩ := wr_seg (b := b1) (off := 2) (d := beWord cmd.register) (by simp [beWord]; omega)
  have hh : At b2 0 ([BitVec.ofNat 8 cmd.node, BitVec.ofNat 8 cmd.function] ++ big cmd.register) := (p2 _ _ a1 (.inl (by simp))).append a2 rfl
  obtain ⟨b3, e3, l3, a3, p3⟩ := wr_seg (b := b2) (off := 4) (d := beWord cmd.length) (by simp [beWord]; omega)
  have hh3 : At b3 0 ([BitVec.ofNat 8 cmd.node, BitVec.ofNat 8 cmd.function] ++ big cmd.register ++ big cmd.length) :=
    (p3 _ _ hh (.inl (by simp [big]))).append a3 rfl
  rw [show (0 : Int) = ((0 : Nat) : Int) from rfl, e1, C.ok_bind]
  split
  · rename_i hf
    rw [show (2 : Int) = ((2 : Nat) : Int) from rfl, e2, C.ok_bind, show (4 : Int) = ((4 : Nat) : Int) from rfl, e3, C.ok_bind]
    refine ⟨_, rfl, builtAs_some (by omega) ?_ hh3 rfl (by omega) rfl⟩
    rcases hf with h | h | h | h <;> rw [h] <;> rfl
  · split
    · rename_i hf
      rw [hf] at hdata
      obtain ⟨x, hx⟩ := List.length_eq_one_iff.mp hdata
      have ht : firstByte cmd = .ok x.toNat := by unfold firstByte; rw [hx]
      rw [ht, C.ok_bind]
      split
      · rw [show (2 : Int) = ((2 : Nat) : Int) from rfl, e2, C.ok_bind]
        obtain ⟨b4, e4, l4, a4, p4⟩ := wr_seg (b := b2) (off := 4) (d := [if x.toNat ≠ 0 then (0xff : Byte) else 0]) (by simp; omega)
        obtain ⟨b5, e5, l5, a5, p5⟩ := wr_seg (b := b4) (off := 5) (d := [(0 : Byte)]) (by simp; omega)
        rw [show (4 : Int) = ((4 : Nat) : Int) from rfl, e4, C.ok_bind, show (5 : Int) = ((5 : Nat) : Int) from rfl, e5, C.ok_bind]
        refine ⟨_, rfl, builtAs_some (f := [BitVec.ofNat 8 cmd.node, BitVec.ofNat 8 cmd.function] ++ big cmd.register ++
          ([if x.toNat ≠ 0 then (0xff : Byte) else 0] ++ [(0 : Byte)])) (by omega) ?_ ?_ rfl (by omega) rfl⟩
        · rw [hf, hx]
          show some _ = some _
          congr 2
          by_cases h0 : x = 0
          · subst h0; rfl
          · have : x.toNat ≠ 0 := fun h => h0 (BitVec.eq_of_toNat_eq h)
            have h0' : ¬ x = 0#8 := h0
            simp [h0', this]
        · exact (p5 _ _ (p4 _ _ hh (.inl (by simp [big]))) (.inl (by simp [big]))).append ((p5 _ _ a4 (.inl (by simp))).append a5 rfl) rfl
      · rename_i hn
        exact ⟨_, rfl, builtAs_none (by omega) (by omega)⟩
    · split
      · rename_i hf
        have h1 := h6 hf
        rw [hf] at hdata
        obtain ⟨x, y, hx⟩ := two_bytes hdata
        rw [hx] at h1
        injection h1 with h1
        subst h1
        have ht : firstByte cmd = .ok x.toNat := by unfold firstByte; rw [hx]
        rw [ht, C.ok_bind]
        split
        · rw [show (2 : Int) = ((2 : Nat) : Int) from rfl, e2, C.ok_bind]
          obtain ⟨b4, e4, l4, a4, p4⟩ := wr_seg (b := b2) (off := 4) (d := beWord x.toNat) (by simp [beWord]; omega)
          rw [show (4 : Int) = ((4 : Nat) : Int) from rfl, e4, C.ok_bind]
          refine ⟨_, rfl, builtAs_some (f := [BitVec.ofNat 8 cmd.node, BitVec.ofNat 8 cmd.function] ++ big cmd.register ++ beWord x.toNat)
            (by omega) ?_ ((p4 _ _ hh (.inl (by simp [big]))).append a4 rfl) rfl (by omega) rfl⟩
          rw [hf, hx]
          show some _ = some _
          congr 2
          have := x.isLt
          unfold beWord
          rw [Nat.div_eq_of_lt this, BitVec.ofNat_toNat, BitVec.setWidth_eq]
          rfl
        · rename_i hn
          exact ⟨_, rfl, builtAs_none (by omega) (by omega)⟩
      · split
        · rename_i hf
          have hlim := h16 hf
          have hs : cmd.data.length = 2 * cmd.length := by rw [hdata, hf]; rfl
          have hw : ∃ w, condCrc cmd junk = .ok w := by
            unfold condCrc
            split
            · exact hcw hf
            · exact ⟨_, rfl⟩
          obtain ⟨w, hw⟩ := hw
          rw [hw, C.ok_bind]
          split
          · rw [show (2 : Int) = ((2 : Nat) : Int) from rfl, e2, C.ok_bind, show (4 : Int) = ((4 : Nat) : Int) from rfl, e3, C.ok_bind]
            obtain ⟨b4, e4, l4, a4, p4⟩ := wr_seg (b := b3) (off := 6) (d := [BitVec.ofNat 8 (cmd.length * 2)]) (by simp; omega)
            obtain ⟨b5, e5, l5, a5, p5⟩ := cmdWords_ok (data := cmd.data) (buff := b4) (base := 7) (k := cmd.length) hs (by omega)
            rw [show (6 : Int) = ((6 : Nat) : Int) from rfl, e4, C.ok_bind, e5, C.ok_bind]
            have hbl := bigAll_length cmd.length cmd.data hs
            refine ⟨_, rfl, builtAs_some (f := [BitVec.ofNat 8 cmd.node, BitVec.ofNat 8 cmd.function] ++ big cmd.register ++ big cmd.length ++
              [BitVec.ofNat 8 (cmd.length * 2)] ++ bigAll cmd.data) (by omega) ?_ ?_ ?_ (by omega) rfl⟩
            · rw [hf]
              show some _ = some _
              rw [Nat.mul_comm 2, List.take_of_length_le (by omega)]
            · exact (p5 _ _ ((p4 _ _ hh3 (.inl (by simp [big]))).append a4 rfl) (by simp [big])).append a5 rfl
            · simp only [List.length_append, hbl, big, List.length_cons, List.length_nil]; omega
          · rename_i hn
            exact ⟨_, rfl, builtAs_none (by omega) (by omega)⟩
        · rename_i n1 n2 n3 n4
          simp at hfun
          omega

/-- **C56**, serial line: the request of a configured command is the frame the protocol defines, whatever was in the buffer, followed by a checksum
that is accepted; a continuous command (`enable` 1) is always sent, others may be left out if they write.  Building the request changes nothing in the command but its
memory of what was sent.

Missing: function 6 sends the low byte of the register only, function 15 does not send the coils, and the length of a request to write 125
registers does not fit its variable (`C56_rtu_word`, `C56_rtu_coils`, `C56_rtu_coils_overrun`, `C56_rtu_length`). -/
theorem C56_rtu_partial {cmd : Cmd} {buff : List Byte} {junk : Nat} (hc : Configured cmd) (hb : buff.length = 1024) (h15 : cmd.function ≠ 15)
    (h16 : cmd.function = 16 → cmd.length ≤ 124) (h6 : cmd.function = 6 → cmd.data[1]? = some 0) :
    ∃ o, sendRtu cmd buff junk = .ok o ∧ (o = none → cmd.enable ≠ 1 ∧ 5 ≤ cmd.function) ∧
      ∀ out cmd', o = some (out, cmd') → (∃ f x y, request cmd.node cmd.function cmd.register cmd.length cmd.data = some f ∧ out = f ++ [x, y] ∧
        crc16check out out.length = .ok true) ∧ cmd' = { cmd with lastcrc := cmd'.lastcrc, firstrun := cmd'.firstrun } := by
  obtain ⟨o, e, hn, hs⟩ := buildRtu_ok (junk := junk) hc hb h15 h16 h6
  unfold sendRtu
  rw [e, C.ok_bind]
  match o, hn, hs with
  | none, hn, _ => exact ⟨none, rfl, fun _ => hn rfl, by simp⟩
  | some (b, n, c'), _, hs =>
    obtain ⟨hl, ⟨f, hf, ha, hn, h300⟩, hcc⟩ := hs b n c' rfl
    obtain ⟨crc, b', x, y, k1, k2, k3, k4⟩ := crc_append (buff := b) (n := n) (by omega) (by omega)
    dsimp only
    rw [k1, C.ok_bind, k2, C.ok_bind, k3, C.ok_bind]
    refine ⟨_, rfl, by simp, fun out c2 h => ?_⟩
    injection h with h; injection h with h1 h2
    subst h2
    rw [ha.take hn] at h1 k4
    refine ⟨⟨f, x, y, hf, h1.symm, ?_⟩, hcc⟩
    rw [← h1, List.length_append, ← hn]
    exact k4

theorem buildTcp_ok {tid : Nat} {cmd : Cmd} {buff : List Byte} {junk : Nat} (hc : Configured cmd) (hb : buff.length = 1024) (h5 : cmd.function ≠ 5) :
    ∃ o, buildTcp tid cmd buff junk = .ok o ∧ BuiltAs cmd 6 o ∧ ∀ b n c, o = some (b, n, c) → At b 0 (big tid ++ [0, 0]) := by
  have hcw := fun h => condWord_ok hc h
  obtain ⟨hnode, hfun, hreg, ⟨hl1, hl2, hl3⟩, hdata⟩ := hc
  unfold buildTcp
  obtain ⟨bt, et, lt, at', pt⟩ := wr_seg (b := buff) (off := 0) (d := beWord tid) (by simp [beWord]; omega)
  obtain ⟨bz, ez, lz, az, pz⟩ := wr_seg (b := bt) (off := 2) (d := [(0 : Byte), 0]) (by simp; omega)
  obtain ⟨b1, e1, l1, a1, p1⟩ := wr_seg (b := bz) (off := 6) (d := [BitVec.ofNat 8 cmd.node, BitVec.ofNat 8 cmd.function]) (by simp; omega)
  have ht1 : At b1 0 (big tid ++ [0, 0]) := p1 _ _ ((pz _ _ at' (.inl (by simp [beWord]))).append az rfl) (.inl (by simp [big, beWord]))
  obtain ⟨b2, e2, l2, a2, p2⟩ := wr_seg (b := b1) (off := 8) (d := beWord cmd.register) (by simp [beWord]; omega)
  have hh : At b2 6 ([BitVec.ofNat 8 cmd.node, BitVec.ofNat 8 cmd.function] ++ big cmd.register) := (p2 _ _ a1 (.inl (by simp))).append a2 rfl
  have ht2 := p2 _ _ ht1 (.inl (by simp [big]))
  obtain ⟨b3, e3, l3, a3, p3⟩ := wr_seg (b := b2) (off := 10) (d := beWord cmd.length) (by simp [beWord]; omega)
  have hh3 : At b3 6 ([BitVec.ofNat 8 cmd.node, BitVec.ofNat 8 cmd.function] ++ big cmd.register ++ big cmd.length) :=
    (p3 _ _ hh (.inl (by simp [big]))).append a3 rfl
  have ht3 := p3 _ _ ht2 (.inl (by simp [big]))
  rw [show (0 : Int) = ((0 : Nat) : Int) from rfl, et, C.ok_bind, show (2 : Int) = ((2 : Nat) : Int) from rfl, ez, C.ok_bind,
    show (6 : Int) = ((6 : Nat) : Int) from rfl, e1, C.ok_bind]
  split
  · rename_i hf
    rw [show (8 : Int) = ((8 : Nat) : Int) from rfl, e2, C.ok_bind, show (10 : Int) = ((10 : Nat) : Int) from rfl, e3, C.ok_bind]
    refine ⟨_, rfl, builtAs_some (by omega) ?_ hh3 rfl (by omega) rfl, fun b n c h => ?_⟩
    · rcases hf with h | h | h | h <;> rw [h] <;> rfl
    · injection h with h; injection h with h; subst h; exact ht3
  · split
    · rename_i hf
      rw [hf] at hdata
      obtain ⟨x, y, hx⟩ := two_bytes hdata
      have ht : firstByte cmd = .ok x.toNat := by unfold firstByte; rw [hx]
      rw [ht, C.ok_bind]
      split
      · rw [show (8 : Int) = ((8 : Nat) : Int) from rfl, e2, C.ok_bind]
        have hrd : rd cmd.data ((0 : Nat) : Int) ((2 : Nat) : Int) = .ok [x, y] := by rw [hx]; rfl
        obtain ⟨b4, e4, l4, a4, p4⟩ := wr_seg (b := b2) (off := 10) (d := [y, x]) (by simp; omega)
        rw [hrd, C.ok_bind, show [x, y].reverse = [y, x] from rfl, show (10 : Int) = ((10 : Nat) : Int) from rfl, e4, C.ok_bind]
        refine ⟨_, rfl, builtAs_some (f := [BitVec.ofNat 8 cmd.node, BitVec.ofNat 8 cmd.function] ++ big cmd.register ++ [y, x])
          (by omega) ?_ ((p4 _ _ hh (.inl (by simp [big]))).append a4 rfl) rfl (by omega) rfl, fun b n c h => ?_⟩
        · rw [hf, hx]
          rfl
        · injection h with h; injection h with h; subst h; exact p4 _ _ ht2 (.inl (by simp [big]))
      · rename_i hn
        exact ⟨_, rfl, builtAs_none (by omega) (by omega), by simp⟩
    · split
      · rename_i hf
        rw [hf] at hl1
        have hl := hl1 (by simp)
        have hs : cmd.data.length = (cmd.length + 7) / 8 := by rw [hdata, hf]; rfl
        have hw : ∃ w, condCrc cmd junk = .ok w := by
          unfold condCrc
          split
          · exact hcw (.inl hf)
          · exact ⟨_, rfl⟩
        obtain ⟨w, hw⟩ := hw
        rw [hw, C.ok_bind]
        split
        · have hcount : BitVec.ofInt 8 (((cmd.length : Int) - 1).tdiv 8 + 1) = BitVec.ofNat 8 ((cmd.length + 7) / 8) := by
            rw [Int.tdiv_eq_ediv_of_nonneg (by omega), show ((cmd.length : Int) - 1) / 8 + 1 = (((cmd.length + 7) / 8 : Nat) : Int) by omega]
            rfl
          have hx : (BitVec.ofNat 8 ((cmd.length + 7) / 8)).toNat = (cmd.length + 7) / 8 := by
            rw [BitVec.toNat_ofNat, Nat.mod_eq_of_lt (by omega)]
          rw [hcount]
          rw [show (8 : Int) = ((8 : Nat) : Int) from rfl, e2, C.ok_bind, show (10 : Int) = ((10 : Nat) : Int) from rfl, e3, C.ok_bind]
          obtain ⟨b4, e4, l4, a4, p4⟩ := wr_seg (b := b3) (off := 12) (d := [BitVec.ofNat 8 ((cmd.length + 7) / 8)]) (by simp; omega)
          have h12 : b4[12]? = some (BitVec.ofNat 8 ((cmd.length + 7) / 8)) := a4 0 (by simp)
          obtain ⟨b5, e5, l5, g5, f5⟩ := byteLoop_ok (data := cmd.data) (lim := 12) (base := 13) (by omega) ((cmd.length + 7) / 8) 0 257 b4
            (by omega) (by omega) (by omega) (by omega) h12
          rw [show (12 : Int) = ((12 : Nat) : Int) from rfl, e4, C.ok_bind, e5, C.ok_bind, f5 _ (by omega), h12]
          dsimp only
          have hp5 : ∀ o e, At b4 o e → o + e.length ≤ 13 → At b5 o e := fun o e he ho i hi => by
            rw [f5 _ (by omega)]; exact he i hi
          have a5 : At b5 13 cmd.data := fun i hi => g5 i (by omega) (by omega)
          refine ⟨_, rfl, builtAs_some (f := [BitVec.ofNat 8 cmd.node, BitVec.ofNat 8 cmd.function] ++ big cmd.register ++ big cmd.length ++
              [BitVec.ofNat 8 ((cmd.length + 7) / 8)] ++ cmd.data) (by omega) ?_ ?_ ?_ (by omega) rfl, fun b n c h => ?_⟩
          · rw [hf]
            show some _ = some _
            rw [List.take_of_length_le (by omega)]
          · exact (hp5 _ _ ((p4 _ _ hh3 (.inl (by simp [big]))).append a4 rfl) (by simp [big])).append a5 rfl
          · simp only [List.length_append, big, List.length_cons, List.length_nil]; omega
          · injection h with h; injection h with h; subst h
            exact hp5 _ _ (p4 _ _ ht3 (.inl (by simp [big]))) (by simp [big])
        · rename_i hn
          exact ⟨_, rfl, builtAs_none (by omega) (by omega), by simp⟩
      · split
        · rename_i hf
          rw [hf] at hl2
          have hlim := hl2 (by simp)
          have hs : cmd.data.length = 2 * cmd.length := by rw [hdata, hf]; rfl
          have hw : ∃ w, condCrc cmd junk = .ok w := by
            unfold condCrc
            split
            · exact hcw (.inr hf)
            · exact ⟨_, rfl⟩
          obtain ⟨w, hw⟩ := hw
          rw [hw, C.ok_bind]
          split
          · rw [show (8 : Int) = ((8 : Nat) : Int) from rfl, e2, C.ok_bind, show (10 : Int) = ((10 : Nat) : Int) from rfl, e3, C.ok_bind]
            obtain ⟨b4, e4, l4, a4, p4⟩ := wr_seg (b := b3) (off := 12) (d := [BitVec.ofNat 8 (cmd.length * 2)]) (by simp; omega)
            obtain ⟨b5, e5, l5, a5, p5⟩ := cmdWords_ok (data := cmd.data) (buff := b4) (base := 13) (k := cmd.length) hs (by omega)
            rw [show (12 : Int) = ((12 : Nat) : Int) from rfl, e4, C.ok_bind, e5, C.ok_bind]
            have hbl := bigAll_length cmd.length cmd.data hs
            refine ⟨_, rfl, builtAs_some (f := [BitVec.ofNat 8 cmd.node, BitVec.ofNat 8 cmd.function] ++ big cmd.register ++ big cmd.length ++
              [BitVec.ofNat 8 (cmd.length * 2)] ++ bigAll cmd.data) (by omega) ?_ ?_ ?_ (by omega) rfl, fun b n c h => ?_⟩
            · rw [hf]
              show some _ = some _
              rw [Nat.mul_comm 2, List.take_of_length_le (by omega)]
            · exact (p5 _ _ ((p4 _ _ hh3 (.inl (by simp [big]))).append a4 rfl) (by simp [big])).append a5 rfl
            · simp only [List.length_append, hbl, big, List.length_cons, List.length_nil]; omega
            · injection h with h; injection h with h; subst h
              exact p5 _ _ (p4 _ _ ht3 (.inl (by simp [big]))) (by simp [big])
          · rename_i hn
            exact ⟨_, rfl, builtAs_none (by omega) (by omega), by simp⟩
        · rename_i n1 n2 n3 n4
          simp at hfun
          omega

/-- **C56**, TCP: the request of a configured command is the transaction number, the protocol number 0, the length of the rest, and the frame the protocol
defines; otherwise as for the serial line.

Missing: function 5 leaves its last byte uninitialised (`C56_tcp_coil`). -/
theorem C56_tcp_partial {tid : Nat} {cmd : Cmd} {buff : List Byte} {junk : Nat} (hc : Configured cmd) (hb : buff.length = 1024) (h5 : cmd.function ≠ 5) :
    ∃ o, sendTcp tid cmd buff junk = .ok o ∧ (o = none → cmd.enable ≠ 1 ∧ 5 ≤ cmd.function) ∧
      ∀ out cmd', o = some (out, cmd') → (∃ f, request cmd.node cmd.function cmd.register cmd.length cmd.data = some f ∧
        out = big tid ++ [0, 0] ++ big f.length ++ f) ∧ cmd' = { cmd with lastcrc := cmd'.lastcrc, firstrun := cmd'.firstrun } := by
  obtain ⟨o, e, ⟨hn, hs⟩, ht⟩ := buildTcp_ok (tid := tid) (junk := junk) hc hb h5
  unfold sendTcp
  rw [e, C.ok_bind]
  match o, hn, hs, ht with
  | none, hn, _, _ => exact ⟨none, rfl, fun _ => hn rfl, by simp⟩
  | some (b, n, c'), _, hs, ht =>
    obtain ⟨hl, ⟨f, hf, ha, hn, h300⟩, hcc⟩ := hs b n c' rfl
    have ha0 := ht b n c' rfl
    obtain ⟨b2, e2, l2, a2, p2⟩ := wr_seg (b := b) (off := 4) (d := beWord n) (by simp [beWord]; omega)
    dsimp only
    have hall : At b2 0 (big tid ++ [0, 0] ++ big n ++ f) :=
      (At.append (p2 _ _ ha0 (.inl (by simp [big]))) a2 rfl).append (p2 _ _ ha (.inr (by simp [beWord]))) rfl
    have hlen : (big tid ++ [0, 0] ++ big n ++ f).length = n + 6 := by
      simp only [List.length_append, big, List.length_cons, List.length_nil]; omega
    have hrd := hall.rd (by omega)
    rw [hlen] at hrd
    rw [show (4 : Int) = ((4 : Nat) : Int) from rfl, e2, C.ok_bind, show ((n : Int) + 6) = ((n + 6 : Nat) : Int) by omega, hrd, C.ok_bind]
    refine ⟨_, rfl, by simp, fun out c2 h => ?_⟩
    injection h with h; injection h with h1 h2
    subst h2
    exact ⟨⟨f, hf, by rw [← h1, hn]⟩, hcc⟩

/-- A buffer full of `x`. -/
def full (x : Byte) : List Byte := List.replicate 1024 x

/-- Over the serial line the high byte of the register is lost: 0x1234 is sent as 0x0034 (`src/modules/modbus/modbus.c:262-271`). -/
theorem C56_rtu_word : Configured { node := 1, function := 6, register := 5, data := [0x34, 0x12] } ∧
    (sendRtu { node := 1, function := 6, register := 5, data := [0x34, 0x12] } (full 0) 0 >>= fun o => C.ok (o.map fun x => x.1.take 6)) =
      .ok (some [1, 6, 0, 5, 0, 0x34]) := ⟨by unfold Configured; decide +kernel, by kernel_rfl⟩

/-- Over the serial line the coils are not sent if the buffer was zero (`src/modules/modbus/modbus.c:288-294`). -/
theorem C56_rtu_coils : Configured { node := 1, function := 15, length := 8, data := [0xA5] } ∧
    (sendRtu { node := 1, function := 15, length := 8, data := [0xA5] } (full 0) 0 >>= fun o => C.ok (o.map fun x => x.1.length)) = .ok (some 9) ∧
    (request 1 15 0 8 [0xA5]).map List.length = some 8 :=
  ⟨by unfold Configured; decide +kernel, by kernel_rfl, by decide⟩

/-- … and if it was not, more than the data of the command may be read. -/
theorem C56_rtu_coils_overrun : ∃ w, sendRtu { node := 1, function := 15, length := 8, data := [0xA5] } (full 255) 0 = .ub w := isOk_false (by decide +kernel)

/-- 125 registers make 257 bytes, of which one is sent. -/
theorem C56_rtu_length : Configured { node := 1, function := 16, length := 125, data := List.replicate 250 0 } ∧
    (sendRtu { node := 1, function := 16, length := 125, data := List.replicate 250 0 } (full 0) 0 >>=
      fun o => C.ok (o.map fun x => x.1.length)) = .ok (some 3) := ⟨by unfold Configured; decide +kernel, by kernel_rfl⟩

/-- Over TCP the last byte of a request to write a coil is what was in the buffer; the protocol wants 0 (`src/modules/modbus/modbus.c:427-437`). -/
theorem C56_tcp_coil : Configured { node := 1, function := 5, register := 5, data := [1] } ∧
    (sendTcp 7 { node := 1, function := 5, register := 5, data := [1] } (full 0x77) 0 >>= fun o => C.ok (o.map fun x => x.1)) =
      .ok (some [0, 7, 0, 0, 0, 6, 1, 5, 0, 5, 0xff, 0x77]) := ⟨by unfold Configured; decide +kernel, by kernel_rfl⟩

/-- Instances. -/
example : (setCommand {} 1 16 5 2 (fun _ => 0)).1 = { node := 1, function := 16, register := 5, length := 2, data := [0, 0, 0, 0] } ∧
    request 1 16 5 2 [0x34, 0x12, 0x78, 0x56] = some [1, 16, 0, 5, 0, 2, 4, 0x12, 0x34, 0x56, 0x78] ∧
    (sendTcp 7 { node := 1, function := 16, register := 5, length := 2, data := [0x34, 0x12, 0x78, 0x56] } (full 0x77) 0 >>=
      fun o => C.ok (o.map fun x => x.1)) = .ok (some [0, 7, 0, 0, 0, 11, 1, 16, 0, 5, 0, 2, 4, 0x12, 0x34, 0x56, 0x78]) :=
  ⟨by decide, by decide, by kernel_rfl⟩

end Dax
