import Verif.Props.ModbusMaster
/-!
# C64, C66: the master takes over what the slave answers
-/
set_option autoImplicit false
namespace Dax
open Modbus LibData
open Wire (shifted shiftSize)

/-! ## C64: one answer -/

theorem or128 (b : Byte) : 128 ≤ (b ||| 0x80).toNat := by
  have h : ∀ n : Fin 256, 128 ≤ (BitVec.ofFin (w := 8) n ||| 0x80).toNat := by decide +kernel
  exact h b.toFin

/-- The beginning of the requests for data. -/
theorem request_read {node function register count : Nat} {data req : List Byte} (hf : function ≤ 4) (hcnt : count < 65536)
    (h : request node function register count data = some req) :
    req.getD 0 0 = BitVec.ofNat 8 node ∧ req.getD 1 0 = BitVec.ofNat 8 function ∧ field req 4 = count := by
  have hh : request node function register count data = if function = 0 then none else
      some ([BitVec.ofNat 8 node, BitVec.ofNat 8 function] ++ big register ++ big count) := by
    match function, hf with
    | 0, _ => rfl
    | 1, _ => rfl
    | 2, _ => rfl
    | 3, _ => rfl
    | 4, _ => rfl
  rw [hh] at h
  split at h
  · cases h
  · simp only [Option.some.injEq] at h
    subst h
    refine ⟨rfl, rfl, ?_⟩
    show (BitVec.ofNat 8 (count / 256)).toNat * 256 + (BitVec.ofNat 8 count).toNat = count
    simp only [BitVec.toNat_ofNat]
    omega

/-- Every request begins with node and function code. -/
theorem request_head {node function register count : Nat} {data req : List Byte} (h : request node function register count data = some req) :
    req.getD 0 0 = BitVec.ofNat 8 node ∧ req.getD 1 0 = BitVec.ofNat 8 function ∧ 2 ≤ req.length := by
  unfold request at h
  dsimp only at h
  split at h <;> first | (cases h; done) | (simp only [Option.some.injEq] at h; subst h; exact ⟨rfl, rfl, by simp⟩)

theorem swapped_all {src dst : List Byte} {k : Nat} (h1 : src.length = 2 * k) (h2 : dst.length = 2 * k)
    (h : ∀ m < k, dst[2 * m]? = src[2 * m + 1]? ∧ dst[2 * m + 1]? = src[2 * m]?) : dst = bigAll src := by
  have hl := bigAll_length k src h1
  apply List.ext_getElem?
  intro i
  by_cases hi : i < 2 * k
  · have hg := bigAll_get src (i / 2) (by omega)
    have hm := h (i / 2) (by omega)
    by_cases hp : i % 2 = 0
    · have e : i = 2 * (i / 2) := by omega
      rw [e, hg.1, hm.1]
    · have e : i = 2 * (i / 2) + 1 := by omega
      rw [e, hg.2, hm.2]
  · rw [List.getElem?_eq_none (by omega), List.getElem?_eq_none (by omega)]

/-- **C64**, one answer: whatever the slave answers to the request of a configured command is taken over without access outside the buffers: the
bits or registers asked for, and nothing else; exceptions and acknowledgements leave the memory of the command alone. -/
theorem C64_answer {cmd : Cmd} {req ans rest : List Byte} (hc : Configured cmd)
    (hreq : request cmd.node cmd.function cmd.register cmd.length cmd.data = some req) (ha : Answer req ans) :
    handleResponse (ans ++ rest) cmd = .ok (taken cmd.function cmd.data ans, (refusal ans : Int)) := by
  obtain ⟨⟨hn1, hn2⟩, hf, hreg, ⟨hl1, hl2, hl3⟩, hd⟩ := hc
  obtain ⟨q0, q1, q2⟩ := request_head hreq
  have hf' : cmd.function < 128 := by
    simp only [List.mem_cons, List.not_mem_nil, or_false] at hf
    omega
  have hcode : code req = cmd.function := by
    unfold code; rw [q1, BitVec.toNat_ofNat, Nat.mod_eq_of_lt (by omega)]
  have hb0 : (req.getD 0 0).toNat = cmd.node := by rw [q0, BitVec.toNat_ofNat, Nat.mod_eq_of_lt (by omega)]
  have hb1 : (req.getD 1 0).toNat = cmd.function := hcode
  cases ha with
  | exception x =>
    have h128 := or128 (req.getD 1 0)
    unfold handleResponse taken refusal code
    simp only [List.cons_append, List.getElem?_cons_zero, List.getElem?_cons_succ, List.getD_cons_zero, List.getD_cons_succ]
    rw [if_pos h128, if_pos h128, if_pos h128]
  | bits d hf1 hd1 hs =>
    rw [hcode] at hf1
    obtain ⟨-, -, hfld⟩ := request_read (by omega) hl3 hreq
    rw [hfld] at hd1
    have hdl : cmd.data.length = d.length := by
      rw [hd, hd1]
      rcases hf1 with e | e <;> rw [e] <;> rfl
    have hrd : rd (req.getD 0 0 :: req.getD 1 0 :: BitVec.ofNat 8 d.length :: d ++ rest) 3 (d.length : Int) = .ok d := by
      obtain ⟨x, hx⟩ := rd_total (b := req.getD 0 0 :: req.getD 1 0 :: BitVec.ofNat 8 d.length :: d ++ rest) (off := 3) (n := (d.length : Int))
        ⟨by omega, by omega, by simp only [List.cons_append, List.length_cons, List.length_append]; omega⟩
      rw [hx]
      congr 1
      apply List.ext_getElem?
      intro i
      have hlen := rd_length hx
      by_cases hi : i < d.length
      · rw [rd_get hx i, if_pos (by omega)]
        show (req.getD 0 0 :: req.getD 1 0 :: BitVec.ofNat 8 d.length :: (d ++ rest))[3 + i]? = _
        rw [show 3 + i = i + 3 by omega, List.getElem?_cons_succ, List.getElem?_cons_succ, List.getElem?_cons_succ, List.getElem?_append_left hi]
      · rw [List.getElem?_eq_none (by omega), List.getElem?_eq_none (by omega)]
    have hwr : wr cmd.data 0 d = .ok d := by
      obtain ⟨b', e, l, g⟩ := wr_at (b := cmd.data) (off := 0) (d := d) (by omega)
      rw [show ((0 : Nat) : Int) = 0 from rfl] at e
      rw [e]
      congr 1
      apply List.ext_getElem?
      intro i
      rw [g]
      by_cases hi : i < d.length
      · rw [if_pos (by omega)]; rfl
      · rw [if_neg (by omega), List.getElem?_eq_none (by omega), List.getElem?_eq_none (by omega)]
    have hcd : code (req.getD 0 0 :: req.getD 1 0 :: BitVec.ofNat 8 d.length :: d) = cmd.function := hb1
    have htk : taken cmd.function cmd.data (req.getD 0 0 :: req.getD 1 0 :: BitVec.ofNat 8 d.length :: d) = d := by
      unfold taken
      rw [hcd, if_neg (by omega)]
      rcases hf1 with e | e <;> rw [e] <;> rfl
    have hrf : refusal (req.getD 0 0 :: req.getD 1 0 :: BitVec.ofNat 8 d.length :: d) = 0 := by
      unfold refusal
      rw [hcd, if_neg (by omega)]
    rw [htk, hrf]
    unfold handleResponse
    show (if (req.getD 1 0).toNat ≥ 128 then _ else if (req.getD 0 0).toNat ≠ cmd.node then _ else if (req.getD 1 0).toNat ≠ cmd.function then _ else
      _) = _
    rw [hb0, hb1, if_neg (by omega), if_neg (by simp), if_neg (by simp), if_pos hf1, BitVec.toNat_ofNat, Nat.mod_eq_of_lt (by omega), hrd, C.ok_bind,
      hwr]
    rfl
  | words d hf1 hd1 hs =>
    rw [hcode] at hf1
    obtain ⟨-, -, hfld⟩ := request_read (by omega) hl3 hreq
    rw [hfld] at hd1
    have hdl : cmd.data.length = d.length := by
      rw [hd, hd1]
      rcases hf1 with e | e <;> rw [e] <;> rfl
    have hcd : code (req.getD 0 0 :: req.getD 1 0 :: BitVec.ofNat 8 d.length :: d) = cmd.function := hb1
    have htk : taken cmd.function cmd.data (req.getD 0 0 :: req.getD 1 0 :: BitVec.ofNat 8 d.length :: d) = bigAll d := by
      unfold taken
      rw [hcd, if_neg (by omega)]
      rcases hf1 with e | e <;> rw [e] <;> rfl
    have hrf : refusal (req.getD 0 0 :: req.getD 1 0 :: BitVec.ofNat 8 d.length :: d) = 0 := by
      unfold refusal
      rw [hcd, if_neg (by omega)]
    rw [htk, hrf]
    obtain ⟨dst, e, l, g, -⟩ := swapLoop_ok (req.getD 0 0 :: req.getD 1 0 :: BitVec.ofNat 8 d.length :: d ++ rest) 3 0 (d.length / 2) 0 cmd.data
      (by simp only [List.cons_append, List.length_cons, List.length_append]; omega) (by omega)
    have hdst : dst = bigAll d := by
      refine swapped_all (k := cmd.length) hd1 (by omega) fun m hm => ?_
      have := g m (by omega) (by omega)
      rw [Nat.zero_add] at this
      rw [this.1, this.2]
      constructor
      · show (req.getD 0 0 :: req.getD 1 0 :: BitVec.ofNat 8 d.length :: (d ++ rest))[3 + 2 * m + 1]? = _
        rw [show 3 + 2 * m + 1 = (2 * m + 1) + 3 by omega, List.getElem?_cons_succ, List.getElem?_cons_succ, List.getElem?_cons_succ,
          List.getElem?_append_left (by omega)]
      · show (req.getD 0 0 :: req.getD 1 0 :: BitVec.ofNat 8 d.length :: (d ++ rest))[3 + 2 * m]? = _
        rw [show 3 + 2 * m = (2 * m) + 3 by omega, List.getElem?_cons_succ, List.getElem?_cons_succ, List.getElem?_cons_succ,
          List.getElem?_append_left (by omega)]
    unfold handleResponse
    show (if (req.getD 1 0).toNat ≥ 128 then _ else if (req.getD 0 0).toNat ≠ cmd.node then _ else if (req.getD 1 0).toNat ≠ cmd.function then _ else
      _) = _
    rw [hb0, hb1, if_neg (by omega), if_neg (by simp), if_neg (by simp), if_neg (by omega), if_pos hf1, BitVec.toNat_ofNat, Nat.mod_eq_of_lt (by omega),
      respWords_eq, e, hdst]
    rfl
  | echo hf1 hl =>
    rw [hcode] at hf1
    obtain ⟨a, b, c, r, rfl⟩ : ∃ a b c r, req = a :: b :: c :: r := by
      match req, hl with
      | a :: b :: c :: r, _ => exact ⟨a, b, c, r, rfl⟩
    have hcd : code ((a :: b :: c :: r).take 6) = cmd.function := hb1
    have htk : taken cmd.function cmd.data ((a :: b :: c :: r).take 6) = cmd.data := by
      unfold taken
      rw [hcd, if_neg (by omega)]
      rcases hf1 with e | e | e | e <;> rw [e] <;> rfl
    have hrf : refusal ((a :: b :: c :: r).take 6) = 0 := by
      unfold refusal
      rw [hcd, if_neg (by omega)]
    rw [htk, hrf]
    have hb0' : a.toNat = cmd.node := hb0
    have hb1' : b.toNat = cmd.function := hb1
    unfold handleResponse
    show (if b.toNat ≥ 128 then _ else if a.toNat ≠ cmd.node then _ else if b.toNat ≠ cmd.function then _ else _) = _
    rw [hb0', hb1', if_neg (by omega), if_neg (by simp), if_neg (by simp), if_neg (by omega), if_neg (by omega)]
    rfl


/-- **C64**: what another node answers, or an answer to another function, changes nothing. -/
theorem C64_foreign {cmd : Cmd} {a b c : Byte} {rest : List Byte} (hb : b.toNat < 128) (h : a.toNat ≠ cmd.node ∨ b.toNat ≠ cmd.function) :
    ∃ r : Int, 0 < r ∧ handleResponse (a :: b :: c :: rest) cmd = .ok (cmd.data, r) := by
  unfold handleResponse
  show ∃ r : Int, 0 < r ∧ (if b.toNat ≥ 128 then _ else if a.toNat ≠ cmd.node then _ else if b.toNat ≠ cmd.function then _ else _) = _
  rw [if_neg (by omega)]
  by_cases ha : a.toNat = cmd.node
  · rw [if_neg (by simpa using ha), if_pos (by omega)]
    exact ⟨1, by decide, rfl⟩
  · rw [if_pos ha]
    exact ⟨3, by decide, rfl⟩

/-! ## Receiving -/

theorem crcLoop_append (rest : List Byte) : ∀ (n : Nat) (msg : List Byte) (hi lo : Byte), n ≤ msg.length →
    crcLoop hi lo (msg ++ rest) n = crcLoop hi lo msg n
  | 0, msg, hi, lo, _ => by unfold crcLoop; rfl
  | n + 1, [], hi, lo, h => by simp at h
  | n + 1, b :: msg, hi, lo, h => by
    simp only [List.length_cons] at h
    show crcLoop _ _ (msg ++ rest) n = crcLoop _ _ msg n
    exact crcLoop_append rest n msg _ _ (by omega)

theorem rd_append {b rest : List Byte} {off n : Nat} (h : off + n ≤ b.length) : rd (b ++ rest) (off : Int) (n : Int) = rd b (off : Int) (n : Int) := by
  obtain ⟨x, hx⟩ := rd_total (b := b ++ rest) (off := (off : Int)) (n := (n : Int)) ⟨by omega, by omega, by simp; omega⟩
  obtain ⟨y, hy⟩ := rd_total (b := b) (off := (off : Int)) (n := (n : Int)) ⟨by omega, by omega, by omega⟩
  rw [hx, hy]
  congr 1
  have l1 := rd_length hx
  have l2 := rd_length hy
  apply List.ext_getElem?
  intro i
  by_cases hi : i < n
  · rw [rd_get hx, rd_get hy, if_pos (by omega), if_pos (by omega), List.getElem?_append_left (by omega)]
  · rw [List.getElem?_eq_none (by omega), List.getElem?_eq_none (by omega)]

/-- The checksum of a message does not depend on what is behind it in the buffer. -/
theorem check_append (d rest : List Byte) : crc16check (d ++ rest) d.length = crc16check d d.length := by
  unfold crc16check
  split
  · rfl
  · have e1 : crc16 (d ++ rest) (d.length - 2) = crc16 d (d.length - 2) := by
      unfold crc16
      exact crcLoop_append rest _ d _ _ (by have := Nat.mod_le (d.length - 2) 65536; omega)
    have e2 : getWord (d ++ rest) (d.length - 2) = getWord d (d.length - 2) := by
      unfold getWord
      have := rd_append (b := d) (rest := rest) (off := d.length - 2) (n := 2) (by omega)
      rw [show ((2 : Nat) : Int) = 2 from rfl] at this
      rw [this]
    rw [e1, e2]

/-- The pieces are put together. -/
theorem fill_ok : ∀ (ps : List (List Byte)) (buff : List Byte) (p : Nat), p + ps.flatten.length ≤ buff.length →
    fill buff p ps = .ok (buff.take p ++ ps.flatten ++ buff.drop (p + ps.flatten.length), p + ps.flatten.length)
  | [], buff, p, h => by
    unfold fill
    simp
  | d :: ps, buff, p, h => by
    simp only [List.flatten_cons, List.length_append] at h ⊢
    obtain ⟨b', e, l, g⟩ := wr_at (b := buff) (off := p) (d := d) (by omega)
    have hb : b' = buff.take p ++ d ++ buff.drop (p + d.length) := by
      apply List.ext_getElem?
      intro i
      rw [g]
      by_cases h1 : i < p
      · rw [if_neg (by omega), List.append_assoc, List.getElem?_append_left (by simp; omega), List.getElem?_take, if_pos h1]
      · by_cases h2 : i < p + d.length
        · rw [if_pos (by omega), List.getElem?_append_left (by simp; omega), List.getElem?_append_right (by simp; omega)]
          congr 1
          simp; omega
        · rw [if_neg (by omega), List.getElem?_append_right (by simp; omega), List.getElem?_drop]
          congr 1
          simp; omega
    unfold fill
    rw [e, C.ok_bind, fill_ok ps b' (p + d.length) (by omega)]
    subst hb
    congr 1
    rw [Prod.mk.injEq]
    refine ⟨?_, by omega⟩
    have t1 : (buff.take p ++ d ++ buff.drop (p + d.length)).take (p + d.length) = buff.take p ++ d := by
      rw [List.take_append_of_le_length (by simp; omega), List.take_of_length_le (by simp; omega)]
    have t2 : (buff.take p ++ d ++ buff.drop (p + d.length)).drop (p + d.length + ps.flatten.length) = buff.drop (p + (d.length + ps.flatten.length)) := by
      rw [List.drop_append, List.drop_of_length_le (by simp; omega), List.drop_drop, List.nil_append]
      congr 1
      simp; omega
    rw [t1, t2]
    simp

theorem getRtu_ok {buff : List Byte} {ps : List (List Byte)} (h : ps.flatten.length ≤ buff.length) :
    getRtu buff ps = (if ps.flatten.length > 0 then do
      if ← crc16check ps.flatten ps.flatten.length then .ok (ps.flatten ++ buff.drop ps.flatten.length, (ps.flatten.length : Int))
      else .ok (ps.flatten ++ buff.drop ps.flatten.length, -1)
    else .ok (buff, 0)) := by
  unfold getRtu
  rw [fill_ok ps buff 0 (by omega), C.ok_bind]
  dsimp only
  rw [Nat.zero_add, List.take_zero, List.nil_append]
  split
  · rw [check_append]
  · rename_i hz
    have : ps.flatten = [] := List.eq_nil_of_length_eq_zero (by omega)
    rw [this]; simp

theorem getTcp_ok {buff hdr ans : List Byte} (hb : buff.length = 1024) (hh : hdr.length = 6) (ha : 0 < ans.length) (hl : hdr.length + ans.length ≤ 256) :
    getTcp buff (hdr ++ ans) = .ok (ans ++ buff.drop ans.length, (ans.length : Int), []) := by
  unfold getTcp
  have hM : MB_BUFF_SIZE = 256 := rfl
  have e1 : (hdr ++ ans).take MB_BUFF_SIZE = hdr ++ ans := List.take_of_length_le (by simp; omega)
  have e2 : (hdr ++ ans).drop MB_BUFF_SIZE = [] := List.drop_of_length_le (by simp; omega)
  have e3 : (hdr ++ ans).drop 6 = ans := by rw [← hh, List.drop_left]
  dsimp only
  rw [e1, e2, e3, if_pos (by simp; omega), if_neg (by simp; omega)]
  have := fill_ok [ans] buff 0 (by simp; omega)
  unfold fill at this
  obtain ⟨b', e, this⟩ := C.bind_eq_ok.mp this
  unfold fill at this
  simp only [List.flatten_cons, List.flatten_nil, List.append_nil, Nat.zero_add, List.take_zero, List.nil_append, C.ok.injEq, Prod.mk.injEq] at this
  rw [show ((0 : Nat) : Int) = 0 from rfl] at e
  rw [e, C.ok_bind, this.1]
  congr 1
  rw [Prod.mk.injEq, Prod.mk.injEq]
  refine ⟨rfl, ?_, rfl⟩
  simp; omega


/-! ## Tries -/

/-- What tries leave alone, and what they have sent. -/
structure Tried (tcp : Bool) (f : List Byte) (n : Nat) (l l' : Link) : Prop where
  s : l'.s = l.s
  c : l'.c = l.c
  handle : l'.job.handle = l.job.handle
  cmd : l'.job.cmd = { l.job.cmd with lastcrc := l'.job.cmd.lastcrc, firstrun := l'.job.cmd.firstrun }
  buff : l'.buff.length = 1024
  pending : l'.pending = []
  sent : ∃ outs, l'.sent = l.sent ++ outs ∧ outs.length = n ∧ ∀ out ∈ outs, OnLine tcp f out

theorem Tried.trans {tcp : Bool} {f : List Byte} {n m : Nat} {l l' l'' : Link} (h : Tried tcp f n l l') (h' : Tried tcp f m l' l'') : Tried tcp f (n + m) l l'' := by
  obtain ⟨o1, e1, n1, p1⟩ := h.sent
  obtain ⟨o2, e2, n2, p2⟩ := h'.sent
  refine ⟨h'.s.trans h.s, h'.c.trans h.c, h'.handle.trans h.handle, ?_, h'.buff, h'.pending, o1 ++ o2, by rw [e2, e1, List.append_assoc], by simp; omega, ?_⟩
  · have := h'.cmd
    rw [h.cmd] at this
    exact this
  · intro out ho
    rcases List.mem_append.mp ho with ho | ho
    · exact p1 out ho
    · exact p2 out ho

theorem sound_tried {tcp : Bool} {f : List Byte} {n : Nat} {l l' : Link} (h : Tried tcp f n l l') (hs : Sound tcp l.job.cmd) : Sound tcp l'.job.cmd := by
  rw [h.cmd]
  exact hs

theorem sendRequest_ok {tcp : Bool} {o : Outside} {l : Link} {f : List Byte} (hs : Sound tcp l.job.cmd) (ho : o.buff.length = 1024) (hb : l.buff.length = 1024)
    (hp : l.pending = [])
    (hf : request l.job.cmd.node l.job.cmd.function l.job.cmd.register l.job.cmd.length l.job.cmd.data = some f) :
    ∃ l1, sendRequest tcp o l = .ok (some l1) ∧ Tried tcp f 1 l l1 ∧ l1.buff = l.buff := by
  obtain ⟨hc, he, h5, hr⟩ := hs
  unfold sendRequest frameFor
  cases tcp with
  | true =>
    obtain ⟨q, e, hn, hq⟩ := C56_tcp_partial (tid := l.tid) (junk := o.junk) hc ho (h5 rfl)
    rw [if_pos rfl, e, C.ok_bind]
    match q, hn, hq with
    | none, hn, _ => have := hn rfl; omega
    | some (out, cmd'), _, hq =>
      obtain ⟨⟨f', hf', hout⟩, hcmd⟩ := hq out cmd' rfl
      rw [hf] at hf'
      cases hf'
      exact ⟨_, rfl, ⟨rfl, rfl, rfl, hcmd, hb, hp, [out], rfl, rfl, fun x hx => by
        rw [List.mem_singleton] at hx
        subst hx
        exact ⟨l.tid, hout⟩⟩, rfl⟩
  | false =>
    obtain ⟨h15, h16, h6⟩ := hr rfl
    obtain ⟨q, e, hn, hq⟩ := C56_rtu_partial (junk := o.junk) hc ho h15 h16 h6
    rw [if_neg (by decide), e, C.ok_bind]
    match q, hn, hq with
    | none, hn, _ => have := hn rfl; omega
    | some (out, cmd'), _, hq =>
      obtain ⟨⟨f', x, y, hf', hout, hcrc⟩, hcmd⟩ := hq out cmd' rfl
      rw [hf] at hf'
      cases hf'
      exact ⟨_, rfl, ⟨rfl, rfl, rfl, hcmd, hb, rfl, [out], rfl, rfl, fun z hz => by
        rw [List.mem_singleton] at hz
        subst hz
        exact ⟨x, y, hout, hcrc⟩⟩, rfl⟩

theorem tryOnce_useless {fd : Int} {tcp : Bool} {o : Outside} {l : Link} {f : List Byte} {heard : List (List Byte)} (hs : Sound tcp l.job.cmd)
    (ho : o.buff.length = 1024) (hb : l.buff.length = 1024) (hp : l.pending = [])
    (hf : request l.job.cmd.node l.job.cmd.function l.job.cmd.register l.job.cmd.length l.job.cmd.data = some f) (hu : Useless tcp heard) :
    ∃ l1, tryOnce fd tcp o heard l = .ok (l1, none) ∧ Tried tcp f 1 l l1 := by
  obtain ⟨l1, e1, t1, b1⟩ := sendRequest_ok hs ho hb hp hf
  have hb1 : l1.buff.length = 1024 := by rw [b1]; exact hb
  unfold tryOnce
  rw [e1, C.ok_bind]
  dsimp only
  have hrec : ∃ b m, receive tcp heard l1 = .ok ({ l1 with buff := b, pending := [] }, m) ∧ ¬ 0 < m ∧ b.length = 1024 := by
    unfold receive
    cases tcp with
    | true =>
      rcases hu with hu | ⟨hu, -⟩
      · refine ⟨l1.buff, 0, ?_, by omega, hb1⟩
        rw [if_pos rfl, t1.pending, hu]
        rfl
      · cases hu
    | false =>
      rw [if_neg (by decide)]
      rcases hu with hu | ⟨-, hl, hu⟩
      · refine ⟨l1.buff, 0, ?_, by omega, hb1⟩
        rw [getRtu_ok (by rw [hu]; simp), if_neg (by rw [hu]; simp), ← t1.pending]
        rfl
      · rw [getRtu_ok (by omega)]
        by_cases hz : heard.flatten.length > 0
        · refine ⟨heard.flatten ++ l1.buff.drop heard.flatten.length, -1, ?_, by omega, by rw [List.length_append, List.length_drop]; omega⟩
          rw [if_pos hz, hu, ← t1.pending]
          rfl
        · refine ⟨l1.buff, 0, ?_, by omega, hb1⟩
          rw [if_neg hz, ← t1.pending]
          rfl
  obtain ⟨b, m, e2, hm, hbl⟩ := hrec
  rw [e2, C.ok_bind]
  dsimp only
  rw [if_neg (by omega)]
  exact ⟨_, rfl, ⟨t1.s, t1.c, t1.handle, t1.cmd, hbl, rfl, t1.sent⟩⟩

/-- The number of bytes around a message. -/
def around (tcp : Bool) : Nat := if tcp then 0 else 2

theorem tryOnce_answer {fd : Int} {tcp : Bool} {o : Outside} {l : Link} {f ans : List Byte} {heard : List (List Byte)} (hs : Sound tcp l.job.cmd)
    (ho : o.buff.length = 1024) (hb : l.buff.length = 1024) (hp : l.pending = [])
    (hf : request l.job.cmd.node l.job.cmd.function l.job.cmd.register l.job.cmd.length l.job.cmd.data = some f) (hd : Delivers tcp heard ans)
    (ha : 0 < ans.length) (hl : ans.length + 2 ≤ 1024) :
    ∃ l1 rest, tryOnce fd tcp o heard l = (answered fd o l1 >>= fun l => C.ok (l, some ((ans.length + around tcp : Nat) : Int))) ∧
      l1.buff = ans ++ rest ∧ Tried tcp f 1 l l1 := by
  obtain ⟨l1, e1, t1, b1⟩ := sendRequest_ok hs ho hb hp hf
  have hb1 : l1.buff.length = 1024 := by rw [b1]; exact hb
  unfold tryOnce
  rw [e1, C.ok_bind]
  dsimp only
  have hrec : ∃ rest, receive tcp heard l1 = .ok ({ l1 with buff := ans ++ rest, pending := [] }, ((ans.length + around tcp : Nat) : Int)) ∧
      (ans ++ rest).length = 1024 := by
    unfold receive
    cases tcp with
    | true =>
      obtain ⟨hdr, h6, hfl, hlen⟩ := hd
      refine ⟨l1.buff.drop ans.length, ?_, by simp; omega⟩
      rw [if_pos rfl, t1.pending, List.nil_append, hfl, getTcp_ok hb1 h6 ha hlen]
      rfl
    | false =>
      obtain ⟨x, y, hfl, hcrc⟩ := hd
      have hfl2 : heard.flatten.length = ans.length + 2 := by rw [hfl]; simp
      refine ⟨[x, y] ++ l1.buff.drop (ans.length + 2), ?_, by simp; omega⟩
      rw [if_neg (by decide), getRtu_ok (by omega), if_pos (by omega), hfl2, hfl, hcrc, ← t1.pending]
      rw [List.append_assoc]
      rfl
  obtain ⟨rest, e2, hbl⟩ := hrec
  rw [e2, C.ok_bind]
  dsimp only
  rw [if_pos (by omega)]
  exact ⟨_, rest, rfl, rfl, ⟨t1.s, t1.c, t1.handle, t1.cmd, hbl, rfl, t1.sent⟩⟩

theorem tryLoop_answer {fd : Int} {tcp : Bool} {o : Outside} {f ans : List Byte} (ho : o.buff.length = 1024) (ha : 0 < ans.length) (hla : ans.length + 2 ≤ 1024) :
    ∀ (m k n : Nat) (l : Link), m ≤ k → Sound tcp l.job.cmd → l.buff.length = 1024 → l.pending = [] →
      request l.job.cmd.node l.job.cmd.function l.job.cmd.register l.job.cmd.length l.job.cmd.data = some f →
      (∀ i < m, Useless tcp (o.heard (n + i))) → Delivers tcp (o.heard (n + m)) ans →
    ∃ l1 rest, tryLoop fd tcp o k n l = (answered fd o l1 >>= fun l => C.ok (l, ((ans.length + around tcp : Nat) : Int))) ∧
      l1.buff = ans ++ rest ∧ Tried tcp f (m + 1) l l1 := by
  intro m
  induction m with
  | zero =>
    intro k n l hk hs hb hp hf hu hd
    obtain ⟨l1, rest, e, h1, h2⟩ := tryOnce_answer (fd := fd) hs ho hb hp hf hd ha hla
    rw [Nat.add_zero] at e
    refine ⟨l1, rest, ?_, h1, h2⟩
    cases k with
    | zero =>
      unfold tryLoop
      rw [e]
      cases answered fd o l1 <;> rfl
    | succ k =>
      unfold tryLoop
      rw [e]
      cases answered fd o l1 <;> rfl
  | succ m ih =>
    intro k n l hk hs hb hp hf hu hd
    obtain ⟨k, rfl⟩ : ∃ k', k = k' + 1 := ⟨k - 1, by omega⟩
    obtain ⟨l1, e, t⟩ := tryOnce_useless (fd := fd) hs ho hb hp hf (hu 0 (by omega))
    rw [Nat.add_zero] at e
    have hf1 : request l1.job.cmd.node l1.job.cmd.function l1.job.cmd.register l1.job.cmd.length l1.job.cmd.data = some f := by
      rw [t.cmd]; exact hf
    obtain ⟨l2, rest, e2, h1, h2⟩ := ih k (n + 1) l1 (by omega) (sound_tried t hs) t.buff t.pending hf1
      (fun i hi => by have := hu (i + 1) (by omega); rwa [show n + (i + 1) = n + 1 + i by omega] at this)
      (by rwa [show n + (m + 1) = n + 1 + m by omega] at hd)
    refine ⟨l2, rest, ?_, h1, ?_⟩
    · unfold tryLoop
      rw [e, C.ok_bind]
      exact e2
    · have := t.trans h2
      rwa [show 1 + (m + 1) = m + 1 + 1 by omega] at this


/-! ## C64: exchanges -/

theorem answer_length {req ans : List Byte} (h : Answer req ans) : 0 < ans.length ∧ ans.length ≤ 258 := by
  cases h with
  | exception x => simp
  | bits d _ _ hs => simp; omega
  | words d _ _ hs => simp; omega
  | echo _ hl => simp; omega

/-- An exchange of a command that reads: the answer is handled once, whatever the tries before have brought. -/
theorem sendCommand_read {fd : Int} {tcp : Bool} {retries m : Nat} {o : Outside} {l : Link} {req ans : List Byte} (hs : Sound tcp l.job.cmd)
    (hfn : l.job.cmd.function ≤ 4) (ho : o.buff.length = 1024) (hp : l.pending = [])
    (hreq : request l.job.cmd.node l.job.cmd.function l.job.cmd.register l.job.cmd.length l.job.cmd.data = some req) (ha : Answer req ans)
    (hm : m ≤ retries) (hu : ∀ i < m, Useless tcp (o.heard i)) (hd : Delivers tcp (o.heard m) ans) :
    ∃ l1 rest, sendCommand fd tcp retries o l = (answered fd o l1 >>= fun l => C.ok (l, ((ans.length + around tcp : Nat) : Int))) ∧
      l1.buff = ans ++ rest ∧ Tried tcp req (m + 1) l l1 := by
  have hal := answer_length ha
  obtain ⟨l1, rest, e, h1, h2⟩ := tryLoop_answer (fd := fd) (ans := ans) ho hal.1 (by omega) m retries 0 { l with buff := o.buff } hm hs ho hp hreq
    (fun i hi => by rw [Nat.zero_add]; exact hu i hi) (by rw [Nat.zero_add]; exact hd)
  refine ⟨l1, rest, ?_, h1, ⟨h2.s, h2.c, h2.handle, h2.cmd, h2.buff, h2.pending, h2.sent⟩⟩
  unfold sendCommand
  have he := hs.2.1
  rw [if_neg (by omega)]
  dsimp only
  rw [if_neg (by omega)]
  exact e

theorem answered_read {fd : Int} {o : Outside} {l : Link} {req ans rest : List Byte} (hc : Configured l.job.cmd) (hfn : l.job.cmd.function ≤ 4)
    (hreq : request l.job.cmd.node l.job.cmd.function l.job.cmd.register l.job.cmd.length l.job.cmd.data = some req) (ha : Answer req ans)
    (hb : l.buff = ans ++ rest) :
    ∃ st : Stat, st.responses = l.job.st.responses + 1 ∧ st.lasterror = (if 0 < refusal ans then refusal ans ||| 0x80 else 0) ∧
    answered fd o l = (if 0 < refusal ans then
        .ok { l with job := { l.job with cmd := { l.job.cmd with data := taken l.job.cmd.function l.job.cmd.data ans }, st := st } }
      else do
        let (s, c, job) ← sendReadData l.s fd l.c
          { l.job with cmd := { l.job.cmd with data := taken l.job.cmd.function l.job.cmd.data ans }, st := st } o.find
        .ok { l with s := s, c := c, job := job }) := by
  have hf : 1 ≤ l.job.cmd.function := by
    have := hc.2.1
    simp only [List.mem_cons, List.not_mem_nil, or_false] at this
    omega
  unfold answered
  rw [hb, C64_answer hc hreq ha, C.ok_bind]
  dsimp only
  by_cases hr : 0 < refusal ans
  · rw [if_pos (show (refusal ans : Int) > 0 by omega)]
    exact ⟨_, rfl, (if_pos hr).symm, (if_pos hr).symm⟩
  · rw [if_neg (show ¬ (refusal ans : Int) > 0 by omega), if_pos (show 1 ≤ l.job.cmd.function ∧ l.job.cmd.function ≤ 4 from ⟨hf, hfn⟩)]
    exact ⟨_, rfl, (if_neg hr).symm, (if_neg hr).symm⟩

theorem sendReadData_eq {s s' : Server} {fd : Int} {c c' : TypeCache} {job job' : Job} {find : Option Handle} {h : Handle}
    (hh : job.handle = some h ∨ (job.handle = none ∧ find = some h)) (hsz : h.size ≤ job.cmd.data.length)
    (e : sendReadData s fd c job find = .ok (s', c', job')) :
    (∃ l o d, daxTagWrite s fd c h job.cmd.data = .ok (s', c', l, o, d)) ∧ job' = { job with handle := some h } := by
  have hj : jobHandle job find = { job with handle := some h } := by
    unfold jobHandle
    rcases hh with hh | ⟨hh, hf⟩
    · rw [hh]
      show job = _
      rw [← hh]
    · rw [hh, hf]
      dsimp only
      rw [if_neg (by omega)]
  unfold sendReadData at e
  dsimp only at e
  rw [hj] at e
  dsimp only at e
  obtain ⟨⟨s1, c1, l1, o1, d1⟩, e1, e⟩ := C.bind_eq_ok.mp e
  dsimp only at e
  split at e
  · cases e
  · simp only [C.ok.injEq, Prod.mk.injEq] at e
    obtain ⟨rfl, rfl, rfl⟩ := e
    exact ⟨⟨_, _, _, e1⟩, rfl⟩

/-- Where an exchange ends: the memory of the command holds what the answer brought; the server is as before after a refusal, and has got
one write of this memory to the tag of the command otherwise. -/
theorem exchange_read {fd : Int} {tcp : Bool} {retries m : Nat} {o : Outside} {l l' : Link} {req ans : List Byte} {r : Int} {h : Handle} (hs : Sound tcp l.job.cmd)
    (hfn : l.job.cmd.function ≤ 4) (ho : o.buff.length = 1024) (hp : l.pending = [])
    (hreq : request l.job.cmd.node l.job.cmd.function l.job.cmd.register l.job.cmd.length l.job.cmd.data = some req) (ha : Answer req ans)
    (hm : m ≤ retries) (hu : ∀ i < m, Useless tcp (o.heard i)) (hd : Delivers tcp (o.heard m) ans)
    (hh : l.job.handle = some h ∨ (l.job.handle = none ∧ o.find = some h))
    (hsz : h.size ≤ (taken l.job.cmd.function l.job.cmd.data ans).length)
    (e : sendCommand fd tcp retries o l = .ok (l', r)) :
    0 < r ∧ l'.job.cmd.data = taken l.job.cmd.function l.job.cmd.data ans ∧ (∃ outs, l'.sent = l.sent ++ outs ∧ outs.length = m + 1 ∧ ∀ out ∈ outs, OnLine tcp req out) ∧
      l'.job.st.lasterror = (if 0 < refusal ans then refusal ans ||| 0x80 else 0) ∧ (0 < refusal ans → l'.s = l.s) ∧
      (refusal ans = 0 → ∃ lg oc d, daxTagWrite l.s fd l.c h (taken l.job.cmd.function l.job.cmd.data ans) = .ok (l'.s, l'.c, lg, oc, d)) := by
  obtain ⟨l1, rest, e1, hb, t⟩ := sendCommand_read (fd := fd) hs hfn ho hp hreq ha hm hu hd
  rw [e1] at e
  have hc1 : l1.job.cmd = { l.job.cmd with lastcrc := l1.job.cmd.lastcrc, firstrun := l1.job.cmd.firstrun } := t.cmd
  have hF : l1.job.cmd.function = l.job.cmd.function := by rw [hc1]
  have hD : l1.job.cmd.data = l.job.cmd.data := by rw [hc1]
  obtain ⟨st, -, hle, e2⟩ := answered_read (fd := fd) (o := o) (l := l1) (req := req) (ans := ans) (rest := rest) (sound_tried t hs).1 (by rw [hF]; exact hfn)
    (by rw [hc1]; exact hreq) ha hb
  rw [hF, hD] at e2
  obtain ⟨l2, e3, e⟩ := C.bind_eq_ok.mp e
  simp only [C.ok.injEq, Prod.mk.injEq] at e
  obtain ⟨rfl, rfl⟩ := e
  have hal := answer_length ha
  rw [e2] at e3
  refine ⟨by omega, ?_⟩
  by_cases hr : 0 < refusal ans
  · rw [if_pos hr] at e3
    simp only [C.ok.injEq] at e3
    subst e3
    exact ⟨rfl, t.sent, hle, fun _ => t.s, fun h0 => by omega⟩
  · rw [if_neg hr] at e3
    obtain ⟨⟨s3, c3, j3⟩, e4, e3⟩ := C.bind_eq_ok.mp e3
    simp only [C.ok.injEq] at e3
    subst e3
    obtain ⟨g1, g2⟩ := sendReadData_eq (h := h) (by dsimp only; rw [t.handle]; exact hh) hsz e4
    rw [t.s, t.c] at g1
    refine ⟨by rw [g2], t.sent, by rw [g2]; exact hle, fun h0 => absurd h0 hr, fun _ => g1⟩

/-- A register tag takes what a command writes. -/
theorem tagWrite_registers {s s' : Server} {fd : Int} {c c' : TypeCache} {h : Handle} {i n : Nat} {data : List Byte} {M : Mem} {l : Log} {o : Outcome} {d : List Byte}
    (g : Good i n s)
    (hm : ∀ i name, LiveAt s i name → NoMaps s i) (hM : Agrees M s) (hi : h.index = i) (ht : h.type = DAX_UINT) (hpos : 0 < h.size) (hs : h.size ≤ 2000)
    (hd : 2 ∣ h.size) (hc : 2 * h.count ≤ data.length) (hl : h.size ≤ data.length) (hin : h.byte + h.size ≤ n) (hn : n ≤ 200000)
    (hh : daxTagWrite s fd c h data = .ok (s', c', l, o, d)) :
    Reachable s' ∧ Ordinary s' i ∧ Agrees (M.store i h.byte (data.take h.size)) s' := by
  have hne : o ≠ .endless := by
    intro ho
    subst ho
    have hsh : shifted h = false := by
      unfold shifted; rw [ht]; rfl
    obtain ⟨c2, r, g1, ⟨hr', hx⟩ | ⟨rfl, hw⟩⟩ := daxTagWrite_plain hsh hh
    · exact absurd hx (by simp)
    · obtain ⟨code, h0, -⟩ := transfer_ok (ts := 2) (sends_write (base := h.byte) (by omega) (Nat.le_refl _)) (by decide) (by decide) hd
        (by decide) (fun h => by omega) (by omega) (by omega) (fun h => h) hw
      cases h0
  have : slaveWrite s fd c h data = .ok (s', c') := by
    unfold slaveWrite
    rw [hh, C.ok_bind]
    dsimp only
    rw [if_neg hne]
  exact uint_written g hm hM hi ht hpos hs hd hc hl hin hn this


theorem taken_length {cmd : Cmd} {req ans : List Byte} (hc : Configured cmd)
    (hreq : request cmd.node cmd.function cmd.register cmd.length cmd.data = some req) (ha : Answer req ans) :
    (taken cmd.function cmd.data ans).length = cmd.data.length ∧ (code ans < 128 → cmd.function = 1 ∨ cmd.function = 2 ∨ cmd.function = 3 ∨ cmd.function = 4 →
      ans.length = cmd.data.length + 3) := by
  obtain ⟨⟨hn1, hn2⟩, hf, hreg, ⟨hl1, hl2, hl3⟩, hd⟩ := hc
  obtain ⟨q0, q1, q2⟩ := request_head hreq
  have hf' : cmd.function < 128 := by
    simp only [List.mem_cons, List.not_mem_nil, or_false] at hf
    omega
  have hcode : code req = cmd.function := by
    unfold code; rw [q1, BitVec.toNat_ofNat, Nat.mod_eq_of_lt (by omega)]
  cases ha with
  | exception x =>
    have h128 : 128 ≤ code [req.getD 0 0, req.getD 1 0 ||| 0x80, x] := or128 (req.getD 1 0)
    refine ⟨?_, fun h => by omega⟩
    unfold taken
    rw [if_pos h128]
  | bits d hf1 hd1 hs =>
    rw [hcode] at hf1
    obtain ⟨-, -, hfld⟩ := request_read (by omega) hl3 hreq
    rw [hfld] at hd1
    have hdl : cmd.data.length = d.length := by
      rw [hd, hd1]
      rcases hf1 with e | e <;> rw [e] <;> rfl
    refine ⟨?_, fun _ _ => by simp; omega⟩
    unfold taken
    rw [if_neg (by show ¬ 128 ≤ code req; omega)]
    rcases hf1 with e | e <;> rw [e] <;> exact hdl.symm
  | words d hf1 hd1 hs =>
    rw [hcode] at hf1
    obtain ⟨-, -, hfld⟩ := request_read (by omega) hl3 hreq
    rw [hfld] at hd1
    have hdl : cmd.data.length = d.length := by
      rw [hd, hd1]
      rcases hf1 with e | e <;> rw [e] <;> rfl
    have hbl : (bigAll d).length = 2 * cmd.length := bigAll_length cmd.length d hd1
    refine ⟨?_, fun _ _ => by simp; omega⟩
    unfold taken
    rw [if_neg (by show ¬ 128 ≤ code req; omega)]
    rcases hf1 with e | e <;> rw [e] <;> (show (bigAll d).length = _) <;> omega
  | echo hf1 hl =>
    rw [hcode] at hf1
    refine ⟨?_, fun _ h => by omega⟩
    unfold taken
    split
    · rfl
    · rcases hf1 with e | e | e | e <;> rw [e] <;> rfl

/-- **C64**, registers: the command is sent until an answer comes, at most `retries` times more; tries without answer or with a wrong
checksum change nothing.  The registers of the answer are then in the tag of the command, and no other byte of any tag has changed.  After an exception
(with a code that is not 0) no tag has changed, and the last error of the command is its code with bit 7 set; otherwise it is 0.

Missing: see `C64_overrun`, `C64_long`, `C64_short`, `C64_truncated`, `C64_stale`, `C64_exception_zero`, `C64_larger_tag`. -/
theorem C64_registers_partial {fd : Int} {tcp : Bool} {retries m i n a : Nat} {o : Outside} {l l' : Link} {req ans : List Byte} {r : Int} {h : Handle} {name : Name}
    {M : Mem} (hs : Sound tcp l.job.cmd) (hfn : l.job.cmd.function = 3 ∨ l.job.cmd.function = 4) (ho : o.buff.length = 1024) (hp : l.pending = [])
    (hreq : request l.job.cmd.node l.job.cmd.function l.job.cmd.register l.job.cmd.length l.job.cmd.data = some req) (ha : Answer req ans)
    (hm : m ≤ retries) (hu : ∀ i < m, Useless tcp (o.heard i)) (hd : Delivers tcp (o.heard m) ans)
    (hh : l.job.handle = some h ∨ (l.job.handle = none ∧ o.find = some h)) (hi : h.index = i) (ht : h.type = DAX_UINT) (hpos : 0 < h.count)
    (hsz : h.size = 2 * h.count) (hfit : h.size ≤ l.job.cmd.data.length) (hin : h.byte + h.size ≤ 2 * n) (hn : n ≤ 100000)
    (hr : Reachable l.s) (hmap : ∀ i name, LiveAt l.s i name → NoMaps l.s i) (hM : Agrees M l.s) (hat : AttrAt l.s i a) (h0 : a.testBit 0 = false)
    (h1 : a.testBit 1 = false) (h3 : a.testBit 3 = false) (h4 : a.testBit 4 = false) (hl : LiveTag l.s i name DAX_UINT n)
    (e : sendCommand fd tcp retries o l = .ok (l', r)) :
    0 < r ∧ (∃ outs, l'.sent = l.sent ++ outs ∧ outs.length = m + 1 ∧ ∀ out ∈ outs, OnLine tcp req out) ∧
      l'.job.st.lasterror = (if 0 < refusal ans then refusal ans ||| 0x80 else 0) ∧ (0 < refusal ans → l'.s = l.s) ∧
      (code ans < 128 → Reachable l'.s ∧ Ordinary l'.s i ∧ ∃ M', Agrees M' l'.s ∧
        (∀ k < h.count, (M' i (h.byte + 2 * k + 1), M' i (h.byte + 2 * k)) = (ans.getD (3 + 2 * k) 0, ans.getD (4 + 2 * k) 0)) ∧
        ∀ t p, ¬ (t = i ∧ h.byte ≤ p ∧ p < h.byte + h.size) → M' t p = M t p) := by
  have htl := taken_length hs.1 hreq ha
  obtain ⟨g1, g2, g3, gl, g4, g5⟩ := exchange_read hs (by omega) ho hp hreq ha hm hu hd hh (by omega) e
  refine ⟨g1, g3, gl, g4, fun hcode => ?_⟩
  have hrf : refusal ans = 0 := by unfold refusal; rw [if_neg (by omega)]
  have hdl : l.job.cmd.data.length ≤ 250 := by
    have hc := hs.1
    have := hc.2.2.2.2
    have h125 := (hc.2.2.2.1.2.1 (by rcases hfn with e | e <;> rw [e] <;> decide)).2
    rw [this]
    rcases hfn with e | e <;> rw [e] <;> (show 2 * l.job.cmd.length ≤ 250) <;> omega
  have hal := htl.2 hcode (by omega)
  have htk : taken l.job.cmd.function l.job.cmd.data ans = bigAll (ans.drop 3) := by
    unfold taken
    rw [if_neg (by omega)]
    rcases hfn with e | e <;> rw [e] <;> rfl
  obtain ⟨lg, oc, d, hw⟩ := g5 hrf
  rw [htk] at hw htl
  have g := good_of hr hmap hat h0 h1 h3 h4 hl (n := 2 * n) (.inr ⟨2, by decide, rfl⟩) (by omega)
  obtain ⟨k1, k2, k3⟩ := tagWrite_registers g hmap hM hi ht (by omega) (by omega) (by omega) (by omega) (by omega) hin (by omega) hw
  refine ⟨k1, k2, _, k3, fun k hk => ?_, fun t p hp => ?_⟩
  · have hlen : (ans.drop 3).length = l.job.cmd.data.length := by rw [List.length_drop]; omega
    have hb := bigAll_get (ans.drop 3) k (by omega)
    have ev : ∀ q, q < h.size → (M.store i h.byte ((bigAll (ans.drop 3)).take h.size)) i (h.byte + q) = (bigAll (ans.drop 3)).getD q 0 := by
      intro q hq
      unfold Mem.store
      rw [if_pos ⟨rfl, by omega⟩, show h.byte + q - h.byte = q by omega, List.getElem?_take, if_pos (by omega),
        getD_some (b := bigAll (ans.drop 3)) (k := q) (by omega)]
      rfl
    rw [Nat.add_assoc, ev _ (by omega), ev _ (by omega), List.getD_eq_getElem?_getD, List.getD_eq_getElem?_getD, hb.1, hb.2, List.getElem?_drop,
      List.getElem?_drop, ← List.getD_eq_getElem?_getD, ← List.getD_eq_getElem?_getD, show 3 + (2 * k + 1) = 4 + 2 * k by omega]
  · unfold Mem.store
    split
    · rw [List.getElem?_take, if_neg (by omega)]
      rfl
    · rfl

/-- **C64**, coils and discrete inputs: likewise.  Missing also: handles of exactly 2040 bytes that begin inside a byte (see C24). -/
theorem C64_bits_partial {fd : Int} {tcp : Bool} {retries m i n a : Nat} {o : Outside} {l l' : Link} {req ans : List Byte} {r : Int} {h : Handle} {name : Name}
    {M : Mem} (hs : Sound tcp l.job.cmd) (hfn : l.job.cmd.function = 1 ∨ l.job.cmd.function = 2) (ho : o.buff.length = 1024) (hp : l.pending = [])
    (hreq : request l.job.cmd.node l.job.cmd.function l.job.cmd.register l.job.cmd.length l.job.cmd.data = some req) (ha : Answer req ans)
    (hm : m ≤ retries) (hu : ∀ i < m, Useless tcp (o.heard i)) (hd : Delivers tcp (o.heard m) ans)
    (hh : l.job.handle = some h ∨ (l.job.handle = none ∧ o.find = some h)) (hi : h.index = i) (hb : Bools h)
    (hfit : h.size ≤ l.job.cmd.data.length) (hcnt : h.count ≤ 8 * l.job.cmd.data.length) (hn : n ≤ 100000)
    (hin : h.byte + h.size + Wire.extraByte h ≤ n / 8 + 1)
    (hr : Reachable l.s) (hmap : ∀ i name, LiveAt l.s i name → NoMaps l.s i) (hM : Agrees M l.s) (hat : AttrAt l.s i a) (h0 : a.testBit 0 = false)
    (h1 : a.testBit 1 = false) (h3 : a.testBit 3 = false) (h4 : a.testBit 4 = false) (hl : LiveTag l.s i name DAX_BOOL n)
    (e : sendCommand fd tcp retries o l = .ok (l', r)) :
    0 < r ∧ (∃ outs, l'.sent = l.sent ++ outs ∧ outs.length = m + 1 ∧ ∀ out ∈ outs, OnLine tcp req out) ∧
      l'.job.st.lasterror = (if 0 < refusal ans then refusal ans ||| 0x80 else 0) ∧ (0 < refusal ans → l'.s = l.s) ∧
      (code ans < 128 → Reachable l'.s ∧ Ordinary l'.s i ∧ ∃ M', Agrees M' l'.s ∧
        (∀ q < h.count, memBit M' i (8 * h.byte + h.bit + q) = bitOf ans (3 + q / 8) (q % 8)) ∧
        ∀ t p, ¬ (t = i ∧ 8 * h.byte + h.bit ≤ p ∧ p < 8 * h.byte + h.bit + h.count) → memBit M' t p = memBit M t p) := by
  have htl := taken_length hs.1 hreq ha
  obtain ⟨g1, g2, g3, gl, g4, g5⟩ := exchange_read hs (by omega) ho hp hreq ha hm hu hd hh (by omega) e
  refine ⟨g1, g3, gl, g4, fun hcode => ?_⟩
  have hrf : refusal ans = 0 := by unfold refusal; rw [if_neg (by omega)]
  have hdl : l.job.cmd.data.length ≤ 250 := by
    have hc := hs.1
    have := hc.2.2.2.2
    have h125 := (hc.2.2.2.1.1 (by rcases hfn with e | e <;> rw [e] <;> decide)).2
    rw [this]
    rcases hfn with e | e <;> rw [e] <;> (show (l.job.cmd.length + 7) / 8 ≤ 250) <;> omega
  have hal := htl.2 hcode (by omega)
  have htk : taken l.job.cmd.function l.job.cmd.data ans = ans.drop 3 := by
    unfold taken
    rw [if_neg (by omega)]
    rcases hfn with e | e <;> rw [e] <;> rfl
  obtain ⟨lg, oc, d, hw⟩ := g5 hrf
  rw [htk] at hw htl
  obtain ⟨rfl, k1, k2⟩ := C24_accepted_partial hr hmap hat h0 h1 h3 h4 hl hi hb (by omega) (by omega) hin (by omega) hw
  obtain ⟨M', hM', hb1, hb2⟩ := C24_write hr hmap hM hi hb (by omega) (by omega) hw
  refine ⟨k1, k2, M', hM', fun q hq => ?_, hb2⟩
  rw [hb1 q hq]
  unfold bitOf
  rw [List.getElem?_drop]


/-! ## Where the code departs from C64 -/

/-- **C64 fails**: an answer that says it carries more bytes than were asked for is written behind the memory of the command
(`src/modules/modbus/modbus.c:576-586`). -/
theorem C64_overrun : Configured { node := 1, function := 3, length := 2, data := [0, 0, 0, 0] } ∧
    (∃ w, handleResponse ([1, 3, 6] ++ full 0) { node := 1, function := 3, length := 2, data := [0, 0, 0, 0] } = .ub w) ∧
    ∃ w, handleResponse ([1, 1, 2] ++ full 0) { node := 1, function := 1, length := 3, data := [0] } = .ub w :=
  ⟨by unfold Configured; decide +kernel, isOk_false (by decide +kernel), isOk_false (by decide +kernel)⟩

/-- **C64 fails**: more than 1024 bytes on the serial line without a pause are written behind the buffer
(`src/modules/modbus/modbus.c:355-359`). -/
theorem C64_long (d : List Byte) (h : 1024 < d.length) : ∃ w, getRtu (full 0) [d] = .ub w := by
  have hb : (full 0).length = 1024 := List.length_replicate
  refine ⟨"write outside block", ?_⟩
  unfold getRtu fill
  have : wr (full 0) ((0 : Nat) : Int) d = .ub "write outside block" := by
    unfold wr
    rw [if_neg (by omega)]
  rw [this]
  rfl

/-- **C64 fails**: an answer over TCP of which less than six bytes have come makes the master copy with a negative length
(`src/modules/modbus/modbus.c:538-541`). -/
theorem C64_short (d buff : List Byte) (h0 : 0 < d.length) (h : d.length < 6) : getTcp buff d = .ub "memcpy with negative length" := by
  unfold getTcp
  have hM : MB_BUFF_SIZE = 256 := rfl
  have e : d.take MB_BUFF_SIZE = d := List.take_of_length_le (by omega)
  dsimp only
  rw [e, if_pos (by omega), if_pos h]

/-- A master over TCP whose command asks node 1 for registers. -/
def tcpLink (register length : Nat) (pending : List Byte) : Link :=
  { s := demo mbOps, c := [], job := { cmd := { node := 1, function := 3, register := register, length := length, data := List.replicate (2 * length) 0 } }
    tid := 7, pending := pending, buff := [] }

/-- **C64 fails**: the answer with 124 registers has 257 bytes over TCP, of which 256 are read (`src/modules/modbus/modbus.c:517-541`).  The last
register gets its low byte from the uninitialised buffer, and the byte that was not read stays where the next answer is expected. -/
theorem C64_truncated : (sendCommand 5 true 0 { heard := fun _ => [[0, 7, 0, 0, 0, 251, 1, 3, 248], List.replicate 246 0x11, [0xAB, 0xCD]], buff := full 0x77 } (tcpLink 0 124 []) >>=
      fun x => C.ok (x.1.job.cmd.data.drop 246, x.1.pending, x.1.job.st.responses, x.1.job.st.lasterror)) =
    .ok ([0x77, 0xAB], [0xCD], 1, 0) := by kernel_rfl

/-- **C64 fails**: the number of the request is not compared: an answer that was late, to a request for register 0, is taken for the answer to the
request for register 10 (`src/modules/modbus/modbus.c:517-549,562-574`). -/
theorem C64_stale : (sendCommand 5 true 0 { heard := fun _ => [[0, 7, 0, 0, 0, 5, 1, 3, 2, 0xAB, 0xCD]], buff := full 0 }
      (tcpLink 10 1 [0, 6, 0, 0, 0, 5, 1, 3, 2, 0x12, 0x34]) >>=
      fun x => C.ok (x.1.sent, x.1.job.cmd.data, x.1.job.st.lasterror)) =
    .ok ([[0, 7, 0, 0, 0, 6, 1, 3, 0, 10, 0, 1]], [0x34, 0x12], 0) := by kernel_rfl

/-- A master on a serial line whose command asks node 1 for two registers, to be put into registers 10 and 11 of tag 12. -/
def rtuLink (data : List Byte) : Link :=
  { s := demo mbOps, c := [], job := { cmd := { node := 1, function := 3, register := 0, length := 2, data := data } }, buff := [] }

def rtuHandle : Handle := ⟨12, 20, 0, 2, 4, DAX_UINT⟩

/-- **C64 fails**: an exception with code 0 is taken for a success, so that what the command had in its memory before goes to the tag
(`src/modules/modbus/modbus.c:568-569,713-722`). -/
theorem C64_exception_zero : (sendCommand 5 false 0 { heard := fun _ => [[1, 0x83, 0, 0x41, 0x30]], find := some rtuHandle, buff := full 0 }
      (rtuLink [1, 2, 3, 4]) >>= fun x => handle x.1.s 5 (.tagRead 12 20 4) >>= fun y => C.ok (y.2, x.1.job.st.exceptions, x.1.job.st.lasterror)) =
    .ok (.resp [1, 2, 3, 4], 0, 0) := by kernel_rfl

/-- **C64 fails**: if the tag is larger than what the command reads, the size in the handle is corrected but not the number of elements; the library
converts as many elements as the tag has, behind the memory of the command (`src/modules/modbus/modbus.c:636-643`, `src/lib/libdata.c:415-502`). -/
theorem C64_larger_tag : ∃ w, sendCommand 5 false 0 { heard := fun _ => [[1, 3, 4, 0xAB, 0xCD, 0x12, 0x34, 0x46, 0x9F]], find := some ⟨12, 0, 0, 200, 400, DAX_UINT⟩, buff := full 0 }
      (rtuLink [1, 2, 3, 4]) = .ub w := isOk_false (by decide +kernel)

/-! ## Instances of C64 -/

/-- A silent try, a try with a wrong checksum, and the answer in three pieces. -/
def hearing : Nat → List (List Byte)
  | 0 => []
  | 1 => [[1, 3, 4, 0xAB], [0xCD, 0x12, 0x34, 0x46, 0x9E]]
  | _ => [[1, 3], [4, 0xAB, 0xCD], [0x12, 0x34, 0x46, 0x9F]]

example : (sendCommand 5 false 2 { heard := hearing, find := some rtuHandle, buff := full 0 } (rtuLink [1, 2, 3, 4]) >>=
      fun x => handle x.1.s 5 (.tagRead 12 20 4) >>= fun y => C.ok (y.2, x.2, x.1.sent.length, x.1.job.st)) =
    .ok (.resp [0xCD, 0xAB, 0x34, 0x12], 9, 3, { requests := 3, responses := 1, timeouts := 1, crcerrors := 1 }) := by kernel_rfl


/-- The hypotheses of `C64_registers_partial` are met by this exchange. -/
example : Sound false (rtuLink [1, 2, 3, 4]).job.cmd ∧ request 1 3 0 2 [1, 2, 3, 4] = some [1, 3, 0, 0, 0, 2] ∧
    Answer [1, 3, 0, 0, 0, 2] [1, 3, 4, 0xAB, 0xCD, 0x12, 0x34] ∧ (∀ i < 2, Useless false (hearing i)) ∧
    Delivers false (hearing 2) [1, 3, 4, 0xAB, 0xCD, 0x12, 0x34] ∧ AttrAt (demo mbOps) 12 0 ∧ LiveTag (demo mbOps) 12 (nm "hold") DAX_UINT 200 := by
  refine ⟨⟨by unfold Configured; decide +kernel, .inl rfl, fun h => (by cases h), fun _ => ⟨by decide, fun h => absurd h (by decide), fun h => absurd h (by decide)⟩⟩,
    by decide, .words [0xAB, 0xCD, 0x12, 0x34] (.inl rfl) (by decide) (by decide), fun i hi => ?_, ⟨0x46, 0x9F, rfl, by kernel_rfl⟩,
    ⟨by decide, nm "hold", DAX_UINT, 200, fun fd => by kernel_rfl⟩, ⟨by decide, by decide, 0, fun fd => by kernel_rfl⟩⟩
  match i, hi with
  | 0, _ => exact .inl rfl
  | 1, _ => exact .inr ⟨rfl, by decide, by kernel_rfl⟩

/-- A TCP exchange that reads ten coils into bits 3 to 12 of tag 13. -/
example : (sendCommand 5 true 2 { heard := fun n => if n = 0 then [] else [[0, 1, 0, 0, 0, 5, 1], [1, 2, 0xFF, 0x01]], find := some ⟨13, 0, 3, 10, 2, DAX_BOOL⟩, buff := full 0x77 }
      { s := demo mbOps, c := [], job := { cmd := { node := 1, function := 1, register := 5, length := 10, data := [0, 0] } }, buff := [] } >>=
      fun x => handle x.1.s 5 (.tagRead 13 0 3) >>= fun y => C.ok (y.2, x.2, x.1.sent, x.1.job.st.timeouts)) =
    .ok (.resp [0xFD, 0x2F, 0], 5, [[0, 0, 0, 0, 0, 6, 1, 1, 0, 5, 0, 10], [0, 1, 0, 0, 0, 6, 1, 1, 0, 5, 0, 10]], 1) := by kernel_rfl

example : Sound true { node := 1, function := 1, register := 5, length := 10, data := [0, 0] } ∧ Bools ⟨13, 0, 3, 10, 2, DAX_BOOL⟩ ∧
    Answer [1, 1, 0, 5, 0, 10] [1, 1, 2, 0xFF, 0x01] ∧ Delivers true [[0, 1, 0, 0, 0, 5, 1], [1, 2, 0xFF, 0x01]] [1, 1, 2, 0xFF, 0x01] :=
  ⟨⟨by unfold Configured; decide +kernel, .inl rfl, fun _ => by decide, fun h => (by cases h)⟩, ⟨rfl, by decide, by decide, by decide⟩,
    .bits [0xFF, 0x01] (.inl rfl) (by decide) (by decide), ⟨[0, 1, 0, 0, 0, 5], rfl, rfl, by decide⟩⟩

/-! ## C65 -/

/-- **C65**: a command sends its request at most once and `retries` times more.  Every request is counted, and is counted once as answered, as not
answered in time or as answered with a wrong checksum; nothing is sent after an answer.  The result is positive if and only if there was an
answer; it is negative only if all retries are used up, and is then the last error. -/
theorem C65_accounting {fd : Int} {tcp : Bool} {retries : Nat} {o : Outside} {l l' : Link} {r : Int} (h : sendCommand fd tcp retries o l = .ok (l', r)) :
    ∃ fs : List (List Byte), l'.sent = l.sent ++ fs ∧ fs.length ≤ retries + 1 ∧ Accounted l.job.st l'.job.st fs.length ∧
      (0 < r ↔ l'.job.st.responses = l.job.st.responses + 1) ∧
      (r < 0 → fs.length = retries + 1 ∧ r = -(l'.job.st.lasterror : Int) ∧ (l'.job.st.lasterror = 4 ∨ l'.job.st.lasterror = 8)) := by
  unfold sendCommand at h
  split at h
  · simp only [C.ok.injEq, Prod.mk.injEq] at h
    obtain ⟨rfl, rfl⟩ := h
    exact ⟨[], by simp, by simp, ⟨rfl, rfl, .inl rfl, ⟨Nat.le_refl _, Nat.le_refl _⟩⟩, by simp, by simp⟩
  · dsimp only at h
    split at h
    · obtain ⟨⟨s1, c1, j1⟩, h2, h⟩ := C.bind_eq_ok.mp h
      dsimp only at h
      have hst : j1.st = l.job.st := by
        have hj := jobHandle_st l.job o.find
        unfold getWriteData at h2
        dsimp only at h2
        split at h2
        · simp only [C.ok.injEq, Prod.mk.injEq] at h2
          rw [← h2.2.2]; exact hj.1
        · obtain ⟨⟨s3, c3, l3, o3, d3⟩, -, h2⟩ := C.bind_eq_ok.mp h2
          dsimp only at h2
          split at h2
          · cases h2
          · obtain ⟨data, -, h2⟩ := C.bind_eq_ok.mp h2
            simp only [C.ok.injEq, Prod.mk.injEq] at h2
            rw [← h2.2.2]; exact hj.1
      obtain ⟨fs, a1, a2, a3, a4, a5⟩ := tryLoop_accounted retries 0 _ l' r h
      dsimp only at a1 a3 a4
      rw [hst] at a3 a4
      exact ⟨fs, a1, a2, a3, a4, a5⟩
    · exact tryLoop_accounted retries 0 { l with buff := o.buff } l' r h


theorem tryLoop_useless {fd : Int} {tcp : Bool} {o : Outside} {f : List Byte} (ho : o.buff.length = 1024) :
    ∀ (k n : Nat) (l : Link), Sound tcp l.job.cmd → l.buff.length = 1024 → l.pending = [] →
      request l.job.cmd.node l.job.cmd.function l.job.cmd.register l.job.cmd.length l.job.cmd.data = some f →
      (∀ i ≤ k, Useless tcp (o.heard (n + i))) →
    ∃ l1, tryLoop fd tcp o k n l = .ok (l1, -(l1.job.st.lasterror : Int)) ∧ Tried tcp f (k + 1) l l1 ∧
      (l1.job.st.lasterror = 4 ∨ l1.job.st.lasterror = 8) := by
  intro k
  induction k with
  | zero =>
    intro n l hs hb hp hf hu
    obtain ⟨l1, e, t⟩ := tryOnce_useless (fd := fd) hs ho hb hp hf (hu 0 (Nat.le_refl _))
    rw [Nat.add_zero] at e
    refine ⟨l1, ?_, t, ?_⟩
    · unfold tryLoop
      rw [e]
      rfl
    · rcases tryOnce_accounted e with ⟨h, -⟩ | ⟨out, -, -, ⟨x, h, -⟩ | ⟨-, -, -, -, h⟩ | ⟨-, -, -, -, h⟩⟩
      · cases h
      · cases h
      · exact .inr h
      · exact .inl h
  | succ k ih =>
    intro n l hs hb hp hf hu
    obtain ⟨l1, e, t⟩ := tryOnce_useless (fd := fd) hs ho hb hp hf (hu 0 (by omega))
    rw [Nat.add_zero] at e
    have hf1 : request l1.job.cmd.node l1.job.cmd.function l1.job.cmd.register l1.job.cmd.length l1.job.cmd.data = some f := by
      rw [t.cmd]; exact hf
    obtain ⟨l2, e2, h2, h3⟩ := ih (n + 1) l1 (sound_tried t hs) t.buff t.pending hf1
      (fun i hi => by have := hu (i + 1) (by omega); rwa [show n + (i + 1) = n + 1 + i by omega] at this)
    refine ⟨l2, ?_, ?_, h3⟩
    · unfold tryLoop
      rw [e, C.ok_bind]
      exact e2
    · have := t.trans h2
      rwa [show 1 + (k + 1) = k + 1 + 1 by omega] at this

/-- **C65**: as long as no answer comes, the request the protocol defines for the command is sent again, until the retries are used up; the server has not been asked
for anything.  (For commands that read.) -/
theorem C65_retries_partial {fd : Int} {tcp : Bool} {retries : Nat} {o : Outside} {l : Link} {req : List Byte} (hs : Sound tcp l.job.cmd)
    (hfn : l.job.cmd.function ≤ 4) (ho : o.buff.length = 1024) (hp : l.pending = [])
    (hreq : request l.job.cmd.node l.job.cmd.function l.job.cmd.register l.job.cmd.length l.job.cmd.data = some req)
    (hu : ∀ i ≤ retries, Useless tcp (o.heard i)) :
    ∃ l' r, sendCommand fd tcp retries o l = .ok (l', r) ∧ (r = -4 ∨ r = -8) ∧ l'.s = l.s ∧ l'.job.cmd.data = l.job.cmd.data ∧
      ∃ outs, l'.sent = l.sent ++ outs ∧ outs.length = retries + 1 ∧ ∀ out ∈ outs, OnLine tcp req out := by
  obtain ⟨l1, e, t, hlast⟩ := tryLoop_useless (fd := fd) ho retries 0 { l with buff := o.buff } hs ho hp hreq (fun i hi => by rw [Nat.zero_add]; exact hu i hi)
  have hse : sendCommand fd tcp retries o l = .ok (l1, -(l1.job.st.lasterror : Int)) := by
    unfold sendCommand
    have he := hs.2.1
    rw [if_neg (by omega)]
    dsimp only
    rw [if_neg (by omega)]
    exact e
  refine ⟨l1, _, hse, ?_, t.s, by rw [t.cmd], t.sent⟩
  omega


/-- **C65 fails**: a command that writes only when its value has changed (`enable` 2) notes the value before the request is sent
(`src/modules/modbus/modbus.c:253-271`).  If the request is not answered it is not sent again, though there are three retries, the result is 0 and not an error,
and the next scan sends nothing either: the value is lost. -/
theorem C65_changes_lost : (sendCommand 5 false 3 { find := some ⟨12, 0, 0, 1, 2, DAX_UINT⟩, buff := full 0 }
      { s := demo mbOps, c := [], job := { cmd := { enable := 2, node := 1, function := 6, data := [0, 0] } }, buff := [] } >>= fun x =>
      sendCommand 5 false 3 { find := some ⟨12, 0, 0, 1, 2, DAX_UINT⟩, buff := full 0 } x.1 >>= fun y =>
        C.ok (x.2, x.1.job.cmd.data, x.1.sent.length, x.1.job.st.timeouts, y.2, y.1.sent.length)) =
    .ok (0, [0x34, 0x12], 1, 1, 0, 1) := by kernel_rfl

/-- Instance: three requests, of which none is answered. -/
example : (sendCommand 5 false 2 { heard := fun n => if n = 1 then [[1, 2], [3]] else [], buff := full 0 } (rtuLink [1, 2, 3, 4]) >>=
    fun x => C.ok (x.2, x.1.sent, x.1.job.st)) =
    .ok (-8, [[1, 3, 0, 0, 0, 2, 0xC4, 0x0B], [1, 3, 0, 0, 0, 2, 0xC4, 0x0B], [1, 3, 0, 0, 0, 2, 0xC4, 0x0B]],
      { requests := 3, timeouts := 2, crcerrors := 1, lasterror := 8 }) := by kernel_rfl

end Dax
