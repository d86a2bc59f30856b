import Verif.Props.ModbusTake
/-!
# C66: from the tags of a slave to the tags of a master and back
-/
set_option autoImplicit false
namespace Dax
open Modbus LibData
open Wire (shifted shiftSize)

/-! ## The slave -/

/-- The fields of a request for data, in the buffer of the slave. -/
theorem request_fields {node function register count : Nat} {data req rest : List Byte} (hn : node < 256) (hf : function ≤ 4) (hreg : register < 65536) (hcnt : count < 65536)
    (h : request node function register count data = some req) :
    ((req ++ rest).getD 0 0).toNat = node ∧ code (req ++ rest) = function ∧ field (req ++ rest) 2 = register ∧ field (req ++ rest) 4 = count ∧ req.length = 6 := by
  have hh : request node function register count data = if function = 0 then none else
      some ([BitVec.ofNat 8 node, BitVec.ofNat 8 function] ++ big register ++ big count) := by
    match function, hf with
    | 0, _ => rfl
    | 1, _ => rfl
    | 2, _ => rfl
    | 3, _ => rfl
    | 4, _ => rfl
  rw [hh] at h
  split at h
  · cases h
  · simp only [Option.some.injEq] at h
    subst h
    refine ⟨?_, ?_, ?_, ?_, rfl⟩
    · show (BitVec.ofNat 8 node).toNat = node
      rw [BitVec.toNat_ofNat, Nat.mod_eq_of_lt (by omega)]
    · show (BitVec.ofNat 8 function).toNat = function
      rw [BitVec.toNat_ofNat, Nat.mod_eq_of_lt (by omega)]
    · show (BitVec.ofNat 8 (register / 256)).toNat * 256 + (BitVec.ofNat 8 register).toNat = register
      simp only [BitVec.toNat_ofNat]
      omega
    · show (BitVec.ofNat 8 (count / 256)).toNat * 256 + (BitVec.ofNat 8 count).toNat = count
      simp only [BitVec.toNat_ofNat]
      omega

/-- What the slave makes of an answer on the serial line. -/
theorem rtu_answer {s s' : Server} {fd : Int} {c c' : TypeCache} {nodes : List (Option Node)} {buff b' ans : List Byte} {len n : Nat} {j : Junk}
    (hb : buff.length = 256) (h0 : len ≠ 0) (hcrc : crc16check buff len = .ok true)
    (e : createResponse s fd c nodes false buff buff.length j = .ok (s', c', b', ((n : Nat) : Int))) (hl : b'.length = buff.length) (hn : n ≤ buff.length)
    (ht : b'.take n = ans) (hpos : 0 < ans.length) (hfit : ans.length + 2 ≤ 256) :
    ∃ x y, rtuServe s fd c nodes buff len j = .ok (s', c', some (ans ++ [x, y]), 0) ∧ crc16check (ans ++ [x, y]) (ans.length + 2) = .ok true := by
  have hal : ans.length = n := by rw [← ht, List.length_take]; omega
  unfold rtuServe
  rw [hb] at e
  rw [if_neg h0, hcrc, C.ok_bind, if_pos rfl, show ((MB_BUFF_SIZE : Nat) : Int) = ((256 : Nat) : Int) from rfl, e, C.ok_bind]
  dsimp only
  rw [if_pos (by omega), Int.toNat_natCast]
  obtain ⟨crc, b2, x, y, k1, k2, k3, k4⟩ := crc_append (buff := b') (n := n) (by omega) (by omega)
  rw [k1, C.ok_bind, k2, C.ok_bind, k3, C.ok_bind]
  rw [ht] at k4 ⊢
  exact ⟨x, y, rfl, by rw [hal]; exact k4⟩

/-- The slave receives the request of a master. -/
theorem online_check {req out rest : List Byte} (h : OnLine false req out) : crc16check (out ++ rest) out.length = .ok true ∧ ∃ x y, out = req ++ [x, y] := by
  obtain ⟨x, y, h1, h2⟩ := h
  exact ⟨by rw [check_append]; exact h2, x, y, h1⟩

/-- **C66**, reading registers over a serial line: the slave answers the request of the master (the bytes `out`), and when the answer reaches the master, in
any pieces and after any number of tries without success, the tag of the master holds the values of the registers of the slave that the command
names, and nothing else has changed.  If the command names registers the slave does not have, nothing changes. -/
theorem C66_read_registers_partial {fd fd2 : Int} {retries m i n a : Nat} {o : Outside} {l : Link} {req out rest : List Byte} {h : Handle} {name : Name}
    {M : Mem} (hs : Sound false l.job.cmd) (ho : o.buff.length = 1024) (hp : l.pending = [])
    (hreq : request l.job.cmd.node l.job.cmd.function l.job.cmd.register l.job.cmd.length l.job.cmd.data = some req)
    (hm : m ≤ retries) (hu : ∀ i < m, Useless false (o.heard i))
    (hh : l.job.handle = some h ∨ (l.job.handle = none ∧ o.find = some h)) (hi : h.index = i) (ht : h.type = DAX_UINT) (hpos : 0 < h.count)
    (hsz : h.size = 2 * h.count) (hfit : h.size ≤ l.job.cmd.data.length) (hin : h.byte + h.size ≤ 2 * n) (hn : n ≤ 100000)
    (hr : Reachable l.s) (hmap : ∀ i name, LiveAt l.s i name → NoMaps l.s i) (hM : Agrees M l.s) (hat : AttrAt l.s i a) (h0 : a.testBit 0 = false)
    (h1 : a.testBit 1 = false) (h3 : a.testBit 3 = false) (h4 : a.testBit 4 = false) (hl : LiveTag l.s i name DAX_UINT n)
    -- the slave
    {s2 : Server} {c2 : TypeCache} {nodes : List (Option Node)} {j : Junk} {node i2 n2 : Nat} {nd : Node} {reg : Reg} {name2 : Name} {M2 : Mem}
    (hout : OnLine false req out) (hrest : out.length + rest.length = 256) (hresp : Responsible nodes l.job.cmd.node node nd)
    (hal : Allowed nd j node (out ++ rest)) (hreg : (l.job.cmd.function = 3 ∧ reg = .hold) ∨ (l.job.cmd.function = 4 ∧ reg = .input))
    (hz : nd.size reg ≠ 0) (hr2 : Reachable s2) (ho2 : Ordinary s2 i2) (hM2 : Agrees M2 s2) (hi2 : nd.idx reg = i2) (hl2 : LiveTag s2 i2 name2 DAX_UINT n2)
    (hn2 : nd.size reg ≤ n2) (hn3 : n2 ≤ 100000) :
    ∃ answer, rtuServe s2 fd2 c2 nodes (out ++ rest) out.length j = .ok (s2, c2, some answer, 0) ∧
      ((o.heard m).flatten = answer → ∀ l' r, sendCommand fd false retries o l = .ok (l', r) → 0 < r ∧
        (l.job.cmd.register + l.job.cmd.length ≤ nd.size reg → ∃ M', Agrees M' l'.s ∧
          (∀ k < h.count, (M' i (h.byte + 2 * k + 1), M' i (h.byte + 2 * k)) = (M2 i2 (2 * (l.job.cmd.register + k) + 1), M2 i2 (2 * (l.job.cmd.register + k)))) ∧
          ∀ t p, ¬ (t = i ∧ h.byte ≤ p ∧ p < h.byte + h.size) → M' t p = M t p) ∧
        (nd.size reg < l.job.cmd.register + l.job.cmd.length → l'.s = l.s)) := by
  obtain ⟨hc, -⟩ := id hs
  obtain ⟨⟨hd1, hd2⟩, hd3, hd4, ⟨hd5, hd6, hd7⟩, hd8⟩ := id hc
  obtain ⟨hcrc, x, y, hxy⟩ := online_check (rest := rest) hout
  have hf34 : l.job.cmd.function = 3 ∨ l.job.cmd.function = 4 := by rcases hreg with ⟨h, -⟩ | ⟨h, -⟩; exact .inl h; exact .inr h
  have h125 := (hd6 (by rcases hf34 with e | e <;> rw [e] <;> decide)).2
  have hdl : l.job.cmd.data.length = 2 * l.job.cmd.length := by
    rw [hd8]
    rcases hf34 with e | e <;> rw [e] <;> rfl
  obtain ⟨q0, q1, q2, q3, q4⟩ := request_fields (rest := [x, y] ++ rest) (by omega) (by omega) hd4 hd7 hreq
  have hbf : out ++ rest = req ++ ([x, y] ++ rest) := by rw [hxy, List.append_assoc]
  have hbl : (out ++ rest).length = 256 := by rw [List.length_append]; exact hrest
  have holen : out.length = 8 := by rw [hxy]; simp; omega
  rw [← hbf] at q0 q1 q2 q3
  obtain ⟨b', k, e, e1, e2, e3, e4⟩ := C55_registers_partial (s := s2) (fd := fd2) (c := c2) (nodes := nodes) (tcp := false) (buff := out ++ rest) (j := j)
    (node := node) (i := i2) (n := n2) (nd := nd) (reg := reg) (name := name2) (M := M2) (by omega) (by omega) (by rw [q0]; exact hresp) hal
    (by rw [q1]; exact hreg) hz (by rw [q3]; omega) hr2 ho2 hM2 hi2 hl2 hn2 hn3
  rw [q2, q3] at e3 e4
  have hq0 : (out ++ rest).getD 0 0 = req.getD 0 0 := by
    rw [hbf, List.getD_eq_getElem?_getD, List.getD_eq_getElem?_getD, List.getElem?_append_left (by omega)]
  have hq1 : (out ++ rest).getD 1 0 = req.getD 1 0 := by
    rw [hbf, List.getD_eq_getElem?_getD, List.getD_eq_getElem?_getD, List.getElem?_append_left (by omega)]
  rw [hq0, hq1] at e3 e4
  have hcodereq : code req = l.job.cmd.function := by
    unfold code
    rw [← hq1]
    exact q1
  have hfr : field req 4 = l.job.cmd.length := (request_read (by omega) hd7 hreq).2.2
  by_cases hw : l.job.cmd.register + l.job.cmd.length ≤ nd.size reg
  · have e5 := e3 hw
    have hrl := registersOf_length M2 i2 l.job.cmd.register l.job.cmd.length
    have hans : Answer req (req.getD 0 0 :: req.getD 1 0 :: BitVec.ofNat 8 (2 * l.job.cmd.length) :: registersOf M2 i2 l.job.cmd.register l.job.cmd.length) := by
      have := Answer.words (req := req) (registersOf M2 i2 l.job.cmd.register l.job.cmd.length) (by rw [hcodereq]; exact hf34) (by rw [hrl, hfr]) (by omega)
      rwa [hrl] at this
    obtain ⟨u, v, hsv, hck⟩ := rtu_answer hbl (by omega) hcrc e e1 e2 e5 (by simp) (by simp only [List.length_cons]; omega)
    refine ⟨_, hsv, fun hfl l' r hcmd => ?_⟩
    obtain ⟨g1, -, -, -, g4⟩ := C64_registers_partial hs hf34 ho hp hreq hans hm hu ⟨u, v, hfl, hck⟩ hh hi ht hpos hsz hfit hin hn hr hmap hM hat h0 h1 h3 h4 hl hcmd
    refine ⟨g1, fun _ => ?_, fun hx => by omega⟩
    obtain ⟨-, -, M', k1, k2, k3⟩ := g4 (by show code req < 128; omega)
    refine ⟨M', k1, fun q hq => ?_, k3⟩
    rw [k2 q hq, Prod.mk.injEq]
    have s1 : ∀ p, p < 2 * l.job.cmd.length → (req.getD 0 0 :: req.getD 1 0 :: BitVec.ofNat 8 (2 * l.job.cmd.length) :: registersOf M2 i2 l.job.cmd.register l.job.cmd.length).getD (3 + p) 0 =
        if p % 2 = 0 then M2 i2 (2 * (l.job.cmd.register + p / 2) + 1) else M2 i2 (2 * (l.job.cmd.register + p / 2)) := by
      intro p hp
      rw [show 3 + p = p + 3 by omega, List.getD_cons_succ, List.getD_cons_succ, List.getD_cons_succ, List.getD_eq_getElem?_getD, registersOf_get hp]
      split <;> rfl
    constructor
    · rw [s1 _ (by omega), if_pos (by omega), show 2 * q / 2 = q by omega]
    · rw [show 4 + 2 * q = 3 + (2 * q + 1) by omega, s1 _ (by omega), if_neg (by omega), show (2 * q + 1) / 2 = q by omega]
  · have e5 := e4 (by omega)
    obtain ⟨u, v, hsv, hck⟩ := rtu_answer hbl (by omega) hcrc e e1 e2 e5 (by simp) (by simp)
    refine ⟨_, hsv, fun hfl l' r hcmd => ?_⟩
    obtain ⟨g1, -, -, g3, -⟩ := C64_registers_partial hs hf34 ho hp hreq (Answer.exception 2) hm hu ⟨u, v, hfl, hck⟩ hh hi ht hpos hsz hfit hin hn hr hmap hM hat h0 h1 h3 h4 hl hcmd
    refine ⟨g1, fun hx => by omega, fun _ => g3 ?_⟩
    unfold refusal
    rw [if_pos (show 128 ≤ code [req.getD 0 0, req.getD 1 0 ||| 128, 2] from or128 (req.getD 1 0))]
    show 0 < (2 : Byte).toNat
    decide


/-- **C66**, reading coils or discrete inputs over a serial line: as for registers, bit by bit, at any place of the tag of the master. -/
theorem C66_read_bits_partial {fd fd2 : Int} {retries m i n a : Nat} {o : Outside} {l : Link} {req out rest : List Byte} {h : Handle} {name : Name}
    {M : Mem} (hs : Sound false l.job.cmd) (ho : o.buff.length = 1024) (hp : l.pending = [])
    (hreq : request l.job.cmd.node l.job.cmd.function l.job.cmd.register l.job.cmd.length l.job.cmd.data = some req)
    (hm : m ≤ retries) (hu : ∀ i < m, Useless false (o.heard i))
    (hh : l.job.handle = some h ∨ (l.job.handle = none ∧ o.find = some h)) (hi : h.index = i) (hb : Bools h)
    (hfit : h.size ≤ l.job.cmd.data.length) (hcnt : h.count ≤ l.job.cmd.length) (hn : n ≤ 100000)
    (hin : h.byte + h.size + Wire.extraByte h ≤ n / 8 + 1)
    (hr : Reachable l.s) (hmap : ∀ i name, LiveAt l.s i name → NoMaps l.s i) (hM : Agrees M l.s) (hat : AttrAt l.s i a) (h0 : a.testBit 0 = false)
    (h1 : a.testBit 1 = false) (h3 : a.testBit 3 = false) (h4 : a.testBit 4 = false) (hl : LiveTag l.s i name DAX_BOOL n)
    -- the slave
    {s2 : Server} {c2 : TypeCache} {nodes : List (Option Node)} {j : Junk} {node i2 n2 : Nat} {nd : Node} {reg : Reg} {name2 : Name} {M2 : Mem}
    (hout : OnLine false req out) (hrest : out.length + rest.length = 256) (hresp : Responsible nodes l.job.cmd.node node nd)
    (hal : Allowed nd j node (out ++ rest)) (hreg : (l.job.cmd.function = 1 ∧ reg = .coil) ∨ (l.job.cmd.function = 2 ∧ reg = .disc))
    (hz : nd.size reg ≠ 0) (hr2 : Reachable s2) (ho2 : Ordinary s2 i2) (hM2 : Agrees M2 s2) (hi2 : nd.idx reg = i2) (hl2 : LiveTag s2 i2 name2 DAX_BOOL n2)
    (hn2 : nd.size reg ≤ n2) (hn3 : n2 ≤ 100000) :
    ∃ answer, rtuServe s2 fd2 c2 nodes (out ++ rest) out.length j = .ok (s2, c2, some answer, 0) ∧
      ((o.heard m).flatten = answer → ∀ l' r, sendCommand fd false retries o l = .ok (l', r) → 0 < r ∧
        (l.job.cmd.register + l.job.cmd.length ≤ nd.size reg → ∃ M', Agrees M' l'.s ∧
          (∀ q < h.count, memBit M' i (8 * h.byte + h.bit + q) = memBit M2 i2 (l.job.cmd.register + q)) ∧
          ∀ t p, ¬ (t = i ∧ 8 * h.byte + h.bit ≤ p ∧ p < 8 * h.byte + h.bit + h.count) → memBit M' t p = memBit M t p) ∧
        (nd.size reg < l.job.cmd.register + l.job.cmd.length → l'.s = l.s)) := by
  obtain ⟨hc, -⟩ := id hs
  obtain ⟨⟨hd1, hd2⟩, hd3, hd4, ⟨hd5, hd6, hd7⟩, hd8⟩ := id hc
  obtain ⟨hcrc, x, y, hxy⟩ := online_check (rest := rest) hout
  have hf12 : l.job.cmd.function = 1 ∨ l.job.cmd.function = 2 := by rcases hreg with ⟨h, -⟩ | ⟨h, -⟩; exact .inl h; exact .inr h
  have h2000 := hd5 (by rcases hf12 with e | e <;> rw [e] <;> decide)
  have hdl : l.job.cmd.data.length = (l.job.cmd.length + 7) / 8 := by
    rw [hd8]
    rcases hf12 with e | e <;> rw [e] <;> rfl
  obtain ⟨q0, q1, q2, q3, q4⟩ := request_fields (rest := [x, y] ++ rest) (by omega) (by omega) hd4 hd7 hreq
  have hbf : out ++ rest = req ++ ([x, y] ++ rest) := by rw [hxy, List.append_assoc]
  have hbl : (out ++ rest).length = 256 := by rw [List.length_append]; exact hrest
  have holen : out.length = 8 := by rw [hxy]; simp; omega
  rw [← hbf] at q0 q1 q2 q3
  have hq0 : (out ++ rest).getD 0 0 = req.getD 0 0 := by
    rw [hbf, List.getD_eq_getElem?_getD, List.getD_eq_getElem?_getD, List.getElem?_append_left (by omega)]
  have hq1 : (out ++ rest).getD 1 0 = req.getD 1 0 := by
    rw [hbf, List.getD_eq_getElem?_getD, List.getD_eq_getElem?_getD, List.getElem?_append_left (by omega)]
  have hcodereq : code req = l.job.cmd.function := by
    unfold code
    rw [← hq1]
    exact q1
  have hfr : field req 4 = l.job.cmd.length := (request_read (by omega) hd7 hreq).2.2
  have ho0 : out.length ≠ 0 := by omega
  have hc8 : h.count ≤ 8 * l.job.cmd.data.length := by omega
  have hlt : code req < 128 := by omega
  obtain ⟨b', k, e, e1, e2, e3, e4⟩ := C55_bits_partial (s := s2) (fd := fd2) (c := c2) (nodes := nodes) (tcp := false) (buff := out ++ rest) (j := j)
    (node := node) (i := i2) (n := n2) (nd := nd) (reg := reg) (name := name2) (M := M2) (by omega) (by omega) (by rw [q0]; exact hresp) hal
    (by rw [q1]; exact hreg) hz (by rw [q3]; omega) (by rw [q3]; omega) hr2 ho2 hM2 hi2 hl2 hn2 hn3
  rw [q2, q3] at e3 e4
  rw [hq0, hq1] at e3 e4
  by_cases hw : l.job.cmd.register + l.job.cmd.length ≤ nd.size reg
  · obtain ⟨D, e5, e6, e7⟩ := e3 hw
    clear e3
    have hD : D.length + 5 ≤ 256 := by omega
    have hans : Answer req (req.getD 0 0 :: req.getD 1 0 :: BitVec.ofNat 8 D.length :: D) :=
      Answer.bits (req := req) D (by rw [hcodereq]; exact hf12) (by rw [e6, hfr]) (Nat.lt_of_le_of_lt (Nat.le_add_right _ 4) hD)
    obtain ⟨u, v, hsv, hck⟩ := rtu_answer hbl ho0 hcrc e e1 e2 e5 (by simp) (by simp only [List.length_cons]; exact hD)
    refine ⟨_, hsv, fun hfl l' r hcmd => ?_⟩
    obtain ⟨g1, -, -, -, g4⟩ := C64_bits_partial hs hf12 ho hp hreq hans hm hu ⟨u, v, hfl, hck⟩ hh hi hb hfit hc8 hn hin hr hmap hM hat h0 h1 h3 h4 hl hcmd
    refine ⟨g1, fun _ => ?_, fun hx => by omega⟩
    obtain ⟨-, -, M', k1, k2, k3⟩ := g4 hlt
    refine ⟨M', k1, fun q hq => ?_, k3⟩
    rw [k2 q hq, ← e7 q (by omega)]
    unfold bitOf
    rw [show 3 + q / 8 = q / 8 + 3 by omega]
    rfl
  · clear e3
    have e5 := e4 (by omega)
    obtain ⟨u, v, hsv, hck⟩ := rtu_answer hbl ho0 hcrc e e1 e2 e5 (by simp) (by simp)
    refine ⟨_, hsv, fun hfl l' r hcmd => ?_⟩
    obtain ⟨g1, -, -, g3, -⟩ := C64_bits_partial hs hf12 ho hp hreq (Answer.exception 2) hm hu ⟨u, v, hfl, hck⟩ hh hi hb hfit hc8 hn hin hr hmap hM hat h0 h1 h3 h4 hl hcmd
    refine ⟨g1, fun hx => by omega, fun _ => g3 ?_⟩
    unfold refusal
    rw [if_pos (show 128 ≤ code [req.getD 0 0, req.getD 1 0 ||| 128, 2] from or128 (req.getD 1 0))]
    show 0 < (2 : Byte).toNat
    decide

/-! ## Writing -/

theorem frameFor_ok {tcp : Bool} {o : Outside} {tid : Nat} {cmd : Cmd} {f : List Byte} (hs : Sound tcp cmd) (ho : o.buff.length = 1024)
    (hf : request cmd.node cmd.function cmd.register cmd.length cmd.data = some f) {q : Option (List Byte × Cmd)} (e : frameFor tcp tid cmd o = .ok q) :
    ∃ out cmd', q = some (out, cmd') ∧ OnLine tcp f out ∧ cmd' = { cmd with lastcrc := cmd'.lastcrc, firstrun := cmd'.firstrun } := by
  obtain ⟨l1, e1, t, -⟩ := sendRequest_ok (l := { s := demo mbOps, c := [], job := { cmd := cmd }, tid := tid, buff := o.buff }) (tcp := tcp) hs ho ho rfl hf
  obtain ⟨out, cmd', h1, h2⟩ := sendRequest_inv e1
  rw [h1] at e
  simp only [C.ok.injEq] at e
  obtain ⟨outs, a1, -, a3⟩ := t.sent
  have : outs = [out] := by
    have := a1.symm.trans (by rw [h2])
    exact List.append_cancel_left this
  subst this
  refine ⟨out, cmd', e.symm, a3 out (by simp), ?_⟩
  have := t.cmd
  rw [h2] at this
  exact this

theorem tryOnce_frames {fd : Int} {tcp : Bool} {o : Outside} {heard : List (List Byte)} {l l' : Link} {r : Option Int} {f : List Byte}
    (hs : Sound tcp l.job.cmd) (ho : o.buff.length = 1024)
    (hf : request l.job.cmd.node l.job.cmd.function l.job.cmd.register l.job.cmd.length l.job.cmd.data = some f)
    (h : tryOnce fd tcp o heard l = .ok (l', r)) :
    ∃ out, l'.sent = l.sent ++ [out] ∧ OnLine tcp f out ∧ (5 ≤ l.job.cmd.function → l'.s = l.s) ∧
      (r = none → l'.job.cmd = { l.job.cmd with lastcrc := l'.job.cmd.lastcrc, firstrun := l'.job.cmd.firstrun }) := by
  unfold tryOnce at h
  obtain ⟨q, h1, h⟩ := C.bind_eq_ok.mp h
  match q, h1, h with
  | none, h1, h =>
    exfalso
    unfold sendRequest at h1
    obtain ⟨q', e, h1⟩ := C.bind_eq_ok.mp h1
    obtain ⟨out, cmd', rfl, -, -⟩ := frameFor_ok hs ho hf e
    cases h1
  | some l1, h1, h =>
    dsimp only at h
    obtain ⟨out, cmd, e0, e1⟩ := sendRequest_inv h1
    obtain ⟨out', cmd', e3, e4, e5⟩ := frameFor_ok hs ho hf e0
    simp only [Option.some.injEq, Prod.mk.injEq] at e3
    obtain ⟨rfl, rfl⟩ := e3
    obtain ⟨⟨l2, m⟩, h2, h⟩ := C.bind_eq_ok.mp h
    have e2 := receive_inv h2
    dsimp only at h
    have es : l2.sent = l.sent ++ [out] := by rw [e2, e1]
    have ess : l2.s = l.s := by rw [e2, e1]
    have ec : l2.job.cmd = cmd := by rw [e2, e1]
    refine ⟨out, ?_⟩
    split at h
    · obtain ⟨l3, h3, h⟩ := C.bind_eq_ok.mp h
      simp only [C.ok.injEq, Prod.mk.injEq] at h
      obtain ⟨rfl, rfl⟩ := h
      refine ⟨by rw [(answered_inv h3).1, es], e4, fun h5 => ?_, fun hx => by cases hx⟩
      have hfn : l2.job.cmd.function = l.job.cmd.function := by rw [ec, e5]
      unfold answered at h3
      obtain ⟨⟨data, r⟩, -, h3⟩ := C.bind_eq_ok.mp h3
      dsimp only at h3
      split at h3
      · simp only [C.ok.injEq] at h3
        subst h3
        exact ess
      · rw [if_neg (by omega)] at h3
        simp only [C.ok.injEq] at h3
        subst h3
        exact ess
    · simp only [C.ok.injEq, Prod.mk.injEq] at h
      obtain ⟨rfl, rfl⟩ := h
      refine ⟨es, e4, fun _ => ess, fun _ => ?_⟩
      dsimp only
      rw [ec]
      exact e5

theorem tryLoop_frames {fd : Int} {tcp : Bool} {o : Outside} {f : List Byte} (ho : o.buff.length = 1024) : ∀ (k n : Nat) (l l' : Link) (r : Int),
    Sound tcp l.job.cmd → request l.job.cmd.node l.job.cmd.function l.job.cmd.register l.job.cmd.length l.job.cmd.data = some f →
    tryLoop fd tcp o k n l = .ok (l', r) →
    ∃ outs, l'.sent = l.sent ++ outs ∧ 0 < outs.length ∧ (∀ out ∈ outs, OnLine tcp f out) ∧ (5 ≤ l.job.cmd.function → l'.s = l.s) := by
  intro k
  induction k with
  | zero =>
    intro n l l' r hs hf h
    unfold tryLoop at h
    obtain ⟨⟨l1, q⟩, h1, h⟩ := C.bind_eq_ok.mp h
    simp only [C.ok.injEq, Prod.mk.injEq] at h
    obtain ⟨rfl, rfl⟩ := h
    obtain ⟨out, a1, a2, a3, -⟩ := tryOnce_frames hs ho hf h1
    exact ⟨[out], a1, by simp, by simpa using a2, a3⟩
  | succ k ih =>
    intro n l l' r hs hf h
    unfold tryLoop at h
    obtain ⟨⟨l1, q⟩, h1, h⟩ := C.bind_eq_ok.mp h
    obtain ⟨out, a1, a2, a3, a4⟩ := tryOnce_frames hs ho hf h1
    match q, h, a4 with
    | some x, h, _ =>
      simp only [C.ok.injEq, Prod.mk.injEq] at h
      obtain ⟨rfl, rfl⟩ := h
      exact ⟨[out], a1, by simp, by simpa using a2, a3⟩
    | none, h, a4 =>
      have hc := a4 rfl
      obtain ⟨outs, b1, b2, b3, b4⟩ := ih _ _ _ _ (by rw [hc]; exact hs) (by rw [hc]; exact hf) h
      refine ⟨out :: outs, by rw [b1, a1]; simp, by simp, ?_, fun h5 => ?_⟩
      · intro z hz
        rcases List.mem_cons.mp hz with rfl | hz
        · exact a2
        · exact b3 z hz
      · rw [b4 (by rw [hc]; exact h5), a3 h5]

/-- What a command sends that writes registers: the values of its tag. -/
theorem sendCommand_write {fd : Int} {tcp : Bool} {retries i n : Nat} {o : Outside} {l l' : Link} {r : Int} {h : Handle} {name : Name} {M : Mem}
    (hs : ∀ data, data.length = l.job.cmd.data.length → Sound tcp { l.job.cmd with data := data }) (hfn : l.job.cmd.function = 16) (ho : o.buff.length = 1024)
    (hh : l.job.handle = some h ∨ (l.job.handle = none ∧ o.find = some h)) (hi : h.index = i) (ht : h.type = DAX_UINT)
    (hsz : h.size = 2 * h.count) (hlen : h.count = l.job.cmd.length) (hin : h.byte + h.size ≤ 2 * n) (hn : n ≤ 100000)
    (hr : Reachable l.s) (hord : Ordinary l.s i) (hM : Agrees M l.s) (hl : LiveTag l.s i name DAX_UINT n)
    (e : sendCommand fd tcp retries o l = .ok (l', r)) :
    ∃ data req, data.length = 2 * l.job.cmd.length ∧ (∀ k < data.length, data[k]? = some (M i (h.byte + k))) ∧
      request l.job.cmd.node 16 l.job.cmd.register l.job.cmd.length data = some req ∧ l'.s = l.s ∧
      ∃ outs, l'.sent = l.sent ++ outs ∧ 0 < outs.length ∧ ∀ out ∈ outs, OnLine tcp req out := by
  have hs0 := hs l.job.cmd.data rfl
  obtain ⟨hc, he, -⟩ := id hs0
  obtain ⟨-, -, -, ⟨-, h16, -⟩, hd8⟩ := id hc
  dsimp only at he h16 hd8
  rw [hfn] at h16 hd8
  have h125 := h16 (by decide)
  have hdl : l.job.cmd.data.length = 2 * l.job.cmd.length := hd8
  have hj : jobHandle l.job o.find = { l.job with handle := some h } := by
    unfold jobHandle
    rcases hh with hh | ⟨hh, hf⟩
    · rw [hh]
      show l.job = _
      rw [← hh]
    · rw [hh, hf]
      dsimp only
      rw [if_neg (by omega)]
  have hsm : Small h := ⟨by omega, by omega, .inl ⟨ht, hsz⟩⟩
  obtain ⟨lg, d, mem, k1, k2, k3, k4, k5⟩ := slaveRead_data (fd := fd) (c := l.c) hr hord hi hsm (mem := l.job.cmd.data) (by omega) hl
    (.inr ⟨2, by decide, rfl⟩ : TagBytes DAX_UINT n (2 * n)) (by omega) hin
  have hdat := (C25_read_data (unit := 2) hr hord hM hi (by rw [ht]; decide) ⟨by omega, by omega, fun h => by omega, by decide, by decide, ⟨h.count, hsz⟩⟩ k1).2.2
  have hgw : getWriteData l.s fd l.c l.job o.find = .ok (l.s, l.c, { l.job with handle := some h, cmd := { l.job.cmd with data := mem } }) := by
    unfold getWriteData
    dsimp only
    rw [hj]
    dsimp only
    unfold slaveRead at k2
    rw [k1, C.ok_bind] at k2 ⊢
    dsimp only at k2 ⊢
    rw [if_neg (by simp)] at k2 ⊢
    obtain ⟨m', w1, w2⟩ := C.bind_eq_ok.mp k2
    simp only [C.ok.injEq, Prod.mk.injEq] at w2
    rw [w1, C.ok_bind, w2.2.2]
  unfold sendCommand at e
  rw [if_neg (by omega)] at e
  dsimp only at e
  rw [if_pos (by omega), hgw, C.ok_bind] at e
  dsimp only at e
  obtain ⟨req, hreq⟩ : ∃ req, request l.job.cmd.node 16 l.job.cmd.register l.job.cmd.length mem = some req := ⟨_, rfl⟩
  obtain ⟨outs, a1, a2, a3, a4⟩ := tryLoop_frames (f := req) ho retries 0 _ l' r (hs mem (by omega)) (by dsimp only; rw [hfn]; exact hreq) e
  exact ⟨mem, req, by omega, fun k hk => by rw [k5 k (by omega), hdat k (by omega)], hreq, a4 (by dsimp only; omega), outs, a1, a2, a3⟩


/-- The fields of a request to write registers, in the buffer of the slave. -/
theorem request16_fields {node register count : Nat} {data req rest : List Byte} (hn : node < 256) (hreg : register < 65536) (hcnt : count < 65536)
    (hd : data.length = 2 * count) (h : request node 16 register count data = some req) :
    ((req ++ rest).getD 0 0).toNat = node ∧ code (req ++ rest) = 16 ∧ field (req ++ rest) 2 = register ∧ field (req ++ rest) 4 = count ∧
      req.length = 7 + 2 * count ∧ ∀ m < count, sentWord (req ++ rest) m = (data.getD (2 * m + 1) 0, data.getD (2 * m) 0) := by
  have hh : request node 16 register count data = some ([BitVec.ofNat 8 node, 16] ++ big register ++ big count ++ [BitVec.ofNat 8 (2 * count)] ++ bigAll (data.take (2 * count))) := rfl
  rw [hh, List.take_of_length_le (by omega)] at h
  have hbl := bigAll_length count data hd
  simp only [Option.some.injEq] at h
  subst h
  refine ⟨?_, ?_, ?_, ?_, ?_, fun m hm => ?_⟩
  · show (BitVec.ofNat 8 node).toNat = node
    rw [BitVec.toNat_ofNat, Nat.mod_eq_of_lt (by omega)]
  · rfl
  · show (BitVec.ofNat 8 (register / 256)).toNat * 256 + (BitVec.ofNat 8 register).toNat = register
    simp only [BitVec.toNat_ofNat]
    omega
  · show (BitVec.ofNat 8 (count / 256)).toNat * 256 + (BitVec.ofNat 8 count).toNat = count
    simp only [BitVec.toNat_ofNat]
    omega
  · simp [big]; omega
  · have hcd : code ([BitVec.ofNat 8 node, 16] ++ big register ++ big count ++ [BitVec.ofNat 8 (2 * count)] ++ bigAll data ++ rest) = 16 := rfl
    unfold sentWord
    rw [hcd, if_neg (by decide)]
    have hg := bigAll_get data m (by omega)
    have e : ∀ q, ([BitVec.ofNat 8 node, 16] ++ big register ++ big count ++ [BitVec.ofNat 8 (2 * count)] ++ bigAll data ++ rest).getD (7 + q) 0 = (bigAll data ++ rest).getD q 0 := by
      intro q
      rw [show 7 + q = q + 7 by omega]
      rfl
    rw [e, show 8 + 2 * m = 7 + (2 * m + 1) by omega, e, List.getD_eq_getElem?_getD, List.getD_eq_getElem?_getD, List.getElem?_append_left (by omega),
      List.getElem?_append_left (by omega), hg.1, hg.2, ← List.getD_eq_getElem?_getD, ← List.getD_eq_getElem?_getD]

/-- **C66**, writing registers over a serial line: whatever the master hears, its own tags do not change, it sends something, and if one of the frames it sends reaches
the slave, the registers of the slave that the command names get the values of the tag of the master, and nothing else changes; if
the slave does not have them all, nothing changes. -/
theorem C66_write_registers_partial {fd fd2 : Int} {retries i n : Nat} {o : Outside} {l l' : Link} {r : Int} {h : Handle} {name : Name} {M : Mem}
    (hs : ∀ data, data.length = l.job.cmd.data.length → Sound false { l.job.cmd with data := data }) (hfn : l.job.cmd.function = 16) (ho : o.buff.length = 1024)
    (hh : l.job.handle = some h ∨ (l.job.handle = none ∧ o.find = some h)) (hi : h.index = i) (ht : h.type = DAX_UINT)
    (hsz : h.size = 2 * h.count) (hlen : h.count = l.job.cmd.length) (hin : h.byte + h.size ≤ 2 * n) (hn : n ≤ 100000)
    (hr : Reachable l.s) (hord : Ordinary l.s i) (hM : Agrees M l.s) (hl : LiveTag l.s i name DAX_UINT n)
    (e : sendCommand fd false retries o l = .ok (l', r))
    -- the slave
    {s2 : Server} {c2 : TypeCache} {nodes : List (Option Node)} {j : Junk} {node i2 n2 a : Nat} {nd : Node} {name2 : Name} {M2 : Mem}
    (hresp : Responsible nodes l.job.cmd.node node nd) (hj : j.result % 256 = 0) (hz : nd.holdSize ≠ 0) (hr2 : Reachable s2)
    (hm2 : ∀ i name, LiveAt s2 i name → NoMaps s2 i) (hM2 : Agrees M2 s2) (ha : AttrAt s2 i2 a) (h0 : a.testBit 0 = false)
    (h1 : a.testBit 1 = false) (h3 : a.testBit 3 = false) (h4 : a.testBit 4 = false) (hi2 : nd.holdIdx = i2) (hl2 : LiveTag s2 i2 name2 DAX_UINT n2)
    (hn2 : nd.holdSize ≤ n2) (hn3 : n2 ≤ 100000) :
    l'.s = l.s ∧ ∃ outs, l'.sent = l.sent ++ outs ∧ 0 < outs.length ∧ ∀ out ∈ outs, ∀ rest s2' c2' ans k, out.length + rest.length = 256 →
      rtuServe s2 fd2 c2 nodes (out ++ rest) out.length j = .ok (s2', c2', ans, k) →
      (l.job.cmd.register + l.job.cmd.length ≤ nd.holdSize → ∃ M2', Agrees M2' s2' ∧
        (∀ k < l.job.cmd.length, (M2' i2 (2 * (l.job.cmd.register + k) + 1), M2' i2 (2 * (l.job.cmd.register + k))) = (M i (h.byte + 2 * k + 1), M i (h.byte + 2 * k))) ∧
        ∀ t p, ¬ (t = i2 ∧ 2 * l.job.cmd.register ≤ p ∧ p < 2 * (l.job.cmd.register + l.job.cmd.length)) → M2' t p = M2 t p) ∧
      (nd.holdSize < l.job.cmd.register + l.job.cmd.length → s2' = s2) := by
  obtain ⟨data, req, hdl, hdv, hreq, hss, outs, a1, a2, a3⟩ := sendCommand_write hs hfn ho hh hi ht hsz hlen hin hn hr hord hM hl e
  refine ⟨hss, outs, a1, a2, fun out hout rest s2' c2' ans k hrest hsv => ?_⟩
  obtain ⟨hc, -⟩ := hs l.job.cmd.data rfl
  obtain ⟨⟨hd1, hd2⟩, hd3, hd4, ⟨hd5, hd6, hd7⟩, hd8⟩ := id hc
  dsimp only at hd1 hd2 hd4 hd6 hd7
  have h125 := hd6 (by rw [hfn]; decide)
  obtain ⟨hcrc, x, y, hxy⟩ := online_check (rest := rest) (a3 out hout)
  obtain ⟨q0, q1, q2, q3, q4, q5⟩ := request16_fields (rest := [x, y] ++ rest) (by omega) hd4 hd7 hdl hreq
  have hbf : out ++ rest = req ++ ([x, y] ++ rest) := by rw [hxy, List.append_assoc]
  rw [← hbf] at q0 q1 q2 q3 q5
  have hbl : (out ++ rest).length = 256 := by rw [List.length_append]; exact hrest
  have holen : out.length = 9 + 2 * l.job.cmd.length := by rw [hxy]; simp; omega
  have hsc : sentCount (out ++ rest) = l.job.cmd.length := by
    unfold sentCount
    rw [if_neg (by omega)]
    exact q3
  unfold rtuServe at hsv
  rw [if_neg (by omega), hcrc, C.ok_bind, if_pos rfl] at hsv
  obtain ⟨⟨s3, c3, b3, k3⟩, hcr, hsv⟩ := C.bind_eq_ok.mp hsv
  have hs3 : s3 = s2' := by
    dsimp only at hsv
    split at hsv
    · obtain ⟨y1, -, hsv⟩ := C.bind_eq_ok.mp hsv
      obtain ⟨y2, -, hsv⟩ := C.bind_eq_ok.mp hsv
      obtain ⟨y3, -, hsv⟩ := C.bind_eq_ok.mp hsv
      simp only [C.ok.injEq, Prod.mk.injEq] at hsv
      exact hsv.1
    · split at hsv
      · simp only [C.ok.injEq, Prod.mk.injEq] at hsv
        exact hsv.1
      · simp only [C.ok.injEq, Prod.mk.injEq] at hsv
        exact hsv.1
  subst hs3
  obtain ⟨w1, w2⟩ := C63_registers_partial (s := s2) (fd := fd2) (c := c2) (nodes := nodes) (tcp := false) (buff := out ++ rest) (j := j)
    (node := node) (i := i2) (n := n2) (nd := nd) (name := name2) (M := M2) (a := a) (by omega) (by omega) (by rw [q0]; exact hresp) hj (.inr q1)
    (by omega) (fun _ => by rw [q3]; omega) hz hr2 hm2 hM2 ha h0 h1 h3 h4 hi2 hl2 hn2 hn3
    (by rw [hbl]; exact hcr)
  rw [q2, hsc] at w1 w2
  refine ⟨fun hx => ?_, fun hx => (w2 hx).1⟩
  obtain ⟨-, -, -, M', k1, k2, k4⟩ := w1 hx
  refine ⟨M', k1, fun m hm => ?_, k4⟩
  rw [k2 m hm, q5 m hm, List.getD_eq_getElem?_getD, List.getD_eq_getElem?_getD, hdv _ (by omega), hdv _ (by omega)]
  rfl


/-! ## Instances of C66 -/

/-- What the slave answers to the two registers the master asks for is put into the tag of the master. -/
example : (rtuServe (demo mbOps) 5 [] [none, some mbNode] ([1, 3, 0, 0, 0, 2, 0xC4, 0x0B] ++ List.replicate 248 0) 8 {} >>= fun a =>
      sendCommand 5 false 0 { heard := fun _ => [a.2.2.1.getD []], find := some rtuHandle, buff := full 0 } (rtuLink [1, 2, 3, 4]) >>=
      fun x => handle x.1.s 5 (.tagRead 12 20 4) >>= fun y => C.ok (a.2.2.1, x.1.sent, y.2)) =
    .ok (some [1, 3, 4, 0x12, 0x34, 0x56, 0x78, 0x81, 0x07], [[1, 3, 0, 0, 0, 2, 0xC4, 0x0B]], .resp [0x34, 0x12, 0x78, 0x56]) := by kernel_rfl

/-- The hypotheses of `C66_read_registers_partial` on the request and on the slave are met by it. -/
example : OnLine false [1, 3, 0, 0, 0, 2] [1, 3, 0, 0, 0, 2, 0xC4, 0x0B] ∧ Responsible [none, some mbNode] 1 1 mbNode ∧
    Allowed mbNode {} 1 ([1, 3, 0, 0, 0, 2, 0xC4, 0x0B] ++ List.replicate 248 0) ∧ Ordinary (demo mbOps) 12 ∧ mbNode.size .hold = 200 ∧ mbNode.idx .hold = 12 ∧
    (∃ M, Agrees M (demo mbOps)) ∧ LiveTag (demo mbOps) 12 (nm "hold") DAX_UINT 200 :=
  ⟨⟨0xC4, 0x0B, rfl, by kernel_rfl⟩, .inl ⟨rfl, rfl⟩, rfl,
    ⟨0, ⟨by decide, nm "hold", DAX_UINT, 200, fun fd => by kernel_rfl⟩, by decide, by decide⟩, rfl, rfl, agrees_exists mb_reachable,
    ⟨by decide, by decide, 0, fun fd => by kernel_rfl⟩⟩

/-- A master on a serial line whose command reads coils 0 to 13 of node 1. -/
def bitLink : Link :=
  { s := demo mbOps, c := [], job := { cmd := { node := 1, function := 1, register := 0, length := 14, data := [0, 0] } }, buff := [] }

/-- The coils go to bits 18 to 31 of the tag of the master, across the boundary of a byte. -/
example : (rtuServe (demo mbOps) 5 [] [none, some mbNode] ([1, 1, 0, 0, 0, 14, 0xBD, 0xCE] ++ List.replicate 248 0) 8 {} >>= fun a =>
      sendCommand 5 false 0 { heard := fun _ => [a.2.2.1.getD []], find := some ⟨13, 2, 2, 14, 2, DAX_BOOL⟩, buff := full 0 } bitLink >>=
      fun x => handle x.1.s 5 (.tagRead 13 0 5) >>= fun y => C.ok (a.2.2.1, x.1.sent, y.2)) =
    .ok (some [1, 1, 2, 0xA5, 0x3C, 0xC2, 0xBD], [[1, 1, 0, 0, 0, 14, 0xBD, 0xCE]], .resp [0xA5, 0x3C, 0x94, 0xF2, 0]) := by kernel_rfl

/-- The hypotheses of `C66_read_bits_partial` are met by it. -/
example : OnLine false [1, 1, 0, 0, 0, 14] [1, 1, 0, 0, 0, 14, 0xBD, 0xCE] ∧ Allowed mbNode {} 1 ([1, 1, 0, 0, 0, 14, 0xBD, 0xCE] ++ List.replicate 248 0) ∧
    Bools ⟨13, 2, 2, 14, 2, DAX_BOOL⟩ ∧ AttrAt (demo mbOps) 13 0 ∧ Ordinary (demo mbOps) 13 ∧ mbNode.size .coil = 40 ∧ mbNode.idx .coil = 13 ∧
    LiveTag (demo mbOps) 13 (nm "coil") DAX_BOOL 40 :=
  ⟨⟨0xBD, 0xCE, rfl, by kernel_rfl⟩, rfl, ⟨rfl, by decide, by decide, rfl⟩, ⟨by decide, nm "coil", DAX_BOOL, 40, fun fd => by kernel_rfl⟩,
    ⟨0, ⟨by decide, nm "coil", DAX_BOOL, 40, fun fd => by kernel_rfl⟩, by decide, by decide⟩, rfl, rfl,
    ⟨by decide, by decide, 0, fun fd => by kernel_rfl⟩⟩

/-- A master on a serial line whose command writes registers 0 and 1 of its tag 12 to registers 5 and 6 of node 1. -/
def writeLink : Link :=
  { s := demo mbOps, c := [], job := { cmd := { node := 1, function := 16, register := 5, length := 2, data := [0, 0, 0, 0] } }, buff := [] }

/-- The frame reaches the slave in the second try; the registers of the slave get the values. -/
example : (sendCommand 5 false 1 { heard := fun n => if n = 1 then [[1, 16, 0, 5, 0, 2, 0x51, 0xC9]] else [], find := some ⟨12, 0, 0, 2, 4, DAX_UINT⟩, buff := full 0 } writeLink >>= fun x =>
      rtuServe (demo mbOps) 5 [] [none, some mbNode] (x.1.sent.getD 1 [] ++ List.replicate 243 0) 13 {} >>= fun a =>
      handle a.1 5 (.tagRead 12 8 8) >>= fun y => C.ok (x.1.sent, a.2.2.1, y.2)) =
    .ok ([[1, 16, 0, 5, 0, 2, 4, 0x12, 0x34, 0x56, 0x78, 0x48, 0xA4], [1, 16, 0, 5, 0, 2, 4, 0x12, 0x34, 0x56, 0x78, 0x48, 0xA4]],
      some [1, 16, 0, 5, 0, 2, 0x51, 0xC9], .resp [0, 0, 0x34, 0x12, 0x78, 0x56, 0, 0]) := by kernel_rfl

/-- The hypotheses of `C66_write_registers_partial` are met by it. -/
example : (∀ data : List Byte, data.length = 4 → Sound false { writeLink.job.cmd with data := data }) ∧ Responsible [none, some mbNode] 1 1 mbNode ∧
    Ordinary (demo mbOps) 12 ∧ AttrAt (demo mbOps) 12 0 ∧ (∃ M, Agrees M (demo mbOps)) ∧ (∀ i name, LiveAt (demo mbOps) i name → NoMaps (demo mbOps) i) := by
  refine ⟨fun data hd => ?_, .inl ⟨rfl, rfl⟩, ⟨0, ⟨by decide, nm "hold", DAX_UINT, 200, fun fd => by kernel_rfl⟩, by decide, by decide⟩,
    ⟨by decide, nm "hold", DAX_UINT, 200, fun fd => by kernel_rfl⟩, agrees_exists mb_reachable, noMaps_mb⟩
  show Sound false { node := 1, function := 16, register := 5, length := 2, data := data }
  unfold Sound Configured
  simp [hd, area]

end Dax
