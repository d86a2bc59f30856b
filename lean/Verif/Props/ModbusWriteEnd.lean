import Verif.Props.ModbusTcp
/-!
# C66: writing of coils and of single registers
-/
set_option autoImplicit false
namespace Dax
open Modbus LibData
open Wire (shifted shiftSize)

/-- What a command sends that writes: a frame for what it read from its tag. -/
theorem sendCommand_any {fd : Int} {tcp : Bool} {retries i n type k : Nat} {o : Outside} {l l' : Link} {r : Int} {h : Handle} {name : Name}
    (hs : ∀ data, data.length = l.job.cmd.data.length → Sound tcp { l.job.cmd with data := data })
    (hfn : l.job.cmd.function = 5 ∨ l.job.cmd.function = 6 ∨ l.job.cmd.function = 15 ∨ l.job.cmd.function = 16) (ho : o.buff.length = 1024)
    (hh : l.job.handle = some h ∨ (l.job.handle = none ∧ o.find = some h)) (hi : h.index = i) (hsm : Small h)
    (hfit : h.size ≤ l.job.cmd.data.length) (htb : TagBytes type n k) (hin : h.byte + h.size ≤ k) (hk : k < 2147483648)
    (hr : Reachable l.s) (hord : Ordinary l.s i) (hl : LiveTag l.s i name type n)
    (e : sendCommand fd tcp retries o l = .ok (l', r)) :
    ∃ lg d data req, daxTagRead l.s fd l.c h = .ok (l.s, l.c, lg, .done 0, d) ∧ d.length = h.size ∧ data.length = l.job.cmd.data.length ∧
      (∀ k < h.size, data[k]? = d[k]?) ∧ request l.job.cmd.node l.job.cmd.function l.job.cmd.register l.job.cmd.length data = some req ∧ l'.s = l.s ∧
      ∃ outs, l'.sent = l.sent ++ outs ∧ 0 < outs.length ∧ ∀ out ∈ outs, OnLine tcp req out := by
  have hs0 := hs l.job.cmd.data rfl
  obtain ⟨hc, he, -⟩ := id hs0
  dsimp only at he
  have hj : jobHandle l.job o.find = { l.job with handle := some h } := by
    unfold jobHandle
    rcases hh with hh | ⟨hh, hf⟩
    · rw [hh]
      show l.job = _
      rw [← hh]
    · rw [hh, hf]
      dsimp only
      rw [if_neg (by omega)]
  obtain ⟨lg, d, mem, k1, k2, k3, k4, k5⟩ := slaveRead_data (fd := fd) (c := l.c) hr hord hi hsm (mem := l.job.cmd.data) (by omega) hl htb hk hin
  have hgw : getWriteData l.s fd l.c l.job o.find = .ok (l.s, l.c, { l.job with handle := some h, cmd := { l.job.cmd with data := mem } }) := by
    unfold getWriteData
    dsimp only
    rw [hj]
    dsimp only
    unfold slaveRead at k2
    rw [k1, C.ok_bind] at k2 ⊢
    dsimp only at k2 ⊢
    rw [if_neg (by simp)] at k2 ⊢
    obtain ⟨m', w1, w2⟩ := C.bind_eq_ok.mp k2
    simp only [C.ok.injEq, Prod.mk.injEq] at w2
    rw [w1, C.ok_bind, w2.2.2]
  unfold sendCommand at e
  rw [if_neg (by omega)] at e
  dsimp only at e
  rw [if_pos hfn, hgw, C.ok_bind] at e
  dsimp only at e
  obtain ⟨req, hreq⟩ : ∃ req, request l.job.cmd.node l.job.cmd.function l.job.cmd.register l.job.cmd.length mem = some req := by
    rcases hfn with h | h | h | h <;> rw [h] <;> exact ⟨_, rfl⟩
  obtain ⟨outs, a1, a2, a3, a4⟩ := tryLoop_frames (f := req) ho retries 0 _ l' r (hs mem (by omega)) hreq e
  exact ⟨lg, d, mem, req, k1, k4, by omega, k5, hreq, a4 (by dsimp only; omega), outs, a1, a2, a3⟩

/-- What the slave did with a message from the serial line. -/
theorem rtu_served {s s' : Server} {fd : Int} {c c' : TypeCache} {nodes : List (Option Node)} {req out rest : List Byte} {ans : Option (List Byte)} {k : Int} {j : Junk}
    (ho : OnLine false req out) (e : rtuServe s fd c nodes (out ++ rest) out.length j = .ok (s', c', ans, k)) :
    ∃ x y b3 k3, out = req ++ [x, y] ∧ createResponse s fd c nodes false (req ++ ([x, y] ++ rest)) ((256 : Nat) : Int) j = .ok (s', c', b3, k3) := by
  obtain ⟨hcrc, x, y, hxy⟩ := online_check (rest := rest) ho
  have hl : out.length = req.length + 2 := by rw [hxy]; simp
  unfold rtuServe at e
  rw [if_neg (by omega), hcrc, C.ok_bind, if_pos rfl] at e
  obtain ⟨⟨s3, c3, b3, k3⟩, hcr, e⟩ := C.bind_eq_ok.mp e
  refine ⟨x, y, b3, k3, hxy, ?_⟩
  have : s3 = s' ∧ c3 = c' := by
    dsimp only at e
    split at e
    · obtain ⟨y1, -, e⟩ := C.bind_eq_ok.mp e
      obtain ⟨y2, -, e⟩ := C.bind_eq_ok.mp e
      obtain ⟨y3, -, e⟩ := C.bind_eq_ok.mp e
      simp only [C.ok.injEq, Prod.mk.injEq] at e
      exact ⟨e.1, e.2.1⟩
    · split at e
      · simp only [C.ok.injEq, Prod.mk.injEq] at e
        exact ⟨e.1, e.2.1⟩
      · simp only [C.ok.injEq, Prod.mk.injEq] at e
        exact ⟨e.1, e.2.1⟩
  rw [this.1, this.2, hxy, List.append_assoc] at hcr
  exact hcr

/-- The fields of a request to write coils, in the buffer of the slave. -/
theorem request15_fields {node register count : Nat} {data req rest : List Byte} (hn : node < 256) (hreg : register < 65536) (hcnt : count < 65536)
    (hd : data.length = (count + 7) / 8) (h : request node 15 register count data = some req) :
    ((req ++ rest).getD 0 0).toNat = node ∧ code (req ++ rest) = 15 ∧ field (req ++ rest) 2 = register ∧ field (req ++ rest) 4 = count ∧
      req.length = 7 + (count + 7) / 8 ∧ ∀ q < count, sentBit (req ++ rest) q = bitOf data (q / 8) (q % 8) := by
  have hh : request node 15 register count data = some ([BitVec.ofNat 8 node, 15] ++ big register ++ big count ++ [BitVec.ofNat 8 ((count + 7) / 8)] ++ data.take ((count + 7) / 8)) := rfl
  rw [hh, List.take_of_length_le (by omega)] at h
  simp only [Option.some.injEq] at h
  subst h
  refine ⟨?_, rfl, ?_, ?_, ?_, fun q hq => ?_⟩
  · show (BitVec.ofNat 8 node).toNat = node
    rw [BitVec.toNat_ofNat, Nat.mod_eq_of_lt (by omega)]
  · show (BitVec.ofNat 8 (register / 256)).toNat * 256 + (BitVec.ofNat 8 register).toNat = register
    simp only [BitVec.toNat_ofNat]
    omega
  · show (BitVec.ofNat 8 (count / 256)).toNat * 256 + (BitVec.ofNat 8 count).toNat = count
    simp only [BitVec.toNat_ofNat]
    omega
  · simp [big]; omega
  · have hcd : code ([BitVec.ofNat 8 node, 15] ++ big register ++ big count ++ [BitVec.ofNat 8 ((count + 7) / 8)] ++ data ++ rest) = 15 := rfl
    unfold sentBit
    rw [hcd, if_neg (by decide)]
    have e : ([BitVec.ofNat 8 node, 15] ++ big register ++ big count ++ [BitVec.ofNat 8 ((count + 7) / 8)] ++ data ++ rest).getD (7 + q / 8) 0 = (data ++ rest).getD (q / 8) 0 := by
      rw [show 7 + q / 8 = q / 8 + 7 by omega]
      rfl
    rw [e, List.getD_eq_getElem?_getD, List.getElem?_append_left (by omega)]
    unfold bitOf
    rw [List.getElem?_eq_getElem (by omega)]
    rfl

/-- **C66**, writing coils over TCP: if a frame of the master reaches the slave, the coils the command names get the values of the BOOL tag of the
master and nothing else changes; if the slave does not have them all, nothing changes. -/
theorem C66_tcp_write_coils_partial {fd fd2 : Int} {retries i n : Nat} {o : Outside} {l l' : Link} {r : Int} {h : Handle} {name : Name} {M : Mem}
    (hs : ∀ data, data.length = l.job.cmd.data.length → Sound true { l.job.cmd with data := data }) (hfn : l.job.cmd.function = 15) (ho : o.buff.length = 1024)
    (hh : l.job.handle = some h ∨ (l.job.handle = none ∧ o.find = some h)) (hi : h.index = i) (hb : Bools h)
    (hlen : h.count = l.job.cmd.length) (hfit : h.size ≤ l.job.cmd.data.length) (hin : h.byte + h.size ≤ n / 8 + 1) (hn : n ≤ 100000)
    (hr : Reachable l.s) (hord : Ordinary l.s i) (hM : Agrees M l.s) (hl : LiveTag l.s i name DAX_BOOL n)
    (e : sendCommand fd true retries o l = .ok (l', r))
    -- the slave
    {s2 : Server} {c2 : TypeCache} {nodes : List (Option Node)} {j : Junk} {node i2 n2 a : Nat} {nd : Node} {name2 : Name} {M2 : Mem}
    (hresp : Responsible nodes l.job.cmd.node node nd) (hj : j.result % 256 = 0) (hz : nd.coilSize ≠ 0) (hr2 : Reachable s2)
    (hm2 : ∀ i name, LiveAt s2 i name → NoMaps s2 i) (hM2 : Agrees M2 s2) (ha : AttrAt s2 i2 a) (h0 : a.testBit 0 = false)
    (h1 : a.testBit 1 = false) (h3 : a.testBit 3 = false) (h4 : a.testBit 4 = false) (hi2 : nd.coilIdx = i2) (hl2 : LiveTag s2 i2 name2 DAX_BOOL n2)
    (hn2 : nd.coilSize ≤ n2) (hn3 : n2 ≤ 100000) (hmax : l.job.cmd.length ≤ 1944)
    (hend : l.job.cmd.register % 8 ≠ 0 → l.job.cmd.length % 8 = 0 → (l.job.cmd.register + l.job.cmd.length) / 8 + 1 ≤ n2 / 8) :
    l'.s = l.s ∧ ∃ outs, l'.sent = l.sent ++ outs ∧ 0 < outs.length ∧ ∀ out ∈ outs, ∀ buff s2' c2' buff2 k2 ans k, buff.length = 256 →
      tcpServe s2 fd2 c2 nodes buff 0 out j = .ok (s2', c2', buff2, k2, ans, k) →
      (l.job.cmd.register + l.job.cmd.length ≤ nd.coilSize → ∃ M2', Agrees M2' s2' ∧
        (∀ q < l.job.cmd.length, memBit M2' i2 (l.job.cmd.register + q) = memBit M i (8 * h.byte + h.bit + q)) ∧
        ∀ t p, ¬ (t = i2 ∧ l.job.cmd.register ≤ p ∧ p < l.job.cmd.register + l.job.cmd.length) → memBit M2' t p = memBit M2 t p) ∧
      (nd.coilSize < l.job.cmd.register + l.job.cmd.length → s2' = s2) := by
  obtain ⟨hc, -⟩ := hs l.job.cmd.data rfl
  obtain ⟨⟨hd1, hd2⟩, hd3, hd4, ⟨hd5, hd6, hd7⟩, hd8⟩ := id hc
  dsimp only at hd1 hd2 hd4 hd5 hd7 hd8
  have h2000 := hd5 (by rw [hfn]; decide)
  have hdl0 : l.job.cmd.data.length = (l.job.cmd.length + 7) / 8 := by rw [hd8, hfn]; rfl
  have hbs := hb.size
  have hbb := hb.bit
  have hsm : Small h := ⟨by omega, by omega, .inr ⟨hb.type, hbb, by omega⟩⟩
  obtain ⟨lg, d, data, req, hrd, hdd, hdl, hdv, hreq, hss, outs, a1, a2, a3⟩ := sendCommand_any hs (.inr (.inr (.inl hfn))) ho hh hi hsm hfit
    (.inl ⟨rfl, rfl⟩ : TagBytes DAX_BOOL n (n / 8 + 1)) hin (by omega) hr hord hl e
  have hdat := (C24_read hr hord hM hi hb (by omega) hrd).2.2.1
  refine ⟨hss, outs, a1, a2, fun out hout buff s2' c2' buff2 k2 ans k hbuf hsv => ?_⟩
  rw [hfn] at hreq
  obtain ⟨q0, q1, q2, q3, q4, q5⟩ := request15_fields (rest := buff.drop (6 + req.length)) (by omega) hd4 hd7 (by omega) hreq
  have hbl : (req ++ buff.drop (6 + req.length)).length = 250 := by rw [List.length_append, List.length_drop]; omega
  have hsc : sentCount (req ++ buff.drop (6 + req.length)) = l.job.cmd.length := by
    unfold sentCount
    rw [if_neg (by omega)]
    exact q3
  obtain ⟨b3, k3, hcr⟩ := tcp_served hbuf (by omega) (a3 out hout) hsv
  obtain ⟨w1, w2⟩ := C63_coils_partial (s := s2) (fd := fd2) (c := c2) (nodes := nodes) (tcp := true) (buff := req ++ buff.drop (6 + req.length)) (j := j)
    (node := node) (i := i2) (n := n2) (nd := nd) (name := name2) (M := M2) (a := a) (by omega) (by omega) (by rw [q0]; exact hresp) hj (.inr q1)
    (by omega) (fun _ => by rw [q3]; omega) hz hr2 hm2 hM2 ha h0 h1 h3 h4 hi2 hl2 hn2 hn3 (by rw [q2, hsc]; exact hend)
    (by rw [hbl]; exact hcr)
  rw [q2, hsc] at w1 w2
  refine ⟨fun hx => ?_, fun hx => (w2 hx).1⟩
  obtain ⟨-, -, M', k1, k2, k4⟩ := (w1 hx).2
  refine ⟨M', k1, fun q hq => ?_, k4⟩
  rw [k2 q hq, q5 q hq, ← hdat q (by omega)]
  unfold bitOf
  rw [hdv _ (by omega)]

/-- **C66**, writing one register over TCP. -/
theorem C66_tcp_write_register_partial {fd fd2 : Int} {retries i n : Nat} {o : Outside} {l l' : Link} {r : Int} {h : Handle} {name : Name} {M : Mem}
    (hs : ∀ data, data.length = l.job.cmd.data.length → Sound true { l.job.cmd with data := data }) (hfn : l.job.cmd.function = 6) (ho : o.buff.length = 1024)
    (hh : l.job.handle = some h ∨ (l.job.handle = none ∧ o.find = some h)) (hi : h.index = i) (ht : h.type = DAX_UINT)
    (hsz : h.size = 2) (hcnt : h.count = 1) (hin : h.byte + h.size ≤ 2 * n) (hn : n ≤ 100000)
    (hr : Reachable l.s) (hord : Ordinary l.s i) (hM : Agrees M l.s) (hl : LiveTag l.s i name DAX_UINT n)
    (e : sendCommand fd true retries o l = .ok (l', r))
    -- the slave
    {s2 : Server} {c2 : TypeCache} {nodes : List (Option Node)} {j : Junk} {node i2 n2 a : Nat} {nd : Node} {name2 : Name} {M2 : Mem}
    (hresp : Responsible nodes l.job.cmd.node node nd) (hj : j.result % 256 = 0) (hz : nd.holdSize ≠ 0) (hr2 : Reachable s2)
    (hm2 : ∀ i name, LiveAt s2 i name → NoMaps s2 i) (hM2 : Agrees M2 s2) (ha : AttrAt s2 i2 a) (h0 : a.testBit 0 = false)
    (h1 : a.testBit 1 = false) (h3 : a.testBit 3 = false) (h4 : a.testBit 4 = false) (hi2 : nd.holdIdx = i2) (hl2 : LiveTag s2 i2 name2 DAX_UINT n2)
    (hn2 : nd.holdSize ≤ n2) (hn3 : n2 ≤ 100000) :
    l'.s = l.s ∧ ∃ outs, l'.sent = l.sent ++ outs ∧ 0 < outs.length ∧ ∀ out ∈ outs, ∀ buff s2' c2' buff2 k2 ans k, buff.length = 256 →
      tcpServe s2 fd2 c2 nodes buff 0 out j = .ok (s2', c2', buff2, k2, ans, k) →
      (l.job.cmd.register < nd.holdSize → ∃ M2', Agrees M2' s2' ∧
        (M2' i2 (2 * l.job.cmd.register + 1), M2' i2 (2 * l.job.cmd.register)) = (M i (h.byte + 1), M i h.byte) ∧
        ∀ t p, ¬ (t = i2 ∧ 2 * l.job.cmd.register ≤ p ∧ p < 2 * l.job.cmd.register + 2) → M2' t p = M2 t p) ∧
      (nd.holdSize ≤ l.job.cmd.register → s2' = s2) := by
  obtain ⟨hc, -⟩ := hs l.job.cmd.data rfl
  obtain ⟨⟨hd1, hd2⟩, hd3, hd4, ⟨hd5, hd6, hd7⟩, hd8⟩ := id hc
  dsimp only at hd1 hd2 hd4 hd5 hd7 hd8
  have hdl0 : l.job.cmd.data.length = 2 := by rw [hd8, hfn]; rfl
  have hsm : Small h := ⟨by omega, by omega, .inl ⟨ht, by omega⟩⟩
  obtain ⟨lg, d, data, req, hrd, hdd, hdl, hdv, hreq, hss, outs, a1, a2, a3⟩ := sendCommand_any hs (.inr (.inl hfn)) ho hh hi hsm (by omega)
    (.inr ⟨2, by decide, rfl⟩ : TagBytes DAX_UINT n (2 * n)) hin (by omega) hr hord hl e
  have hdat := (C25_read_data (unit := 2) hr hord hM hi (by rw [ht]; decide) ⟨by omega, by omega, fun h => by omega, by decide, by decide, ⟨1, by omega⟩⟩ hrd).2.2
  refine ⟨hss, outs, a1, a2, fun out hout buff s2' c2' buff2 k2 ans k hbuf hsv => ?_⟩
  have hv0 := (hdv 0 (by omega)).trans (hdat 0 (by omega))
  have hv1 := (hdv 1 (by omega)).trans (hdat 1 (by omega))
  have hdata : data = [M i h.byte, M i (h.byte + 1)] := by
    match data, hdl, hv0, hv1 with
    | [x, y], _, hv0, hv1 =>
      simp only [List.getElem?_cons_zero, List.getElem?_cons_succ, Option.some.injEq] at hv0 hv1
      rw [hv0, hv1]
      rfl
    | [], hdl, _, _ => simp at hdl; omega
    | [_], hdl, _, _ => simp at hdl; omega
    | _ :: _ :: _ :: _, hdl, _, _ => simp at hdl; omega
  rw [hfn, hdata] at hreq
  have hrq : req = [BitVec.ofNat 8 l.job.cmd.node, 6] ++ big l.job.cmd.register ++ [M i (h.byte + 1), M i h.byte] := (Option.some.inj hreq).symm
  have h6 : req.length = 6 := by rw [hrq]; rfl
  have q0 : ((req ++ buff.drop (6 + req.length)).getD 0 0).toNat = l.job.cmd.node := by
    rw [hrq]
    show (BitVec.ofNat 8 l.job.cmd.node).toNat = _
    rw [BitVec.toNat_ofNat, Nat.mod_eq_of_lt (by omega)]
  have q1 : code (req ++ buff.drop (6 + req.length)) = 6 := by rw [hrq]; rfl
  have q2 : field (req ++ buff.drop (6 + req.length)) 2 = l.job.cmd.register := by
    rw [hrq]
    show (BitVec.ofNat 8 (l.job.cmd.register / 256)).toNat * 256 + (BitVec.ofNat 8 l.job.cmd.register).toNat = _
    simp only [BitVec.toNat_ofNat]
    omega
  have q5 : sentWord (req ++ buff.drop (6 + req.length)) 0 = (M i (h.byte + 1), M i h.byte) := by
    unfold sentWord
    rw [q1, if_pos rfl, hrq]
    rfl
  have hbl : (req ++ buff.drop (6 + req.length)).length = 250 := by rw [List.length_append, List.length_drop]; omega
  have hsc : sentCount (req ++ buff.drop (6 + req.length)) = 1 := by
    unfold sentCount
    rw [if_pos (.inr q1)]
  obtain ⟨b3, k3, hcr⟩ := tcp_served hbuf (by omega) (a3 out hout) hsv
  obtain ⟨w1, w2⟩ := C63_registers_partial (s := s2) (fd := fd2) (c := c2) (nodes := nodes) (tcp := true) (buff := req ++ buff.drop (6 + req.length)) (j := j)
    (node := node) (i := i2) (n := n2) (nd := nd) (name := name2) (M := M2) (a := a) (by omega) (by omega) (by rw [q0]; exact hresp) hj (.inl q1)
    (by omega) (fun h => by omega) hz hr2 hm2 hM2 ha h0 h1 h3 h4 hi2 hl2 hn2 hn3
    (by rw [hbl]; exact hcr)
  rw [q2, hsc] at w1 w2
  refine ⟨fun hx => ?_, fun hx => (w2 (by omega)).1⟩
  obtain ⟨-, -, M', k1, k2, k4⟩ := (w1 (by omega)).2
  refine ⟨M', k1, ?_, fun t p hp => k4 t p (fun hq => hp ⟨hq.1, hq.2.1, by omega⟩)⟩
  have := k2 0 (by omega)
  rw [q5] at this
  exact this

/-- **C66**, writing one coil over a serial line. -/
theorem C66_write_coil_partial {fd fd2 : Int} {retries i n : Nat} {o : Outside} {l l' : Link} {r : Int} {h : Handle} {name : Name} {M : Mem}
    (hs : ∀ data, data.length = l.job.cmd.data.length → Sound false { l.job.cmd with data := data }) (hfn : l.job.cmd.function = 5) (ho : o.buff.length = 1024)
    (hh : l.job.handle = some h ∨ (l.job.handle = none ∧ o.find = some h)) (hi : h.index = i) (hb : Bools h) (hcnt : h.count = 1)
    (hin : h.byte + h.size ≤ n / 8 + 1) (hn : n ≤ 100000)
    (hr : Reachable l.s) (hord : Ordinary l.s i) (hM : Agrees M l.s) (hl : LiveTag l.s i name DAX_BOOL n)
    (e : sendCommand fd false retries o l = .ok (l', r))
    -- the slave
    {s2 : Server} {c2 : TypeCache} {nodes : List (Option Node)} {j : Junk} {node i2 n2 a : Nat} {nd : Node} {name2 : Name} {M2 : Mem}
    (hresp : Responsible nodes l.job.cmd.node node nd) (hj : j.result % 256 = 0) (hz : nd.coilSize ≠ 0) (hr2 : Reachable s2)
    (hm2 : ∀ i name, LiveAt s2 i name → NoMaps s2 i) (hM2 : Agrees M2 s2) (ha : AttrAt s2 i2 a) (h0 : a.testBit 0 = false)
    (h1 : a.testBit 1 = false) (h3 : a.testBit 3 = false) (h4 : a.testBit 4 = false) (hi2 : nd.coilIdx = i2) (hl2 : LiveTag s2 i2 name2 DAX_BOOL n2)
    (hn2 : nd.coilSize ≤ n2) (hn3 : n2 ≤ 100000) :
    l'.s = l.s ∧ ∃ outs, l'.sent = l.sent ++ outs ∧ 0 < outs.length ∧ ∀ out ∈ outs, ∀ rest s2' c2' ans k, out.length + rest.length = 256 →
      rtuServe s2 fd2 c2 nodes (out ++ rest) out.length j = .ok (s2', c2', ans, k) →
      (l.job.cmd.register < nd.coilSize → ∃ M2', Agrees M2' s2' ∧
        memBit M2' i2 l.job.cmd.register = memBit M i (8 * h.byte + h.bit) ∧
        ∀ t p, ¬ (t = i2 ∧ p = l.job.cmd.register) → memBit M2' t p = memBit M2 t p) ∧
      (nd.coilSize ≤ l.job.cmd.register → s2' = s2) := by
  obtain ⟨hc, -⟩ := hs l.job.cmd.data rfl
  obtain ⟨⟨hd1, hd2⟩, hd3, hd4, ⟨hd5, hd6, hd7⟩, hd8⟩ := id hc
  dsimp only at hd1 hd2 hd4 hd5 hd7 hd8
  have hdl0 : l.job.cmd.data.length = 1 := by rw [hd8, hfn]; rfl
  have hbs := hb.size
  have hbb := hb.bit
  have hs1 : h.size = 1 := by omega
  have hsm : Small h := ⟨by omega, by omega, .inr ⟨hb.type, hbb, by omega⟩⟩
  obtain ⟨lg, d, data, req, hrd, hdd, hdl, hdv, hreq, hss, outs, a1, a2, a3⟩ := sendCommand_any hs (.inl hfn) ho hh hi hsm (by omega)
    (.inl ⟨rfl, rfl⟩ : TagBytes DAX_BOOL n (n / 8 + 1)) hin (by omega) hr hord hl e
  have hdat := (C24_read hr hord hM hi hb (by omega) hrd).2.2
  refine ⟨hss, outs, a1, a2, fun out hout rest s2' c2' ans k hrest hsv => ?_⟩
  obtain ⟨x, hx⟩ : ∃ x, d = [x] := by
    match d, hdd with
    | [x], _ => exact ⟨x, rfl⟩
    | [], hdd => simp at hdd; omega
    | _ :: _ :: _, hdd => simp at hdd; omega
  have hdata : data = [x] := by
    have hv := hdv 0 (by omega)
    rw [hx] at hv
    match data, hdl, hv with
    | [y], _, hv =>
      simp only [List.getElem?_cons_zero, Option.some.injEq] at hv
      rw [hv]
    | [], hdl, _ => simp at hdl; omega
    | _ :: _ :: _, hdl, _ => simp at hdl; omega
  have hx0 : x.getLsbD 0 = memBit M i (8 * h.byte + h.bit) := by
    have := hdat.1 0 (by omega)
    rw [hx] at this
    exact this
  have hxr : ∀ q, 1 ≤ q → q < 8 → x.getLsbD q = false := by
    intro q h1 h8
    have := hdat.2 q (by omega)
    rw [hx] at this
    unfold bitOf at this
    rw [show q / 8 = 0 by omega, show q % 8 = q by omega] at this
    exact this
  have hxz : (x = 0) ↔ memBit M i (8 * h.byte + h.bit) = false := by
    rw [← hx0]
    constructor
    · rintro rfl; rfl
    · intro h0
      apply BitVec.eq_of_getLsbD_eq
      intro q hq
      rcases Nat.eq_zero_or_pos q with rfl | hp
      · rw [h0]; rfl
      · rw [hxr q hp hq]; simp
  rw [hfn, hdata] at hreq
  have hrq : req = [BitVec.ofNat 8 l.job.cmd.node, 5] ++ big l.job.cmd.register ++ [if x = 0 then 0 else 0xff, 0] := by
    rw [← Option.some.inj hreq]
    show _ ++ _ ++ [if [x] = [0] then (0 : Byte) else 0xff, 0] = _
    congr 2
    by_cases h : x = 0 <;> simp [h]
  have h6 : req.length = 6 := by rw [hrq]; rfl
  obtain ⟨u, v, b3, k3, hxy, hcr⟩ := rtu_served (a3 out hout) hsv
  have q0 : ((req ++ ([u, v] ++ rest)).getD 0 0).toNat = l.job.cmd.node := by
    rw [hrq]
    show (BitVec.ofNat 8 l.job.cmd.node).toNat = _
    rw [BitVec.toNat_ofNat, Nat.mod_eq_of_lt (by omega)]
  have q1 : code (req ++ ([u, v] ++ rest)) = 5 := by rw [hrq]; rfl
  have q2 : field (req ++ ([u, v] ++ rest)) 2 = l.job.cmd.register := by
    rw [hrq]
    show (BitVec.ofNat 8 (l.job.cmd.register / 256)).toNat * 256 + (BitVec.ofNat 8 l.job.cmd.register).toNat = _
    simp only [BitVec.toNat_ofNat]
    omega
  have q5 : sentBit (req ++ ([u, v] ++ rest)) 0 = memBit M i (8 * h.byte + h.bit) := by
    unfold sentBit
    rw [q1, if_pos rfl, hrq]
    show ((if x = 0 then (0 : Byte) else 0xff).toNat * 256 + (0 : Byte).toNat != 0) = _
    by_cases hz : x = 0
    · rw [if_pos hz, hxz.mp hz]; decide
    · rw [if_neg hz]
      cases hm : memBit M i (8 * h.byte + h.bit) with
      | false => exact absurd (hxz.mpr hm) hz
      | true => decide
  have hol : out.length = 8 := by rw [hxy, List.length_append]; simp; omega
  have hbl : (req ++ ([u, v] ++ rest)).length = 256 := by simp; omega
  have hsc : sentCount (req ++ ([u, v] ++ rest)) = 1 := by
    unfold sentCount
    rw [if_pos (.inl q1)]
  obtain ⟨w1, w2⟩ := C63_coils_partial (s := s2) (fd := fd2) (c := c2) (nodes := nodes) (tcp := false) (buff := req ++ ([u, v] ++ rest)) (j := j)
    (node := node) (i := i2) (n := n2) (nd := nd) (name := name2) (M := M2) (a := a) (by omega) (by omega) (by rw [q0]; exact hresp) hj (.inl q1)
    (by omega) (fun h => by omega) hz hr2 hm2 hM2 ha h0 h1 h3 h4 hi2 hl2 hn2 hn3 (by rw [hsc]; omega)
    (by rw [hbl]; exact hcr)
  rw [q2, hsc] at w1 w2
  refine ⟨fun hx => ?_, fun hx => (w2 (by omega)).1⟩
  obtain ⟨-, -, M', k1, k2, k4⟩ := (w1 (by omega)).2
  refine ⟨M', k1, ?_, fun t p hp => k4 t p (fun hq => hp ⟨hq.1, by omega⟩)⟩
  have := k2 0 (by omega)
  rw [q5] at this
  exact this

/-! ## A failure over TCP, and instances -/

/-- **C66 fails**: over TCP a request for 124 registers, which the protocol and the configuration of the master allow and the slave has, is not
answered at all (`src/modules/modbus/mbserver.c`: the buffer holds 256 bytes with the header; `src/modules/modbus/modbus.c:870-875`); over a
serial line it is. -/
theorem C66_tcp_large : (tcpServe (demo mbOps) 5 [] [none, some mbNode] (List.replicate 256 0) 0 [0, 9, 0, 0, 0, 6, 1, 3, 0, 0, 0, 124] {} >>= fun a => C.ok a.2.2.2) =
      .ok (12, none, MB_ERR_OVERFLOW) ∧
    (createResponse (demo mbOps) 5 [] [none, some mbNode] false (frame 256 [1, 3, 0, 0, 0, 124]) 256 {} >>= fun a => C.ok a.2.2.2) = .ok 251 := ⟨by kernel_rfl, by kernel_rfl⟩

/-- A master whose command has the given function, register, length and memory. -/
def linkOf (function register length : Nat) (data : List Byte) : Link :=
  { s := demo mbOps, c := [], job := { cmd := { node := 1, function := function, register := register, length := length, data := data } }, buff := [] }

/-- Instance of `C66_tcp_registers_partial`. -/
example : (tcpServe (demo mbOps) 5 [] [none, some mbNode] (List.replicate 256 0) 0 [0, 9, 0, 0, 0, 6, 1, 3, 0, 0, 0, 2] {} >>= fun a =>
      sendCommand 5 true 0 { heard := fun _ => [a.2.2.2.2.1.getD []], find := some rtuHandle, buff := full 0 } (linkOf 3 0 2 [1, 2, 3, 4]) >>=
      fun x => handle x.1.s 5 (.tagRead 12 20 4) >>= fun y => C.ok (a.2.2.2.2.1, y.2)) =
    .ok (some [0, 9, 0, 0, 0, 7, 1, 3, 4, 0x12, 0x34, 0x56, 0x78], .resp [0x34, 0x12, 0x78, 0x56]) := by kernel_rfl

/-- Instance of `C66_tcp_bits_partial`. -/
example : (tcpServe (demo mbOps) 5 [] [none, some mbNode] (List.replicate 256 0) 0 [0, 9, 0, 0, 0, 6, 1, 1, 0, 0, 0, 14] {} >>= fun a =>
      sendCommand 5 true 0 { heard := fun _ => [a.2.2.2.2.1.getD []], find := some ⟨13, 2, 2, 14, 2, DAX_BOOL⟩, buff := full 0 } (linkOf 1 0 14 [0, 0]) >>=
      fun x => handle x.1.s 5 (.tagRead 13 0 5) >>= fun y => C.ok (a.2.2.2.2.1, y.2)) =
    .ok (some [0, 9, 0, 0, 0, 5, 1, 1, 2, 0xA5, 0x3C], .resp [0xA5, 0x3C, 0x94, 0xF2, 0]) := by kernel_rfl

/-- Instance of `C66_tcp_write_registers_partial`. -/
example : (sendCommand 5 true 0 { find := some ⟨12, 0, 0, 2, 4, DAX_UINT⟩, buff := full 0 } (linkOf 16 5 2 [0, 0, 0, 0]) >>= fun x =>
      tcpServe (demo mbOps) 5 [] [none, some mbNode] (List.replicate 256 0) 0 (x.1.sent.getD 0 []) {} >>= fun a =>
      handle a.1 5 (.tagRead 12 8 8) >>= fun y => C.ok (x.1.sent, y.2)) =
    .ok ([[0, 0, 0, 0, 0, 11, 1, 16, 0, 5, 0, 2, 4, 0x12, 0x34, 0x56, 0x78]], .resp [0, 0, 0x34, 0x12, 0x78, 0x56, 0, 0]) := by kernel_rfl

/-- Instance of `C66_tcp_write_coils_partial`: bits 2 to 15 of the tag of the master become coils 20 to 33 of the slave. -/
example : (sendCommand 5 true 0 { find := some ⟨13, 0, 2, 14, 2, DAX_BOOL⟩, buff := full 0 } (linkOf 15 20 14 [0, 0]) >>= fun x =>
      tcpServe (demo mbOps) 5 [] [none, some mbNode] (List.replicate 256 0) 0 (x.1.sent.getD 0 []) {} >>= fun a =>
      handle a.1 5 (.tagRead 13 0 5) >>= fun y => C.ok (x.1.sent, y.2)) =
    .ok ([[0, 0, 0, 0, 0, 9, 1, 15, 0, 20, 0, 14, 2, 0x29, 0x0F]], .resp [0xA5, 0x3C, 0x90, 0xF2, 0]) := by kernel_rfl

/-- Instance of `C66_tcp_write_register_partial`: the second register of the tag of the master becomes register 5 of the slave. -/
example : (sendCommand 5 true 0 { find := some ⟨12, 2, 0, 1, 2, DAX_UINT⟩, buff := full 0 } (linkOf 6 5 1 [0, 0]) >>= fun x =>
      tcpServe (demo mbOps) 5 [] [none, some mbNode] (List.replicate 256 0) 0 (x.1.sent.getD 0 []) {} >>= fun a =>
      handle a.1 5 (.tagRead 12 8 6) >>= fun y => C.ok (x.1.sent, y.2)) =
    .ok ([[0, 0, 0, 0, 0, 6, 1, 6, 0, 5, 0x56, 0x78]], .resp [0, 0, 0x78, 0x56, 0, 0]) := by kernel_rfl

/-- Instance of `C66_write_coil_partial`: bit 11 of the tag of the master becomes coil 21 of the slave. -/
example : (sendCommand 5 false 0 { find := some ⟨13, 1, 3, 1, 1, DAX_BOOL⟩, buff := full 0 } (linkOf 5 21 1 [0]) >>= fun x =>
      rtuServe (demo mbOps) 5 [] [none, some mbNode] (x.1.sent.getD 0 [] ++ List.replicate 248 0) 8 {} >>= fun a =>
      handle a.1 5 (.tagRead 13 0 5) >>= fun y => C.ok ((x.1.sent.getD 0 []).take 6, y.2)) =
    .ok ([1, 5, 0, 21, 0xFF, 0], .resp [0xA5, 0x3C, 0x20, 0, 0]) := by kernel_rfl

/-- The hypotheses of the theorems on commands and handles are met by these. -/
example : (∀ data : List Byte, data.length = 2 → Sound true { (linkOf 15 20 14 [0, 0]).job.cmd with data := data }) ∧
    (∀ data : List Byte, data.length = 2 → Sound true { (linkOf 6 5 1 [0, 0]).job.cmd with data := data }) ∧
    (∀ data : List Byte, data.length = 1 → Sound false { (linkOf 5 21 1 [0]).job.cmd with data := data }) ∧
    Bools ⟨13, 0, 2, 14, 2, DAX_BOOL⟩ ∧ Bools ⟨13, 1, 3, 1, 1, DAX_BOOL⟩ ∧ AttrAt (demo mbOps) 13 0 ∧ OnLine true [1, 3, 0, 0, 0, 2] [0, 9, 0, 0, 0, 6, 1, 3, 0, 0, 0, 2] := by
  refine ⟨fun data hd => ?_, fun data hd => ?_, fun data hd => ?_, ⟨rfl, by decide, by decide, rfl⟩, ⟨rfl, by decide, by decide, rfl⟩,
    ⟨by decide, nm "coil", DAX_BOOL, 40, fun fd => by kernel_rfl⟩, ⟨9, rfl⟩⟩
  · show Sound true { node := 1, function := 15, register := 20, length := 14, data := data }
    unfold Sound Configured
    simp [hd, area]
  · show Sound true { node := 1, function := 6, register := 5, length := 1, data := data }
    unfold Sound Configured
    simp [hd, area]
  · show Sound false { node := 1, function := 5, register := 21, length := 1, data := data }
    unfold Sound Configured
    simp [hd, area]

end Dax
