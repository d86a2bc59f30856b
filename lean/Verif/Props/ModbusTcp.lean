import Verif.Props.ModbusEnd
/-!
# C66 over TCP
-/
set_option autoImplicit false
namespace Dax
open Modbus LibData
open Wire (shifted shiftSize)

theorem big_length (n : Nat) : (big n).length = 2 := rfl

theorem field_big (a b : Byte) (k : Nat) (l : List Byte) (hk : k < 65536) (x y : Byte) : field (a :: b :: x :: y :: (big k ++ l)) 4 = k := by
  show (BitVec.ofNat 8 (k / 256)).toNat * 256 + (BitVec.ofNat 8 k).toNat = k
  simp only [BitVec.toNat_ofNat]
  omega

/-- The slave has the whole message of the master in its buffer. -/
theorem tcp_whole {s : Server} {fd : Int} {c : TypeCache} {nodes : List (Option Node)} {buff req out : List Byte} {j : Junk} (hb : buff.length = 256) (h250 : req.length ≤ 250)
    (ho : OnLine true req out) : ∃ hdr : List Byte, hdr.length = 6 ∧ tcpServe s fd c nodes buff 0 out j =
      createResponse s fd c nodes true (req ++ buff.drop (6 + req.length)) 250 j >>= fun x =>
        if x.2.2.2 > 0 then wr (hdr ++ x.2.2.1) 4 [BitVec.ofInt 8 (x.2.2.2 / 256), BitVec.ofInt 8 x.2.2.2] >>= fun b => rd b 0 (x.2.2.2 + 6) >>= fun out => .ok (x.1, x.2.1, b, 0, some out, 0)
        else if x.2.2.2 < 0 then .ok (x.1, x.2.1, hdr ++ x.2.2.1, 6 + req.length, none, x.2.2.2)
        else .ok (x.1, x.2.1, hdr ++ x.2.2.1, 6 + req.length, none, 0) := by
  obtain ⟨tid, rfl⟩ := ho
  have hl : (big tid ++ [0, 0] ++ big req.length ++ req).length = 6 + req.length := by simp [big]; omega
  refine ⟨big tid ++ [0, 0] ++ big req.length, rfl, ?_⟩
  unfold tcpServe
  rw [if_neg (by rw [hl]; show ¬ _ > 256; omega)]
  have hw : wr buff ((0 : Nat) : Int) (big tid ++ [0, 0] ++ big req.length ++ req) = .ok ((big tid ++ [0, 0] ++ big req.length ++ req) ++ buff.drop (6 + req.length)) := by
    rw [wr_ok]
    refine ⟨⟨by simp, by rw [hl]; omega⟩, ?_⟩
    rw [hl]
    simp
  rw [hw, C.ok_bind]
  dsimp only
  rw [hl, Nat.zero_add, if_pos (by omega)]
  obtain ⟨p, hp, hp2⟩ := getWord_ok (b := (big tid ++ [0, 0] ++ big req.length ++ req) ++ buff.drop (6 + req.length)) (off := 4)
    (by rw [List.length_append, hl]; omega)
  have hf : field ((big tid ++ [0, 0] ++ big req.length ++ req) ++ buff.drop (6 + req.length)) 4 = req.length := by
    show (BitVec.ofNat 8 (req.length / 256)).toNat * 256 + (BitVec.ofNat 8 req.length).toNat = req.length
    simp only [BitVec.toNat_ofNat]
    omega
  rw [hp, C.ok_bind, hp2, hf, if_pos (by omega)]
  have hd : ((big tid ++ [0, 0] ++ big req.length ++ req) ++ buff.drop (6 + req.length)).drop 6 = req ++ buff.drop (6 + req.length) := rfl
  have htk : ((big tid ++ [0, 0] ++ big req.length ++ req) ++ buff.drop (6 + req.length)).take 6 = big tid ++ [0, 0] ++ big req.length := rfl
  rw [hd, htk]
  rfl

/-- What the slave makes of an answer on a TCP connection. -/
theorem tcp_answer {s s' : Server} {fd : Int} {c c' : TypeCache} {nodes : List (Option Node)} {buff req out b' ans : List Byte} {n : Nat} {j : Junk}
    (hb : buff.length = 256) (h6 : req.length = 6) (ho : OnLine true req out)
    (e : createResponse s fd c nodes true (req ++ buff.drop 12) ((250 : Nat) : Int) j = .ok (s', c', b', ((n : Nat) : Int))) (hl : b'.length = 250) (hn : n ≤ 250)
    (ht : b'.take n = ans) (hpos : 0 < ans.length) :
    ∃ hdr buff2 : List Byte, hdr.length = 6 ∧ tcpServe s fd c nodes buff 0 out j = .ok (s', c', buff2, 0, some (hdr ++ ans), 0) := by
  have hal : ans.length = n := by rw [← ht, List.length_take]; omega
  obtain ⟨hdr, h1, h2⟩ := tcp_whole (s := s) (fd := fd) (c := c) (nodes := nodes) (j := j) hb (by omega) ho
  rw [h6] at h2
  have e' : createResponse s fd c nodes true (req ++ buff.drop (6 + 6)) 250 j = .ok (s', c', b', ((n : Nat) : Int)) := e
  rw [e', C.ok_bind] at h2
  dsimp only at h2
  rw [if_pos (by omega)] at h2
  have hw : wr (hdr ++ b') 4 [BitVec.ofInt 8 (((n : Nat) : Int) / 256), BitVec.ofInt 8 ((n : Nat) : Int)] =
      .ok ((hdr ++ b').take 4 ++ [BitVec.ofInt 8 (((n : Nat) : Int) / 256), BitVec.ofInt 8 ((n : Nat) : Int)] ++ (hdr ++ b').drop 6) := by
    rw [wr_ok]
    exact ⟨⟨by omega, by simp only [List.length_append, List.length_cons, List.length_nil]; omega⟩, rfl⟩
  rw [hw, C.ok_bind] at h2
  have h4 : ((hdr ++ b').take 4 ++ [BitVec.ofInt 8 (((n : Nat) : Int) / 256), BitVec.ofInt 8 ((n : Nat) : Int)]).length = 6 := by
    simp only [List.length_append, List.length_take, List.length_cons, List.length_nil]
    omega
  have hdrop : (hdr ++ b').drop 6 = b' := by rw [← h1, List.drop_left]
  rw [hdrop] at h2
  have hr : rd ((hdr ++ b').take 4 ++ [BitVec.ofInt 8 (((n : Nat) : Int) / 256), BitVec.ofInt 8 ((n : Nat) : Int)] ++ b') 0 (((n : Nat) : Int) + 6) =
      .ok (((hdr ++ b').take 4 ++ [BitVec.ofInt 8 (((n : Nat) : Int) / 256), BitVec.ofInt 8 ((n : Nat) : Int)]) ++ ans) := by
    rw [rd_ok]
    refine ⟨⟨by omega, by omega, by rw [List.length_append, h4]; omega⟩, ?_⟩
    rw [show (((n : Nat) : Int) + 6).toNat = 6 + n by omega, ← ht]
    generalize (hdr ++ b').take 4 ++ [BitVec.ofInt 8 (((n : Nat) : Int) / 256), BitVec.ofInt 8 ((n : Nat) : Int)] = z at h4
    show _ = List.take (6 + n) (z ++ b')
    rw [List.take_append, h4, List.take_of_length_le (l := z) (by rw [h4]; omega), show 6 + n - 6 = n by omega]
  rw [hr, C.ok_bind] at h2
  exact ⟨_, _, h4, h2⟩

/-- What the slave did with a message that it took. -/
theorem tcp_served {s s' : Server} {fd : Int} {c c' : TypeCache} {nodes : List (Option Node)} {buff req out b2 : List Byte} {k2 : Nat} {ans : Option (List Byte)} {k : Int} {j : Junk}
    (hb : buff.length = 256) (h250 : req.length ≤ 250) (ho : OnLine true req out)
    (e : tcpServe s fd c nodes buff 0 out j = .ok (s', c', b2, k2, ans, k)) :
    ∃ b3 k3, createResponse s fd c nodes true (req ++ buff.drop (6 + req.length)) ((250 : Nat) : Int) j = .ok (s', c', b3, k3) := by
  obtain ⟨hdr, h1, h2⟩ := tcp_whole (s := s) (fd := fd) (c := c) (nodes := nodes) (j := j) hb h250 ho
  rw [h2] at e
  obtain ⟨⟨s3, c3, b3, k3⟩, e1, e⟩ := C.bind_eq_ok.mp e
  refine ⟨b3, k3, ?_⟩
  have : s3 = s' ∧ c3 = c' := by
    dsimp only at e
    split at e
    · obtain ⟨y1, -, e⟩ := C.bind_eq_ok.mp e
      obtain ⟨y2, -, e⟩ := C.bind_eq_ok.mp e
      simp only [C.ok.injEq, Prod.mk.injEq] at e
      exact ⟨e.1, e.2.1⟩
    · split at e
      · simp only [C.ok.injEq, Prod.mk.injEq] at e
        exact ⟨e.1, e.2.1⟩
      · simp only [C.ok.injEq, Prod.mk.injEq] at e
        exact ⟨e.1, e.2.1⟩
  rw [this.1, this.2] at e1
  exact e1

/-- **C66**, reading registers over TCP: as `C66_read_registers_partial`, for the header of TCP instead of the checksum. -/
theorem C66_tcp_registers_partial {fd fd2 : Int} {retries m i n a : Nat} {o : Outside} {l : Link} {req out buff : List Byte} {h : Handle} {name : Name}
    {M : Mem} (hs : Sound true l.job.cmd) (ho : o.buff.length = 1024) (hp : l.pending = [])
    (hreq : request l.job.cmd.node l.job.cmd.function l.job.cmd.register l.job.cmd.length l.job.cmd.data = some req)
    (hm : m ≤ retries) (hu : ∀ i < m, Useless true (o.heard i))
    (hh : l.job.handle = some h ∨ (l.job.handle = none ∧ o.find = some h)) (hi : h.index = i) (ht : h.type = DAX_UINT) (hpos : 0 < h.count)
    (hsz : h.size = 2 * h.count) (hfit : h.size ≤ l.job.cmd.data.length) (hin : h.byte + h.size ≤ 2 * n) (hn : n ≤ 100000)
    (hr : Reachable l.s) (hmap : ∀ i name, LiveAt l.s i name → NoMaps l.s i) (hM : Agrees M l.s) (hat : AttrAt l.s i a) (h0 : a.testBit 0 = false)
    (h1 : a.testBit 1 = false) (h3 : a.testBit 3 = false) (h4 : a.testBit 4 = false) (hl : LiveTag l.s i name DAX_UINT n)
    -- the slave
    {s2 : Server} {c2 : TypeCache} {nodes : List (Option Node)} {j : Junk} {node i2 n2 : Nat} {nd : Node} {reg : Reg} {name2 : Name} {M2 : Mem}
    (hout : OnLine true req out) (hbuf : buff.length = 256) (hmax : l.job.cmd.length ≤ 123) (hresp : Responsible nodes l.job.cmd.node node nd)
    (hal : Allowed nd j node (req ++ buff.drop 12)) (hreg : (l.job.cmd.function = 3 ∧ reg = .hold) ∨ (l.job.cmd.function = 4 ∧ reg = .input))
    (hz : nd.size reg ≠ 0) (hr2 : Reachable s2) (ho2 : Ordinary s2 i2) (hM2 : Agrees M2 s2) (hi2 : nd.idx reg = i2) (hl2 : LiveTag s2 i2 name2 DAX_UINT n2)
    (hn2 : nd.size reg ≤ n2) (hn3 : n2 ≤ 100000) :
    ∃ answer buff2, tcpServe s2 fd2 c2 nodes buff 0 out j = .ok (s2, c2, buff2, 0, some answer, 0) ∧
      ((o.heard m).flatten = answer → ∀ l' r, sendCommand fd true retries o l = .ok (l', r) → 0 < r ∧
        (l.job.cmd.register + l.job.cmd.length ≤ nd.size reg → ∃ M', Agrees M' l'.s ∧
          (∀ k < h.count, (M' i (h.byte + 2 * k + 1), M' i (h.byte + 2 * k)) = (M2 i2 (2 * (l.job.cmd.register + k) + 1), M2 i2 (2 * (l.job.cmd.register + k)))) ∧
          ∀ t p, ¬ (t = i ∧ h.byte ≤ p ∧ p < h.byte + h.size) → M' t p = M t p) ∧
        (nd.size reg < l.job.cmd.register + l.job.cmd.length → l'.s = l.s)) := by
  obtain ⟨hc, -⟩ := id hs
  obtain ⟨⟨hd1, hd2⟩, hd3, hd4, ⟨hd5, hd6, hd7⟩, hd8⟩ := id hc
  have hf34 : l.job.cmd.function = 3 ∨ l.job.cmd.function = 4 := by rcases hreg with ⟨h, -⟩ | ⟨h, -⟩; exact .inl h; exact .inr h
  have h125 := (hd6 (by rcases hf34 with e | e <;> rw [e] <;> decide)).2
  have hdl : l.job.cmd.data.length = 2 * l.job.cmd.length := by
    rw [hd8]
    rcases hf34 with e | e <;> rw [e] <;> rfl
  obtain ⟨q0, q1, q2, q3, q4⟩ := request_fields (rest := buff.drop 12) (by omega) (by omega) hd4 hd7 hreq
  have hbl : (req ++ buff.drop 12).length = 250 := by rw [List.length_append, List.length_drop]; omega
  obtain ⟨b', k, e, e1, e2, e3, e4⟩ := C55_registers_partial (s := s2) (fd := fd2) (c := c2) (nodes := nodes) (tcp := true) (buff := req ++ buff.drop 12) (j := j)
    (node := node) (i := i2) (n := n2) (nd := nd) (reg := reg) (name := name2) (M := M2) (by omega) (by omega) (by rw [q0]; exact hresp) hal
    (by rw [q1]; exact hreg) hz (by rw [q3]; omega) hr2 ho2 hM2 hi2 hl2 hn2 hn3
  rw [q2, q3] at e3 e4
  have hq0 : (req ++ buff.drop 12).getD 0 0 = req.getD 0 0 := by
    rw [List.getD_eq_getElem?_getD, List.getD_eq_getElem?_getD, List.getElem?_append_left (by omega)]
  have hq1 : (req ++ buff.drop 12).getD 1 0 = req.getD 1 0 := by
    rw [List.getD_eq_getElem?_getD, List.getD_eq_getElem?_getD, List.getElem?_append_left (by omega)]
  rw [hq0, hq1] at e3 e4
  have hcodereq : code req = l.job.cmd.function := by
    unfold code
    rw [← hq1]
    exact q1
  have hfr : field req 4 = l.job.cmd.length := (request_read (by omega) hd7 hreq).2.2
  by_cases hw : l.job.cmd.register + l.job.cmd.length ≤ nd.size reg
  · have e5 := e3 hw
    have hrl := registersOf_length M2 i2 l.job.cmd.register l.job.cmd.length
    have hans : Answer req (req.getD 0 0 :: req.getD 1 0 :: BitVec.ofNat 8 (2 * l.job.cmd.length) :: registersOf M2 i2 l.job.cmd.register l.job.cmd.length) := by
      have := Answer.words (req := req) (registersOf M2 i2 l.job.cmd.register l.job.cmd.length) (by rw [hcodereq]; exact hf34) (by rw [hrl, hfr]) (by omega)
      rwa [hrl] at this
    obtain ⟨hdr, buff2, hh6, hsv⟩ := tcp_answer hbuf q4 hout (by rw [hbl] at e; exact e) (e1.trans hbl) (by omega) e5 (by simp)
    refine ⟨_, buff2, hsv, fun hfl l' r hcmd => ?_⟩
    obtain ⟨g1, -, -, -, g4⟩ := C64_registers_partial hs hf34 ho hp hreq hans hm hu ⟨hdr, hh6, hfl, (by simp only [List.length_cons]; omega)⟩ hh hi ht hpos hsz hfit hin hn hr hmap hM hat h0 h1 h3 h4 hl hcmd
    refine ⟨g1, fun _ => ?_, fun hx => by omega⟩
    obtain ⟨-, -, M', k1, k2, k3⟩ := g4 (by show code req < 128; omega)
    refine ⟨M', k1, fun q hq => ?_, k3⟩
    rw [k2 q hq, Prod.mk.injEq]
    have s1 : ∀ p, p < 2 * l.job.cmd.length → (req.getD 0 0 :: req.getD 1 0 :: BitVec.ofNat 8 (2 * l.job.cmd.length) :: registersOf M2 i2 l.job.cmd.register l.job.cmd.length).getD (3 + p) 0 =
        if p % 2 = 0 then M2 i2 (2 * (l.job.cmd.register + p / 2) + 1) else M2 i2 (2 * (l.job.cmd.register + p / 2)) := by
      intro p hp
      rw [show 3 + p = p + 3 by omega, List.getD_cons_succ, List.getD_cons_succ, List.getD_cons_succ, List.getD_eq_getElem?_getD, registersOf_get hp]
      split <;> rfl
    constructor
    · rw [s1 _ (by omega), if_pos (by omega), show 2 * q / 2 = q by omega]
    · rw [show 4 + 2 * q = 3 + (2 * q + 1) by omega, s1 _ (by omega), if_neg (by omega), show (2 * q + 1) / 2 = q by omega]
  · have e5 := e4 (by omega)
    obtain ⟨hdr, buff2, hh6, hsv⟩ := tcp_answer hbuf q4 hout (by rw [hbl] at e; exact e) (e1.trans hbl) (by omega) e5 (by simp)
    refine ⟨_, buff2, hsv, fun hfl l' r hcmd => ?_⟩
    obtain ⟨g1, -, -, g3, -⟩ := C64_registers_partial hs hf34 ho hp hreq (Answer.exception 2) hm hu ⟨hdr, hh6, hfl, (by simp only [List.length_cons, List.length_nil]; omega)⟩ hh hi ht hpos hsz hfit hin hn hr hmap hM hat h0 h1 h3 h4 hl hcmd
    refine ⟨g1, fun hx => by omega, fun _ => g3 ?_⟩
    unfold refusal
    rw [if_pos (show 128 ≤ code [req.getD 0 0, req.getD 1 0 ||| 128, 2] from or128 (req.getD 1 0))]
    show 0 < (2 : Byte).toNat
    decide

/-- **C66**, reading coils and discrete inputs over TCP, as `C66_read_bits_partial`. -/
theorem C66_tcp_bits_partial {fd fd2 : Int} {retries m i n a : Nat} {o : Outside} {l : Link} {req out buff : List Byte} {h : Handle} {name : Name}
    {M : Mem} (hs : Sound true l.job.cmd) (ho : o.buff.length = 1024) (hp : l.pending = [])
    (hreq : request l.job.cmd.node l.job.cmd.function l.job.cmd.register l.job.cmd.length l.job.cmd.data = some req)
    (hm : m ≤ retries) (hu : ∀ i < m, Useless true (o.heard i))
    (hh : l.job.handle = some h ∨ (l.job.handle = none ∧ o.find = some h)) (hi : h.index = i) (hb : Bools h)
    (hfit : h.size ≤ l.job.cmd.data.length) (hcnt : h.count ≤ l.job.cmd.length) (hn : n ≤ 100000)
    (hin : h.byte + h.size + Wire.extraByte h ≤ n / 8 + 1)
    (hr : Reachable l.s) (hmap : ∀ i name, LiveAt l.s i name → NoMaps l.s i) (hM : Agrees M l.s) (hat : AttrAt l.s i a) (h0 : a.testBit 0 = false)
    (h1 : a.testBit 1 = false) (h3 : a.testBit 3 = false) (h4 : a.testBit 4 = false) (hl : LiveTag l.s i name DAX_BOOL n)
    -- the slave
    {s2 : Server} {c2 : TypeCache} {nodes : List (Option Node)} {j : Junk} {node i2 n2 : Nat} {nd : Node} {reg : Reg} {name2 : Name} {M2 : Mem}
    (hout : OnLine true req out) (hbuf : buff.length = 256) (hmax : l.job.cmd.length ≤ 1976) (hresp : Responsible nodes l.job.cmd.node node nd)
    (hal : Allowed nd j node (req ++ buff.drop 12)) (hreg : (l.job.cmd.function = 1 ∧ reg = .coil) ∨ (l.job.cmd.function = 2 ∧ reg = .disc))
    (hz : nd.size reg ≠ 0) (hr2 : Reachable s2) (ho2 : Ordinary s2 i2) (hM2 : Agrees M2 s2) (hi2 : nd.idx reg = i2) (hl2 : LiveTag s2 i2 name2 DAX_BOOL n2)
    (hn2 : nd.size reg ≤ n2) (hn3 : n2 ≤ 100000) :
    ∃ answer buff2, tcpServe s2 fd2 c2 nodes buff 0 out j = .ok (s2, c2, buff2, 0, some answer, 0) ∧
      ((o.heard m).flatten = answer → ∀ l' r, sendCommand fd true retries o l = .ok (l', r) → 0 < r ∧
        (l.job.cmd.register + l.job.cmd.length ≤ nd.size reg → ∃ M', Agrees M' l'.s ∧
          (∀ q < h.count, memBit M' i (8 * h.byte + h.bit + q) = memBit M2 i2 (l.job.cmd.register + q)) ∧
          ∀ t p, ¬ (t = i ∧ 8 * h.byte + h.bit ≤ p ∧ p < 8 * h.byte + h.bit + h.count) → memBit M' t p = memBit M t p) ∧
        (nd.size reg < l.job.cmd.register + l.job.cmd.length → l'.s = l.s)) := by
  obtain ⟨hc, -⟩ := id hs
  obtain ⟨⟨hd1, hd2⟩, hd3, hd4, ⟨hd5, hd6, hd7⟩, hd8⟩ := id hc
  have hf12 : l.job.cmd.function = 1 ∨ l.job.cmd.function = 2 := by rcases hreg with ⟨h, -⟩ | ⟨h, -⟩; exact .inl h; exact .inr h
  have h2000 := hd5 (by rcases hf12 with e | e <;> rw [e] <;> decide)
  have hdl : l.job.cmd.data.length = (l.job.cmd.length + 7) / 8 := by
    rw [hd8]
    rcases hf12 with e | e <;> rw [e] <;> rfl
  obtain ⟨q0, q1, q2, q3, q4⟩ := request_fields (rest := buff.drop 12) (by omega) (by omega) hd4 hd7 hreq
  have hbl : (req ++ buff.drop 12).length = 250 := by rw [List.length_append, List.length_drop]; omega
  have hq0 : (req ++ buff.drop 12).getD 0 0 = req.getD 0 0 := by
    rw [List.getD_eq_getElem?_getD, List.getD_eq_getElem?_getD, List.getElem?_append_left (by omega)]
  have hq1 : (req ++ buff.drop 12).getD 1 0 = req.getD 1 0 := by
    rw [List.getD_eq_getElem?_getD, List.getD_eq_getElem?_getD, List.getElem?_append_left (by omega)]
  have hcodereq : code req = l.job.cmd.function := by
    unfold code
    rw [← hq1]
    exact q1
  have hfr : field req 4 = l.job.cmd.length := (request_read (by omega) hd7 hreq).2.2
  have hc8 : h.count ≤ 8 * l.job.cmd.data.length := by omega
  have hlt : code req < 128 := by omega
  obtain ⟨b', k, e, e1, e2, e3, e4⟩ := C55_bits_partial (s := s2) (fd := fd2) (c := c2) (nodes := nodes) (tcp := true) (buff := req ++ buff.drop 12) (j := j)
    (node := node) (i := i2) (n := n2) (nd := nd) (reg := reg) (name := name2) (M := M2) (by omega) (by omega) (by rw [q0]; exact hresp) hal
    (by rw [q1]; exact hreg) hz (by rw [q3]; omega) (by rw [q3]; omega) hr2 ho2 hM2 hi2 hl2 hn2 hn3
  rw [q2, q3] at e3 e4
  rw [hq0, hq1] at e3 e4
  by_cases hw : l.job.cmd.register + l.job.cmd.length ≤ nd.size reg
  · obtain ⟨D, e5, e6, e7⟩ := e3 hw
    clear e3
    have hD : D.length + 5 ≤ 256 := by omega
    have hans : Answer req (req.getD 0 0 :: req.getD 1 0 :: BitVec.ofNat 8 D.length :: D) :=
      Answer.bits (req := req) D (by rw [hcodereq]; exact hf12) (by rw [e6, hfr]) (Nat.lt_of_le_of_lt (Nat.le_add_right _ 4) hD)
    obtain ⟨hdr, buff2, hh6, hsv⟩ := tcp_answer hbuf q4 hout (by rw [hbl] at e; exact e) (e1.trans hbl) (by omega) e5 (by simp)
    refine ⟨_, buff2, hsv, fun hfl l' r hcmd => ?_⟩
    obtain ⟨g1, -, -, -, g4⟩ := C64_bits_partial hs hf12 ho hp hreq hans hm hu ⟨hdr, hh6, hfl, (by simp only [List.length_cons]; omega)⟩ hh hi hb hfit hc8 hn hin hr hmap hM hat h0 h1 h3 h4 hl hcmd
    refine ⟨g1, fun _ => ?_, fun hx => by omega⟩
    obtain ⟨-, -, M', k1, k2, k3⟩ := g4 hlt
    refine ⟨M', k1, fun q hq => ?_, k3⟩
    rw [k2 q hq, ← e7 q (by omega)]
    unfold bitOf
    rw [show 3 + q / 8 = q / 8 + 3 by omega]
    rfl
  · clear e3
    have e5 := e4 (by omega)
    obtain ⟨hdr, buff2, hh6, hsv⟩ := tcp_answer hbuf q4 hout (by rw [hbl] at e; exact e) (e1.trans hbl) (by omega) e5 (by simp)
    refine ⟨_, buff2, hsv, fun hfl l' r hcmd => ?_⟩
    obtain ⟨g1, -, -, g3, -⟩ := C64_bits_partial hs hf12 ho hp hreq (Answer.exception 2) hm hu ⟨hdr, hh6, hfl, (by simp only [List.length_cons, List.length_nil]; omega)⟩ hh hi hb hfit hc8 hn hin hr hmap hM hat h0 h1 h3 h4 hl hcmd
    refine ⟨g1, fun hx => by omega, fun _ => g3 ?_⟩
    unfold refusal
    rw [if_pos (show 128 ≤ code [req.getD 0 0, req.getD 1 0 ||| 128, 2] from or128 (req.getD 1 0))]
    show 0 < (2 : Byte).toNat
    decide

/-- **C66**, writing registers over TCP, as `C66_write_registers_partial`. -/
theorem C66_tcp_write_registers_partial {fd fd2 : Int} {retries i n : Nat} {o : Outside} {l l' : Link} {r : Int} {h : Handle} {name : Name} {M : Mem}
    (hs : ∀ data, data.length = l.job.cmd.data.length → Sound true { l.job.cmd with data := data }) (hfn : l.job.cmd.function = 16) (ho : o.buff.length = 1024)
    (hh : l.job.handle = some h ∨ (l.job.handle = none ∧ o.find = some h)) (hi : h.index = i) (ht : h.type = DAX_UINT)
    (hsz : h.size = 2 * h.count) (hlen : h.count = l.job.cmd.length) (hin : h.byte + h.size ≤ 2 * n) (hn : n ≤ 100000)
    (hr : Reachable l.s) (hord : Ordinary l.s i) (hM : Agrees M l.s) (hl : LiveTag l.s i name DAX_UINT n)
    (e : sendCommand fd true retries o l = .ok (l', r))
    -- the slave
    {s2 : Server} {c2 : TypeCache} {nodes : List (Option Node)} {j : Junk} {node i2 n2 a : Nat} {nd : Node} {name2 : Name} {M2 : Mem}
    (hresp : Responsible nodes l.job.cmd.node node nd) (hj : j.result % 256 = 0) (hz : nd.holdSize ≠ 0) (hr2 : Reachable s2)
    (hm2 : ∀ i name, LiveAt s2 i name → NoMaps s2 i) (hM2 : Agrees M2 s2) (ha : AttrAt s2 i2 a) (h0 : a.testBit 0 = false)
    (h1 : a.testBit 1 = false) (h3 : a.testBit 3 = false) (h4 : a.testBit 4 = false) (hi2 : nd.holdIdx = i2) (hl2 : LiveTag s2 i2 name2 DAX_UINT n2)
    (hn2 : nd.holdSize ≤ n2) (hn3 : n2 ≤ 100000) :
    l'.s = l.s ∧ ∃ outs, l'.sent = l.sent ++ outs ∧ 0 < outs.length ∧ ∀ out ∈ outs, ∀ buff s2' c2' buff2 k2 ans k, buff.length = 256 → l.job.cmd.length ≤ 121 →
      tcpServe s2 fd2 c2 nodes buff 0 out j = .ok (s2', c2', buff2, k2, ans, k) →
      (l.job.cmd.register + l.job.cmd.length ≤ nd.holdSize → ∃ M2', Agrees M2' s2' ∧
        (∀ k < l.job.cmd.length, (M2' i2 (2 * (l.job.cmd.register + k) + 1), M2' i2 (2 * (l.job.cmd.register + k))) = (M i (h.byte + 2 * k + 1), M i (h.byte + 2 * k))) ∧
        ∀ t p, ¬ (t = i2 ∧ 2 * l.job.cmd.register ≤ p ∧ p < 2 * (l.job.cmd.register + l.job.cmd.length)) → M2' t p = M2 t p) ∧
      (nd.holdSize < l.job.cmd.register + l.job.cmd.length → s2' = s2) := by
  obtain ⟨data, req, hdl, hdv, hreq, hss, outs, a1, a2, a3⟩ := sendCommand_write hs hfn ho hh hi ht hsz hlen hin hn hr hord hM hl e
  refine ⟨hss, outs, a1, a2, fun out hout buff s2' c2' buff2 k2 ans k hbuf hmax hsv => ?_⟩
  obtain ⟨hc, -⟩ := hs l.job.cmd.data rfl
  obtain ⟨⟨hd1, hd2⟩, hd3, hd4, ⟨hd5, hd6, hd7⟩, hd8⟩ := id hc
  dsimp only at hd1 hd2 hd4 hd6 hd7
  have h125 := hd6 (by rw [hfn]; decide)
  obtain ⟨q0, q1, q2, q3, q4, q5⟩ := request16_fields (rest := buff.drop (6 + req.length)) (by omega) hd4 hd7 hdl hreq
  have hbl : (req ++ buff.drop (6 + req.length)).length = 250 := by rw [List.length_append, List.length_drop]; omega
  have hsc : sentCount (req ++ buff.drop (6 + req.length)) = l.job.cmd.length := by
    unfold sentCount
    rw [if_neg (by omega)]
    exact q3
  obtain ⟨b3, k3, hcr⟩ := tcp_served hbuf (by omega) (a3 out hout) hsv
  obtain ⟨w1, w2⟩ := C63_registers_partial (s := s2) (fd := fd2) (c := c2) (nodes := nodes) (tcp := true) (buff := req ++ buff.drop (6 + req.length)) (j := j)
    (node := node) (i := i2) (n := n2) (nd := nd) (name := name2) (M := M2) (a := a) (by omega) (by omega) (by rw [q0]; exact hresp) hj (.inr q1)
    (by omega) (fun _ => by rw [q3]; omega) hz hr2 hm2 hM2 ha h0 h1 h3 h4 hi2 hl2 hn2 hn3
    (by rw [hbl]; exact hcr)
  rw [q2, hsc] at w1 w2
  refine ⟨fun hx => ?_, fun hx => (w2 hx).1⟩
  obtain ⟨-, -, -, M', k1, k2, k4⟩ := w1 hx
  refine ⟨M', k1, fun m hm => ?_, k4⟩
  rw [k2 m hm, q5 m hm, List.getD_eq_getElem?_getD, List.getD_eq_getElem?_getD, hdv _ (by omega), hdv _ (by omega)]
  rfl

end Dax
