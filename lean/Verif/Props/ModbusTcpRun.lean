import Verif.Props.ModbusWriteEnd
/-!
# C66: messages that come in pieces over TCP, and a connection that never answers again
-/
set_option autoImplicit false
namespace Dax
open Modbus LibData

theorem wr_inside {b d : List Byte} {n : Nat} (h : n + d.length ≤ b.length) : wr b (n : Int) d = .ok (b.take n ++ d ++ b.drop (n + d.length)) := by
  rw [wr_ok]
  exact ⟨⟨by omega, by omega⟩, rfl⟩

theorem field_append {a b : List Byte} (k : Nat) (h : k + 2 ≤ a.length) : field (a ++ b) k = field a k := by
  unfold field
  rw [List.getD_eq_getElem?_getD, List.getD_eq_getElem?_getD, List.getD_eq_getElem?_getD, List.getD_eq_getElem?_getD,
    List.getElem?_append_left (by omega), List.getElem?_append_left (by omega)]

theorem online_length {req out : List Byte} (h : OnLine true req out) : out.length = 6 + req.length := by
  obtain ⟨tid, rfl⟩ := h
  simp [big]
  omega

theorem online_field {req out : List Byte} (h : OnLine true req out) (hr : req.length < 65536) : field out 4 = req.length := by
  obtain ⟨tid, rfl⟩ := h
  show (BitVec.ofNat 8 (req.length / 256)).toNat * 256 + (BitVec.ofNat 8 req.length).toNat = req.length
  simp only [BitVec.toNat_ofNat]
  omega

theorem field_take {a : List Byte} {k m : Nat} (h : k + 2 ≤ m) : field (a.take m) k = field a k := by
  unfold field
  rw [List.getD_eq_getElem?_getD, List.getD_eq_getElem?_getD, List.getD_eq_getElem?_getD, List.getD_eq_getElem?_getD,
    List.getElem?_take, List.getElem?_take, if_pos (by omega), if_pos (by omega)]

/-- A piece that is not the last one is only stored. -/
theorem tcp_piece {s : Server} {fd : Int} {c : TypeCache} {nodes : List (Option Node)} {buff req out d : List Byte} {n : Nat} {j : Junk} (hb : buff.length = 256)
    (h250 : req.length ≤ 250) (ho : OnLine true req out) (hp : buff.take n ++ d = out.take (n + d.length)) (hlt : n + d.length < out.length) :
    tcpServe s fd c nodes buff n d j = .ok (s, c, buff.take n ++ d ++ buff.drop (n + d.length), n + d.length, none, 0) := by
  have hol := online_length ho
  have hof := online_field ho (by omega)
  unfold tcpServe
  rw [if_neg (by show ¬ _ > 256; omega), wr_inside (by omega), C.ok_bind]
  dsimp only
  by_cases h5 : n + d.length > 5
  · obtain ⟨p, hp1, hp2⟩ := getWord_ok (b := buff.take n ++ d ++ buff.drop (n + d.length)) (off := 4) (by rw [hp, List.length_append, List.length_take]; omega)
    rw [if_pos h5, hp1, C.ok_bind, hp2, hp, field_append 4 (by rw [List.length_take]; omega), field_take (by omega), hof, if_neg (by omega)]
  · rw [if_neg h5]

/-- The last piece: as if the whole message had come at once. -/
theorem tcp_last {s : Server} {fd : Int} {c : TypeCache} {nodes : List (Option Node)} {buff buff0 out d : List Byte} {n : Nat} {j : Junk} (hb : buff.length = 256)
    (hb0 : buff0.length = 256) (h256 : out.length ≤ 256) (hp : buff.take n ++ d = out) (hn : n ≤ 256) (hr : buff.drop out.length = buff0.drop out.length) :
    tcpServe s fd c nodes buff n d j = tcpServe s fd c nodes buff0 0 out j := by
  have hl : n + d.length = out.length := by rw [← hp, List.length_append, List.length_take]; omega
  have e1 : wr buff (n : Int) d = .ok (out ++ buff0.drop out.length) := by rw [wr_inside (by omega), hp, hl, hr]
  have e2 : wr buff0 ((0 : Nat) : Int) out = .ok (out ++ buff0.drop out.length) := by rw [wr_inside (by omega)]; simp
  unfold tcpServe
  rw [if_neg (by show ¬ _ > 256; omega), if_neg (by show ¬ _ > 256; omega), e1, e2, C.ok_bind, C.ok_bind]
  dsimp only
  rw [show 0 + out.length = n + d.length by omega]

/-- **C66**, over TCP: in whatever pieces a message comes, the slave does the same as if it had come at once, and with the last piece. -/
theorem C66_tcp_pieces {fd : Int} {nodes : List (Option Node)} {s : Server} {c : TypeCache} {buff req out d : List Byte} {j : Junk} (pieces : List (List Byte × Junk))
    (hb : buff.length = 256) (h250 : req.length ≤ 250) (ho : OnLine true req out) (hd : d ≠ []) (hfl : (pieces.map (·.1)).flatten ++ d = out)
    {s' : Server} {c' : TypeCache} {buff' : List Byte} {n' : Nat} {answer : Option (List Byte)}
    (e : tcpServe s fd c nodes buff 0 out j = .ok (s', c', buff', n', answer, 0)) :
    tcpRun fd nodes s c buff 0 (pieces ++ [(d, j)]) = .ok (s', c', buff', n', answer.toList, 0) := by
  have hol := online_length ho
  have hdl : 0 < d.length := List.length_pos_iff.mpr hd
  have key : ∀ (ps : List (List Byte × Junk)) (n : Nat) (b : List Byte), b.length = 256 → b.take n ++ ((ps.map (·.1)).flatten ++ d) = out → n ≤ 256 →
      b.drop out.length = buff.drop out.length → tcpRun fd nodes s c b n (ps ++ [(d, j)]) = .ok (s', c', buff', n', answer.toList, 0) := by
    intro ps
    induction ps with
    | nil =>
      intro n b hbl hf hn hr
      show (tcpServe s fd c nodes b n d j >>= _) = _
      rw [tcp_last (d := d) hbl hb (by omega) hf hn hr, e, C.ok_bind]
      dsimp only
      rw [if_neg (by simp)]
      show C.ok _ = C.ok _
      simp
    | cons p ps ih =>
      intro n b hbl hf hn hr
      obtain ⟨p, jp⟩ := p
      simp only [List.map_cons, List.flatten_cons] at hf
      have hlen : n + p.length + (ps.map (·.1)).flatten.length + d.length = out.length := by
        rw [← hf]
        simp only [List.length_append, List.length_take]
        omega
      have hpre : b.take n ++ p = out.take (n + p.length) := by
        have hf' : (b.take n ++ p) ++ ((ps.map (·.1)).flatten ++ d) = out := by rw [← hf]; simp
        have hpl : (b.take n ++ p).length = n + p.length := by rw [List.length_append, List.length_take]; omega
        rw [← hf', ← hpl, List.take_left]
      show (tcpServe s fd c nodes b n p jp >>= _) = _
      rw [tcp_piece hbl h250 ho hpre (by omega), C.ok_bind]
      dsimp only
      rw [if_neg (by simp)]
      have hpl : (b.take n ++ p).length = n + p.length := by rw [List.length_append, List.length_take]; omega
      have := ih (n + p.length) (b.take n ++ p ++ b.drop (n + p.length)) (by rw [List.length_append, hpl, List.length_drop]; omega)
        (by rw [← hpl, List.take_left]; rw [← hf]; simp) (by omega)
        (by
          rw [← hr, List.drop_append, List.drop_of_length_le (by omega), hpl, List.drop_drop]
          simp only [List.nil_append]
          congr 1
          omega)
      exact C.bind_eq_ok.mpr ⟨_, this, rfl⟩
  exact key pieces 0 buff hb (by simpa using hfl) (by omega) rfl

/-- A request for more registers than the answer has room for. -/
theorem createResponse_large {s : Server} {fd : Int} {c : TypeCache} {nodes : List (Option Node)} {tcp : Bool} {buff : List Byte} {j : Junk}
    {node i n : Nat} {nd : Node} {reg : Reg} {name : Name} (h6 : 6 ≤ buff.length)
    (hresp : Responsible nodes (buff.getD 0 0).toNat node nd) (ha : Allowed nd j node buff)
    (hreg : (code buff = 3 ∧ reg = .hold) ∨ (code buff = 4 ∧ reg = .input)) (hz : nd.size reg ≠ 0) (hbig : buff.length < 3 + 2 * field buff 4)
    (h150 : field buff 4 ≤ 150) (hr : Reachable s) (ho : Ordinary s i) (hi : nd.idx reg = i) (hl : LiveTag s i name DAX_UINT n) (hn2 : n ≤ 100000) :
    createResponse s fd c nodes tcp buff buff.length j = .ok (s, c, buff, MB_ERR_OVERFLOW) := by
  have hf2 := field_lt buff 2
  have hregs := regs_length j
  have hsm : Small (dbHandle (nd.idx reg) reg (field buff 2) (field buff 4)) := dbHandle_small _ _ hf2 (by omega) (by intro; omega)
  have hH : dbHandle (nd.idx reg) reg (field buff 2) (field buff 4) = ⟨nd.idx reg, field buff 2 * 2, 0, field buff 4, field buff 4 * 2, DAX_UINT⟩ := by
    rcases hreg with ⟨-, rfl⟩ | ⟨-, rfl⟩ <;> rfl
  have hmem : (dbHandle (nd.idx reg) reg (field buff 2) (field buff 4)).size ≤ j.regs.length := by rw [hH]; dsimp only; omega
  have hidx : (dbHandle (nd.idx reg) reg (field buff 2) (field buff 4)).index = i := by rw [hH]; exact hi
  rw [createResponse_read h6 hresp ha (by rcases hreg with h | h; exact .inr (.inr (.inl h)); exact .inr (.inr (.inr h))) hz, if_neg (by omega)]
  obtain ⟨mem, k2, -⟩ := slaveRead_any (fd := fd) c hr ho hidx hsm hmem hl (.inr ⟨2, by decide, rfl⟩ : TagBytes DAX_UINT n (2 * n)) (by omega)
  obtain ⟨p, hp1, hp2⟩ := getWord_ok (b := buff) (off := 2) (by omega)
  obtain ⟨q, hq1, hq2⟩ := getWord_ok (b := buff) (off := 4) (by omega)
  unfold readWords
  rw [hp1, C.ok_bind, hq1, C.ok_bind, hp2, hq2]
  dsimp only
  rw [k2, C.ok_bind]
  dsimp only
  rw [if_pos (by omega)]

/-- **C66 fails**: after one request over TCP that has more than 123 registers (the protocol and the master allow 125, and the slave has them), the slave answers
nothing on this connection any more, whatever is sent: the buffer keeps the request, each new piece is put behind it, and the
first request is treated again (`src/modules/modbus/mbserver.c:136-162`).  Only a second in which no master at all sends anything ends this. -/
theorem C66_tcp_stuck {fd : Int} {nodes : List (Option Node)} {s : Server} {c : TypeCache} {buff req out : List Byte} {j : Junk} {node i n : Nat} {nd : Node} {reg : Reg}
    {name : Name} {register count : Nat} {data : List Byte} {nodeid function : Nat} (ds : List (List Byte × Junk)) (hb : buff.length = 256) (ho : OnLine true req out)
    (hreq : request nodeid function register count data = some req) (hid : nodeid < 256) (hrg : register < 65536) (hresp : Responsible nodes nodeid node nd)
    (hcb : nd.readCb = none) (hj : j.result % 256 = 0) (hjs : ∀ p ∈ ds, p.2.result % 256 = 0)
    (hreg : (function = 3 ∧ reg = .hold) ∨ (function = 4 ∧ reg = .input)) (hz : nd.size reg ≠ 0) (hbig : 123 < count) (h150 : count ≤ 125)
    (hr : Reachable s) (hord : Ordinary s i) (hi : nd.idx reg = i) (hl : LiveTag s i name DAX_UINT n) (hn2 : n ≤ 100000) :
    ∃ buff2 n2, tcpRun fd nodes s c buff 0 ((out, j) :: ds) = .ok (s, c, buff2, n2, [], 0) := by
  have hf4 : function ≤ 4 := by rcases hreg with ⟨h, -⟩ | ⟨h, -⟩ <;> omega
  have h6 : req.length = 6 := (request_fields (rest := []) hid hf4 hrg (by omega) hreq).2.2.2.2
  have hol := online_length ho
  have hof := online_field ho (by omega)
  have hdr : out.drop 6 = req := by
    obtain ⟨tid, rfl⟩ := ho
    rfl
  -- whatever follows the request, the slave sees the request again
  have again : ∀ (b : List Byte) (jj : Junk), b.length = 256 → b.take 12 = out → jj.result % 256 = 0 →
      createResponse s fd c nodes true (b.drop 6) ((MB_BUFF_SIZE : Int) - 6) jj = .ok (s, c, b.drop 6, MB_ERR_OVERFLOW) := by
    intro b jj hbl ht hjj
    have hbd : b.drop 6 = req ++ b.drop 12 := by
      conv => lhs; rw [← List.take_append_drop 12 b]
      rw [ht, List.drop_append, hdr, hol, h6]
      rfl
    have hdl : (b.drop 6).length = 250 := by rw [List.length_drop]; omega
    obtain ⟨q0, q1, q2, q3, -⟩ := request_fields (rest := b.drop 12) hid hf4 hrg (by omega) hreq
    rw [← hbd] at q0 q1 q2 q3
    have := createResponse_large (s := s) (fd := fd) (c := c) (nodes := nodes) (tcp := true) (buff := b.drop 6) (j := jj) (node := node) (i := i) (n := n) (nd := nd) (reg := reg)
      (name := name) (by omega) (by rw [q0]; exact hresp) (by unfold Allowed; rw [hcb]; exact hjj) (by rw [q1]; exact hreg) hz (by omega) (by omega) hr hord hi hl hn2
    rw [hdl] at this
    exact this
  have step : ∀ (b d : List Byte) (m : Nat) (jj : Junk), b.length = 256 → m ≤ 256 → jj.result % 256 = 0 →
      (12 ≤ m ∧ b.take 12 = out ∨ m = 0 ∧ d = out) →
      ∃ b2 m2, tcpServe s fd c nodes b m d jj = .ok (s, c, b2, m2, none, MB_ERR_OVERFLOW) ∧ b2.length = 256 ∧ 12 ≤ m2 ∧ m2 ≤ 256 ∧ b2.take 12 = out := by
    intro b d m jj hbl hm hjj hcase
    by_cases hover : d.length + m > 256
    · refine ⟨b, m, ?_, hbl, ?_⟩
      · unfold tcpServe
        rw [if_pos (by show _ > 256; omega)]
      · rcases hcase with ⟨h1, h2⟩ | ⟨h1, h2⟩
        · exact ⟨h1, hm, h2⟩
        · subst h2; omega
    · have hdl : m + d.length ≥ 12 := by rcases hcase with ⟨h1, -⟩ | ⟨h1, h2⟩ <;> (try subst h2) <;> omega
      have hwl : (b.take m ++ d ++ b.drop (m + d.length)).length = 256 := by
        simp only [List.length_append, List.length_take, List.length_drop]
        omega
      have hwt : (b.take m ++ d ++ b.drop (m + d.length)).take 12 = out := by
        rcases hcase with ⟨h1, h2⟩ | ⟨h1, h2⟩
        · rw [List.append_assoc, List.take_append_of_le_length (by rw [List.length_take]; omega), List.take_take, Nat.min_eq_left h1, h2]
        · subst h1 h2
          rw [List.take_zero, List.nil_append, List.take_append_of_le_length (by omega), List.take_of_length_le (by omega)]
      have hag := again _ jj hwl hwt hjj
      refine ⟨b.take m ++ d ++ b.drop (m + d.length), m + d.length, ?_, hwl, by omega, by omega, hwt⟩
      unfold tcpServe
      rw [if_neg (by show ¬ _ > 256; omega), wr_inside (by omega), C.ok_bind]
      dsimp only
      obtain ⟨p, hp1, hp2⟩ := getWord_ok (b := b.take m ++ d ++ b.drop (m + d.length)) (off := 4) (by omega)
      have hfd : field (b.take m ++ d ++ b.drop (m + d.length)) 4 = 6 := by rw [← field_take (m := 12) (by omega), hwt, hof, h6]
      rw [if_pos (by omega), hp1, C.ok_bind, hp2, hfd, if_pos (by omega), hag, C.ok_bind]
      dsimp only
      rw [if_neg (by decide), if_pos (by decide), List.take_append_drop]
  have rest : ∀ (l : List (List Byte × Junk)) (b : List Byte) (m : Nat), (∀ p ∈ l, p.2.result % 256 = 0) → b.length = 256 → 12 ≤ m → m ≤ 256 → b.take 12 = out →
      ∃ buff2 n2, tcpRun fd nodes s c b m l = .ok (s, c, buff2, n2, [], 0) := by
    intro l
    induction l with
    | nil => intro b m _ _ _ _ _; exact ⟨b, m, rfl⟩
    | cons p l ih =>
      intro b m hjl hbl h12 hm ht
      obtain ⟨d, jj⟩ := p
      obtain ⟨b2, m2, e, g1, g2, g3, g4⟩ := step b d m jj hbl hm (hjl (d, jj) (by simp)) (.inl ⟨h12, ht⟩)
      obtain ⟨b3, m3, e3⟩ := ih b2 m2 (fun p hp => hjl p (by simp [hp])) g1 g2 g3 g4
      refine ⟨b3, m3, ?_⟩
      show (tcpServe s fd c nodes b m d jj >>= _) = _
      rw [e, C.ok_bind]
      dsimp only
      rw [if_neg (by simp), e3, C.ok_bind]
      rfl
  obtain ⟨b2, m2, e, g1, g2, g3, g4⟩ := step buff out 0 j hb (by omega) hj (.inr ⟨rfl, rfl⟩)
  obtain ⟨b3, m3, e3⟩ := rest ds b2 m2 hjs g1 g2 g3 g4
  refine ⟨b3, m3, ?_⟩
  show (tcpServe s fd c nodes buff 0 out j >>= _) = _
  rw [e, C.ok_bind]
  dsimp only
  rw [if_neg (by simp), e3, C.ok_bind]
  rfl

/-- **C66 fails**: of two requests that come in one piece only the first is answered; the second is thrown away (`src/modules/modbus/mbserver.c:150-158`). -/
theorem C66_tcp_pipelined : (tcpRun 5 [none, some mbNode] (demo mbOps) [] (List.replicate 256 0) 0
      [([0, 1, 0, 0, 0, 6, 1, 3, 0, 0, 0, 1] ++ [0, 2, 0, 0, 0, 6, 1, 3, 0, 1, 0, 1], {})] >>= fun x => C.ok x.2.2.2) =
    .ok (0, [[0, 1, 0, 0, 0, 5, 1, 3, 2, 0x12, 0x34]], 0) := by kernel_rfl

/-- Instance of `C66_tcp_pieces`: a request in three pieces. -/
example : (tcpRun 5 [none, some mbNode] (demo mbOps) [] (List.replicate 256 0) 0
      [([0, 1, 0], {}), ([0, 0, 6, 1, 3], {}), ([0, 0, 0, 1], {})] >>= fun x => C.ok x.2.2.2) =
    .ok (0, [[0, 1, 0, 0, 0, 5, 1, 3, 2, 0x12, 0x34]], 0) := by kernel_rfl

/-- Instance of `C66_tcp_stuck`: the same request gets an answer, but not after a request for 124 registers. -/
example : (tcpRun 5 [none, some mbNode] (demo mbOps) [] (List.replicate 256 0) 0
      [([0, 1, 0, 0, 0, 6, 1, 3, 0, 0, 0, 124], {}), ([0, 2, 0, 0, 0, 6, 1, 3, 0, 0, 0, 1], {})] >>= fun x => C.ok x.2.2.2) =
    .ok (24, [], 0) := by kernel_rfl

end Dax
