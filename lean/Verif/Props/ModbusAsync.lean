import Verif.Model.ModbusAsync
import Verif.Spec.LibPath
import Verif.Props.ModbusEnd
/-!
# C90: the command tag of a Modbus master
-/
set_option autoImplicit false
namespace Dax
open Modbus MbAsync LibPath LibData

/-! ## The tag -/

/-- Where the members are that users set and read: name, type, count and first byte. -/
def asyncLayout : List (Name × Nat × Nat × Nat) :=
  [(nm "send", DAX_BOOL, 1, 0), (nm "response", DAX_INT, 1, 1), (nm "ipaddress", DAX_BYTE, 4, 3), (nm "port", DAX_UINT, 1, 7), (nm "node", DAX_BYTE, 1, 9),
   (nm "function", DAX_BYTE, 1, 10), (nm "register", DAX_UINT, 1, 11), (nm "length", DAX_UINT, 1, 13), (nm "data", DAX_UINT, 120, 15)]

theorem elem_bool (tbl : List Cdt) : ElemBits tbl DAX_BOOL 1 := .inl ⟨rfl, rfl⟩
theorem elem_byte (tbl : List Cdt) : ElemBits tbl DAX_BYTE 8 := .inr (.inl ⟨1, by decide, rfl⟩)
theorem elem_int (tbl : List Cdt) : ElemBits tbl DAX_INT 16 := .inr (.inl ⟨2, by decide, rfl⟩)
theorem elem_uint (tbl : List Cdt) : ElemBits tbl DAX_UINT 16 := .inr (.inl ⟨2, by decide, rfl⟩)

/-- The members of the type are at the bytes where the callback looks for them, whatever types were there before. -/
theorem C90_layout {tbl : List Cdt} {k : Nat} {d : Cdt} (hk : k < 1048576) (hd : tbl[k]? = some d) (hm : d.members = members) :
    ∀ x ∈ asyncLayout, Place tbl (2147483648 + k) [⟨x.1, none⟩] none x.2.1 x.2.2.1 (8 * x.2.2.2) := by
  have hd' : tbl[2147483648 + k - 2147483648]? = some d := by rw [Nat.add_sub_cancel_left]; exact hd
  have hc : Compound (2147483648 + k) := by unfold Compound; omega
  have B : ∀ (n : Name) (m : Member) (r e b : Nat), Before tbl members 0 n m r → ElemBits tbl m.type e → 0 < m.count → place m r = 8 * b →
      Place tbl (2147483648 + k) [⟨n, none⟩] none m.type m.count (8 * b) := by
    intro n m r e b h1 h2 h3 h4
    have := Place.last (2147483648 + k) d ⟨n, none⟩ m r e hc hd' (by rw [hm]; exact h1) h2 h3
    simpa [h4] using this
  intro x hx
  unfold asyncLayout at hx
  simp only [List.mem_cons, List.not_mem_nil, or_false] at hx
  rcases hx with rfl | rfl | rfl | rfl | rfl | rfl | rfl | rfl | rfl
  · exact B _ ⟨nm "send", DAX_BOOL, 1⟩ 0 1 0 (.here _ _ _) (elem_bool _) (by decide) (by decide)
  · refine B _ ⟨nm "response", DAX_INT, 1⟩ 1 16 1 ?_ (elem_int _) (by decide) (by decide)
    exact .later _ _ _ 1 _ _ _ (by decide) (elem_bool _) (.here _ _ _)
  · refine B _ ⟨nm "ipaddress", DAX_BYTE, 4⟩ 24 8 3 ?_ (elem_byte _) (by decide) (by decide)
    exact .later _ _ _ 1 _ _ _ (by decide) (elem_bool _) (.later _ _ _ 16 _ _ _ (by decide) (elem_int _) (.here _ _ _))
  · refine B _ ⟨nm "port", DAX_UINT, 1⟩ 56 16 7 ?_ (elem_uint _) (by decide) (by decide)
    exact .later _ _ _ 1 _ _ _ (by decide) (elem_bool _) (.later _ _ _ 16 _ _ _ (by decide) (elem_int _) (.later _ _ _ 8 _ _ _ (by decide) (elem_byte _)
      (.here _ _ _)))
  · refine B _ ⟨nm "node", DAX_BYTE, 1⟩ 72 8 9 ?_ (elem_byte _) (by decide) (by decide)
    exact .later _ _ _ 1 _ _ _ (by decide) (elem_bool _) (.later _ _ _ 16 _ _ _ (by decide) (elem_int _) (.later _ _ _ 8 _ _ _ (by decide) (elem_byte _)
      (.later _ _ _ 16 _ _ _ (by decide) (elem_uint _) (.here _ _ _))))
  · refine B _ ⟨nm "function", DAX_BYTE, 1⟩ 80 8 10 ?_ (elem_byte _) (by decide) (by decide)
    exact .later _ _ _ 1 _ _ _ (by decide) (elem_bool _) (.later _ _ _ 16 _ _ _ (by decide) (elem_int _) (.later _ _ _ 8 _ _ _ (by decide) (elem_byte _)
      (.later _ _ _ 16 _ _ _ (by decide) (elem_uint _) (.later _ _ _ 8 _ _ _ (by decide) (elem_byte _) (.here _ _ _)))))
  · refine B _ ⟨nm "register", DAX_UINT, 1⟩ 88 16 11 ?_ (elem_uint _) (by decide) (by decide)
    exact .later _ _ _ 1 _ _ _ (by decide) (elem_bool _) (.later _ _ _ 16 _ _ _ (by decide) (elem_int _) (.later _ _ _ 8 _ _ _ (by decide) (elem_byte _)
      (.later _ _ _ 16 _ _ _ (by decide) (elem_uint _) (.later _ _ _ 8 _ _ _ (by decide) (elem_byte _) (.later _ _ _ 8 _ _ _ (by decide) (elem_byte _)
      (.here _ _ _))))))
  · refine B _ ⟨nm "length", DAX_UINT, 1⟩ 104 16 13 ?_ (elem_uint _) (by decide) (by decide)
    exact .later _ _ _ 1 _ _ _ (by decide) (elem_bool _) (.later _ _ _ 16 _ _ _ (by decide) (elem_int _) (.later _ _ _ 8 _ _ _ (by decide) (elem_byte _)
      (.later _ _ _ 16 _ _ _ (by decide) (elem_uint _) (.later _ _ _ 8 _ _ _ (by decide) (elem_byte _) (.later _ _ _ 8 _ _ _ (by decide) (elem_byte _)
      (.later _ _ _ 16 _ _ _ (by decide) (elem_uint _) (.here _ _ _)))))))
  · refine B _ ⟨nm "data", DAX_UINT, 120⟩ 120 16 15 ?_ (elem_uint _) (by decide) (by decide)
    exact .later _ _ _ 1 _ _ _ (by decide) (elem_bool _) (.later _ _ _ 16 _ _ _ (by decide) (elem_int _) (.later _ _ _ 8 _ _ _ (by decide) (elem_byte _)
      (.later _ _ _ 16 _ _ _ (by decide) (elem_uint _) (.later _ _ _ 8 _ _ _ (by decide) (elem_byte _) (.later _ _ _ 8 _ _ _ (by decide) (elem_byte _)
      (.later _ _ _ 16 _ _ _ (by decide) (elem_uint _) (.later _ _ _ 16 _ _ _ (by decide) (elem_uint _) (.here _ _ _))))))))

/-- The type of the tag: the first port gets the one that was made, … -/
example : tagTypes 0x80000002 (fun _ => 0) false 0 1 = [0x80000002] := rfl

/-- … and every other port one that depends on what was on the stack. -/
theorem C90_types (created : Nat) (junk : Nat → Nat) : ∀ n, tagTypes created junk false 0 (n + 1) = created :: (List.range n).map fun k => junk (k + 1) := by
  have h : ∀ n k, tagTypes created junk true k n = (List.range n).map fun j => junk (k + j) := by
    intro n
    induction n with
    | zero => intro k; rfl
    | succ n ih =>
      intro k
      show junk k :: tagTypes created junk true (k + 1) n = _
      rw [ih, List.range_succ_eq_map, List.map_cons, List.map_map]
      congr 1
      apply List.map_congr_left
      intro j _
      show junk (k + 1 + j) = junk (k + (j + 1))
      rw [Nat.add_assoc, Nat.add_comm 1 j]
  intro n
  show created :: tagTypes created junk true 1 n = _
  rw [h]
  congr 1
  apply List.map_congr_left
  intro j _
  rw [Nat.add_comm]

/-- What is written back: `send` is 0, `response` is the last error of the command, and all else as it was read.  So what others write to the members
during the exchange is lost. -/
theorem C90_reply {b : List Byte} {e : Nat} (hb : b.length = 15) (he : e < 256) :
    (reply e b).length = 15 ∧ (reply e b)[0]? = some 0 ∧ word (reply e b) 1 = e ∧ ∀ j, 3 ≤ j → (reply e b)[j]? = b[j]? := by
  unfold reply
  refine ⟨by simp; omega, rfl, ?_, fun j hj => ?_⟩
  · show (BitVec.ofNat 8 e).toNat + 256 * 0 = e
    rw [BitVec.toNat_ofNat]
    omega
  · obtain ⟨k, rfl⟩ : ∃ k, j = 3 + k := ⟨j - 3, by omega⟩
    rw [List.getElem?_append_right (by simp), List.getElem?_drop]
    simp

/-! ## The request -/

/-- What a read sends does not depend on the area of data. -/
theorem frameFor_area {tcp : Bool} {tid : Nat} {cmd : Cmd} {o : Outside} {d : List Byte} (hf : 1 ≤ cmd.function ∧ cmd.function ≤ 4) :
    frameFor tcp tid cmd o = (frameFor tcp tid { cmd with data := d } o >>= fun q => .ok (q.map fun x => (x.1, { x.2 with data := cmd.data }))) := by
  have h4 : cmd.function = 1 ∨ cmd.function = 2 ∨ cmd.function = 3 ∨ cmd.function = 4 := by omega
  unfold frameFor
  cases tcp with
  | true =>
    simp only [if_true, sendTcp, buildTcp, if_pos h4]
    cases wr o.buff 0 (beWord tid) with
    | ub w => rfl
    | ok b0 =>
    simp only [C.ok_bind]
    cases wr b0 2 [0, 0] with
    | ub w => rfl
    | ok b1 =>
    simp only [C.ok_bind]
    cases wr b1 6 [BitVec.ofNat 8 cmd.node, BitVec.ofNat 8 cmd.function] with
    | ub w => rfl
    | ok b2 =>
    simp only [C.ok_bind]
    cases wr b2 8 (beWord cmd.register) with
    | ub w => rfl
    | ok b3 =>
    simp only [C.ok_bind]
    cases wr b3 10 (beWord cmd.length) with
    | ub w => rfl
    | ok b4 =>
    simp only [C.ok_bind]
    cases wr b4 4 (beWord 6) with
    | ub w => rfl
    | ok b5 =>
    simp only [C.ok_bind]
    cases rd b5 0 (6 + 6) with
    | ub w => rfl
    | ok b6 => rfl
  | false =>
    simp only [Bool.false_eq_true, if_false, sendRtu, buildRtu, if_pos h4]
    cases wr o.buff 0 [BitVec.ofNat 8 cmd.node, BitVec.ofNat 8 cmd.function] with
    | ub w => rfl
    | ok b2 =>
    simp only [C.ok_bind]
    cases wr b2 2 (beWord cmd.register) with
    | ub w => rfl
    | ok b3 =>
    simp only [C.ok_bind]
    cases wr b3 4 (beWord cmd.length) with
    | ub w => rfl
    | ok b4 =>
    simp only [C.ok_bind]
    cases crc16 b4 6 with
    | ub w => rfl
    | ok b5 =>
    simp only [C.ok_bind]
    cases putWord b4 6 b5 with
    | ub w => rfl
    | ok b6 =>
    simp only [C.ok_bind]
    cases rd b6 0 (6 + 2) with
    | ub w => rfl
    | ok b6 => rfl

/-- Reads as the protocol allows them, with an area of data of any size. -/
def Readable (cmd : Cmd) : Prop :=
  (1 ≤ cmd.node ∧ cmd.node ≤ 247) ∧ (1 ≤ cmd.function ∧ cmd.function ≤ 4) ∧ cmd.register < 65536 ∧ 1 ≤ cmd.length ∧ cmd.enable ≠ 0 ∧
    (cmd.function ≤ 2 → cmd.length ≤ 2000) ∧ (3 ≤ cmd.function → cmd.length ≤ 125)

theorem readable_sound {tcp : Bool} {cmd : Cmd} (h : Readable cmd) :
    Sound tcp { cmd with data := List.replicate (area cmd.function cmd.length) 0 } := by
  obtain ⟨h1, h2, h3, h4, h5, h6, h7⟩ := h
  have hm : cmd.function ∈ [1, 2, 3, 4, 5, 6, 15, 16] := by
    have : cmd.function = 1 ∨ cmd.function = 2 ∨ cmd.function = 3 ∨ cmd.function = 4 := by omega
    rcases this with e | e | e | e <;> rw [e] <;> decide
  refine ⟨⟨h1, hm, h3, ⟨fun hx => ?_, fun hx => ?_, ?_⟩, by simp⟩, .inr ⟨h5, h2.2⟩, fun _ => ?_, fun _ => ⟨?_, fun hx => ?_, fun hx => ?_⟩⟩
  · dsimp only at hx ⊢
    simp only [List.mem_cons, List.not_mem_nil, or_false] at hx
    have := h6 (by omega)
    omega
  · dsimp only at hx ⊢
    simp only [List.mem_cons, List.not_mem_nil, or_false] at hx
    have := h7 (by omega)
    omega
  · dsimp only
    by_cases hc : cmd.function ≤ 2
    · have := h6 hc; omega
    · have := h7 (by omega); omega
  · dsimp only; omega
  · dsimp only; omega
  · dsimp only at hx; omega
  · dsimp only at hx; omega

theorem request_area {n f r c : Nat} {d d' : List Byte} (hf : 1 ≤ f ∧ f ≤ 4) : request n f r c d = request n f r c d' := by
  have : f = 1 ∨ f = 2 ∨ f = 3 ∨ f = 4 := by omega
  rcases this with rfl | rfl | rfl | rfl <;> rfl

theorem frameFor_read {tcp : Bool} {o : Outside} {tid : Nat} {cmd : Cmd} {f d : List Byte} (hs : Readable cmd) (ho : o.buff.length = 1024)
    (hf : request cmd.node cmd.function cmd.register cmd.length d = some f) {q : Option (List Byte × Cmd)} (e : frameFor tcp tid cmd o = .ok q) :
    ∃ out cmd', q = some (out, cmd') ∧ OnLine tcp f out ∧ cmd' = { cmd with lastcrc := cmd'.lastcrc, firstrun := cmd'.firstrun } := by
  rw [frameFor_area (d := List.replicate (area cmd.function cmd.length) 0) hs.2.1] at e
  obtain ⟨q1, e1, e2⟩ := C.bind_eq_ok.mp e
  obtain ⟨out, cmd', rfl, h1, h2⟩ := frameFor_ok (readable_sound hs) ho (by rw [← hf]; exact request_area hs.2.1) e1
  simp only [Option.map_some, C.ok.injEq] at e2
  refine ⟨out, _, e2.symm, h1, ?_⟩
  rw [h2]

theorem tryOnce_read {fd : Int} {tcp : Bool} {o : Outside} {heard : List (List Byte)} {l l' : Link} {r : Option Int} {f d : List Byte}
    (hs : Readable l.job.cmd) (ho : o.buff.length = 1024)
    (hf : request l.job.cmd.node l.job.cmd.function l.job.cmd.register l.job.cmd.length d = some f)
    (h : tryOnce fd tcp o heard l = .ok (l', r)) :
    ∃ out, l'.sent = l.sent ++ [out] ∧ OnLine tcp f out ∧
      (r = none → l'.job.cmd = { l.job.cmd with lastcrc := l'.job.cmd.lastcrc, firstrun := l'.job.cmd.firstrun }) := by
  unfold tryOnce at h
  obtain ⟨q, h1, h⟩ := C.bind_eq_ok.mp h
  match q, h1, h with
  | none, h1, h =>
    exfalso
    unfold sendRequest at h1
    obtain ⟨q', e, h1⟩ := C.bind_eq_ok.mp h1
    obtain ⟨out, cmd', rfl, -, -⟩ := frameFor_read hs ho hf e
    cases h1
  | some l1, h1, h =>
    dsimp only at h
    obtain ⟨out, cmd, e0, e1⟩ := sendRequest_inv h1
    obtain ⟨out', cmd', e3, e4, e5⟩ := frameFor_read hs ho hf e0
    simp only [Option.some.injEq, Prod.mk.injEq] at e3
    obtain ⟨rfl, rfl⟩ := e3
    obtain ⟨⟨l2, m⟩, h2, h⟩ := C.bind_eq_ok.mp h
    have e2 := receive_inv h2
    dsimp only at h
    have es : l2.sent = l.sent ++ [out] := by rw [e2, e1]
    have ec : l2.job.cmd = cmd := by rw [e2, e1]
    refine ⟨out, ?_⟩
    split at h
    · obtain ⟨l3, h3, h⟩ := C.bind_eq_ok.mp h
      simp only [C.ok.injEq, Prod.mk.injEq] at h
      obtain ⟨rfl, rfl⟩ := h
      exact ⟨by rw [(answered_inv h3).1, es], e4, fun hx => by cases hx⟩
    · simp only [C.ok.injEq, Prod.mk.injEq] at h
      obtain ⟨rfl, rfl⟩ := h
      refine ⟨es, e4, fun _ => ?_⟩
      dsimp only
      rw [ec]
      exact e5

theorem tryLoop_read {fd : Int} {tcp : Bool} {o : Outside} {f d : List Byte} (ho : o.buff.length = 1024) : ∀ (k n : Nat) (l l' : Link) (r : Int),
    Readable l.job.cmd → request l.job.cmd.node l.job.cmd.function l.job.cmd.register l.job.cmd.length d = some f →
    tryLoop fd tcp o k n l = .ok (l', r) → ∃ outs, l'.sent = l.sent ++ outs ∧ 0 < outs.length ∧ outs.length ≤ k + 1 ∧ ∀ out ∈ outs, OnLine tcp f out := by
  intro k
  induction k with
  | zero =>
    intro n l l' r hs hf h
    unfold tryLoop at h
    obtain ⟨⟨l1, q⟩, h1, h⟩ := C.bind_eq_ok.mp h
    simp only [C.ok.injEq, Prod.mk.injEq] at h
    obtain ⟨rfl, rfl⟩ := h
    obtain ⟨out, a1, a2, -⟩ := tryOnce_read hs ho hf h1
    exact ⟨[out], a1, by simp, by simp, by simpa using a2⟩
  | succ k ih =>
    intro n l l' r hs hf h
    unfold tryLoop at h
    obtain ⟨⟨l1, q⟩, h1, h⟩ := C.bind_eq_ok.mp h
    obtain ⟨out, a1, a2, a4⟩ := tryOnce_read hs ho hf h1
    match q, h, a4 with
    | some x, h, _ =>
      simp only [C.ok.injEq, Prod.mk.injEq] at h
      obtain ⟨rfl, rfl⟩ := h
      exact ⟨[out], a1, by simp, by simp, by simpa using a2⟩
    | none, h, a4 =>
      have hc := a4 rfl
      obtain ⟨outs, b1, b2, b3, b4⟩ := ih _ _ _ _ (by rw [hc]; exact hs) (by rw [hc]; exact hf) h
      refine ⟨out :: outs, by rw [b1, a1]; simp, by simp, by simp; omega, ?_⟩
      intro z hz
      rcases List.mem_cons.mp hz with rfl | hz
      · exact a2
      · exact b4 z hz

/-- The command that is sent for the bytes of a tag is the read that they describe: unit in byte 9, function in byte 10, register in bytes 11 and 12, number in
bytes 13 and 14 (see `C90_layout`).  It is sent at least once and not more often than the retries allow, and the reply has the result.

Missing: writes (only the frame of a command whose area is exactly as large as its data is known, see C56); what happens without a connection
(`C90_stale`); the data (`C90_taken`, `C90_clobber`, `C90_overflow`); and reading and writing the tag itself accesses memory outside of the buffer
(`C90_outside`). -/
theorem C90_request_partial {fd : Int} {tcp : Bool} {retries : Nat} {o : Outside} {b b' req : List Byte} {l l' : Link} {n f r c : Nat} (ho : o.buff.length = 1024)
    (hn : b[9]?.map BitVec.toNat = some n) (hf : b[10]?.map BitVec.toNat = some f)
    (hr : ∃ lo hi : Byte, b[11]? = some lo ∧ b[12]? = some hi ∧ r = hi.toNat * 256 + lo.toNat)
    (hc : ∃ lo hi : Byte, b[13]? = some lo ∧ b[14]? = some hi ∧ c = hi.toNat * 256 + lo.toNat)
    (hs : Readable ⟨l.job.cmd.enable, n, f, r, c, [], 0, false⟩) (hq : request n f r c [] = some req)
    (h : callback fd tcp true retries o b l = .ok (l', b')) :
    (∃ outs, l'.sent = l.sent ++ outs ∧ 0 < outs.length ∧ outs.length ≤ retries + 1 ∧ ∀ out ∈ outs, OnLine tcp req out) ∧
      b' = [0, BitVec.ofNat 8 l'.job.st.lasterror, 0] ++ b.drop 3 := by
  obtain ⟨lo, hi, r1, r2, rfl⟩ := hr
  obtain ⟨lo', hi', c1, c2, rfl⟩ := hc
  obtain ⟨n', n1, rfl⟩ := Option.map_eq_some_iff.mp hn
  obtain ⟨f', f1, rfl⟩ := Option.map_eq_some_iff.mp hf
  have w1 : word b 11 = hi.toNat * 256 + lo.toNat := by
    unfold word
    simp only [List.getD_eq_getElem?_getD, r1, r2, Option.getD_some]; omega
  have w2 : word b 13 = hi'.toNat * 256 + lo'.toNat := by
    unfold word
    simp only [List.getD_eq_getElem?_getD, c1, c2, Option.getD_some]; omega
  have hset : setFields b l.job.cmd = { l.job.cmd with node := n'.toNat, function := f'.toNat, register := hi.toNat * 256 + lo.toNat, length := hi'.toNat * 256 + lo'.toNat } := by
    unfold setFields
    rw [w1, w2, List.getD_eq_getElem?_getD, List.getD_eq_getElem?_getD, n1, f1]
    rfl
  unfold callback at h
  dsimp only at h
  rw [if_neg (by simp), hset] at h
  obtain ⟨⟨l1, q⟩, h1, h⟩ := C.bind_eq_ok.mp h
  simp only [C.ok.injEq, Prod.mk.injEq] at h
  obtain ⟨rfl, rfl⟩ := h
  refine ⟨?_, rfl⟩
  have hfn := hs.2.1
  dsimp only at hfn
  unfold sendCommand at h1
  rw [if_neg (by exact hs.2.2.2.2.1)] at h1
  dsimp only at h1
  rw [if_neg (by omega)] at h1
  simp only [C.ok_bind] at h1
  have g := fun x y => tryLoop_read (d := []) (f := req) ho retries 0 _ _ _ x y h1
  exact g hs hq

/-! ## The answer -/

/-- What a read brings is at the beginning of the area; the rest of the area stays. -/
theorem C90_taken {cmd : Cmd} {d rest : List Byte} (hn : cmd.node < 256) (hf : 1 ≤ cmd.function ∧ cmd.function ≤ 4) (hd : d.length < 256)
    (he : 3 ≤ cmd.function → 2 ∣ d.length) (hl : d.length ≤ cmd.data.length) :
    handleResponse (BitVec.ofNat 8 cmd.node :: BitVec.ofNat 8 cmd.function :: BitVec.ofNat 8 d.length :: (d ++ rest)) cmd =
      .ok ((if cmd.function ≤ 2 then d else bigAll d) ++ cmd.data.drop d.length, 0) := by
  have t1 : (BitVec.ofNat 8 cmd.node).toNat = cmd.node := by rw [BitVec.toNat_ofNat]; omega
  have t2 : (BitVec.ofNat 8 cmd.function).toNat = cmd.function := by rw [BitVec.toNat_ofNat]; omega
  have t3 : (BitVec.ofNat 8 d.length).toNat = d.length := by rw [BitVec.toNat_ofNat]; omega
  unfold handleResponse
  show (if (BitVec.ofNat 8 cmd.function).toNat ≥ 128 then _ else _) = _
  rw [if_neg (by omega), if_neg (by omega), if_neg (by omega)]
  by_cases h2 : cmd.function ≤ 2
  · rw [if_pos (by omega), if_pos h2, t3]
    have e1 : rd (BitVec.ofNat 8 cmd.node :: BitVec.ofNat 8 cmd.function :: BitVec.ofNat 8 d.length :: (d ++ rest)) 3 d.length = .ok d := by
      unfold rd
      rw [if_pos ⟨by omega, by simp; omega⟩]
      simp
    rw [e1, C.ok_bind]
    have e2 : wr cmd.data 0 d = .ok (d ++ cmd.data.drop d.length) := by
      unfold wr
      rw [if_pos ⟨by omega, by omega⟩]
      simp
    rw [e2]
    rfl
  · rw [if_neg (by omega), if_pos (by omega), if_neg h2, t3, respWords_eq]
    obtain ⟨m, hm⟩ := he (by omega)
    have hm2 : d.length / 2 = m := by omega
    rw [hm2]
    obtain ⟨r, e1, l1, g1, g2⟩ := swapLoop_ok (BitVec.ofNat 8 cmd.node :: BitVec.ofNat 8 cmd.function :: BitVec.ofNat 8 d.length :: (d ++ rest)) 3 0 m 0 cmd.data
      (by simp; omega) (by omega)
    rw [e1, C.ok_bind]
    have hb : (bigAll d).length = d.length := by
      have : ∀ (k : Nat) (x : List Byte), x.length = 2 * k → (bigAll x).length = x.length := by
        intro k
        induction k with
        | zero => intro x hx; match x, hx with | [], _ => rfl
        | succ k ih =>
          intro x hx
          match x, hx with
          | a :: b :: x, hx =>
            simp only [List.length_cons] at hx
            show (b :: a :: bigAll x).length = _
            simp only [List.length_cons, ih x (by omega)]
      exact this m d hm
    have : r = bigAll d ++ cmd.data.drop d.length := by
      apply List.ext_getElem?
      intro i
      by_cases hi : i < d.length
      · rw [List.getElem?_append_left (by omega)]
        obtain ⟨q, hq | hq⟩ : ∃ q, i = 2 * q ∨ i = 2 * q + 1 := ⟨i / 2, by omega⟩
        · have a := (g1 q (by omega) (by omega)).1
          have b := (bigAll_get d q (by omega)).1
          rw [hq, b]
          rw [Nat.zero_add] at a
          rw [a, show 3 + 2 * q + 1 = (2 * q + 1) + 1 + 1 + 1 by omega]
          simp only [List.getElem?_cons_succ]
          rw [List.getElem?_append_left (by omega)]
        · have a := (g1 q (by omega) (by omega)).2
          have b := (bigAll_get d q (by omega)).2
          rw [hq, b]
          rw [Nat.zero_add] at a
          rw [a, show 3 + 2 * q = (2 * q) + 1 + 1 + 1 by omega]
          simp only [List.getElem?_cons_succ]
          rw [List.getElem?_append_left (by omega)]
      · rw [List.getElem?_append_right (by omega), List.getElem?_drop, g2 i (by omega)]
        congr 1
        omega
    rw [this]

theorem respWords_outside (src : List Byte) : ∀ (k n : Nat) (data : List Byte), 0 < k → data.length < 2 * (n + k) → ∃ w, respWords src k n data = .ub w := by
  intro k
  induction k with
  | zero => intro n data h; omega
  | succ k ih =>
    intro n data _ h
    unfold respWords
    cases e1 : rd src (2 * n + 3) 2 with
    | ub w => exact ⟨w, rfl⟩
    | ok x =>
      cases e2 : wr data (2 * n) x.reverse with
      | ub w => exact ⟨w, by rw [C.ok_bind, e2]; rfl⟩
      | ok y =>
        have hy : y.length = data.length := wr_length e2
        rw [C.ok_bind, e2, C.ok_bind]
        have hx : x.length = 2 := rd_length e1
        by_cases hk : k = 0
        · exfalso
          unfold wr at e2
          split at e2
          · rename_i hb
            simp only [List.length_reverse, hx] at hb
            omega
          · cases e2
        · exact ih _ _ (by omega) (by omega)

/-- **C90 fails**: the protocol allows to read up to 125 registers; from 121 on the answer is written behind the area of the command
(`src/modules/modbus/modmain.c:97,172`, `src/modules/modbus/modbus.c:583-585`). -/
theorem C90_overflow {cmd : Cmd} {d rest : List Byte} (h : Readable cmd) (hf : 3 ≤ cmd.function) (hl : 121 ≤ cmd.length) (hd : d.length = 2 * cmd.length)
    (ha : cmd.data.length = 240) :
    ∃ w, handleResponse (BitVec.ofNat 8 cmd.node :: BitVec.ofNat 8 cmd.function :: BitVec.ofNat 8 d.length :: (d ++ rest)) cmd = .ub w := by
  obtain ⟨h1, h2, -, -, -, -, h7⟩ := h
  have h7 := h7 hf
  have t1 : (BitVec.ofNat 8 cmd.node).toNat = cmd.node := by rw [BitVec.toNat_ofNat]; omega
  have t2 : (BitVec.ofNat 8 cmd.function).toNat = cmd.function := by rw [BitVec.toNat_ofNat]; omega
  have t3 : (BitVec.ofNat 8 d.length).toNat = d.length := by rw [BitVec.toNat_ofNat]; omega
  unfold handleResponse
  show ∃ w, (if (BitVec.ofNat 8 cmd.function).toNat ≥ 128 then _ else _) = _
  rw [if_neg (by omega), if_neg (by omega), if_neg (by omega), if_neg (by omega), if_pos (by omega), t3]
  obtain ⟨w, e⟩ := respWords_outside (BitVec.ofNat 8 cmd.node :: BitVec.ofNat 8 cmd.function :: BitVec.ofNat 8 d.length :: (d ++ rest)) (d.length / 2) 0 cmd.data
    (by omega) (by omega)
  exact ⟨w, by rw [e]; rfl⟩

/-- **C90 fails**: if there is no connection nothing is sent, and the response is the result of the command before; after a success it is 0
(`src/modules/modbus/modbus.c:687-691`, `src/modules/modbus/modmain.c:116-118`). -/
theorem C90_stale {fd : Int} {retries : Nat} {o : Outside} {b : List Byte} {l : Link} (hb : b.length = 15) (h0 : l.job.st.lasterror = 0) :
    ∃ l' b', callback fd true false retries o b l = .ok (l', b') ∧ l'.sent = l.sent ∧ l'.s = l.s ∧ b'[0]? = some 0 ∧ word b' 1 = 0 := by
  refine ⟨_, _, rfl, rfl, rfl, ?_, ?_⟩
  · exact (C90_reply hb (by dsimp only; rw [h0]; decide)).2.1
  · dsimp only
    rw [h0]
    exact (C90_reply (e := 0) hb (by decide)).2.2.1

/-! ## Reading and writing the tag -/

theorem format_outside {s : Server} {fd : Int} {dbl : Bool} {c c' : TypeCache} {t len : Nat} (ht : isCustom t = true) (hq : isQueue t = false)
    (hp : cdtPointer s fd c t = .ok (c', some members)) (hl : len < 254) : ∃ w, format s fd dbl len c t 1 = .ub w := by
  have hs : stripQueue t = t := by unfold stripQueue; rw [hq]; rfl
  unfold format
  cases e : s.cdts.length with
  | zero =>
    unfold formatF
    dsimp only
    rw [hs, if_pos ht, hp]
    exact ⟨_, rfl⟩
  | succ n =>
    unfold formatF
    dsimp only
    rw [hs, if_pos ht, hp, C.ok_bind]
    dsimp only
    have st : ∀ (base pos ty cnt : Nat) (c : TypeCache), isCustom ty = false → isQueue ty = false →
        formatF s fd dbl len (n + 1) c ty cnt base pos = (if [DAX_BOOL, DAX_BYTE, DAX_SINT, DAX_CHAR].contains ty then .ok (c, 0)
          else if baseTypes.contains ty then
            if base + pos + (if ty = DAX_TIME then 4 else typeBits ty / 8) * cnt ≤ len then .ok (c, 0) else .ub "access outside block"
          else .ok (c, ERR_ARG)) := by
      intro base pos ty cnt c h1 h2
      have hs : stripQueue ty = ty := by unfold stripQueue; rw [h2]; rfl
      conv => lhs; unfold formatF
      dsimp only
      rw [hs, if_neg (by rw [h1]; decide)]
    generalize hsub : (fun (c : TypeCache) (t k pos : Nat) => formatF s fd dbl len (n + 1) c t k (if dbl = true then 0 + 0 else 0) pos) = sub
    have pass : ∀ (m : Member) (ms : List Member) (pos : Nat), isCustom m.type = false → isQueue m.type = false →
        ([DAX_BOOL, DAX_BYTE, DAX_SINT, DAX_CHAR].contains m.type = true ∨ baseTypes.contains m.type = true) →
        (∃ w, formatMembers s fd sub (m :: ms) c' pos = .ub w) ∨
          formatMembers s fd sub (m :: ms) c' pos = formatMembers s fd sub ms c' (pos + typeBits m.type * m.count / 8) := by
      intro m ms pos h1 h2 h3
      have e1 : sub c' m.type m.count pos = .ok (c', 0) ∨ sub c' m.type m.count pos = .ub "access outside block" := by
        rw [← hsub]
        dsimp only
        rw [st _ _ _ _ _ h1 h2]
        by_cases h4 : [DAX_BOOL, DAX_BYTE, DAX_SINT, DAX_CHAR].contains m.type = true
        · rw [if_pos h4]; exact .inl rfl
        · rw [if_neg h4, if_pos (h3.resolve_left h4)]
          by_cases h5 : (if dbl = true then 0 + 0 else 0) + pos + (if m.type = DAX_TIME then 4 else typeBits m.type / 8) * m.count ≤ len
          · rw [if_pos h5]; exact .inl rfl
          · rw [if_neg h5]; exact .inr rfl
      conv => enter [1, 1, w, 1]; unfold formatMembers
      conv => rhs; lhs; unfold formatMembers
      rcases e1 with e1 | e1
      · rw [e1]
        refine .inr ?_
        rw [C.ok_bind]
        dsimp only
        rw [if_neg (by decide), if_neg (by rw [h1]; decide)]
      · rw [e1]
        exact .inl ⟨_, rfl⟩
    unfold members
    rcases pass ⟨nm "send", DAX_BOOL, 1⟩ _ 0 (by decide) (by decide) (by decide) with h | h
    · exact h
    rw [h]; clear h
    rcases pass ⟨nm "response", DAX_INT, 1⟩ _ _ (by decide) (by decide) (by decide) with h | h
    · exact h
    rw [h]; clear h
    rcases pass ⟨nm "ipaddress", DAX_BYTE, 4⟩ _ _ (by decide) (by decide) (by decide) with h | h
    · exact h
    rw [h]; clear h
    rcases pass ⟨nm "port", DAX_UINT, 1⟩ _ _ (by decide) (by decide) (by decide) with h | h
    · exact h
    rw [h]; clear h
    rcases pass ⟨nm "node", DAX_BYTE, 1⟩ _ _ (by decide) (by decide) (by decide) with h | h
    · exact h
    rw [h]; clear h
    rcases pass ⟨nm "function", DAX_BYTE, 1⟩ _ _ (by decide) (by decide) (by decide) with h | h
    · exact h
    rw [h]; clear h
    rcases pass ⟨nm "register", DAX_UINT, 1⟩ _ _ (by decide) (by decide) (by decide) with h | h
    · exact h
    rw [h]; clear h
    rcases pass ⟨nm "length", DAX_UINT, 1⟩ _ _ (by decide) (by decide) (by decide) with h | h
    · exact h
    rw [h]; clear h
    unfold formatMembers
    have e : sub c' DAX_UINT 120 14 = .ub "access outside block" := by
      rw [← hsub]
      dsimp only
      rw [st _ _ _ _ _ (by decide) (by decide), if_neg (by decide), if_pos (by decide)]
      rw [if_neg (show ¬ _ from fun hx => ?_)]
      have h2 : (if DAX_UINT = DAX_TIME then 4 else typeBits DAX_UINT / 8) = 2 := by decide
      rw [h2] at hx
      omega
    refine ⟨"access outside block", ?_⟩
    show (sub c' DAX_UINT 120 14 >>= _) = _
    rw [e]
    rfl

/-- **C90 fails**: to read the tag and to write the result the callback uses a buffer for the members before `data`, but the handle says that there is a
whole element: the library converts the numbers of the element in this buffer of 15 bytes and accesses 239 bytes behind it
(`src/modules/modbus/modmain.c:106-109,119,165`, `src/lib/libdata.c:290-292,404,455-456,572`). -/
theorem C90_outside {s : Server} {fd : Int} {c c' : TypeCache} {index t : Nat} (ht : isCustom t = true) (hq : isQueue t = false)
    (hp : cdtPointer s fd c t = .ok (c', some members)) :
    (∀ b : List Byte, b.length = 15 → ∃ w, daxTagWrite s fd c (commandHandle index t) b = .ub w) ∧
      ∀ lg d, d.length = 15 → daxRead s fd index 0 15 = .ok (s, lg, 0, d) → ∃ w, daxTagRead s fd c (commandHandle index t) = .ub w := by
  have hb : t ≠ DAX_BOOL := by rintro rfl; exact absurd ht (by decide)
  refine ⟨fun b hl => ?_, fun lg d hl hr => ?_⟩
  · obtain ⟨w, e⟩ := format_outside (dbl := true) (len := b.length) ht hq hp (by omega)
    refine ⟨w, ?_⟩
    unfold daxTagWrite
    have : ¬ Wire.shifted (commandHandle index t) = true := by
      unfold Wire.shifted commandHandle
      simp [hb]
    rw [if_neg this]
    show (format s fd true b.length c t 1 >>= _) = _
    rw [e]
    rfl
  · obtain ⟨w, e⟩ := format_outside (dbl := false) (len := d.length) ht hq hp (by omega)
    refine ⟨w, ?_⟩
    unfold daxTagRead transfer
    rw [if_neg (show ¬ (commandHandle index t).size > MSG_DATA_SIZE by show ¬ 255 - 240 > MSG_DATA_SIZE; decide)]
    show ((daxRead s fd index 0 15 >>= _) >>= _) = _
    rw [hr]
    simp only [C.ok_bind]
    rw [if_neg (by simp), if_neg (by exact hb)]
    show (format s fd false d.length c t 1 >>= _) = _
    rw [e]
    rfl

/-! ## A run -/

/-- A server with the type and the tag. -/
def asyncText : Name := nm "mb_command:send,BOOL,1:response,INT,1:ipaddress,BYTE,4:port,UINT,1:node,BYTE,1:function,BYTE,1:register,UINT,1:length,UINT,1:data,UINT,120"
def asyncOps : List Op := [.req 5 (.modReg 1 (nm "modbus")), .req 5 (.cdtCreate asyncText), .req 5 (.tagAdd 0x80000002 1 0 (nm "m_cmd"))]

/-- The tag asks unit 1 for register 5. -/
def asyncBytes : List Byte := [1, 0, 0, 127, 0, 0, 1, 0xF6, 1, 1, 3, 5, 0, 1, 0]

/-- A command that was made for the tag; the memory of its area is what `malloc` gave. -/
def asyncLink : Link := { s := demo asyncOps, c := [], job := { cmd := { data := List.replicate 240 0xEE }, handle := some ⟨12, 15, 0, 120, 240, DAX_UINT⟩ }, buff := full 0 }

/-- What is on the line: register 5 of unit 1 is 0x1234. -/
def asyncOutside : Outside := { heard := fun _ => [[0, 0, 0, 0, 0, 5, 1, 3, 2, 0x12, 0x34]], buff := full 0 }

/-- The bytes of the tag and what is written back. -/
def asyncRun (b : List Byte) (l : Link) (o : Outside) : Option (List (List Byte) × List Byte × List Byte) :=
  match callback 5 true true 1 o b l with
  | .ok (l', b') => some (l'.sent, b', match handle l'.s 5 (.tagRead 12 15 10) with | .ok (_, .resp d) => d | _ => [])
  | _ => none

/-- An instance of `C90_request_partial`, `C90_taken` and `C90_reply`: the request for register 5, and the answer is in the first element of `data`.

**C90 fails**: the other elements of `data` are overwritten with what is in the memory of the command, which was never set, or is left from other commands
(`src/modules/modbus/modmain.c:172`, `src/modules/modbus/modbus.c:630-647`). -/
theorem C90_clobber : Readable { node := 1, function := 3, register := 5, length := 1 } ∧
    ((asyncRun asyncBytes asyncLink asyncOutside).map fun x => x.1) = some [[0, 0, 0, 0, 0, 6, 1, 3, 0, 5, 0, 1]] ∧
    ((asyncRun asyncBytes asyncLink asyncOutside).map fun x => x.2.1) = some (0 :: 0 :: asyncBytes.drop 2) ∧
    ((asyncRun asyncBytes asyncLink asyncOutside).map fun x => x.2.2) = some [0x34, 0x12, 0xEE, 0xEE, 0xEE, 0xEE, 0xEE, 0xEE, 0xEE, 0xEE] :=
  ⟨by unfold Readable; decide, by decide +kernel, by decide +kernel, by decide +kernel⟩

example : (match handle asyncLink.s 5 (.tagRead 12 15 10) with | .ok (_, .resp d) => d | _ => []) = List.replicate 10 (0 : Byte) := by decide +kernel

/-- The callback for the bytes `b` of the tag is free of undefined behaviour. -/
def asyncOk (tcp : Bool) (b : List Byte) : Bool := (callback 5 tcp true 1 asyncOutside b asyncLink).isOk

/-- **C90 fails**: a function that is not known is not refused; on a serial line the length of the request is then not set
(`src/modules/modbus/modbus.c:227-331`).  The same with the function that a new tag has, which is 0. -/
theorem C90_function : (∃ w, callback 5 false true 1 asyncOutside (asyncBytes.set 10 7) asyncLink = .ub w) ∧
    (∃ w, callback 5 false true 1 asyncOutside (1 :: List.replicate 14 0) asyncLink = .ub w) ∧ asyncOk true asyncBytes = true :=
  ⟨isOk_false (by decide +kernel), isOk_false (by decide +kernel), by decide +kernel⟩

/-- Instances of the hypotheses of `C90_outside` and of `C90_layout`. -/
example : (∃ c', cdtPointer (demo asyncOps) 5 [] 0x80000002 = .ok (c', some members)) ∧ isCustom 0x80000002 = true ∧ isQueue 0x80000002 = false ∧
    (match daxRead (demo asyncOps) 5 12 0 15 with | .ok (_, _, e, d) => some (e, d.length) | _ => none) = some (0, 15) ∧
    (demo asyncOps).cdts[2]?.map (·.members) = some members := by
  refine ⟨?_, by decide, by decide, by decide +kernel, by decide +kernel⟩
  have h : (match cdtPointer (demo asyncOps) 5 [] 0x80000002 with | .ok (_, some m) => decide (m = members) | _ => false) = true := by decide +kernel
  split at h
  · rename_i c m e
    exact ⟨c, by rw [e, of_decide_eq_true h]⟩
  · cases h

/-- The whole callback on this server. -/
theorem C90_outside_run : ∃ w, onSend 5 true true 1 12 0x80000002 asyncOutside asyncLink = .ub w := isOk_false (by decide +kernel)

end Dax
