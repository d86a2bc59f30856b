import Verif.Lemmas.ModbusConf
import Verif.Lemmas.Tactic
/-!
# C87: the Modbus module does what its configuration says
-/
set_option autoImplicit false
namespace Dax
open Modbus MbConf

/-- After any script there is one port for each call of `add_port`, in their order, with the kind, line, address and times that were asked for; the commands of a master are those of the script in order, and every command that Modbus knows is sent as asked, with the tag and on the occasions asked for, and meets the condition `Configured` of C55–C66; the registers of a slave are those given last.

Missing: the parity, the timeout with 0 retries, and commands and lines that make no sense, which are not refused. -/
theorem C87_script_partial {junk : Nat → Byte} {cs : List Call} {ports : List Port} (hpl : ∀ c ∈ cs, Plain c) (h : script junk [] cs = .ok ports) :
    Holds cs ports := by
  have h0 : Holds [] [] := ⟨rfl, fun k t p ht => by cases ht⟩
  exact script_holds hpl h0 h

/-- The numbers of a table are within the C types, and a port says what it is. -/
def InTypes : Call → Prop
  | .port t => (0 ≤ t.delay ∧ t.delay < 2 ^ 32) ∧ (0 ≤ t.frame ∧ t.frame < 2 ^ 32) ∧ (0 ≤ t.scanrate ∧ t.scanrate < 2 ^ 32) ∧
      (0 ≤ t.timeout ∧ t.timeout < 2 ^ 32) ∧ (0 ≤ t.retries ∧ t.retries < 2 ^ 32) ∧ (0 ≤ t.inhibit ∧ t.inhibit < 2 ^ 32) ∧
      (0 ≤ t.maxfailures ∧ t.maxfailures < 2 ^ 32) ∧ (0 ≤ t.bindport ∧ t.bindport < 2 ^ 32) ∧ (0 ≤ t.stopbits ∧ t.stopbits < 2 ^ 32) ∧
      (-(2 ^ 31) ≤ t.baudrate ∧ t.baudrate < 2 ^ 31) ∧ (-(2 ^ 15) ≤ t.databits ∧ t.databits < 2 ^ 15) ∧
      (∀ n, t.parity = .inl n → 0 ≤ n ∧ n < 2 ^ 8) ∧ t.type ≠ none
  | .command p t => (-(2 ^ 31) ≤ p ∧ p < 2 ^ 31) ∧ (0 ≤ t.node ∧ t.node < 2 ^ 8) ∧ (0 ≤ t.fcode ∧ t.fcode < 2 ^ 8) ∧
      (0 ≤ t.register ∧ t.register < 2 ^ 16) ∧ (0 ≤ t.length ∧ t.length < 2 ^ 16) ∧ (0 ≤ t.port ∧ t.port < 2 ^ 16) ∧
      (-(2 ^ 31) ≤ t.interval ∧ t.interval < 2 ^ 31)
  | .register .. => True

theorem castU_def {b : Nat} {x : Int} (h : 0 ≤ x ∧ x < 2 ^ b) : castU b x = .ok x.toNat := if_pos h
theorem castS_def {b : Nat} {x : Int} (h : -(2 ^ b) ≤ x ∧ x < 2 ^ b) : castS b x = .ok x := if_pos h

theorem newPort_def {t : PortTable} (h : InTypes (.port t)) : ∃ p, newPort t = .ok p := by
  obtain ⟨h1, h2, h3, h4, h5, h6, h7, h8, h9, h10, h11, h12, h13⟩ := h
  have hd : ∃ p, deviceConfig t { name := t.name, enable := t.enable } = .ok p := by
    unfold deviceConfig
    by_cases hp : protocolOf t = MB_TCP
    · rw [if_pos hp]
      unfold networkConfig
      rw [castU_def h8]
      exact ⟨_, rfl⟩
    · rw [if_neg hp]
      unfold serialConfig
      rw [castS_def h10, castS_def h11, castU_def h9]
      have hq : ∃ n, parityOf t.parity = .ok n := by
        unfold parityOf
        split
        · next n hn => rw [castU_def (h12 n hn)]; exact ⟨_, rfl⟩
        · exact ⟨_, rfl⟩
        · exact ⟨_, rfl⟩
      obtain ⟨n, hn⟩ := hq
      rw [hn]
      exact ⟨_, rfl⟩
  have ht : ∃ n, typeOf t = .ok n := by
    unfold typeOf
    cases hty : t.type with
    | none => exact absurd hty h13
    | some s => exact ⟨_, rfl⟩
  obtain ⟨p, hd⟩ := hd
  obtain ⟨n, ht⟩ := ht
  unfold newPort
  dsimp only
  rw [hd, ht]
  show ∃ q, timesConfig t { p with type := n, protocol := protocolOf t } = .ok q
  unfold timesConfig
  rw [castU_def h1, castU_def h2, castU_def h3, castU_def h4, castU_def h5, castU_def h6, castU_def h7]
  exact ⟨_, rfl⟩

theorem fillCommand_def {tcp : Bool} {junk : Nat → Byte} {p : Int} {t : CmdTable} (h : InTypes (.command p t)) : ∃ c, fillCommand tcp junk t = .ok c := by
  obtain ⟨-, h1, h2, h3, h4, h5, h6⟩ := h
  have hp : ∃ n, portNumber tcp t = .ok n := by
    unfold portNumber
    cases tcp with
    | false => exact ⟨_, rfl⟩
    | true => exact ⟨_, castU_def h5⟩
  obtain ⟨n, hn⟩ := hp
  unfold fillCommand
  rw [castU_def h1, castU_def h2, castU_def h3, castU_def h4, hn, castS_def h6]
  exact ⟨_, rfl⟩

/-- A script whose numbers are within the C types, with a type for each port, runs without undefined behaviour. -/
theorem C87_defined {junk : Nat → Byte} {cs : List Call} (h : ∀ c ∈ cs, InTypes c) (ports : List Port) : ∃ r, script junk ports cs = .ok r := by
  induction cs generalizing ports with
  | nil => exact ⟨ports, rfl⟩
  | cons c cs ih =>
    have hc := h c List.mem_cons_self
    have hstep : ∃ q, call junk ports c = .ok q := by
      cases c with
      | port t =>
        obtain ⟨p, hp⟩ := newPort_def hc
        unfold call
        simp only
        rw [hp]
        exact ⟨_, rfl⟩
      | command p t =>
        unfold call
        simp only
        rw [castS_def hc.1]
        show ∃ q, (if p - 1 < 0 ∨ p - 1 ≥ ports.length then _ else _) = C.ok q
        by_cases hb : p - 1 < 0 ∨ p - 1 ≥ ports.length
        · rw [if_pos hb]; exact ⟨_, rfl⟩
        · rw [if_neg hb]
          cases ports[(p - 1).toNat]? with
          | none => exact ⟨_, rfl⟩
          | some q =>
            simp only
            unfold addCommand
            by_cases hty : q.type ≠ MB_MASTER
            · rw [if_pos hty]; exact ⟨_, rfl⟩
            · rw [if_neg hty]
              obtain ⟨x, hx⟩ := fillCommand_def (tcp := q.protocol == MB_TCP) (junk := junk) hc
              rw [hx]
              exact ⟨_, rfl⟩
      | register p n t s q =>
        unfold call
        simp only
        by_cases hb : i32 p - 1 < 0 ∨ i32 p - 1 ≥ ports.length
        · rw [if_pos hb]; exact ⟨_, rfl⟩
        · rw [if_neg hb]
          cases ports[(i32 p - 1).toNat]? with
          | none => exact ⟨_, rfl⟩
          | some q => exact ⟨_, rfl⟩
    obtain ⟨⟨q, r⟩, hq⟩ := hstep
    obtain ⟨z, hz⟩ := ih (fun c hc => h c (List.mem_cons_of_mem _ hc)) q
    refine ⟨z, ?_⟩
    unfold script
    rw [hq]
    exact hz

/-! ## An instance: a client, a server and a serial master -/

/-- A script. -/
def aScript : List Call :=
  [.port { name := some (nm "one"), enable := true, protocol := some (nm "TCP"), type := some (nm "CLIENT"), retries := 3, timeout := 200, persist := true },
   .port { name := some (nm "two"), enable := true, protocol := some (nm "tcp"), type := some (nm "Server"), bindport := 5020, retries := 1 },
   .command 1 { node := 7, fcode := 3, register := 100, length := 10, mode := some (nm "continuous"), enable := true, ipaddress := some 5, port := 5020,
                tagname := some (nm "a"), tagcount := 10, interval := 4 },
   .register 2 1 (some (nm "h")) 100 1,
   .port { name := some (nm "three"), enable := true, protocol := some (nm "RTU"), type := some (nm "MASTER"), baudrate := 19200, databits := 7, stopbits := 2,
           parity := .inr (some (nm "even")), retries := 2 },
   .command 3 { node := 9, fcode := 16, register := 1, length := 2, mode := some (nm "ON CHANGE, TRIGGER"), enable := true, tagname := some (nm "b"),
                tagcount := 2, trigger := some (nm "t") },
   .register 2 1 (some (nm "k")) 50 1, .command 1 { node := 7, fcode := 5, register := 3, enable := true, tagname := some (nm "c") }]

example : ∀ c ∈ aScript, Plain c := by
  intro c hc
  simp only [aScript, List.mem_cons, List.not_mem_nil, or_false] at hc
  rcases hc with rfl | rfl | rfl | rfl | rfl | rfl | rfl | rfl <;> unfold Plain <;> decide

example : ∀ c ∈ aScript, InTypes c := by
  intro c hc
  simp only [aScript, List.mem_cons, List.not_mem_nil, or_false] at hc
  rcases hc with rfl | rfl | rfl | rfl | rfl | rfl | rfl | rfl <;> unfold InTypes <;> simp

/-- What is left of a script in a form that can be compared. -/
def shownConf (r : C (List Port)) : Option (List (Option Name × Nat × Nat × Nat × Int × Int × List MbCmd)) :=
  match r with
  | .ok ps => some (ps.map fun p => (p.name, p.type, p.baudrate, p.parity, p.timeout, p.retries, p.commands))
  | .ub _ => none

example : (shownConf (script (fun _ => 0) [] aScript)).map (fun l => l.map fun x => (x.1, x.2.1, x.2.2.1, x.2.2.2.2.2.2.length)) =
    some [(some (nm "one"), 0, 9600, 2), (some (nm "two"), 1, 9600, 0), (some (nm "three"), 0, 19200, 1)] := by decide +kernel

example : (shownConf (script (fun _ => 0) [] aScript)).map (fun l => l.map fun x => x.2.2.2.2.2.2.map fun c => (c.cmd.function, c.cmd.length, c.mode, c.port)) =
    some [[(3, 10, MB_CONTINUOUS, 5020), (5, 0, MB_CONTINUOUS, 502)], [], [(16, 2, MB_ONCHANGE ||| MB_TRIGGER, 0)]] := by decide +kernel

example : registersFor 2 1 1 aScript = some (nm "k", 50) := by decide +kernel

/-! ## Where it fails -/

/-- No configuration sets a parity: serial lines always run without. -/
theorem C87_parity {junk : Nat → Byte} {cs : List Call} {ports : List Port} (hpl : ∀ c ∈ cs, Plain c) (h : script junk [] cs = .ok ports) :
    ∀ p ∈ ports, p.parity = MB_NONE := by
  intro p hp
  obtain ⟨hl, ha⟩ := C87_script_partial hpl h
  obtain ⟨k, hk, hkp⟩ := List.getElem_of_mem hp
  have hk' : k < (portCalls cs).length := by omega
  exact (ha k _ p (List.getElem?_eq_getElem hk') (by rw [List.getElem?_eq_getElem hk, hkp])).parity

/-- The third port of the script asks for even parity. -/
example : ∃ t, (portCalls aScript)[2]? = some t ∧ t.parity = .inr (some (nm "even")) ∧ ∀ p : Port, p.parity = MB_NONE → ¬ ParityAs t p := by
  refine ⟨_, rfl, rfl, ?_⟩
  intro p hp hq
  have := (hq _ rfl).1 ⟨_, rfl, by decide⟩
  rw [hp] at this
  cases this

/-- A port for which no retries are asked for (or none are given) waits 1 ms for each answer, whatever timeout is asked for. -/
theorem C87_timeout {t : PortTable} {p : Port} (h : newPort t = .ok p) (hr : t.retries = 0) : p.timeout = 1 := by
  unfold newPort at h
  obtain ⟨p1, -, h⟩ := C.bind_eq_ok.mp h
  obtain ⟨ty, -, h⟩ := C.bind_eq_ok.mp h
  unfold timesConfig at h
  obtain ⟨a, -, h⟩ := C.bind_eq_ok.mp h
  obtain ⟨b, -, h⟩ := C.bind_eq_ok.mp h
  obtain ⟨c, -, h⟩ := C.bind_eq_ok.mp h
  obtain ⟨d, -, h⟩ := C.bind_eq_ok.mp h
  obtain ⟨e, he, h⟩ := C.bind_eq_ok.mp h
  obtain ⟨f, -, h⟩ := C.bind_eq_ok.mp h
  obtain ⟨g, -, h⟩ := C.bind_eq_ok.mp h
  obtain ⟨he1, -, -⟩ := castU_ok he
  injection h with h
  rw [← h]
  dsimp only
  have : e = 0 := by omega
  subst this
  rw [if_pos (by decide)]

example : ∃ p, newPort { type := some (nm "MASTER"), timeout := 500 } = .ok p ∧ p.timeout = 1 := ⟨_, rfl, by decide +kernel⟩

/-- A speed that is not in the list makes the speed 0 (hang up). -/
theorem C87_speed {t : PortTable} {p : Port} (h : newPort t = .ok p) (hs : protocolOf t ≠ MB_TCP) (h0 : t.baudrate ≠ 0) (hb : t.baudrate ∉ speeds) :
    p.baudrate = 0 := by
  unfold newPort at h
  obtain ⟨p1, h1, h⟩ := C.bind_eq_ok.mp h
  obtain ⟨ty, -, h⟩ := C.bind_eq_ok.mp h
  obtain ⟨a, b, c, d, e, f, g, hq, -, -⟩ := timesConfig_as h
  unfold deviceConfig at h1
  rw [if_neg hs] at h1
  unfold serialConfig at h1
  obtain ⟨b, hb1, h1⟩ := C.bind_eq_ok.mp h1
  obtain ⟨d, -, h1⟩ := C.bind_eq_ok.mp h1
  obtain ⟨s, -, h1⟩ := C.bind_eq_ok.mp h1
  obtain ⟨e, -, h1⟩ := C.bind_eq_ok.mp h1
  obtain ⟨hbe, hb2, hb3⟩ := castS_ok hb1
  injection h1 with h1
  rw [hbe, if_neg h0] at h1
  have hz : getbaudrate (u32 t.baudrate) = 0 := by
    unfold getbaudrate
    rw [if_neg]
    intro hm
    apply hb
    simp only [List.mem_cons, List.not_mem_nil, or_false] at hm
    unfold speeds
    simp only [List.mem_cons, List.not_mem_nil, or_false]
    unfold u32 at hm
    omega
  have : p1.baudrate = 0 := by
    rw [← h1]
    unfold setSerialPort
    dsimp only
    rw [if_pos hz]
    exact hz
  rw [hq]
  exact this

example : ∃ p, newPort { type := some (nm "MASTER"), baudrate := 14400 } = .ok p ∧ p.baudrate = 0 := ⟨_, rfl, by decide +kernel⟩

/-- A port without a type: `strcasecmp` with NULL. -/
theorem C87_type {t : PortTable} (h : t.type = none) : ∀ p, newPort t ≠ .ok p := by
  intro p hp
  unfold newPort at hp
  obtain ⟨p1, -, hp⟩ := C.bind_eq_ok.mp hp
  obtain ⟨ty, hty, -⟩ := C.bind_eq_ok.mp hp
  unfold typeOf at hty
  rw [h] at hty
  cases hty

/-- A command that is refused because of its length stays in the list and is enabled: it asks for 0 registers. -/
def refused : CmdTable := { node := 1, fcode := 3, register := 7, length := 200, enable := true, tagname := some (nm "a"), tagcount := 200 }

/-- What `sendRtu` sends. -/
def frameOf (r : C (Option (List Byte × Cmd))) : Option (List Byte) :=
  match r with
  | .ok (some x) => some x.1
  | _ => none

theorem C87_refused : ¬ Sensible refused ∧ ∃ c, fillCommand false (fun _ => 0) refused = .ok c ∧ c.cmd.enable = 1 ∧ c.cmd.length = 0 ∧
    (frameOf (sendRtu c.cmd (List.replicate 1024 0) 0)).map (fun f => f.take 6) = some [1, 3, 0, 7, 0, 0] := by
  refine ⟨?_, _, rfl, by decide +kernel, by decide +kernel, by decide +kernel⟩
  intro h
  have := h.2.2.2 (by decide)
  revert this
  decide

/-- A command for unit 0 (or without a unit) stays in the list, with function 0. -/
theorem C87_nounit {tcp : Bool} {junk : Nat → Byte} {t : CmdTable} {c : MbCmd} (h : fillCommand tcp junk t = .ok c) (hn : t.node = 0) :
    c.cmd.function = 0 ∧ (t.enable = true → c.cmd.enable = 1) := by
  unfold fillCommand at h
  obtain ⟨n, hn', h⟩ := C.bind_eq_ok.mp h
  obtain ⟨f, hf, h⟩ := C.bind_eq_ok.mp h
  obtain ⟨r, hr, h⟩ := C.bind_eq_ok.mp h
  obtain ⟨l, hl, h⟩ := C.bind_eq_ok.mp h
  obtain ⟨hn1, -, -⟩ := castU_ok hn'
  simp only at h
  obtain ⟨q, hq, h⟩ := C.bind_eq_ok.mp h
  obtain ⟨i, hi, h⟩ := C.bind_eq_ok.mp h
  have hn0 : n = 0 := by omega
  subst hn0
  have hs : setCommand {} 0 f r l junk = ({}, MB_ERR_BAD_ARG) := by
    unfold setCommand
    rw [if_pos (by omega)]
  rw [hs] at h
  injection h with h
  rw [← h]
  refine ⟨rfl, ?_⟩
  intro he
  dsimp only
  rw [he]
  rfl

example : ∃ c, fillCommand false (fun _ => 0) { fcode := 3, length := 2, enable := true } = .ok c ∧ c.cmd.function = 0 ∧ c.cmd.enable = 1 :=
  ⟨_, rfl, by decide +kernel, by decide +kernel⟩

/-- A command without a tag: its tag name is a pointer that was never set. -/
theorem C87_notag {tcp : Bool} {junk : Nat → Byte} {t : CmdTable} {c : MbCmd} (h : fillCommand tcp junk t = .ok c) (hn : t.tagname = none) :
    c.dataTag = none := by
  unfold fillCommand at h
  obtain ⟨n, hn', h⟩ := C.bind_eq_ok.mp h
  obtain ⟨f, hf, h⟩ := C.bind_eq_ok.mp h
  obtain ⟨r, hr, h⟩ := C.bind_eq_ok.mp h
  obtain ⟨l, hl, h⟩ := C.bind_eq_ok.mp h
  simp only at h
  obtain ⟨q, hq, h⟩ := C.bind_eq_ok.mp h
  obtain ⟨i, hi, h⟩ := C.bind_eq_ok.mp h
  injection h with h
  rw [← h]
  exact hn

/-- A command with a trigger but without the tag of the trigger is never sent. -/
theorem C87_never : ∃ c, fillCommand false (fun _ => 0) { node := 1, fcode := 3, register := 0, length := 1, enable := true, mode := some (nm "TRIGGER"), tagname := some (nm "a") } =
      .ok c ∧ c.mode = 0 ∧ c.cmd.enable = 1 := ⟨_, rfl, by decide +kernel, by decide +kernel⟩

/-- A number that does not fit its type, such as node 300: undefined. -/
theorem C87_range : ∀ c, fillCommand false (fun _ => 0) { node := 300, fcode := 3, length := 1 } ≠ .ok c := by
  intro c h
  cases h

/-- The number `add_port` returns is the one under which commands reach that port, and no other one. -/
theorem C87_number {junk : Nat → Byte} {ports ports' : List Port} {t : PortTable} {n : Option Nat} (h : call junk ports (.port t) = .ok (ports', n)) (hn : ports'.length < 2 ^ 31) :
    ∃ p k, newPort t = .ok p ∧ n = some k ∧ ports' = ports ++ [p] ∧
      ∀ ct, call junk ports' (.command k ct) = (addCommand junk p ct >>= fun q => .ok (ports ++ [q], some 0)) := by
  unfold call at h
  obtain ⟨p, hp, h⟩ := C.bind_eq_ok.mp h
  simp only [C.ok.injEq, Prod.mk.injEq] at h
  obtain ⟨rfl, rfl⟩ := h
  refine ⟨p, ports.length + 1, hp, rfl, rfl, fun ct => ?_⟩
  rw [List.length_append, List.length_singleton] at hn
  have hc : castS 31 ((ports.length + 1 : Nat) : Int) = .ok ((ports.length + 1 : Nat) : Int) := by
    unfold castS
    rw [if_pos (by omega)]
  have hx : (((ports.length + 1 : Nat) : Int) - 1).toNat = ports.length := by omega
  unfold call
  dsimp only
  rw [hc]
  dsimp only [Bind.bind, C.bind]
  rw [if_neg (by rw [List.length_append, List.length_singleton]; omega), hx, List.getElem?_append_right (Nat.le_refl _), Nat.sub_self]
  dsimp only [List.getElem?_cons_zero]
  have hset : ∀ q, setPort (ports ++ [p]) ports.length q = ports ++ [q] := by
    intro q
    unfold setPort
    simp
  simp only [hset]

example : ∃ p k, call (fun _ => 0) [] (.port { type := some (nm "MASTER") }) = .ok (p, some k) ∧ p.length < 2 ^ 31 := ⟨_, _, rfl, by decide⟩

end Dax
