import Verif.Lemmas.ModbusEvents
/-!
# C89: the commands of a Modbus master get the events they ask for

In view: a command that is to be sent when its tag is written or changes, or when its trigger is set, gets that event, once, as soon as the
tag is there; and a bit of the tag of the port enables each command.  Missing: of several commands, and of several ports, only the last counts
when it is decided whether to try again, an error −1 does not count, and after 60 rounds no command is tried again.
-/
set_option autoImplicit false
namespace Dax
open MbConf

/-- Whatever the server answers, after any number of rounds a command has only events that it asked for, and no two of a kind. -/
theorem C89_once (ans : Nat → Nat → Nat → Answers) (ports : List (List EvCmd)) (hn : New ports) (n i j : Nat) (c : EvCmd)
    (h : cmdAt (rounds ans ports n).1 i j = some c) : ∃ c0, cmdAt ports i j = some c0 ∧ Once c0.mode c.made := by
  obtain ⟨c0, h0, hi⟩ := inv_rounds ans ports hn n i j c h
  exact ⟨c0, h0, hi.once⟩

/-- A round that tries, in which the server has the tag of the command, makes the event, and it stays. -/
theorem C89_made_partial (ans : Nat → Nat → Nat → Answers) (ports : List (List EvCmd)) (hn : New ports) (i j : Nat) (c0 : EvCmd)
    (h0 : cmdAt ports i j = some c0) (k : Kind) (hk : Asks c0.mode k) (r : Nat) (hr : r < 60) (he : (rounds ans ports r).2 ≠ 0)
    (hc : (ans r i j).code k = 0) (n : Nat) (hrn : r < n) :
    ∃ c, cmdAt (rounds ans ports n).1 i j = some c ∧ k.There c.made := by
  obtain ⟨c1, h1⟩ := cmdAt_some ans ports i j h0 r
  obtain ⟨c0', h0', hi⟩ := inv_rounds ans ports hn r i j c1 h1
  rw [h0] at h0'
  cases h0'
  have hs : cmdAt (rounds ans ports (r + 1)).1 i j = some (pass (ans r i j) c1) := by
    rw [cmdAt_succ, if_pos ⟨he, hr⟩, h1]
    rfl
  have ht := pass_there hi _ k hk hc
  obtain ⟨c, hcn⟩ := cmdAt_some ans ports i j h0 n
  obtain ⟨d, rfl⟩ : ∃ d, n = r + 1 + d := ⟨n - (r + 1), by omega⟩
  refine ⟨c, hcn, ?_⟩
  rcases ht with ht | ⟨hk', ht⟩
  · exact Or.inl (rounds_keep ans ports i j (r + 1) _ d _ hs ht c hcn)
  · exact Or.inr ⟨hk', rounds_keep ans ports i j (r + 1) _ d _ hs ht c hcn⟩

/-- The first round always tries: what is there when the module starts gives its events. -/
theorem C89_first (ans : Nat → Nat → Nat → Answers) (ports : List (List EvCmd)) (hn : New ports) (i j : Nat) (c0 : EvCmd)
    (h0 : cmdAt ports i j = some c0) (k : Kind) (hk : Asks c0.mode k) (hc : (ans 0 i j).code k = 0) (n : Nat) (hrn : 0 < n) :
    ∃ c, cmdAt (rounds ans ports n).1 i j = some c ∧ k.There c.made :=
  C89_made_partial ans ports hn i j c0 h0 k hk 0 (by omega) (show (-1 : Int) ≠ 0 by decide) hc n hrn

/-- The last command of the last port, if it asks for one kind and no answer is −1, gets its event in the first 60 rounds whenever the tag
comes. -/
theorem C89_last (ans : Nat → Nat → Nat → Answers) (ports : List (List EvCmd)) (hn : New ports) (i j : Nat) (c0 : EvCmd)
    (h0 : cmdAt ports i j = some c0) (hi : ports[i + 1]? = none) (hj : cmdAt ports i (j + 1) = none) (k : Kind) (hk : Asks c0.mode k)
    (ho : ∀ k', Asks c0.mode k' → k' = k) (hc1 : ∀ n, (ans n i j).code k ≠ -1) (r : Nat) (hr : r < 60) (hc : (ans r i j).code k = 0)
    (n : Nat) (hrn : r < n) : ∃ c, cmdAt (rounds ans ports n).1 i j = some c ∧ k.There c.made := by
  obtain ⟨c1, h1⟩ := cmdAt_some ans ports i j h0 r
  by_cases ht : k.There c1.made
  · obtain ⟨c, hcn⟩ := cmdAt_some ans ports i j h0 n
    obtain ⟨d, rfl⟩ : ∃ d, n = r + d := ⟨n - r, by omega⟩
    refine ⟨c, hcn, ?_⟩
    rcases ht with ht | ⟨hk', ht⟩
    · exact Or.inl (rounds_keep ans ports i j r _ d _ h1 ht c hcn)
    · exact Or.inr ⟨hk', rounds_keep ans ports i j r _ d _ h1 ht c hcn⟩
  · exact C89_made_partial ans ports hn i j c0 h0 k hk r hr (rounds_err ans ports hn i j c0 h0 hi hj k hk ho hc1 r c1 h1 ht) hc n hrn

/-- It fails for the others: if no command of the last port asks for an event (it may be a slave), nothing is tried after the first round,
whatever tags come. -/
theorem C89_forgotten (ans : Nat → Nat → Nat → Answers) (ports : List (List EvCmd)) (i : Nat) (p : List EvCmd) (h : ports[i]? = some p)
    (hl : ports[i + 1]? = none) (hq : ∀ c ∈ p, c.mode &&& 28 = 0) (n : Nat) : rounds ans ports (n + 1) = rounds ans ports 1 := by
  have h1 : (rounds ans ports 1).2 = 0 := by
    rw [rounds_succ, if_pos ⟨show (-1 : Int) ≠ 0 by decide, by omega⟩]
    show (setupPorts (ans 0) 0 ports (-1)).2 = 0
    rw [setupPorts_last _ _ _ _ i p h hl, setupEvents_quiet _ _ _ _ hq]
  induction n with
  | zero => rfl
  | succ n ih =>
    rw [rounds_succ, ih, if_neg (fun e => e.1 h1)]

/-- After 60 rounds nothing is tried. -/
theorem C89_minute (ans : Nat → Nat → Nat → Answers) (ports : List (List EvCmd)) (n : Nat) :
    rounds ans ports (60 + n) = rounds ans ports 60 := by
  induction n with
  | zero => rfl
  | succ n ih =>
    rw [← Nat.add_assoc, rounds_succ, if_neg (fun e => absurd e.2 (by omega)), ih]

/-- Two commands of one port, to be sent on a write; the tag of the first comes in the second round. -/
def lateAns : Nat → Nat → Nat → Answers := fun n _ j => if n = 0 ∧ j = 0 then ⟨-5, -5, -5⟩ else ⟨0, 0, 0⟩

/-- It also fails within a port: the second command gets its event, and the first is never tried again. -/
theorem C89_overwritten (n : Nat) : cmdAt (rounds lateAns [[⟨8, []⟩, ⟨8, []⟩]] (n + 1)).1 0 0 = some ⟨8, []⟩ := by
  have h : rounds lateAns [[⟨8, []⟩, ⟨8, []⟩]] (n + 1) = ([[⟨8, []⟩, ⟨0, [8]⟩]], 0) := by
    induction n with
    | zero => decide +kernel
    | succ n ih => rw [rounds_succ, ih]; rfl
  rw [h]
  rfl

/-- And within a command: one that is sent on a write and by a trigger gets the trigger, and the write is never tried again. -/
theorem C89_kinds (n : Nat) : cmdAt (rounds (fun r _ _ => if r = 0 then ⟨-5, -5, 0⟩ else ⟨0, 0, 0⟩) [[⟨24, []⟩]] (n + 1)).1 0 0 =
    some ⟨8, [16]⟩ := by
  have h : rounds (fun r _ _ => if r = 0 then ⟨-5, -5, 0⟩ else ⟨0, 0, 0⟩) [[⟨24, []⟩]] (n + 1) = ([[⟨8, [16]⟩]], 0) := by
    induction n with
    | zero => decide +kernel
    | succ n ih => rw [rounds_succ, ih]; rfl
  rw [h]
  rfl

/-- An error −1 is taken for success. -/
theorem C89_minusone (n : Nat) : cmdAt (rounds (fun r _ _ => if r = 0 then ⟨-1, -1, -1⟩ else ⟨0, 0, 0⟩) [[⟨8, []⟩]] (n + 1)).1 0 0 =
    some ⟨8, []⟩ := by
  have h : rounds (fun r _ _ => if r = 0 then ⟨-1, -1, -1⟩ else ⟨0, 0, 0⟩) [[⟨8, []⟩]] (n + 1) = ([[⟨8, []⟩]], 0) := by
    induction n with
    | zero => decide +kernel
    | succ n ih => rw [rounds_succ, ih]; rfl
  rw [h]
  rfl

/-- The bit `n` of the tag enables the command `n`; nothing else of a command changes. -/
theorem C89_enable (bits : List Byte) (cs : List Modbus.Cmd) (h : cs.length ≤ 8 * bits.length) : ∃ out, enableFrom bits 0 cs = .ok out ∧
    out.length = cs.length ∧ ∀ (n : Nat) c, cs[n]? = some c → ∃ e, out[n]? = some { c with enable := e } ∧ (e ≠ 0 ↔ bitAt bits n) := by
  obtain ⟨out, ho, hl, hat⟩ := enableFrom_at bits cs 0 (by omega)
  refine ⟨out, ho, hl, fun n c hc => ⟨_, hat n c hc, ?_⟩⟩
  rw [Nat.zero_add]
  unfold bitAt
  by_cases hb : (bits[n / 8]?.getD 0).getLsbD (n % 8) = true
  · rw [if_pos hb]; exact ⟨fun _ => hb, fun _ => by decide⟩
  · rw [if_neg hb]; exact ⟨fun e => absurd rfl e, fun e => absurd e hb⟩

/-- At first the tag says which commands are enabled, whatever the memory holds. -/
theorem C89_bits (bits : List Byte) (es : List Nat) (h : es.length ≤ 8 * bits.length) : ∃ out, enableBits 0 es bits = .ok out ∧
    out.length = bits.length ∧ ∀ (n : Nat) e, es[n]? = some e → (bitAt out n ↔ e ≠ 0) := by
  obtain ⟨out, ho, hl, _, hat⟩ := enableBits_at es 0 bits (by omega)
  refine ⟨out, ho, hl, fun n e he => ?_⟩
  have := hat n e he
  rwa [Nat.zero_add] at this

/-! ## Cases -/

/-- Two ports; the last command of the last port has its tag from round 7. -/
def twoPorts : List (List EvCmd) := [[⟨8, []⟩], [⟨1, []⟩, ⟨4, []⟩]]

example : New twoPorts := by
  intro i j c h
  match i, j with
  | 0, 0 => cases h; decide
  | 1, 0 => cases h; decide
  | 1, 1 => cases h; decide
  | 0, j + 1 => simp [twoPorts, cmdAt] at h
  | 1, j + 2 => simp [twoPorts, cmdAt] at h
  | i + 2, j => simp [twoPorts, cmdAt] at h

example : (rounds (fun n _ _ => if n < 7 then ⟨-5, -5, -5⟩ else ⟨0, 0, 0⟩) twoPorts 20).1 = [[⟨0, [8]⟩], [⟨1, []⟩, ⟨0, [4]⟩]] := by
  decide +kernel

/-- With the ports in the other order neither the tag of the one nor of the other is waited for. -/
example : (rounds (fun n _ _ => if n < 7 then ⟨-5, -5, -5⟩ else ⟨0, 0, 0⟩) [[⟨1, []⟩, ⟨4, []⟩], [⟨1, []⟩]] 20).1 =
    [[⟨1, []⟩, ⟨4, []⟩], [⟨1, []⟩]] := by decide +kernel

example : (match enableFrom [0x05, 0x01] 0 (List.replicate 9 {}) with | .ok l => some (l.map (·.enable)) | _ => none) =
    some [1, 0, 1, 0, 0, 0, 0, 0, 1] := by decide +kernel
example : (match enableBits 0 [1, 0, 1, 0, 0, 0, 0, 0, 1] [0xFF, 0x30] with | .ok l => some l | _ => none) = some [0x05, 0x31] := by
  decide +kernel

end Dax
