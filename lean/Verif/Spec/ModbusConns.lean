import Verif.Model.ModbusConns
/-!
# What a server with several connections is to do

Each open connection has its own bytes, which begin with nothing; what happens on one connection, errors as well, does not touch the others.
-/
set_option autoImplicit false
namespace Dax.MbConns

/-- The bytes of each connection that is open. -/
abbrev Conns := Nat → Option Buff

/-- A connection has a new state. -/
def Conns.put (a : Conns) (fd : Nat) (b : Option Buff) : Conns := fun x => if x = fd then b else a x

/-- One event at a server that listens on `l`. -/
def srvStep {σ : Type} (h : Serve σ) (l : Nat) (a : Conns) (s : σ) : Ev → Option (C (Conns × σ × List Sent))
  | .accept fd mem => if fd ≠ l ∧ a fd = none then some (.ok (a.put fd (some ⟨mem, 0⟩), s, [])) else none
  | .data fd d =>
    match a fd with
    | none => none
    | some b => some (do
      let (s, b, out, r) ← h s b d
      .ok (a.put fd (if r < 0 ∧ r ≠ -16 then none else some b), s, out.toList.map (Sent.mk fd)))
  | .eof fd => if a fd = none then none else some (.ok (a.put fd none, s, []))
  | .fail fd => if a fd = none then none else some (.ok (a.put fd none, s, []))
  | .idle => some (.ok (fun x => (a x).map (fun b => { b with count := 0 }), s, []))

/-- A history of events. -/
def srvRun {σ : Type} (h : Serve σ) (l : Nat) (a : Conns) (s : σ) : List Ev → Option (C (Conns × σ × List Sent))
  | [] => some (.ok (a, s, []))
  | e :: es =>
    match srvStep h l a s e with
    | none => none
    | some (.ub w) => some (.ub w)
    | some (.ok (a, s, o)) =>
      match srvRun h l a s es with
      | none => none
      | some (.ub w) => some (.ub w)
      | some (.ok (a, s, o')) => some (.ok (a, s, o ++ o'))

/-- An event without an error of `read` and without a descriptor that is too large. -/
def Tame : Ev → Prop
  | .accept fd _ => fd < 1024
  | .fail _ => False
  | _ => True

/-- The number of connections accepted. -/
def accepts : List Ev → Nat
  | [] => 0
  | .accept _ _ :: es => accepts es + 1
  | _ :: es => accepts es

end Dax.MbConns
