import Verif.Model.LuaScript
/-!
# What the table of scripts, the switch of a script and an interval are for

Independent of how the module keeps them.
-/
set_option autoImplicit false
namespace Dax.Script

/-- The scripts of a configuration are put in the table one after the other; the answers tell the ids. -/
def Table.addAll (t : Table) : List Name → C (Table × List (Option Nat))
  | [] => .ok (t, [])
  | n :: ns => do
    let (t1, r) ← t.add n
    let (t2, l) ← t1.addAll ns
    .ok (t2, r :: l)

/-- A switch as a user sees it: whether the script is on, whether it has failed, how often it ran. -/
structure Switch where
  on : Bool
  failed : Bool := false
  runs : Nat := 0
deriving Repr, DecidableEq

/-- What a user expects of a turn of the script or of writing the switch.  `strict` is whether an error makes the script fail. -/
def Switch.step (strict : Bool) (s : Switch) : Act → Switch × Bool
  | .turn ready disable error =>
    if s.on = true ∧ s.failed = false ∧ ready = true then (⟨!disable, error && strict, s.runs + 1⟩, true) else (s, false)
  | .client b => ({ s with on := b }, false)
  | _ => (s, false)

/-- A history of the switch and which turns executed the script. -/
def Switch.run (strict : Bool) (s : Switch) : List Act → Switch × List Bool
  | [] => (s, [])
  | a :: as =>
    let (s1, x) := s.step strict a
    let (s2, l) := s1.run strict as
    (s2, match a with | .turn _ _ _ => x :: l | _ => l)

/-- Turns, and writes of the switch by other modules; no commands of scripts and triggers. -/
def plain : Act → Bool
  | .turn _ _ _ => true
  | .client _ => true
  | _ => false

/-- Messages are handled before the next thing happens. -/
def promptly : List Act → List Act
  | [] => []
  | a :: as => a :: .deliver :: promptly as

/-- How many turns executed the script. -/
def ran (l : List Bool) : Nat := l.count true

/-- The time from `(s₀, n₀)` to `(s₁, n₁)` in nanoseconds. -/
def elapsed (s₀ n₀ s₁ n₁ : Int) : Int := (s₁ - s₀) * 1000000000 + (n₁ - n₀)

end Dax.Script
