import Verif.Spec.LibPath
/-!
# Specification: which positions in a compound tag tell the path to them
-/
set_option autoImplicit false
namespace Dax.LibPath

/-- Up to the member with name `n`, no run of BOOLs in front of something else takes up more than eight bits, not counting whole bytes of each BOOL member;
`u` is what the run has taken up so far. -/
def Upto (n : Name) : List Member → Nat → Prop
  | [], _ => False
  | m :: ms, u => (m.type ≠ DAX_BOOL → u ≤ 8) ∧ (n = m.name ∨ Upto n ms (if m.type = DAX_BOOL then u + m.count % 8 else 0))

/-- The path has an index at every array and nowhere else. -/
inductive Canon (tbl : List Cdt) : Nat → List Seg → Prop
  | last (t : Nat) (d : Cdt) (g : Seg) (m : Member) (r : Nat) : tbl[t - 2147483648]? = some d → Before tbl d.members 0 g.name m r →
      (g.index.isSome ↔ 1 < m.count) → Canon tbl t [g]
  | step (t : Nat) (d : Cdt) (g : Seg) (gs : List Seg) (m : Member) (r : Nat) : tbl[t - 2147483648]? = some d → Before tbl d.members 0 g.name m r →
      (g.index.isSome ↔ 1 < m.count) → Canon tbl m.type gs → Canon tbl t (g :: gs)

/-- The path can be told from its position: what is meant inside a nested type is not at its very beginning, a bit number is not 0, and
runs of BOOLs before the members are short (`Upto`). -/
inductive Told (tbl : List Cdt) : Nat → List Seg → Option Nat → Prop
  | last (t : Nat) (d : Cdt) (g : Seg) : tbl[t - 2147483648]? = some d → Upto g.name d.members 0 → Told tbl t [g] none
  | bit (t : Nat) (d : Cdt) (g : Seg) (b : Nat) : tbl[t - 2147483648]? = some d → Upto g.name d.members 0 → 0 < b → Told tbl t [g] (some b)
  | step (t : Nat) (d : Cdt) (g : Seg) (gs : List Seg) (b : Option Nat) (m : Member) (r ty n off : Nat) : tbl[t - 2147483648]? = some d →
      Upto g.name d.members 0 → Before tbl d.members 0 g.name m r → Place tbl m.type gs b ty n off → 0 < off → Told tbl m.type gs b →
      Told tbl t (g :: gs) b

/-- How far a handle of a BOOL in an array may count its bits from the byte in which the array begins (`C21`: the library does not always carry
them over to the byte). -/
def carried (gs : List Seg) (b : Option Nat) : Nat := if b.isSome then 0 else (gs.getLast?.bind (·.index)).getD 0

end Dax.LibPath
