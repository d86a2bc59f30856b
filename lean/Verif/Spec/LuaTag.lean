import Verif.Spec.LibLua
/-!
# Specification: tags read and written from Lua

What a value written to a tag from Lua leaves in the memory of the tags.
-/
set_option autoImplicit false
namespace Dax.Lua
open LibPath LibData

/-- `n` bytes of the memory of a tag. -/
def memBytes (M : Mem) (i p n : Nat) : List Byte := (List.range n).map fun k => M i (p + k)

/-- What becomes of the item of type `ty` at bit `p` of tag `i` when `v` is written to it: nothing if it is nil, and otherwise it has the value of `v`. -/
structure Put (env : LuaEnv) (M M' : Mem) (i p ty : Nat) (v : Val) : Prop where
  kept : v = .nil → ∀ e, Width ty e → ∀ b, p ≤ b → b < p + e → memBit M' i b = memBit M i b
  bool : v ≠ .nil → ty = DAX_BOOL → (memBit M' i p = false ↔ v = .bool false)
  int : ∀ w sg x, (ty, w, sg) ∈ intTypes → IsNum v x → intVal sg (memBytes M' i (p / 8) w) = x
  lreal : v ≠ .nil → ty = DAX_LREAL → ∃ d, IsReal v d ∧ unsignedVal (memBytes M' i (p / 8) 8) = d.toNat
  real : v ≠ .nil → ty = DAX_REAL → ∃ d, IsReal v d ∧ unsignedVal (memBytes M' i (p / 8) 4) = (env.toSingle d).toNat

/-- Bit `q` of tag `j` belongs to an item of the tag at bit `p` of tag `i` that is given in `v`. -/
def Given (tbl : List Cdt) (t n i p : Nat) (v : Val) (j q : Nat) : Prop :=
  j = i ∧ ∃ ks ty off e, At tbl t n ks ty 1 off ∧ valAt v ks ≠ .nil ∧ Width ty e ∧ p + off ≤ q ∧ q < p + off + e

/-- All items are given in `v`. -/
def Complete (tbl : List Cdt) (t n : Nat) (v : Val) : Prop := ∀ ks ty off, At tbl t n ks ty 1 off → valAt v ks ≠ .nil

end Dax.Lua
