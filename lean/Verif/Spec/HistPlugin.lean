import Verif.Spec.Conv
/-!
# What the plugins of the logger are expected to keep

Written without the definitions of `Model/HistPlugin.lean`.
-/
set_option autoImplicit false
namespace Dax.HistPlugin
open Conv

/-- A value whose text is a number: integer types but `TIME` and `CHAR`, and `BOOL`. -/
def Plain (type : Nat) (v : List Byte) : Prop :=
  (∃ n lo hi, IntType type n lo hi ∧ type ≠ DAX_TIME ∧ type ≠ DAX_CHAR ∧ n ≤ v.length) ∨ (type = DAX_BOOL ∧ 0 < v.length)

/-- The text is the number that the value is. -/
def TextOf (type : Nat) (v : List Byte) (t : Name) : Prop :=
  (∀ n lo hi, IntType type n lo hi → ∃ x, IsDec t x ∧ lo ≤ x ∧ x ≤ hi ∧ Holds v n 0 x) ∧
    (type = DAX_BOOL → ∀ b, v[0]? = some b → t = if b.getLsbD 0 then nm "1" else nm "0")

/-- A text made of lines with three fields; commas end the first two, a newline the third. -/
inductive IsLog : Name → List (Name × Name × Name) → Prop where
  | nil : IsLog [] []
  | cons {n t v rest : Name} {es : List (Name × Name × Name)} (hn : 44#8 ∉ n) (hn' : 10#8 ∉ n) (ht : 44#8 ∉ t) (ht' : 10#8 ∉ t) (hv : 10#8 ∉ v) (hr : IsLog rest es) :
      IsLog (n ++ 44#8 :: (t ++ 44#8 :: (v ++ 10#8 :: rest))) ((n, t, v) :: es)

end Dax.HistPlugin
