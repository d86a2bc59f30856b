import Verif.Spec.Api
import Verif.Model.Text
/-!
# Specification of compound types
-/
set_option autoImplicit false
namespace Dax

/-- Compound types have codes with bit 31 set. -/
def Compound (t : Nat) : Prop := 2147483648 ≤ t ∧ t < 4294967296

/-- A query for type `t` is answered with the definition text `txt`. -/
def TypeText (s : Server) (t : Nat) (txt : Name) : Prop :=
  Compound t ∧ ∀ fd, handle s fd (.cdtGetType t) = .ok (s, .resp (toLE 4 t ++ txt ++ [0]))

/-- A query for the type called `n` is answered with code `t` and definition text `txt`. -/
def TypeNamed (s : Server) (n : Name) (t : Nat) (txt : Name) : Prop :=
  Compound t ∧ ∀ fd, handle s fd (.cdtGetName n) = .ok (s, .resp (toLE 4 t ++ txt ++ [0]))

/-- The text `str` defines a type called `n`: what precedes the first colon. -/
def Defines (str n : Name) : Prop :=
  n ≠ [] ∧ 58#8 ∉ n ∧ (str = n ∨ ∃ rest, str = n ++ 58#8 :: rest)

/-- A member as it appears in definition texts: `:name,type,count`. -/
def fieldText (f : Name × Name × Int) : Name := 58#8 :: f.1 ++ 44#8 :: f.2.1 ++ 44#8 :: decInt f.2.2

end Dax
