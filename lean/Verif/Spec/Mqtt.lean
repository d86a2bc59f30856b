import Verif.Model.Mqtt
/-!
# Specification: topics of MQTT
-/
set_option autoImplicit false
namespace Dax.Mqtt

/-- The text of a topic or filter, given its levels. -/
def text : List (List Byte) → List Byte
  | [] => []
  | [a] => a
  | a :: b :: l => a ++ 47 :: text (b :: l)

/-- A level of a topic: no `/`, no `+`, no `#`. -/
def Plain (l : List Byte) : Prop := 47 ∉ l ∧ 43 ∉ l ∧ 35 ∉ l

/-- The levels of a filter: `#` may be the last, `+` may be any, others are plain (MQTT 3.1.1, 4.7.1). -/
def ValidFilter : List (List Byte) → Prop
  | [] => False
  | [l] => Plain l ∨ l = [43] ∨ l = [35]
  | l :: m :: ls => (Plain l ∨ l = [43]) ∧ ValidFilter (m :: ls)

/-- Matching by level (MQTT 3.1.1, 4.7.1): `#` stands for any further levels, also none. -/
def Matches : List (List Byte) → List (List Byte) → Prop
  | [], t => t = []
  | l :: ls, t => (l = [35] ∧ ls = []) ∨ match t with | [] => False | x :: t => (l = [43] ∨ l = x) ∧ Matches ls t

/-- Filters for which matching works: the last level is not `+`, and `#` comes after a plain level (see `C79_plus_end`, `C79_hash`, `C79_plus_hash`). -/
def Fine : List (List Byte) → Prop
  | [] => False
  | [l] => l ≠ [43] ∧ l ≠ [35]
  | l :: m :: ls => if m = [35] then Plain l ∧ ls = [] else Fine (m :: ls)

end Dax.Mqtt
