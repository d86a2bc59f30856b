import Verif.Model.Basic
/-!
# Texts with spaces
-/
set_option autoImplicit false
namespace Dax.MasterConf

/-- A text and its words, which are separated by one or more spaces. -/
inductive Words : Name → List Name → Prop where
  | nil : Words [] []
  | space {t : Name} {ws : List Name} : Words t ws → Words (32#8 :: t) ws
  | last {w : Name} : w ≠ [] → 32#8 ∉ w → Words w [w]
  | word {w t : Name} {ws : List Name} : w ≠ [] → 32#8 ∉ w → Words t ws → Words (w ++ 32#8 :: t) (w :: ws)

end Dax.MasterConf
