import Verif.Model.Joystick
/-!
# What a joystick is to do to its tags
-/
set_option autoImplicit false
namespace Dax.Joystick

/-- The tag of a button: that of the last call for its number. -/
inductive ButtonTag (n : Nat) : List Call → Name → Prop where
  | last {cs : List Call} {t : Name} : ButtonTag n (cs ++ [.button (some n) (.text t)]) t
  | before {cs : List Call} {c : Call} {t : Name} : ButtonTag n cs t → (∀ f, c ≠ .button (some n) f) → ButtonTag n (cs ++ [c]) t

/-- The tag of an axis with offset and scale: those of the last call for its number. -/
inductive AxisTag (n : Nat) : List Call → Name → Int → Int → Prop where
  | last {cs : List Call} {t : Name} {o s : Int} : AxisTag n (cs ++ [.axis (some n) (.text t) (some o) (some s)]) t o s
  | before {cs : List Call} {c : Call} {t : Name} {o s : Int} : AxisTag n cs t o s → (∀ f o s, c ≠ .axis (some n) f o s) → AxisTag n (cs ++ [c]) t o s

/-- The transfer function of an axis, as `src/modules/examples/joystick/daxjoystick.c:165` says. -/
def transfer (value offset scale : Int) : Int := (value + offset) * scale

end Dax.Joystick
