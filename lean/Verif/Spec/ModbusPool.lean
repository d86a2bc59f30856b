import Verif.Model.ModbusConf
/-!
# What the connections of a Modbus client have to be
-/
set_option autoImplicit false
namespace Dax.MbConf

/-- The system gives descriptors that are not open, and not 0. -/
def Fresh (n : Net) : Step → Prop
  | .send _ _ _ (.made fd) => 0 < fd ∧ ∀ x ∈ n.fds, x.1 ≠ fd
  | .send _ _ _ (.refused fd) => 0 < fd ∧ ∀ x ∈ n.fds, x.1 ≠ fd
  | _ => True

/-- All along a run. -/
def Honest (persist : Bool) : Net → List Step → Prop
  | _, [] => True
  | n, x :: xs => Fresh n x ∧ ∀ n' r, netStep persist n x = .ok (n', r) → Honest persist n' xs

/-- A command is written to a connection with its own address; it is not sent only if no connection can be made. -/
def Reaches : Step → Option (Int × Option (Nat × Nat)) → Prop
  | .send addr port _ o, r => (∃ fd, r = some (fd, some (addr, port))) ∨ (r = none ∧ ∀ fd, o ≠ .made fd)
  | .close, r => r = none

/-- The addresses of commands are in `A`, and commands are sent while the port is scanned only, unless connections persist. -/
def Regular (persist : Bool) (A : List (Nat × Nat)) : Step → Prop
  | .send addr port scanning _ => (addr, port) ∈ A ∧ (persist = true ∨ scanning = true)
  | .close => True

end Dax.MbConf
