import Verif.Spec.Subs
import Verif.Spec.Events
import Verif.Spec.Modules
/-!
# Specification vocabulary for the status tags of modules
-/
set_option autoImplicit false
namespace Dax

/-- The registration of some module created tag `k` as its status tag, some time ago. -/
def ModuleTag (s : Server) (k : Nat) : Prop :=
  ∃ s0 s1 fd flags name r tn os, Reachable s0 ∧ handle s0 fd (.modReg flags name) = .ok (s1, r) ∧
    lookup s0 tn = none ∧ lookup s1 tn = some k ∧ run s1 os = .ok s

/-- The server has a module on connection `fd` and `k` on record as the status tag of this module. -/
def OwnTag (s : Server) (fd : Int) (k : Nat) : Prop := ∃ m ∈ s.mods, m.fd = fd ∧ m.tagindex = k

/-- Length of the identity part: start time and identifier, 8 and 4 bytes. -/
def identityLen : Nat := 12

/-- Position of the command byte: after start time, identifier, the byte with the flags "running" and
"faulted", and the status text of 64 characters. -/
def commandByte : Nat := 8 + 4 + 1 + 64

/-- Requests and disconnections come on file descriptors, which are not −1. -/
def Op.onFd : Op → Prop
  | .req fd _ => fd ≠ -1
  | .close fd => fd ≠ -1
  | .env _ => True

end Dax
