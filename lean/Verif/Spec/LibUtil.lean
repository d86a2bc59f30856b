import Verif.Model.LibUtil
import Verif.Spec.LibPath
import Verif.Spec.LibData
import Verif.Spec.Modules
import Verif.Spec.Events
/-!
# Specification: the status tag of a module
-/
set_option autoImplicit false
namespace Dax.LibUtil
open LibPath LibData

/-- What the library finds out about names is what the server has on record. -/
def Truthful (s : Server) (byname : Name → Option TagFound) : Prop :=
  ∀ n f, byname n = some f → ∃ i : Nat, f.idx = i ∧ LiveTag s i n f.type f.count

/-- The flags of a status tag and their bits, counted from the beginning of the tag. -/
def flagBits : List (Name × Nat) :=
  [(nm "running", 96), (nm "faulted", 97), (nm "stop", 616), (nm "run", 617), (nm "reload", 618), (nm "kill", 619)]

/-- The text of a status tag: where it begins, and the room for it. -/
def statusAt : Nat := 13
def statusLen : Nat := 64

/-- The module on connection `fd` has the status tag `i`, which still exists and is called `n`. -/
structure Owns (s : Server) (fd : Int) (i : Nat) (n : Name) : Prop where
  status : StatusTag fd s i
  live : LiveTag s i n 0x80000000 1
  my : LiveTag s 10 (nm "_my_tagname") DAX_CHAR 33

/-- Exactly one bit is set to `v`. -/
def BitSet (M M' : Mem) (i pos : Nat) (v : Bool) : Prop :=
  memBit M' i pos = v ∧ ∀ j q, ¬ (j = i ∧ q = pos) → memBit M' j q = memBit M j q

/-- The text in the status tag becomes `val`, cut off after 64 characters and filled with zeros. -/
def TextSet (M M' : Mem) (i : Nat) (val : Name) : Prop :=
  (∀ k < statusLen, M' i (statusAt + k) = val.getD k 0) ∧ ∀ j p, ¬ (j = i ∧ statusAt ≤ p ∧ p < statusAt + statusLen) → M' j p = M j p

/-- A module that can report its state: it has its status tag `i` with the name `n`, which is not overridden; no tag is the source of a mapping; the
library can find both names, and what it has in its cache of types is right. -/
structure Ready (s : Server) (fd : Int) (i : Nat) (n : Name) (byname : Name → Option TagFound) (c : TypeCache) : Prop where
  owns : Owns s fd i n
  attr : ∃ a, AttrAt s i a ∧ a.testBit 0 = false ∧ a.testBit 1 = false ∧ a.testBit 3 = false
  maps : ∀ j m, LiveAt s j m → NoMaps s j
  truthful : Truthful s byname
  knowsMy : (byname (nm "_my_tagname")).isSome = true
  knows : (byname n).isSome = true
  cache : Faithful s c

/-- A SET subscription of connection `fd` for exactly one bit of a tag. -/
structure Watches (S : Sub) (fd : Int) (i pos : Nat) : Prop where
  tag : S.i = i
  fd : S.fd = fd
  kind : S.et = EVENT_SET
  type : S.h.type = DAX_BOOL
  count : S.h.count = 1
  pos : 8 * S.h.byte + S.h.bit = pos
  bit : S.h.bit < 8
  size : S.h.size = 1

end Dax.LibUtil
