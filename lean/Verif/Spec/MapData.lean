import Verif.Spec.Data
import Verif.Spec.Maps
/-!
# Specification of tag contents on servers with mappings
-/
set_option autoImplicit false
namespace Dax

/-- Every read of an ordinary tag that is answered with data gives the remembered bytes, except the
bytes in `D` (tag, byte). -/
def AgreesOff (D : Nat → Nat → Prop) (M : Mem) (s : Server) : Prop :=
  ∀ (i : Nat) (fd off n : Int) (d : List Byte), Ordinary s i →
    Answers s fd (.tagRead i off n) (.resp d) → 0 ≤ off ∧ d.length = n.toNat ∧
      ∀ k < d.length, ¬ D i (off.toNat + k) → d[k]? = some (M i (off.toNat + k))

/-- Byte `k` of tag `j` holds bits of the destination of the mapping from `src` to `dst`. -/
def Lands (src dst : Handle) (j k : Nat) : Prop :=
  dst.index = j ∧ ∃ b, inDest src dst b ∧ b / 8 = k

/-- Some mapping leads to byte `k` of tag `j`. -/
def Mapped (s : Server) (j k : Nat) : Prop := ∃ i src dst, HasMap s i src dst ∧ Lands src dst j k

/-- Some mapping whose source is touched by a write to tag `i` leads to byte `k` of tag `j`. -/
def Hit (s : Server) (i : Nat) (off : Int) (len : Nat) (j k : Nat) : Prop :=
  ∃ src dst, HasMap s i src dst ∧ srcTouched src off len ∧ Lands src dst j k

/-- The fields of the handles of all mappings are 32-bit numbers and the source ranges do not wrap
around (the fields of handles in requests are 32-bit numbers). -/
def MapFields (s : Server) : Prop := ∀ (i : Nat) (src dst : Handle), HasMap s i src dst →
  dst.byte < 4294967296 ∧ src.byte + src.size < 4294967296

end Dax
