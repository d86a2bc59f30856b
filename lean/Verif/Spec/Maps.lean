import Verif.Spec.Events
/-!
# Specification of data mappings
-/
set_option autoImplicit false
namespace Dax

/-- Tag `i` has a mapping with this id from the range `src` (of tag `i`) to the range `dst`. -/
def MapAt (s : Server) (i : Nat) (id : Int) (src dst : Handle) : Prop :=
  ∃ t m, s.db[i]? = some t ∧ t.wildMaps = false ∧ m ∈ t.maps ∧ m.id = id ∧ m.src = src ∧ m.dst = dst

/-- Tag `i` has a mapping from `src` to `dst`. -/
def HasMap (s : Server) (i : Nat) (src dst : Handle) : Prop := ∃ id, MapAt s i id src dst

/-- Number of bits a mapping transfers: `count` bits for a BOOL source, all bits of the byte range
otherwise. -/
def mapBits (src : Handle) : Nat := if src.type = DAX_BOOL then src.count else 8 * src.size

/-- First bit of the range `h` of a mapping with source `src`. -/
def mapStart (src h : Handle) : Nat := 8 * h.byte + if src.type = DAX_BOOL then h.bit else 0

/-- Bit `k` of the destination tag belongs to the destination of the mapping. -/
def inDest (src dst : Handle) (k : Nat) : Prop :=
  mapStart src dst ≤ k ∧ k < mapStart src dst + mapBits src

instance (src dst : Handle) (k : Nat) : Decidable (inDest src dst k) := by unfold inDest; infer_instance

/-- The written range and the source range have a byte in common. -/
def srcTouched (src : Handle) (off : Int) (len : Nat) : Prop :=
  ∃ k : Nat, off ≤ k ∧ (k : Int) < off + len ∧ src.byte ≤ k ∧ k < src.byte + src.size

/-- The bytes of an ordinary tag that anybody may write. -/
def OpenData (s : Server) (j : Nat) (c : List Byte) : Prop :=
  ∃ t, s.db[j]? = some t ∧ t.data = .mem c ∧ t.attr.virt = false ∧ t.attr.special = false

/-- The bytes of an ordinary tag that anybody may write and nobody watches, and that is not saved
for the next start. -/
def QuietData (s : Server) (j : Nat) (c : List Byte) : Prop :=
  ∃ t, s.db[j]? = some t ∧ t.data = .mem c ∧ t.attr.virt = false ∧ t.attr.special = false ∧
    t.attr.readonly = false ∧ t.attr.retain = false ∧ t.events = []

/-- The ranges of a mapping lie within tags of these contents. -/
def MapFits (src dst : Handle) (b c : List Byte) : Prop :=
  src.byte + src.size ≤ b.length ∧ dst.byte + src.size ≤ c.length ∧ c.length < 2147483648 ∧
  (src.type = DAX_BOOL → src.bit ≤ 7 ∧ 8 * src.byte + src.bit + src.count ≤ 8 * b.length)

/-- Number of mappings from tag `i` into tag `j`. -/
def mapCount (s : Server) (i j : Nat) : Nat :=
  match s.db[i]? with
  | some t => t.maps.countP (fun m => decide (m.dst.index = (j : Int)))
  | none => 0

end Dax
