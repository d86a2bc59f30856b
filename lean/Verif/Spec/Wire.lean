import Verif.Model.Wire
import Verif.Spec.Data
/-!
# Specification: what a call asks the server to do
-/
set_option autoImplicit false
namespace Dax.Wire

/-- A handle as C can hold it. -/
def HandleOK (h : Handle) : Prop :=
  -2147483648 ≤ h.index ∧ h.index < 2147483648 ∧ h.byte < 4294967296 ∧ h.bit < 256 ∧ h.count < 4294967296 ∧
    h.size < 4294967296 ∧ h.type < 4294967296

/-- An `int`. -/
def IsInt (i : Int) : Prop := -2147483648 ≤ i ∧ i < 2147483648

/-- First of the bits of the first byte that a handle stands for. -/
def firstBit (h : Handle) : Nat := if h.type = DAX_BOOL then h.bit else 0

/-- Number of bits a handle stands for. -/
def numBits (h : Handle) : Nat := if h.type = DAX_BOOL then h.count else 8 * h.size

/-- The mask marks exactly the bits the handle stands for. -/
def Marks (h : Handle) (m : List Byte) : Prop :=
  ∀ p, bitOf m (p / 8) (p % 8) = decide (firstBit h ≤ p ∧ p < firstBit h + numBits h)

/-- The bits of `d` are at the places the handle stands for. -/
def Carries (h : Handle) (d d' : List Byte) : Prop :=
  ∀ n, n < numBits h → bitOf d' ((firstBit h + n) / 8) ((firstBit h + n) % 8) = bitOf d (n / 8) (n % 8)

/-- Bytes per element of a base type in an event; a `BOOL` has none. -/
def eventBytes (t : Nat) : Nat := (elemBytes.lookup t).getD 0

/-- The request a call stands for.  Where the handler is given the rest of the message, its
beginning is the data of the caller. -/
def Means : Call → Req → Prop
  | .register n, r => r = .modReg 1 n
  | .tagAdd t c a n, r => r = .tagAdd t c a n
  | .tagDel i, r => r = .tagDel i
  | .byName n, r => r = .tagGetName n
  | .byIndex i, r => r = .tagGetIdx i
  | .read i o n, r => r = .tagRead i o n
  | .write i o d, r => r = .tagWrite i o d
  | .mask i o d m, r => r = .tagMWrite i o d (m.take d.length)
  | .ovrAdd h d, r => ∃ d' m, r = .ovrAdd h.index h.byte d' m ∧ d'.length = m.length ∧ Marks h m ∧ Carries h d d'
  | .ovrDel h, r => ∃ m, r = .ovrDel h.index h.byte m ∧ Marks h m
  | .ovrGet h, r => r = .ovrGet h.index h.byte h.size
  | .ovrSet h, r => r = .ovrSet h.index true
  | .ovrClr h, r => r = .ovrSet h.index false
  | .atomic h d op, r => ∃ b, r = .atomic h op b ∧ ∀ x, d = some x → b.take h.size = x.take h.size
  | .evAdd h et d, r => ∃ b, r = .evAdd h et b ∧
      ∀ x, d = some x → b.take (eventBytes h.type) = x.take (eventBytes h.type)
  | .evDel i id, r => r = .evDel i id
  | .evOpt i id o, r => r = .evOpt i id o
  | .cdtCreate t, r => r = .cdtCreate t
  | .cdtGetType t, r => r = .cdtGetType t
  | .cdtGetName n, r => r = .cdtGetName n
  | .mapAdd a b, r => r = .mapAdd a b
  | .mapDel i id, r => r = .mapDel i id
  | .mapGet i id, r => r = .mapGet i id
  | .grpAdd hs _, r => r = .grpAdd hs
  | .grpRead i, r => r = .grpRead i
  | .grpWrite i d, r => ∃ b, r = .grpWrite i b ∧ b.take d.length = d
  | .grpDel i, r => r = .grpDel i

/-- A multiple of eight bits that does not begin with a byte gets one byte more. -/
def extraByte (h : Handle) : Nat := if h.type = DAX_BOOL ∧ h.bit > 0 ∧ h.count % 8 = 0 then 1 else 0

/-- The bits a handle stands for are inside the bytes it names, and a whole number of bytes
of a `BOOL` is named exactly. -/
def BitsFit (h : Handle) : Prop :=
  h.type = DAX_BOOL → h.bit < 8 ∧ h.bit + h.count ≤ 8 * (h.size + extraByte h) ∧
    (h.bit = 0 → h.count % 8 = 0 → h.count = 8 * h.size)

/-- The arguments that come across: numbers of the width they have in C, names without NUL,
offsets below 2^31, and everything small enough for one message. -/
def Valid : Call → Prop
  | .register n => 0#8 ∉ n ∧ n.length ≤ 4079
  | .tagAdd t c a n => t < 4294967296 ∧ c < 4294967296 ∧ a < 4294967296 ∧ 0#8 ∉ n ∧ n.length ≤ 28 ∧ 0 < c
  | .tagDel i => IsInt i
  | .byName n => 0#8 ∉ n ∧ n.length ≤ 32 ∧ n ≠ []
  | .byIndex i => IsInt i
  | .read i o n => IsInt i ∧ o < 2147483648 ∧ n ≤ 4088
  | .write i o d => IsInt i ∧ o < 2147483648 ∧ d.length ≤ 4080
  | .mask i o d m => IsInt i ∧ o < 2147483648 ∧ d.length ≤ 2040 ∧ d.length ≤ m.length
  | .ovrAdd h d => HandleOK h ∧ h.byte < 2147483648 ∧ BitsFit h ∧ h.size + extraByte h ≤ 2038 ∧ numBits h ≤ 8 * d.length
  | .ovrDel h => HandleOK h ∧ h.byte < 2147483648 ∧ BitsFit h ∧ h.size + extraByte h ≤ 4080
  | .ovrGet h => HandleOK h ∧ h.byte < 2147483648 ∧ h.size < 2147483648
  | .ovrSet h => HandleOK h
  | .ovrClr h => HandleOK h
  | .atomic h d op => HandleOK h ∧ h.size ≤ 4067 ∧ h.type < 2147483648 ∧ op < 65536 ∧ ∀ x, d = some x → h.size ≤ x.length
  | .evAdd h et d => HandleOK h ∧ IsInt et ∧ ∀ x, d = some x → h.type ∈ baseTypes ∧ eventBytes h.type ≤ x.length
  | .evDel i id => IsInt i ∧ IsInt id
  | .evOpt i id o => IsInt i ∧ IsInt id ∧ o < 4294967296
  | .cdtCreate t => 0#8 ∉ t ∧ t.length ≤ 4087
  | .cdtGetType t => t < 4294967296
  | .cdtGetName n => 0#8 ∉ n ∧ n.length ≤ 32
  | .mapAdd a b => HandleOK a ∧ HandleOK b
  | .mapDel i id => IsInt i ∧ IsInt id
  | .mapGet i id => IsInt i ∧ IsInt id
  | .grpAdd hs _ => (∀ h ∈ hs, HandleOK h) ∧ hs.length ≤ 150 ∧ (hs.map (·.size)).sum ≤ 4084
  | .grpRead i => i < 4294967296
  | .grpWrite i d => i < 4294967296 ∧ d.length ≤ 4084
  | .grpDel i => i < 4294967296

end Dax.Wire
