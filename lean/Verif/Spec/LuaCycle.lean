import Verif.Model.LuaCycle
import Verif.Spec.LuaTag
import Verif.Spec.Wire
/-!
# Specification: one execution of a Lua script
-/
set_option autoImplicit false
namespace Dax.Lua
open LibPath LibData Wire

/-- A tag of `N` elements of type `T` takes `n` bytes. -/
def TagBytes (tbl : List Cdt) (T N n : Nat) : Prop := (T = DAX_BOOL ∧ n = N / 8 + 1) ∨ (T ≠ DAX_BOOL ∧ ∃ E, ElemBits tbl T E ∧ E * N = 8 * n)

/-- Tag `i` of `n` bytes takes writes: it is neither read-only, nor virtual, nor overridden, nor a status tag. -/
def Takes (s : Server) (i n : Nat) : Prop :=
  ∃ a name T N, AttrAt s i a ∧ a.testBit 0 = false ∧ a.testBit 1 = false ∧ a.testBit 3 = false ∧ a.testBit 4 = false ∧ LiveTag s i name T N ∧ TagBytes s.cdts T N n ∧ 8 * n ≤ 2147483600

/-- A part of a tag that can be transferred: elements of up to 2040 bytes, or BOOLs at any bit. -/
inductive Slot (cap : Nat) (s : Server) (h : Handle) : Prop
  | plain (e : Nat) : shifted h = false → (Compound h.type → Fits cap s h.type) → ElemBits s.cdts h.type e → 0 < h.count → e * h.count = 8 * h.size → h.type < 3221225472 → e ≤ 16320 → Slot cap s h
  | bools : shifted h = true → Bools h → Slot cap s h

/-- A handle for a part of tag that takes writes.  (The additional byte is that of `C24_accepted_partial`.) -/
def Target (cap : Nat) (s : Server) (h : Handle) : Prop :=
  Slot cap s h ∧ ∃ i n : Nat, h.index = i ∧ Takes s i n ∧ h.byte + h.size + extraByte h ≤ n ∧ ¬ (h.size = 2040 ∧ extraByte h = 1)

/-- A value for such a part.  BOOLs that do not fill whole bytes must all be there. -/
def Value (tbl : List Cdt) (h : Handle) (v : Val) : Prop := Shaped tbl h.type h.count v ∧ (shifted h = true → Complete tbl h.type h.count v)

/-- The first bit of the part of the tag. -/
def startBit (h : Handle) : Nat := 8 * h.byte + (if shifted h then h.bit else 0)

/-- The value has arrived in the part of the tag, and nothing else has changed. -/
structure Arrived (env : LuaEnv) (tbl : List Cdt) (h : Handle) (v : Val) (M M' : Mem) : Prop where
  put : ∀ ks ty off, At tbl h.type h.count ks ty 1 off → Put env M M' h.index.toNat (startBit h + off) ty (valAt v ks)
  rest : ∀ j q, ¬ Given tbl h.type h.count h.index.toNat (startBit h) v j q → memBit M' j q = memBit M j q

/-- Bit `q` of tag `j` belongs to the part of the tag. -/
def Covers (tbl : List Cdt) (h : Handle) (j q : Nat) : Prop := j = h.index.toNat ∧ ∃ e, ElemBits tbl h.type e ∧ startBit h ≤ q ∧ q < startBit h + e * h.count

/-- The globals that are written after an execution: handle and name. -/
def outputs (gs : List Glob) : List (Handle × Name) :=
  gs.filterMap fun g => match g.handle with | some h => if g.write then some (h, g.name) else none | none => none


/-- Tag `i` of `n` bytes can be read: it is neither virtual nor overridden. -/
def Gives (s : Server) (i n : Nat) : Prop :=
  ∃ a name T N, AttrAt s i a ∧ a.testBit 1 = false ∧ a.testBit 3 = false ∧ LiveTag s i name T N ∧ TagBytes s.cdts T N n ∧ 8 * n ≤ 2147483600

/-- A handle for a part of a tag that can be read; floating point numbers are below 2^63 (`C68_nan`). -/
def Source (cap : Nat) (s : Server) (M : Mem) (h : Handle) : Prop :=
  Slot cap s h ∧ (∃ i n : Nat, h.index = i ∧ Gives s i n ∧ h.byte + h.size ≤ n) ∧
    ∀ ks off, At s.cdts h.type h.count ks DAX_REAL 1 off → sglExp (unsignedVal (slice (memBytes M h.index.toNat h.byte h.size) (off / 8) 4)) < 190

/-- The value is what the part of the tag contains. -/
def Shows (tbl : List Cdt) (M : Mem) (h : Handle) (v : Val) : Prop :=
  (h.type ≠ DAX_BOOL → ∀ ks ty k off, At tbl h.type h.count ks ty k off → Comes (memBytes M h.index.toNat h.byte h.size) ty k off (indexed ks) (valAt v ks)) ∧
    (h.type = DAX_BOOL → ∀ ks ty off, At tbl h.type h.count ks ty 1 off → valAt v ks = .bool (memBit M h.index.toNat (startBit h + off)))

/-- The value is that of a part of a tag that contains zeros only. -/
def Zeros (tbl : List Cdt) (h : Handle) (v : Val) : Prop :=
  ∀ ks ty k off, At tbl h.type h.count ks ty k off → Comes (List.replicate h.size 0) ty k off (indexed ks) (valAt v ks)

/-- The name leads to a handle with property `P` (see C21). -/
def Resolves (s : Server) (fd : Int) (byname : Name → Option TagFound) (n : Name) (P : Handle → Prop) : Prop :=
  ∀ c, Faithful s c → ∃ c' h, tagHandle s fd byname c n 0 = .ok (c', h, 0) ∧ Faithful s c' ∧ P h

/-- The tag of a global can be used: as it is configured, and the tag and its type exist. -/
structure Usable (cap : Nat) (s : Server) (fd : Int) (byname : Name → Option TagFound) (M : Mem) (g : Glob) : Prop where
  const : g.static ≠ none → g.handle = none ∧ g.read = false
  known : g.static = none → ∀ h, g.handle = some h → g.read = true → Source cap s M h
  fresh : g.static = none → g.handle = none → Resolves s fd byname g.tagname fun h => Slot cap s h ∧ 8 * h.size ≤ 2147483600 ∧ (g.read = true → Source cap s M h)

/-- What a global is before the script runs: `g` as configured, `g'` with its handle, `v` its value and `old` the value it had. -/
structure Begun (s : Server) (fd : Int) (byname : Name → Option TagFound) (M : Mem) (g g' : Glob) (old v : Val) : Prop where
  same : g' = { g with handle := g'.handle }
  const : ∀ x, g.static = some x → v = x ∧ g'.handle = none
  handle : g.static = none → ∃ h, g'.handle = some h ∧ (g.handle = some h ∨ g.handle = none ∧ ∃ c c', tagHandle s fd byname c g.tagname 0 = .ok (c', h, 0)) ∧
    (g.read = true → Shows s.cdts M h v) ∧ (g.read = false → g.handle = none → Zeros s.cdts h v) ∧ (g.read = false → g.handle ≠ none → v = old)

end Dax.Lua
