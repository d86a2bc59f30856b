import Verif.Spec.LibTypes
import Verif.Model.LibPath
/-!
# Specification of paths into compound tags

Where a member is, is said in bits, relative to the element of compound type it belongs to.  Members follow
one another; BOOLs take one bit each, at the next bit; everything else begins at the next whole byte.
-/
set_option autoImplicit false
namespace Dax.LibPath

/-- The next multiple of eight. -/
def align8 (p : Nat) : Nat := (p + 7) / 8 * 8

/-- Bits from one element of type `t` to the next. -/
def ElemBits (tbl : List Cdt) (t e : Nat) : Prop :=
  (t = DAX_BOOL ∧ e = 1) ∨ (∃ w, (t, w) ∈ elemBytes ∧ e = 8 * w) ∨
  (Compound t ∧ ∃ k : Nat, typeSize tbl t = .ok (k : Int) ∧ e = 8 * k)

/-- Where a member begins if the one before it ends at bit `p`. -/
def place (m : Member) (p : Nat) : Nat := if m.type = DAX_BOOL then p else align8 p

/-- `m` is the first of the members with name `n`, and the member before it ends at bit `r`, if the first of the list begins at
bit `p` or later. -/
inductive Before (tbl : List Cdt) : List Member → Nat → Name → Member → Nat → Prop
  | here (m : Member) (ms : List Member) (p : Nat) : Before tbl (m :: ms) p m.name m p
  | later (m : Member) (ms : List Member) (p e : Nat) (n : Name) (m' : Member) (r : Nat) : n ≠ m.name → ElemBits tbl m.type e →
      Before tbl ms (place m p + e * m.count) n m' r → Before tbl (m :: ms) p n m' r

/-- The end of the last of the members. -/
inductive Ends (tbl : List Cdt) : List Member → Nat → Nat → Prop
  | nil (p : Nat) : Ends tbl [] p p
  | cons (m : Member) (ms : List Member) (p e q : Nat) : ElemBits tbl m.type e → Ends tbl ms (place m p + e * m.count) q →
      Ends tbl (m :: ms) p q

/-- One step of a path: `name` or `name[index]`. -/
structure Seg where
  name : Name
  index : Option Nat

/-- A path leads from an element of compound type `t` to items of type `ty`; the first of them is `off` bits behind the
beginning of the element, and there are `n` of them from there on.  With a bit number at the end it leads to the bits
of an integer; an array of them must have an index then.  Otherwise an index that is left out is 0. -/
inductive Place (tbl : List Cdt) : Nat → List Seg → Option Nat → Nat → Nat → Nat → Prop
  | last (t : Nat) (d : Cdt) (g : Seg) (m : Member) (r e : Nat) : Compound t → tbl[t - 2147483648]? = some d →
      Before tbl d.members 0 g.name m r → ElemBits tbl m.type e → g.index.getD 0 < m.count →
      Place tbl t [g] none m.type (m.count - g.index.getD 0) (place m r + e * g.index.getD 0)
  | bit (t : Nat) (d : Cdt) (g : Seg) (m : Member) (r w b : Nat) (sg : Bool) : Compound t → tbl[t - 2147483648]? = some d →
      Before tbl d.members 0 g.name m r → (m.type, w, sg) ∈ intTypes → g.index.getD 0 < m.count →
      (g.index = none → m.count = 1) → b < 8 * w →
      Place tbl t [g] (some b) DAX_BOOL (8 * w - b) (place m r + 8 * w * g.index.getD 0 + b)
  | step (t : Nat) (d : Cdt) (g : Seg) (gs : List Seg) (b : Option Nat) (m : Member) (r e ty n off : Nat) : Compound t →
      tbl[t - 2147483648]? = some d → Before tbl d.members 0 g.name m r → Compound m.type → ElemBits tbl m.type e →
      g.index.getD 0 < m.count → Place tbl m.type gs b ty n off →
      Place tbl t (g :: gs) b ty n (place m r + e * g.index.getD 0 + off)

/-- The path ends with an index or a bit number. -/
def lastIdx (gs : List Seg) (b : Option Nat) : Bool := b.isSome || (gs.getLast?.bind (·.index)).isSome

/-- The number of items asked for: a count of 0 stands for one item if there is an index, and for all of them otherwise. -/
def wanted (one : Bool) (cnt n : Nat) : Nat := if cnt = 0 then (if one then 1 else n) else cnt

/-- The text of one step. -/
def segText (g : Seg) : Name := g.name ++ match g.index with
  | some i => 91#8 :: decNat i ++ [93#8]
  | none => []

/-- The text of the steps behind the tag. -/
def pathText : List Seg → Option Nat → Name
  | [], none => []
  | [], some b => 46#8 :: decNat b
  | g :: gs, b => 46#8 :: segText g ++ pathText gs b

/-- A name that can be told from an index, the next step and a bit number. -/
def PlainName (n : Name) : Prop := 46#8 ∉ n ∧ 91#8 ∉ n ∧ ∀ x, n.head? = some x → ¬ (48 ≤ x.toNat ∧ x.toNat ≤ 57)

/-- The client can learn type `t`, and its elements are small: the members end before bit 2^31, and there are not more than `cap` BOOLs
in a member.  The same for the types in it. -/
inductive Fits (cap : Nat) (s : Server) : Nat → Prop
  | mk (t : Nat) (d : Cdt) (q : Nat) : Fetchable s t → s.cdts[t - 2147483648]? = some d → Ends s.cdts d.members 0 q → 0 < q → q ≤ 2147483640 →
      (∀ m ∈ d.members, 0 < m.count ∧ (m.type = DAX_BOOL → m.count ≤ cap)) →
      (∀ m ∈ d.members, Compound m.type → Fits cap s m.type) → Fits cap s t

/-- Nothing on the path is put out of place by BOOLs before it.  The library does not move to the next byte when it goes into
a member of compound type (only when it comes to the first thing inside that is not a BOOL), or when it comes to a bit number.  `loose` says that it may be inside
a byte when it comes to the type. -/
inductive Clear (tbl : List Cdt) : Bool → Nat → List Seg → Option Nat → Prop
  | last (loose : Bool) (t : Nat) (d : Cdt) (g : Seg) : tbl[t - 2147483648]? = some d →
      (loose = true → ∀ m, d.members.head? = some m → m.type ≠ DAX_BOOL) → Clear tbl loose t [g] none
  | bit (loose : Bool) (t : Nat) (d : Cdt) (g : Seg) (b : Nat) (m : Member) (r : Nat) : tbl[t - 2147483648]? = some d →
      (loose = true → ∀ m, d.members.head? = some m → m.type ≠ DAX_BOOL) → Before tbl d.members 0 g.name m r →
      r % 8 = 0 → (loose = true → r ≠ 0) → Clear tbl loose t [g] (some b)
  | step (loose : Bool) (t : Nat) (d : Cdt) (g : Seg) (gs : List Seg) (b : Option Nat) (m : Member) (r : Nat) : tbl[t - 2147483648]? = some d →
      (loose = true → ∀ m, d.members.head? = some m → m.type ≠ DAX_BOOL) → Before tbl d.members 0 g.name m r →
      Clear tbl (decide (r % 8 ≠ 0) || (loose && decide (r = 0))) m.type gs b → Clear tbl loose t (g :: gs) b

/-- Room for `k` items at every index in the path: the library wants that number of elements at every index, not only at
the last. -/
inductive Room (tbl : List Cdt) (k : Nat) : Nat → List Seg → Prop
  | last (t : Nat) (g : Seg) : Room tbl k t [g]
  | step (t : Nat) (d : Cdt) (g : Seg) (gs : List Seg) (m : Member) (r : Nat) : tbl[t - 2147483648]? = some d →
      Before tbl d.members 0 g.name m r → (∀ i, g.index = some i → i + k ≤ m.count) → Room tbl k m.type gs → Room tbl k t (g :: gs)


/-- What is reported for the members of a list, in their order: name, type and count, and where the member is, if the one
before it ends at bit `p`. -/
inductive Listed (tbl : List Cdt) : List Member → Nat → List Iter → Prop
  | nil (p : Nat) : Listed tbl [] p []
  | cons (m : Member) (ms : List Member) (p e byte bit : Nat) (l : List Iter) : ElemBits tbl m.type e → bit < 8 → 8 * byte + bit = place m p →
      Listed tbl ms (place m p + e * m.count) l → Listed tbl (m :: ms) p (⟨m.name, m.type, m.count, byte, bit⟩ :: l)

/-- The bit position in a report. -/
def Iter.pos (i : Iter) : Nat := (8 * i.byte + i.bit).toNat


/-- A handle points to `want` items of type `ty` from bit `pos` of the tag with index `idx` on: byte and bit number of the first, and the number of
bytes from the first to the last. -/
structure Points (tbl : List Cdt) (h : Handle) (idx : Int) (ty want pos : Nat) : Prop where
  index : h.index = idx
  type : h.type = ty
  at' : 8 * h.byte + h.bit = pos
  count : h.count = want
  bool : ty = DAX_BOOL → h.size = (h.bit + want - 1) / 8 - h.bit / 8 + 1
  other : ty ≠ DAX_BOOL → h.bit = 0 ∧ ∀ e, ElemBits tbl ty e → 8 * h.size = e * want

end Dax.LibPath
