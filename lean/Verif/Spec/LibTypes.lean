import Verif.Spec.Layout
import Verif.Model.LibCdt
/-!
# Specification of what the client library knows about compound types
-/
set_option autoImplicit false
namespace Dax

/-- `n` is the name of type `t`, as a base type or by the server's word. -/
def NameOf (s : Server) (t : Nat) (n : Name) : Prop := (n, t) ∈ baseNames ∨ ∃ txt, TypeNamed s n t txt

/-- The client can learn type `t`: the server can send its definition, member counts are positive
`int`s, and the same holds for the
compound types of the members (`sub` gives their codes). -/
inductive Fetchable (s : Server) : Nat → Prop
  | mk (t : Nat) (n : Name) (fs : List (Name × Name × Int)) (sub : Name → Nat) : TypeText s t (n ++ (fs.map fieldText).flatten) →
      (∀ f ∈ fs, 58#8 ∉ f.1 ∧ 44#8 ∉ f.1 ∧ 58#8 ∉ f.2.1 ∧ 44#8 ∉ f.2.1) → 58#8 ∉ n →
      (∀ f ∈ fs, 1 ≤ f.2.2 ∧ f.2.2 < 2147483648) →
      (∀ f ∈ fs, f.2.1 ∉ baseNames.map (·.1) → ∃ txt, TypeNamed s f.2.1 (sub f.2.1) txt) →
      (∀ f ∈ fs, f.2.1 ∉ baseNames.map (·.1) → Fetchable s (sub f.2.1)) → Fetchable s t

/-- The cache has an entry for type `t`. -/
def Known (c : TypeCache) (t : Nat) : Prop := ∃ n ms, c[t - 2147483648]? = some ⟨some n, ms⟩

/-- The cache only has entries that say what the server has on record, and if it has an entry for a type,
then also for the compound types in it. -/
def Faithful (s : Server) (c : TypeCache) : Prop :=
  ∀ (k : Nat) (e : CType), c[k]? = some e → e = ⟨none, []⟩ ∨
    ∃ d, s.cdts[k]? = some d ∧ e = ⟨some d.name, d.members⟩ ∧ ∀ m ∈ d.members, Compound m.type → Known c m.type

/-- The cache entry for `t` says what the text `txt` says: same name, and the same members in the
same order, each with the same name, a type of that name, and the same count. -/
def Says (s : Server) (c : TypeCache) (t : Nat) (txt : Name) : Prop :=
  ∃ n ms, ∃ fs : List (Name × Name × Int), c[t - 2147483648]? = some ⟨some n, ms⟩ ∧
    txt = n ++ (fs.map fieldText).flatten ∧ ms.length = fs.length ∧
    ∀ (k : Nat) (m : Member) (f : Name × Name × Int), ms[k]? = some m → fs[k]? = some f →
      m.name = f.1 ∧ NameOf s m.type f.2.1 ∧ (m.count : Int) = f.2.2

/-- All members of `t`, and of the types in it, other than BOOLs have fewer than 2³¹ bits. -/
inductive SmallParts (tbl : List Cdt) : Nat → Prop
  | mk (t : Nat) : (∀ d, tbl[t - 2147483648]? = some d → ∀ m ∈ d.members, ∀ x, PieceOf tbl m x → x.aligned = true → x.len < 2147483648) →
      (∀ d, tbl[t - 2147483648]? = some d → ∀ m ∈ d.members, Compound m.type → SmallParts tbl m.type) → SmallParts tbl t

end Dax
