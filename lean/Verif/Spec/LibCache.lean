import Verif.Model.LibCache
/-!
# Specification for C48: what a module has learned about tags
-/
set_option autoImplicit false
namespace Dax.TagCache

/-- Neighbouring nodes of the list point at each other. -/
def Chain (h : Heap) : List Nat → Prop
  | [] => True
  | [_] => True
  | a :: b :: r => (∃ n m, h a = some n ∧ h b = some m ∧ n.next = b ∧ m.prev = a) ∧ Chain h (b :: r)

/-- The cache holds the entries `l`: the nodes from the head on, once round, have these descriptions. -/
def Contents (s : State) (l : List Desc) : Prop :=
  ∃ as : List Nat, s.head = as.head? ∧ as.Nodup ∧ s.count = l.length ∧ Chain s.heap (as ++ as.head?.toList) ∧
    as.map (fun a => (s.heap a).map (·.d)) = l.map some

/-- The operation `o` with answer `r` is one by which the module learned `d` from the server. -/
def Learns (o : Op) (r : Option Desc) (d : Desc) : Prop :=
  (∃ a, o = .tagAdd d a) ∨ (∃ n a, o = .byName n (some d) a ∧ r = some d) ∨ (∃ i a, o = .byIndex i (some d) a ∧ r = some d)

/-- The operation supersedes what was known about the tag with index `i`. -/
def Supersedes (o : Op) (i : Int) : Prop := (∃ d a, o = .tagAdd d a ∧ d.idx = i) ∨ o = .deleted i

/-- `d` was learned in the course of the history, and not superseded since. -/
def Current (hist : List (Op × Option Desc)) (d : Desc) : Prop :=
  ∃ h1 o r h2, hist = h1 ++ (o, r) :: h2 ∧ Learns o r d ∧ ∀ x ∈ h2, ¬ Supersedes x.1 d.idx

/-- The descriptions that come from the server in an operation. -/
def Op.descs : Op → List Desc
  | .byName _ srv _ => srv.toList
  | .byIndex _ srv _ => srv.toList
  | .tagAdd d _ => [d]
  | .deleted _ => []

/-- The server answers what it is asked, names are at most 32 characters long, and the tag with a given index has
the name `f` tells (a server never uses an index twice: C02). -/
def Op.Sound (f : Int → Name) (o : Op) : Prop :=
  (∀ d ∈ o.descs, d.name = f d.idx ∧ d.name.length ≤ 32) ∧
  (∀ n d a, o = .byName n (some d) a → d.name = n) ∧ (∀ i d a, o = .byIndex i (some d) a → d.idx = i)

/-- The answer of a lookup is right: it describes a tag of that name (or index) and comes from the server now or was learned
before and not superseded since; there is no answer only if the server has none or the name is no name. -/
def RightAnswer (hist : List (Op × Option Desc)) (o : Op) (r : Option Desc) : Prop :=
  match o with
  | .byName n srv _ => (∀ d, r = some d → d.name = n ∧ (srv = some d ∨ Current hist d)) ∧ (r = none → srv = none ∨ n = [] ∨ 32 < n.length)
  | .byIndex i srv _ => (∀ d, r = some d → d.idx = i ∧ (srv = some d ∨ Current hist d)) ∧ (r = none → srv = none)
  | _ => True

/-- A lookup. -/
def Op.lookup : Op → Prop
  | .byName _ _ _ => True
  | .byIndex _ _ _ => True
  | _ => False

end Dax.TagCache
