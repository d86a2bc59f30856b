import Verif.Spec.Api
/-!
# Specification vocabulary for modules
-/
set_option autoImplicit false
namespace Dax

/-- The tag `k` of state `s` was created by a request on connection `fd`, some time ago. -/
def MadeOn (fd : Int) (s : Server) (k : Nat) : Prop :=
  ∃ s0 s1 type count attr name b os, Reachable s0 ∧ lookup s0 name = none ∧
    handle s0 fd (.tagAdd type count attr name) = .ok (s1, .resp b) ∧
    (Reply.resp b).index? = some k ∧ run s1 os = .ok s

/-- The connection is closed or registered (again). -/
def Op.leaves (fd : Int) : Op → Prop
  | .close f => f = fd
  | .req f (.modReg _ _) => f = fd
  | _ => False

/-- The module on connection `fd` has registered, its registration created the status tag `k`,
and it has neither registered again nor disconnected since. -/
def StatusTag (fd : Int) (s : Server) (k : Nat) : Prop :=
  ∃ s0 s1 flags name r tn os, Reachable s0 ∧
    handle s0 fd (.modReg flags name) = .ok (s1, r) ∧ lookup s0 tn = none ∧ lookup s1 tn = some k ∧
    (∀ o ∈ os, ¬ o.leaves fd) ∧ run s1 os = .ok s

/-- Requests other than group writes and overrides. -/
def Req.calm : Req → Bool
  | .grpWrite _ _ => false
  | .ovrAdd _ _ _ _ => false
  | .ovrDel _ _ _ => false
  | .ovrSet _ _ => false
  | _ => true

/-- Histories without group writes, overrides and modules excluded from having a status tag. -/
def Op.calm : Op → Prop
  | .req _ q => q.calm = true
  | .close _ => True
  | .env e => e.exclude = []

/-- The index has been given to some tag, live or deleted by now. -/
def Assigned (s : Server) (i : Nat) : Prop := (∃ name, LiveAt s i name) ∨ DeadAt s i

/-- Sequences the counts must survive on any configuration: no registrations, group writes and overrides. -/
def Req.addDel : Req → Prop
  | .modReg _ _ => False
  | q => q.calm = true

/-- `_tagcount` reads as the number of live tags and `_lastindex` as the highest index ever assigned. -/
def CountsRight (s : Server) : Prop :=
  (∃ l : List Nat, l.Nodup ∧ (∀ i, i ∈ l ↔ ∃ name, LiveAt s i name) ∧
    ∀ fd, Answers s fd (.tagRead 0 0 4) (.resp (toLE 4 l.length))) ∧
  (∃ k : Nat, Assigned s k ∧ (∀ i, Assigned s i → i ≤ k) ∧
    ∀ fd, Answers s fd (.tagRead 1 0 4) (.resp (toLE 4 k))) ∧
  lookup s (nm "_tagcount") = some 0 ∧ lookup s (nm "_lastindex") = some 1

/-- A retention file without the two status tags. -/
def NoCounts (file : Option Ret) : Prop :=
  ∀ f, file = some f → ∀ x ∈ f.rows, x.name ≠ nm "_tagcount" ∧ x.name ≠ nm "_lastindex"

end Dax
