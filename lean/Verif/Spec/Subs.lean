import Verif.Spec.Events
/-!
# Specification of the list of subscriptions
-/
set_option autoImplicit false
namespace Dax

/-- The subscriptions in force on tag `i`. -/
def subsOf (s : Server) (i : Nat) : List Ev :=
  match s.db[i]? with
  | some t => t.events
  | none => []

/-- Subscription `id` of tag `i` was made by the module now connected as `fd`. -/
def OwnedBy (s : Server) (i : Nat) (id : Int) (fd : Int) : Prop :=
  ∃ ev ∈ subsOf s i, ev.id = id ∧ ∃ m ∈ s.mods, m.uid = ev.notify ∧ m.fd = fd

/-- The notifications sent between two states. -/
def newNotices (s s' : Server) : List Notif := s'.sent.drop s.sent.length

/-- A subscription without what the server remembers about the contents and without the options. -/
def Ev.core (e : Ev) : Ev := { e with test := [], options := 0 }

/-- Histories in which a subscription is only deleted by an identifier that exists: no deletion
request names an identifier that is not on a non-empty list. -/
inductive Careful : Server → Prop
  | start {e : Env} {file : Option Ret} {s : Server} (h : startServer e file = .ok s) : Careful s
  | step {s s' : Server} {o : Op} (h : Careful s)
      (hd : ∀ fd idx id, o = .req fd (.evDel idx id) → 0 ≤ idx →
        subsOf s idx.toNat = [] ∨ ∃ ev ∈ subsOf s idx.toNat, ev.id = id)
      (hs : Dax.step s o = .ok s') : Careful s'

/-- Requests that delete no subscription. -/
def Req.keepsSubs : Req → Prop
  | .modReg _ _ => False
  | .tagDel _ => False
  | .evDel _ _ => False
  | _ => True

/-- No module is connected as `fd`. -/
def NoModule (s : Server) (fd : Int) : Prop := ∀ m ∈ s.mods, m.fd ≠ fd

/-- The operation does not register a module on connection `fd`. -/
def Op.noRegister (fd : Int) (o : Op) : Prop := ∀ flags name, o ≠ .req fd (.modReg flags name)

end Dax
