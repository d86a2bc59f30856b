/- Vocabulary for retained tags (C60): one life of the server after the other, on the same retention file.  The file
is what the server leaves behind when it stops at that moment. -/
import Verif.Spec.Data
import Verif.Spec.Modules
set_option autoImplicit false

namespace Dax

/-- The server is stopped in state `s` and started again on the retention file it has written. -/
def Restarted (e : Env) (s s' : Server) : Prop := startServer e (some s.ret) = .ok s'

/-- Nobody has declared a retained tag of this name so far. -/
def NeverRetained (name : Name) (os : List Op) : Prop :=
  ∀ fd ty c a, Op.req fd (.tagAdd ty c a name) ∈ os → a.testBit 2 = false

/-- Tag `i` before the restart and tag `j` after it give the same bytes to every read request. -/
def ReadsAlike (s s' : Server) (i j : Nat) : Prop :=
  ∀ fd fd' off n r, Answers s fd (.tagRead i off n) r ↔ Answers s' fd' (.tagRead j off n) r

/-- One life of the server on a retention file: the requests, their replies, and the file it leaves. -/
def life (f : Ret) (qs : List (Int × Req)) : C (Ret × List Reply) := do
  let s ← startServer {} (some f)
  let (s, rs) ← runR s qs
  .ok (s.ret, rs)

/-- Several lives on the same file, beginning with an empty one: all replies. -/
def lives : Ret → List (List (Int × Req)) → C (List (List Reply))
  | _, [] => .ok []
  | f, qs :: l => do
    let (f, rs) ← life f qs
    let rss ← lives f l
    .ok (rs :: rss)

end Dax
