import Verif.Model.Restore
/-!
# Vocabulary of the property statements

Reachable states, sequences of requests with their replies, and the fields of replies.
Nothing here depends on how the server works internally.
-/
set_option autoImplicit false
namespace Dax

/-- A state the server can reach: start-up, with or without a retention file of any contents,
followed by any history of requests, disconnects and changes of the environment. -/
def Reachable (s : Server) : Prop :=
  ∃ e file s0 os, startServer e file = .ok s0 ∧ run s0 os = .ok s

/-- A sequence of client requests, each with the connection it arrives on, and the replies. -/
def runR : Server → List (Int × Req) → C (Server × List Reply)
  | s, [] => .ok (s, [])
  | s, (fd, q) :: qs => do
    let (s, r) ← handle s fd q
    let (s, rs) ← runR s qs
    .ok (s, r :: rs)

/-- What the outside sees of a history: the reply to every request, and all event messages sent
so far. -/
def trace : Server → List Op → C (List Reply × List Notif)
  | s, [] => .ok ([], s.sent)
  | s, .req fd q :: os => do
    let (s, r) ← handle s fd q
    let (rs, ns) ← trace s os
    .ok (r :: rs, ns)
  | s, o :: os => do
    let s ← step s o
    trace s os

/-- Every later history is seen exactly as it would be seen from `s`. -/
def AsBefore (s s' : Server) : Prop := ∀ os x, trace s os = .ok x → trace s' os = .ok x

/-- The index in the reply to a tag request (its first four bytes). -/
def Reply.index? : Reply → Option Nat
  | .resp d => some (leNat (d.take 4))
  | .err _ => Option.none
  | .none => Option.none

/-- The reply to a lookup by name, as seen by a client: the index, or nothing. -/
def lookup (s : Server) (name : Name) : Option Nat :=
  match handle s 0 (.tagGetName name) with
  | .ok (_, r) => r.index?
  | .ub _ => none

/-- The reply payload of a tag query: index, type, element count, attributes, name and NUL. -/
def tagReply (idx type count attr : Nat) (name : Name) : List Byte :=
  toLE 4 idx ++ toLE 4 type ++ toLE 4 count ++ toLE 2 attr ++ name ++ [0]

/-- `name` is a live tag with index `i`: a query by index is answered with that name. -/
def LiveAt (s : Server) (i : Nat) (name : Name) : Prop :=
  ∃ type count attr, ∀ fd, handle s fd (.tagGetIdx i) = .ok (s, .resp (tagReply i type count attr name))

/-- The index has been given out and its tag deleted. -/
def DeadAt (s : Server) (i : Nat) : Prop :=
  ∀ fd, handle s fd (.tagGetIdx i) = .ok (s, .err ERR_DELETED)

/-- A live tag with its type and number of elements (both 32-bit unsigned). -/
def LiveTag (s : Server) (i : Nat) (name : Name) (type count : Nat) : Prop :=
  type < 4294967296 ∧ count < 4294967296 ∧ ∃ attr, ∀ fd, handle s fd (.tagGetIdx i) = .ok (s, .resp (tagReply i type count attr name))

/-- The bytes a client gets when it reads `size` bytes at `off` of tag `i`. -/
def ReadsAs (s : Server) (fd : Int) (i : Nat) (off size : Int) (d : List Byte) : Prop :=
  ∃ s', handle s fd (.tagRead i off size) = .ok (s', .resp d)

/-- The server gives reply `r` to request `q` on connection `fd` (whatever happens to its
state). -/
def Answers (s : Server) (fd : Int) (q : Req) (r : Reply) : Prop :=
  ∃ s', handle s fd q = .ok (s', r)

/-- `a` is the attribute word (16 bits) reported for the live tag `i`. -/
def AttrAt (s : Server) (i a : Nat) : Prop :=
  a < 65536 ∧ ∃ name type count, ∀ fd,
    handle s fd (.tagGetIdx i) = .ok (s, .resp (tagReply i type count a name))

/-- A live tag that is neither virtual (attribute 0x0002: clock, queue, ...) nor has an override
in force (attribute 0x0008). -/
def Ordinary (s : Server) (i : Nat) : Prop :=
  ∃ a, AttrAt s i a ∧ a.testBit 1 = false ∧ a.testBit 3 = false

/-- No mapping starts at tag `i`: asking for any mapping of it is answered with an error. -/
def NoMaps (s : Server) (i : Nat) : Prop :=
  ∀ fd id, ∃ e, handle s fd (.mapGet i id) = .ok (s, .err e)

end Dax
