import Verif.Spec.Api
/-!
# Queues

What clients see of a queue: values put in, values taken out, and answers that nothing is there.
-/
set_option autoImplicit false
namespace Dax

/-- What a client sees happen to a queue. -/
inductive QAct where
  | put (d : List Byte)
  | get (b : List Byte)
  | empty
deriving Repr, DecidableEq

/-- The behaviour of a first-in first-out queue that holds the values `p`. -/
def Fifo : List (List Byte) → List QAct → Prop
  | _, [] => True
  | p, .put d :: as => Fifo (p ++ [d]) as
  | p, .get b :: as => ∃ rest, p = b :: rest ∧ Fifo rest as
  | p, .empty :: as => p = [] ∧ Fifo [] as

/-- Never more than `cap` values wait in the queue, `n` wait at first. -/
def Within (cap : Nat) : Nat → List QAct → Prop
  | _, [] => True
  | n, .put _ :: as => n < cap ∧ Within cap (n + 1) as
  | n, .get _ :: as => Within cap (n - 1) as
  | n, .empty :: as => Within cap n as

/-- The values put in and taken out, in order. -/
def puts (as : List QAct) : List (List Byte) := as.filterMap fun | .put d => some d | _ => none
def gets (as : List QAct) : List (List Byte) := as.filterMap fun | .get d => some d | _ => none

/-- Reads and writes of tag `k`, and group transfers (which may contain it). -/
def Op.transfers (k : Nat) : Op → Prop
  | .req _ (.tagRead i _ _) => i = k
  | .req _ (.tagWrite i _ _) => i = k
  | .req _ (.grpRead _) => True
  | .req _ (.grpWrite _ _) => True
  | _ => False

/-- A history of the server as far as the queue `k` of values of `w` bytes is concerned: writes
that are accepted or refused, reads of `w` bytes that give a value, find the queue empty or are
refused for another reason, mixed with anything else any client may do, except group transfers. -/
inductive Served (k w : Nat) : Server → List QAct → Server → Prop
  | nil {s : Server} : Served k w s [] s
  | write {s s1 s2 : Server} {fd off : Int} {d x : List Byte} {as : List QAct}
      (h : handle s fd (.tagWrite k off d) = .ok (s1, .resp x)) (t : Served k w s1 as s2) :
      Served k w s (.put d :: as) s2
  | writeRefused {s s1 s2 : Server} {fd off e : Int} {d : List Byte} {as : List QAct}
      (h : handle s fd (.tagWrite k off d) = .ok (s1, .err e)) (t : Served k w s1 as s2) :
      Served k w s as s2
  | read {s s1 s2 : Server} {fd off : Int} {b : List Byte} {as : List QAct}
      (h : handle s fd (.tagRead k off w) = .ok (s1, .resp b)) (t : Served k w s1 as s2) :
      Served k w s (.get b :: as) s2
  | readEmpty {s s1 s2 : Server} {fd off : Int} {as : List QAct}
      (h : handle s fd (.tagRead k off w) = .ok (s1, .err ERR_EMPTY)) (t : Served k w s1 as s2) :
      Served k w s (.empty :: as) s2
  | readRefused {s s1 s2 : Server} {fd off e : Int} {as : List QAct}
      (h : handle s fd (.tagRead k off w) = .ok (s1, .err e)) (he : e ≠ ERR_EMPTY)
      (t : Served k w s1 as s2) : Served k w s as s2
  | other {s s1 s2 : Server} {o : Op} {as : List QAct} (h : step s o = .ok s1)
      (ho : ¬ o.transfers k) (t : Served k w s1 as s2) : Served k w s as s2

end Dax
