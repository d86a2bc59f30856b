import Verif.Model.ScriptQueue
/-!
# Specification: the queue of triggered scripts
-/
set_option autoImplicit false
namespace Dax.ScriptQ

variable {α : Type}

/-- A queue with room for `n` scripts, as an observer sees it: the scripts that wait after the history, if they waited in the order `w` before it.  No result if something else was
seen than such a queue does: a script is taken in as long as there is room and refused otherwise, and the one that waits longest runs first. -/
def fifo [DecidableEq α] (n : Nat) : List α → List (Seen α) → Option (List α)
  | w, [] => some w
  | w, .accepted x :: l => if w.length < n then fifo n (w ++ [x]) l else none
  | w, .refused _ :: l => if w.length < n then none else fifo n w l
  | [], .ran _ :: _ => none
  | y :: w, .ran x :: l => if x = y then fifo n w l else none

/-- How many scripts were put into the queue. -/
def accepts : List (Seen α) → Nat
  | [] => 0
  | .accepted _ :: l => accepts l + 1
  | _ :: l => accepts l

/-- How many scripts were started. -/
def starts : List (Seen α) → Nat
  | [] => 0
  | .ran _ :: l => starts l + 1
  | _ :: l => starts l

/-- The queue of `n` places never fills up when the number of scripts started so far is a multiple of `n`. -/
def Safe (n : Nat) (l : List (Seen α)) : Prop := ∀ l', l' <+: l → accepts l' = n + starts l' → starts l' % n ≠ 0

/-- No worker wakes without a signal before the first event. -/
def Calm : List (Act α) → Prop
  | [] => True
  | .event _ _ :: _ => True
  | .wake _ :: _ => False
  | _ :: l => Calm l

end Dax.ScriptQ
