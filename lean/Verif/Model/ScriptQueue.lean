import Verif.Model.Basic
/-!
# The queue of triggered scripts: `src/modules/daxlua/threads.c`

An array of pointers with two indices and two flags, a mutex and a condition variable, filled by the thread that receives events and emptied by worker threads.
Scripts are of any type `α`.
-/
set_option autoImplicit false
namespace Dax.ScriptQ

variable {α : Type}

/-- The static variables `script_queue`, `q_first`, `q_last`, `q_full`, `q_empty`, `src/modules/daxlua/threads.c:42-44`; `queue_size` is the length of the array. -/
structure Queue (α : Type) where
  slots : List α
  first : Nat := 0
  last : Nat := 0
  full : Bool := false
  empty : Bool := false
deriving Repr, DecidableEq

/-- `_q_push`, `src/modules/daxlua/threads.c:68-78`.  The flag is whether there was room. -/
def push (q : Queue α) (x : α) : C (Queue α × Bool) :=
  if q.full then .ok (q, false)
  else if q.last ≥ q.slots.length then .ub "write outside the script queue"
  else .ok ({ slots := q.slots.set q.last x, first := q.first, last := (if q.last + 1 ≥ q.slots.length then 0 else q.last + 1),
              full := decide (q.last + 1 = q.first), empty := false }, true)

/-- `_q_pop`, `src/modules/daxlua/threads.c:83-94`. -/
def pop (q : Queue α) : C (Queue α × Option α) :=
  if q.empty then .ok (q, none)
  else match q.slots[q.first]? with
    | none => .ub "read outside the script queue"
    | some x =>
      let first := if q.first + 1 ≥ q.slots.length then 0 else q.first + 1
      .ok ({ q with first := first, empty := (if first = q.last then true else q.empty), full := false }, some x)

/-- Where a worker thread is in `__queue_thread`, `src/modules/daxlua/threads.c:221-240`: before it has the lock for the first time; in `pthread_cond_wait`;
woken, but not yet with the lock; outside the lock, running a script. -/
inductive Worker (α : Type) where
  | starting
  | waiting
  | awake
  | running (x : α)
deriving Repr, DecidableEq

/-- The worker will look at the queue without being woken. -/
def Worker.active : Worker α → Bool
  | .awake => true
  | .running _ => true
  | _ => false

/-- Queue and worker threads. -/
structure Pool (α : Type) where
  q : Queue α
  workers : List (Worker α)
deriving Repr, DecidableEq

/-- The steps of the threads; each happens with the lock held. -/
inductive Act (α : Type) where
  /-- A worker gets the lock for the first time and waits, `:225-228`.  (`q_exit` is never set.) -/
  | enter (t : Nat)
  /-- An event for script `x`, `_script_event_dispatch`, `:309-318`; also the first run, `_run_queue_scripts`, `:274-279`.  `w` is the worker that
  `pthread_cond_signal` wakes, none only if none waits. -/
  | event (x : α) (w : Option Nat)
  /-- A worker wakes without a signal, which `pthread_cond_wait` is allowed to do. -/
  | wake (t : Nat)
  /-- A worker that is awake, or has finished a script, gets the lock: the inner loop, `:230-235`. -/
  | go (t : Nat)
deriving Repr, DecidableEq

/-- What can be seen: a script was put into the queue, or was not, or has been started. -/
inductive Seen (α : Type) where
  | accepted (x : α)
  | refused (x : α)
  | ran (x : α)
deriving Repr, DecidableEq

/-- One step; none if it is not possible.  -/
def step [DecidableEq α] (p : Pool α) : Act α → Option (C (Pool α × List (Seen α)))
  | .enter t => if p.workers[t]? = some .starting then some (.ok ({ p with workers := p.workers.set t .waiting }, [])) else none
  | .wake t => if p.workers[t]? = some .waiting then some (.ok ({ p with workers := p.workers.set t .awake }, [])) else none
  | .event x w =>
    if p.q.full then some (.ok (p, [.refused x]))
    else match w with
      | none => if .waiting ∈ p.workers then none else some (do let (q, _) ← push p.q x; .ok ({ p with q := q }, [.accepted x]))
      | some t => if p.workers[t]? = some .waiting then some (do let (q, _) ← push p.q x; .ok ({ q := q, workers := p.workers.set t .awake }, [.accepted x])) else none
  | .go t =>
    if (p.workers[t]?.map Worker.active).getD false then
      some (do
        let (q, r) ← pop p.q
        match r with
        | none => .ok ({ p with workers := p.workers.set t .waiting }, [])
        | some x => .ok ({ q := q, workers := p.workers.set t (.running x) }, [.ran x]))
    else none

/-- A history of steps and what can be seen of it; none if a step is not possible. -/
def run [DecidableEq α] (p : Pool α) : List (Act α) → Option (C (Pool α × List (Seen α)))
  | [] => some (.ok (p, []))
  | a :: as =>
    match step p a with
    | none => none
    | some (.ub w) => some (.ub w)
    | some (.ok (p, l)) =>
      match run p as with
      | none => none
      | some (.ub w) => some (.ub w)
      | some (.ok (p, l')) => some (.ok (p, l ++ l'))

end Dax.ScriptQ
