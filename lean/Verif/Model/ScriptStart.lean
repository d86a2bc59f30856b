import Verif.Model.ScriptQueue
import Verif.Model.LuaConf
/-!
# The first run of triggered scripts: `src/modules/daxlua/threads.c`
-/
set_option autoImplicit false
namespace Dax.ScriptStart
open Dax.ScriptQ

/-- The scripts that `_run_queue_scripts` puts into the queue, by their numbers, `src/modules/daxlua/threads.c:268-274`. -/
def chosen (scripts : List LuaConf.Script) : List Nat :=
  (List.range scripts.length).filter (fun n => match scripts[n]? with | some s => s.run.isSome && s.autoRun | none => false)

/-- Queue and workers, the scripts the main thread has yet to put into the queue, and whether it holds the lock while it sleeps. -/
structure Start where
  pool : Pool Nat
  todo : List Nat
  held : Bool
deriving Repr, DecidableEq

/-- The steps of the threads: one of a worker, or one round of the loop of the main thread for a script that it chooses; `w` is the worker that is woken. -/
inductive SAct where
  | worker (a : Act Nat)
  | main (w : Option Nat)
deriving Repr, DecidableEq

/-- What can be seen: the main thread has put a script into the queue; a worker has started one. -/
inductive SSeen where
  | put (n : Nat)
  | ran (n : Nat)
deriving Repr, DecidableEq

/-- What a worker has done. -/
def seenOf : List (Seen Nat) → List SSeen
  | [] => []
  | .ran n :: l => .ran n :: seenOf l
  | _ :: l => seenOf l

/-- One step, `_run_queue_scripts`, `src/modules/daxlua/threads.c:262-287`, and `__queue_thread`, `:221-240`; none if it is not possible.  If the queue is full the main thread sleeps with the lock and then waits for it itself (`PTHREAD_MUTEX_INITIALIZER`, `:37`).  No events come yet: they are set up afterwards, `:545-550`. -/
def step (s : Start) : SAct → Option (C (Start × List SSeen))
  | .worker (.event _ _) => none
  | .worker a =>
    if s.held then none
    else match ScriptQ.step s.pool a with
      | none => none
      | some (.ub w) => some (.ub w)
      | some (.ok (p, l)) => some (.ok ({ s with pool := p }, seenOf l))
  | .main w =>
    if s.held then none
    else match s.todo with
      | [] => none
      | x :: r =>
        if s.pool.q.full then some (.ok ({ s with held := true }, []))
        else match ScriptQ.step s.pool (.event x w) with
          | none => none
          | some (.ub w) => some (.ub w)
          | some (.ok (p, _)) => some (.ok ({ s with pool := p, todo := r }, [.put x]))

/-- A history of steps and what can be seen of it; none if a step is not possible. -/
def run (s : Start) : List SAct → Option (C (Start × List SSeen))
  | [] => some (.ok (s, []))
  | a :: as =>
    match step s a with
    | none => none
    | some (.ub w) => some (.ub w)
    | some (.ok (s, l)) =>
      match run s as with
      | none => none
      | some (.ub w) => some (.ub w)
      | some (.ok (s, l')) => some (.ok (s, l ++ l'))

/-- `start_all_threads`, `src/modules/daxlua/threads.c:531-545`: a queue of `slots` places with whatever `malloc` left, `k` workers. -/
def begin (slots : List Nat) (k : Nat) (scripts : List LuaConf.Script) : Start :=
  ⟨⟨{ slots := slots }, List.replicate k .starting⟩, chosen scripts, false⟩

end Dax.ScriptStart
