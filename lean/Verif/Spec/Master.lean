import Verif.Model.Master
set_option autoImplicit false
/-!
# What is expected of the process master
-/
namespace Dax.Master

/-- Microseconds between two clock readings. -/
def usBetween (a b : Tv) : Int := (b.sec * 1000000 + b.usec) - (a.sec * 1000000 + a.usec)

/-- A proper clock reading. -/
def Tv.proper (t : Tv) : Prop := 0 ≤ t.usec ∧ t.usec < 1000000

/-- A way of measuring intervals in whole milliseconds that is less than one millisecond off. -/
def Stopwatch (ms : Tv → Tv → Int) : Prop :=
  ∀ a b : Tv, a.proper → b.proper →
    1000 * ms a b < usBetween a b + 1000 ∧ usBetween a b < 1000 * ms a b + 1000

/-- The delays: 0, then 100 ms doubled every time, at most a minute. -/
def delay : Nat → Int
  | 0 => 0
  | n + 1 => min (100 * 2 ^ n) 60000

/-- What is known of a process from its history: when it was last started, whether its last
run was a long one, and how many attempts at restarting it there have been since the last
attempt after a long run (or since the beginning). -/
structure Watch where
  since : Tv := ⟨0, 0⟩
  long : Bool := false
  tries : Nat := 0

/-- The number of doublings due at the next attempt. -/
def Watch.level (w : Watch) : Nat := if w.long then 0 else w.tries

/-- Follow a history. -/
def Watch.next (ms : Tv → Tv → Int) (w : Watch) : PEv → Watch
  | .launch none => w
  | .launch (some t) => { w with since := t }
  | .died t => { w with long := decide (ms w.since t > 60000) }
  | .retry _ none => { w with tries := w.level + 1 }
  | .retry _ (some t) => { since := t, long := false, tries := w.level + 1 }

def watch (ms : Tv → Tv → Int) (h : List PEv) : Watch := h.foldl (Watch.next ms) {}

/-- The last time the process was found dead. -/
def lastDeath (h : List PEv) : Option Tv :=
  h.foldl (fun d e => match e with | .died t => some t | _ => d) none

/-- The first start of the process succeeded. -/
def Launched (h : List PEv) : Prop := ∃ (t : Tv) (r : List PEv), h = .launch (some t) :: r

/-- States the master can get into. -/
def Reach (m : State) : Prop := ∃ cfg os, run (boot cfg) os = .ok m

/-- Two clock readings less than `2^31` milliseconds (24 days) apart. -/
def Near (a b : Tv) : Prop :=
  -2147483000 * 1000 < usBetween a b ∧ usBetween a b < 2147483000 * 1000

/-- The deaths reported by one signal: the children `waitpid` returned. -/
def reported (ds : List (Int × Int)) : List (Int × Int) := ds.takeWhile (fun d => d.1 > 0)

/-- The deaths reported during an operation, in order. -/
def SlotIn.deaths (x : SlotIn) : List (Int × Int) := reported x.before ++ reported x.during

def Op.deaths : Op → List (Int × Int)
  | .signal ds => reported ds
  | .scan slots _ => slots.flatMap SlotIn.deaths

/-- Deaths waiting in the queue. -/
def State.pending (m : State) : List (Int × Int) :=
  (m.dpq.filter (fun s => s.pid ≠ 0)).map fun s => (s.pid, s.status)

/-- An operation in which no signal arrives while scanning. -/
def Op.quiet : Op → Prop
  | .signal _ => True
  | .scan slots _ => ∀ x ∈ slots, x.before = [] ∧ x.during = []

/-- A process that is running as far as the master knows: started, and not reaped since. -/
def running (h : List PEv) : Bool :=
  h.foldl (fun r e => match e with
    | .launch b => b.isSome
    | .died _ => false
    | .retry _ b => r || b.isSome) false

end Dax.Master
