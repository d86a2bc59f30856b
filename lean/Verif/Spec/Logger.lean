import Verif.Model.Logger
/-!
# What is expected of the log
-/
set_option autoImplicit false
namespace Dax.Log

/-- The topics by name, with the number of their bit, as documented in `src/opendax.h:77-91`. -/
def topicBits : List (Name × Nat) := [(nm "MINOR", 0), (nm "MAJOR", 1), (nm "WARN", 2), (nm "ERROR", 3), (nm "FATAL", 4), (nm "MODULE", 5), (nm "COMM", 6), (nm "MSG", 7), (nm "MSGERR", 8),
  (nm "CONFIG", 9), (nm "PROTOCOL", 10), (nm "INFO", 11), (nm "DEBUG", 12), (nm "LOGIC", 13), (nm "LOGICERR", 14)]

/-- `w` is one of the words between the commas of `s`. -/
def WordOf (s w : Name) : Prop := w ≠ [] ∧ (44 : Byte) ∉ w ∧ ∃ p q, s = p ++ w ++ q ∧ (p = [] ∨ ∃ p', p = p' ++ [44]) ∧ (q = [] ∨ ∃ q', q = 44 :: q')

/-- A list of words asks for the topic with bit `b`. -/
def Asks (s : Name) (b : Nat) : Prop := WordOf s (nm "ALL") ∨ ∃ w, (w, b) ∈ topicBits ∧ WordOf s w

/-- The two have a topic in common. -/
def shares (m t : Mask) : Bool := (List.range 32).any fun b => m.getLsbD b && t.getLsbD b

/-- The line for a topic with a name. -/
def entry (n topic text : Name) : Name := nm "[" ++ n ++ nm "] " ++ topic ++ nm ": " ++ text.take 255 ++ [10]

/-- What is written to an output: the system's log gets the bare text. -/
def entryFor (n topic text : Name) : Out → Out × Name
  | .syslog p => (.syslog p, text.take 255)
  | o => (o, entry n topic text)

/-- The priorities of the system's log. -/
def prioNames : List (Name × Nat) := [(nm "emerg", 0), (nm "alert", 1), (nm "crit", 2), (nm "err", 3), (nm "warning", 4), (nm "notice", 5), (nm "info", 6), (nm "debug", 7)]

/-- The description of a service is complete, with list of words `t` and output `o`. -/
inductive Describes : Arg → Name → Out → Prop
  | stdout (a : Arg) (t y f : Name) (ht : a.topics = some t) (hy : a.type = some y) (hf : a.file = some f) (ey : strcaseeq y (nm "stdio") = true) (ef : strcaseeq f (nm "stdout") = true) : Describes a t .stdout
  | stderr (a : Arg) (t y f : Name) (ht : a.topics = some t) (hy : a.type = some y) (hf : a.file = some f) (ey : strcaseeq y (nm "stdio") = true) (ef : strcaseeq f (nm "stderr") = true) : Describes a t .stderr
  | syslog (a : Arg) (t y p w : Name) (n : Nat) (ht : a.topics = some t) (hy : a.type = some y) (hp : a.priority = some p) (ey : strcaseeq y (nm "syslog") = true) (hw : (w, n) ∈ prioNames) (ep : strcaseeq p w = true) : Describes a t (.syslog n)

end Dax.Log
