import Verif.Model.Text
/-!
# Messages for the log: `src/lib/logger/daxlog.c`
-/
set_option autoImplicit false
namespace Dax.Log

abbrev Mask := BitVec 32

/-- The names compared in `dax_parse_log_topics`, `src/lib/logger/daxlog.c:242-255`, in this order, with the values of `src/opendax.h:77-100`. -/
def words : List (Name × Mask) := [(nm "ALL", 0xFFFFFFFF), (nm "MINOR", 0x1), (nm "MAJOR", 0x2), (nm "WARN", 0x4), (nm "ERROR", 0x8), (nm "FATAL", 0x10), (nm "MODULE", 0x20),
  (nm "COMM", 0x40), (nm "MSG", 0x80), (nm "MSGERR", 0x100), (nm "CONFIG", 0x200), (nm "PROTOCOL", 0x400), (nm "INFO", 0x800), (nm "DEBUG", 0x1000)]

/-- One turn of the loop of `dax_parse_log_topics`: the comparisons with all names. -/
def parseWord (m : Mask) (s : Name) : Mask := words.foldl (fun m w => if s = w.1 then m ||| w.2 else m) m

/-- `dax_parse_log_topics`, `src/lib/logger/daxlog.c:229-264`.  `_topic_callback` is never set. -/
def parseTopics : Option Name → Mask
  | none => 0
  | some s => (tokens 44 s).foldl parseWord 0

/-- `_topic_to_string`, `src/lib/logger/daxlog.c:41-76`. -/
def topicName (t : Mask) : Name :=
  if t = 0x1 then nm "MINOR" else if t = 0x2 then nm "MAJOR" else if t = 0x4 then nm "WARN" else if t = 0x8 then nm "ERROR" else if t = 0x10 then nm "FATAL"
  else if t = 0x20 then nm "MODULE" else if t = 0x40 then nm "COMM" else if t = 0x80 then nm "MSG" else if t = 0x100 then nm "MSGERR" else if t = 0x200 then nm "CONFIG"
  else if t = 0x400 then nm "PROTOCOL" else if t = 0x800 then nm "INFO" else if t = 0x1000 then nm "DEBUG" else if t = 0x2000 then nm "LOGIC" else if t = 0x4000 then nm "LOGICERR"
  else nm "?"

/-- Where a service writes: `stdio_service` and `syslog_service`, `src/lib/logger/daxlog.h:37-43`.  `wild` is a file pointer that was never set. -/
inductive Out where
  | stdout
  | stderr
  | wild
  | syslog (prio : Nat)
deriving Repr, DecidableEq

/-- `service_item`, `src/lib/logger/daxlog.h:31-35`. -/
structure Service where
  mask : Mask
  out : Out
deriving Repr, DecidableEq

/-- The static variables, `src/lib/logger/daxlog.c:32-38`; `_service_count` is the length of the list. -/
structure St where
  name : Option Name := none
  mask : Mask := 0x18
  services : List Service := []
deriving Repr, DecidableEq

/-- `[%s] %s: %s\n`. -/
def line (name : Name) (topic : Mask) (text : Name) : Name := nm "[" ++ name ++ nm "] " ++ topicName topic ++ nm ": " ++ text ++ [10]

/-- `_log_stdio` and `_log_syslog`, `src/lib/logger/daxlog.c:84-90,112-118`. -/
def emit (name : Option Name) (topic : Mask) (text : Name) : Out → C (Out × Name)
  | .syslog p => .ok (.syslog p, text)
  | .wild => .ub "file pointer never set"
  | o => match name with
    | none => .ub "printing NULL"
    | some n => .ok (o, line n topic text)

/-- The loop over the services of `dax_log`, `src/lib/logger/daxlog.c:306-310`. -/
def toServices (name : Option Name) (topic : Mask) (text : Name) : List Service → C (List (Out × Name))
  | [] => .ok []
  | s :: ss =>
    if s.mask &&& topic ≠ 0 then do
      let a ← emit name topic text s.out
      let b ← toServices name topic text ss
      .ok (a :: b)
    else toServices name topic text ss

/-- `dax_log`, `src/lib/logger/daxlog.c:291-312`: what is written where.  `text` is the text after the arguments were put in. -/
def log (st : St) (topic : Mask) (text : Name) : C (List (Out × Name)) :=
  let out := text.take 255
  if st.services.length = 0 ∧ st.mask &&& topic ≠ 0 then do
    let a ← emit st.name topic out .stdout
    .ok [a]
  else toServices st.name topic out st.services

/-- The argument of `add_log_service`: what `lua_tostring` gives for the fields of the table. -/
structure Arg where
  topics : Option Name
  type : Option Name
  file : Option Name := none
  priority : Option Name := none
deriving Repr, DecidableEq

/-- How a call of `add_log_service` ends: the service is there; a message was logged; an error of Lua. -/
inductive Added where
  | added
  | refused (said : List (Out × Name))
  | raised
deriving Repr, DecidableEq

/-- `_add_stdio_service`, `src/lib/logger/daxlog.c:92-109`. -/
def stdio (file : Option Name) : C Out :=
  match file with
  | none => .ub "strcasecmp with NULL"
  | some f => .ok (if strcaseeq f (nm "stdout") then .stdout else if strcaseeq f (nm "stderr") then .stderr else .wild)

/-- The names of `_add_syslog_service` with the values of `syslog.h`. -/
def prios : List (Name × Nat) := [(nm "EMERG", 0), (nm "ALERT", 1), (nm "CRIT", 2), (nm "ERR", 3), (nm "WARNING", 4), (nm "NOTICE", 5), (nm "INFO", 6), (nm "DEBUG", 7)]

/-- `_add_syslog_service`, `src/lib/logger/daxlog.c:120-152`.  No result is an error of Lua. -/
def syslog (priority : Option Name) : C (Option Out) :=
  match priority with
  | none => .ub "strcasecmp with NULL"
  | some p => .ok ((prios.find? fun x => strcaseeq p x.1).map fun x => .syslog x.2)

/-- `_add_service`, `src/lib/logger/daxlog.c:157-202`, for a table. -/
def addService (st : St) (a : Arg) : C (St × Added) :=
  if st.services.length ≥ 32 then do
    let l ← log st 0x8 (nm "No more log services available")
    .ok (st, .refused l)
  else match a.topics with
  | none => do
    let l ← log st 0x8 (nm "No Topic list given")
    .ok (st, .refused l)
  | some t =>
    let mask := parseTopics (some t)
    match a.type with
    | none => .ub "strcasecmp with NULL"
    | some y =>
      if strcaseeq y (nm "stdio") then do
        let o ← stdio a.file
        .ok ({ st with services := st.services ++ [⟨mask, o⟩] }, .added)
      else if strcaseeq y (nm "syslog") then do
        match ← syslog a.priority with
        | none => .ok (st, .raised)
        | some o => .ok ({ st with services := st.services ++ [⟨mask, o⟩] }, .added)
      else do
        let l ← log st 0x8 (nm "Unknown log service " ++ y)
        .ok (st, .refused l)

/-- Several calls. -/
def addServices (st : St) : List Arg → C (St × List Added)
  | [] => .ok (st, [])
  | a :: as => do
    let (st, r) ← addService st a
    let (st, rs) ← addServices st as
    .ok (st, r :: rs)

end Dax.Log
