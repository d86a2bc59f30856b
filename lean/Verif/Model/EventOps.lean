import Verif.Model.Tagbase
/-!
# Managing events: `src/server/events.c:442-783`
-/
namespace Dax

/-- `_verify_event_type`, `src/server/events.c:442-481`: is the combination accepted?  Event
types that are not known at all are treated like GREATER. -/
def verifyEventType (ttype : Nat) (etype : Int) : Bool :=
  if etype = EVENT_WRITE ∨ etype = EVENT_CHANGE then true
  else if etype = EVENT_SET ∨ etype = EVENT_RESET then ttype = DAX_BOOL
  else if etype = EVENT_EQUAL then
    !(ttype = DAX_REAL ∨ ttype = DAX_LREAL ∨ ttype = DAX_BOOL ∨ ttype ≥ DAX_CUSTOM)
  else !(ttype = DAX_BOOL ∨ ttype ≥ DAX_CUSTOM)

/-- Size of a bitmap: `(event->count - 1)/8 + 1` in `int`. -/
def bitmapSize (count : Int) : Int := (count - 1).tdiv 8 + 1

/-- `int` product; overflow is undefined behaviour. -/
def mulI32 (a b : Int) : C Int :=
  if -2147483648 ≤ a * b ∧ a * b < 2147483648 then .ok (a * b) else .ub "signed overflow"

/-- `bzero(event->test, testsize)` on a block of that size. -/
def zeroBlock (n : Int) : C (List Byte) :=
  if n < 0 then .ub "bzero with negative size" else .ok (List.replicate n.toNat 0)

/-- `_set_event_data`, `src/server/events.c:489-571`: the `data` and `test` blocks of a new
event.  `block` is the tag's data, `arg` the message buffer from the event data on. -/
def setEventData (s : Server) (ev : Ev) (block arg : List Byte) : C (List Byte × List Byte) :=
  if ev.etype = EVENT_CHANGE then
    if ev.dtype = DAX_BOOL then do
      let t ← rd block ev.byte (bitmapSize ev.count)
      .ok ([], t)
    else do
      let ts ← typeSize s.cdts ev.dtype
      let n ← mulI32 ts ev.count
      let t ← rd block ev.byte n
      .ok ([], t)
  else if ev.etype = EVENT_DEADBAND then do
    let ts ← typeSize s.cdts ev.dtype
    let n ← mulI32 ts ev.count
    let d ← rd arg 0 ts
    let t ← rd block ev.byte n
    .ok (d, t)
  else if ev.etype = EVENT_SET ∨ ev.etype = EVENT_RESET then do
    let t ← zeroBlock (bitmapSize ev.count)
    .ok ([], t)
  else if ev.etype = EVENT_EQUAL ∨ ev.etype = EVENT_GREATER ∨ ev.etype = EVENT_LESS then do
    let ts ← typeSize s.cdts ev.dtype
    let d ← rd arg 0 ts
    let t ← zeroBlock (bitmapSize ev.count)
    .ok (d, t)
  else .ok ([], [])

/-- Change one module of the list. -/
def Server.updMod (s : Server) (uid : Nat) (f : Module → Module) : Server :=
  { s with mods := s.mods.map fun m => if m.uid = uid then f m else m }

/-- `event_add`, `src/server/events.c:577-648`.  For a queue tag the size test calls
`tag_get_size` with a type code as index, which is out of bounds. -/
def eventAdd (s : Server) (h : Handle) (etype : Int) (arg : List Byte) (m : Module) :
    C (Server × Int) :=
  match s.tag? h.index with
  | none => .ok (s, ERR_ARG)
  | some t =>
    if t.attr.virt && !isQueue t.type then .ok (s, ERR_ILLEGAL)
    else if isQueue t.type then
      if h.byte ≠ 0 ∨ etype ≠ EVENT_WRITE then .ok (s, ERR_ILLEGAL)
      else .ub "tag_get_size of a type code"
    else do
      let sz ← tagGetSize s.cdts t
      if u32 ((h.byte : Int) + h.size) > u32 sz then .ok (s, ERR_2BIG)
      else if verifyEventType h.type etype = false then .ok (s, ERR_ARG)
      else if t.nextevent ≥ 2147483647 then .ub "signed overflow"
      else do
        let ev : Ev := { id := t.nextevent, byte := i32 h.byte, bit := h.bit,
                         count := i32 h.count, size := h.size, dtype := h.type, etype := etype,
                         data := [], test := [], notify := m.uid }
        let (d, tst) ← setEventData s ev t.data.block arg
        let ev := { ev with data := d, test := tst }
        let t := { t with nextevent := t.nextevent + 1, events := ev :: t.events,
                          attr := if t.events.isEmpty then { t.attr with event := true }
                                  else t.attr }
        .ok ((s.setTag h.index t).updMod m.uid (fun m => { m with eventCount := m.eventCount + 1 }),
             ev.id)

/-- Scan of the tail in `event_del`, `src/server/events.c:692-707`: the list without the first
event with that id, `none` if there is no such event; `error` if it belongs to another module. -/
def evRemove (id : Int) (uid : Option Nat) : List Ev → Except Unit (Option (List Ev))
  | [] => .ok none
  | ev :: evs =>
    if ev.id = id then
      if some ev.notify ≠ uid then .error () else .ok (some evs)
    else match evRemove id uid evs with
      | .error () => .error ()
      | .ok none => .ok none
      | .ok (some r) => .ok (some (ev :: r))

/-- `event_del`, `src/server/events.c:673-716`.  When the first event of the list is the one
to delete it is freed and then `this->next` is read from the freed block; if that still reads
as before (`freedReadable`) the rest of the list is searched (in vain) and `ERR_NOTFOUND` is
returned.  `m = none` is a NULL module pointer, dereferenced at the end. -/
def eventDel (s : Server) (idx id : Int) (m : Option Nat) : C (Server × Int) :=
  match s.tag? idx with
  | none => .ok (s, ERR_2BIG)
  | some t =>
    match t.events with
    | [] => .ok (s, ERR_NOTFOUND)
    | ev :: evs =>
      if ev.id = id then
        if some ev.notify ≠ m then .ok (s, ERR_AUTH)
        else if s.env.freedReadable = false then .ub "use after free"
        else match m with
          | none => .ub "NULL module"
          | some uid =>
            let t := { t with events := evs,
                              attr := if evs.isEmpty then { t.attr with event := false }
                                      else t.attr }
            .ok ((s.setTag idx t).updMod uid (fun m => { m with eventCount := m.eventCount - 1 }),
                 ERR_NOTFOUND)
      else match evRemove id m evs with
        | .error () => .ok (s, ERR_AUTH)
        | .ok none =>
          match m with
          | none => .ub "NULL module"
          | some uid =>
            .ok (s.updMod uid (fun m => { m with eventCount := m.eventCount - 1 }), ERR_NOTFOUND)
        | .ok (some r) =>
          match m with
          | none => .ub "NULL module"
          | some uid =>
            .ok ((s.setTag idx { t with events := ev :: r }).updMod uid
                   (fun m => { m with eventCount := m.eventCount - 1 }), 0)

/-- Change the options of the first event with that id; `none` if there is none, `error` if
it belongs to another module (`_find_event` and `event_opt`). -/
def evSetOpt (id : Int) (opts : Nat) (uid : Option Nat) : List Ev → Except Unit (Option (List Ev))
  | [] => .ok none
  | ev :: evs =>
    if ev.id = id then
      if some ev.notify ≠ uid then .error () else .ok (some ({ ev with options := opts } :: evs))
    else match evSetOpt id opts uid evs with
      | .error () => .error ()
      | .ok none => .ok none
      | .ok (some r) => .ok (some (ev :: r))

/-- `event_opt`, `src/server/events.c:731-754` with `_find_event` (`:659-671`). -/
def eventOpt (s : Server) (idx id : Int) (opts : Nat) (m : Option Nat) : C (Server × Int) :=
  match s.tag? idx with
  | none => .ok (s, ERR_2BIG)
  | some t =>
    match evSetOpt id opts m t.events with
    | .error () => .ok (s, ERR_AUTH)
    | .ok none => .ok (s, ERR_NOTFOUND)
    | .ok (some evs) => .ok (s.setTag idx { t with events := evs }, 0)

/-- Inner loop of `events_cleanup`, `src/server/events.c:767-774`, over the events the list
had at the start.  After `event_del` the next pointer is read from the freed event. -/
def cleanupTag (s : Server) (idx : Int) (uid : Nat) : List Ev → C Server
  | [] => .ok s
  | ev :: evs =>
    if ev.notify = uid then do
      let (s', _) ← eventDel s idx ev.id (some uid)
      if s.env.freedReadable then cleanupTag s' idx uid evs else .ub "use after free"
    else cleanupTag s idx uid evs

/-- Outer loop of `events_cleanup`, `src/server/events.c:765-776`: tags from the top down
while the module's event counter is positive. -/
def cleanupFrom (s : Server) (uid : Nat) : Nat → C Server
  | 0 => .ok s
  | n + 1 =>
    match s.modByUid uid with
    | none => .ub "module pointer"
    | some m =>
      if m.eventCount > 0 then
        match s.db[n]? with
        | none => .ub "database index"
        | some t => do
          let s ← cleanupTag s n uid t.events
          cleanupFrom s uid n
      else .ok s

/-- `events_cleanup`, `src/server/events.c:757-779`. -/
def eventsCleanup (s : Server) (uid : Nat) : C Server := cleanupFrom s uid s.db.length

end Dax
