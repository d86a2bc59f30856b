import Verif.Model.Basic
/-!
# Names of event types: `src/lib/libevent.c`
-/
set_option autoImplicit false
namespace Dax

/-- `dax_event_string_to_type`, `src/lib/libevent.c:34-55`; the codes of `src/opendax.h:160-169`. -/
def eventStringToType (n : Name) : Int :=
  if strcaseeq n (nm "WRITE") then 2
  else if strcaseeq n (nm "CHANGE") then 3
  else if strcaseeq n (nm "SET") then 4
  else if strcaseeq n (nm "RESET") then 5
  else if strcaseeq n (nm "EQUAL") then 6
  else if strcaseeq n (nm "GREATER") then 7
  else if strcaseeq n (nm "LESS") then 8
  else if strcaseeq n (nm "DEADBAND") then 9
  else 0

/-- `dax_event_type_to_string`, `src/lib/libevent.c:63-85`; `none` is NULL. -/
def eventTypeToString (t : Int) : Option Name :=
  if t = 2 then some (nm "WRITE")
  else if t = 3 then some (nm "CHANGE")
  else if t = 4 then some (nm "SET")
  else if t = 5 then some (nm "RESET")
  else if t = 6 then some (nm "EQUAL")
  else if t = 7 then some (nm "GREATER")
  else if t = 8 then some (nm "LESS")
  else if t = 9 then some (nm "DEADBAND")
  else none

end Dax
