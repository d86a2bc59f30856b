import Verif.Model.Basic
/-!
# The sorted name index: `src/server/tagbase.c:152-287`
-/
namespace Dax

/-- `_dax_tag_index`, `src/server/tagbase.h:116-121`. -/
structure IdxEnt where
  name : Name
  tag : Nat
deriving Repr, DecidableEq

/-- Result of the bisection loop. -/
inductive Probe where
  | hit (pos : Nat)
  | miss (min : Nat)
deriving Repr, DecidableEq

/-- The bisection loop that appears three times: `_get_by_name`
(`src/server/tagbase.c:159-172`), `_add_index` (`:236-252`) and `_del_index` (`:269-283`).
`hi` is the C variable `max` plus one, so that it is never negative.  `fuel` bounds the
number of iterations; running out would be an endless loop. -/
def bisectF (ix : List IdxEnt) (name : Name) : Nat → Nat → Nat → C Probe
  | 0, _, _ => .ub "endless loop"
  | fuel + 1, lo, hi =>
    if lo < hi then
      let t := lo + (hi - 1 - lo) / 2
      match ix[t]? with
      | none => .ub "index array bounds"
      | some e =>
        match strcmp name e.name with
        | .gt => bisectF ix name fuel (t + 1) hi
        | .lt => bisectF ix name fuel lo t
        | .eq => .ok (.hit t)
    else .ok (.miss lo)

/-- The loop as called: over the whole index. -/
def bisect (ix : List IdxEnt) (name : Name) : C Probe :=
  bisectF ix name (ix.length + 1) 0 ix.length

/-- `_get_by_name`, `src/server/tagbase.c:155-174`; `none` is `ERR_NOTFOUND`. -/
def getByName (ix : List IdxEnt) (name : Name) : C (Option Nat) := do
  match ← bisect ix name with
  | .hit t =>
    match ix[t]? with
    | some e => .ok (some e.tag)
    | none => .ub "index array bounds"
  | .miss _ => .ok none

/-- `_add_index`, `src/server/tagbase.c:223-262`.  `memmove` opens a gap at the insertion
point; with a full array its last element would be lost, which is modelled as `ub`. -/
def addIndex (ix : List IdxEnt) (dbsize : Nat) (name : Name) (tag : Nat) : C (List IdxEnt) :=
  if ix.length ≥ dbsize then .ub "index array full"
  else do
    match ← bisect ix name with
    | .hit _ => .ub "assert(0) in _add_index"
    | .miss n => .ok (ix.take n ++ { name := name, tag := tag } :: ix.drop n)

/-- `_del_index`, `src/server/tagbase.c:267-287`; a missing name gives `memmove` to
`&_index[-1]`. -/
def delIndex (ix : List IdxEnt) (name : Name) : C (List IdxEnt) := do
  match ← bisect ix name with
  | .hit t => .ok (ix.take t ++ ix.drop (t + 1))
  | .miss _ => .ub "memmove below index array"

end Dax
