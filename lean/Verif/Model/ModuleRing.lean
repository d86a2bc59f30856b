import Verif.Model.Basic
/-!
# The list of modules: `src/server/module.c`

`_current_mod`, `module_add`, `module_del`, `_get_module_fd`, `module_find_fd` at the level of
pointers.  (The server model in `Verif/Model/Server.lean` and `Module.lean` uses a plain list;
`Verif/Props/ModuleRing.lean` justifies it.)  Not modelled: the other fields of a module.
-/
namespace Dax.Ring

/-- `dax_module`, `src/server/module.h`: the fields used here. -/
structure Node where
  fd : Int
  name : List Byte
  next : Nat
  prev : Nat
deriving Repr, DecidableEq

/-- The allocated modules by address. -/
abbrev Heap := Nat → Option Node

/-- `_current_mod` (`none` is NULL) and `_module_count`, `src/server/module.c:34-35`. -/
structure State where
  heap : Heap := fun _ => none
  cur : Option Nat := none
  count : Nat := 0

/-- `*p` -/
def deref (h : Heap) (a : Nat) : C Node :=
  match h a with
  | some n => .ok n
  | none => .ub "dangling module pointer"

/-- Store a node. -/
def upd (h : Heap) (a : Nat) (n : Node) : Heap := fun x => if x = a then some n else h x

/-- `p->next = v` -/
def setNext (h : Heap) (a v : Nat) : C Heap := do
  let n ← deref h a
  .ok (upd h a { n with next := v })

/-- `p->prev = v` -/
def setPrev (h : Heap) (a v : Nat) : C Heap := do
  let n ← deref h a
  .ok (upd h a { n with prev := v })

/-- The loop of `_get_module_fd` and `module_find_fd` (identical),
`src/server/module.c:97-104,323-330`: result and final `_current_mod`.  A loop that goes on
longer than there are modules is counted as undefined. -/
def findLoop (h : Heap) (fd : Int) (last : Nat) : Nat → Nat → C (Option Nat × Nat)
  | 0, _ => .ub "endless loop"
  | k + 1, cur => do
    let n ← deref h cur
    if n.fd = fd then .ok (some cur, cur)
    else if n.next = last then .ok (none, n.next)
    else findLoop h fd last k n.next

/-- `_get_module_fd`, `module_find_fd`, `src/server/module.c:90-105,317-332`. -/
def find (s : State) (fd : Int) : C (Option Nat × State) :=
  match s.cur with
  | none => .ok (none, s)
  | some c => do
    let (r, c) ← findLoop s.heap fd c s.count c
    .ok (r, { s with cur := some c })

/-- `module_add`, `src/server/module.c:107-139`, followed by `mod->fd = fd` (`:247`); `a` is
the address `xmalloc` returns, which must be free. -/
def add (s : State) (a : Nat) (fd : Int) (name : List Byte) : C State :=
  if (s.heap a).isSome then .ub "not an input"
  else match s.cur with
  | none =>
    .ok { heap := upd s.heap a { fd := fd, name := name, next := a, prev := a }, cur := some a,
          count := s.count + 1 }
  | some c => do
    let n ← deref s.heap c
    let h := upd s.heap a { fd := fd, name := name, next := n.next, prev := c }
    let h ← setPrev h n.next a
    let h ← setNext h c a
    .ok { heap := h, cur := some a, count := s.count + 1 }

/-- `module_del`, `src/server/module.c:142-164`. -/
def del (s : State) (m : Nat) : C State := do
  let n ← deref s.heap m
  if n.next = m then
    .ok { heap := fun x => if x = m then none else s.heap x, cur := none, count := s.count - 1 }
  else do
    let h ← setPrev s.heap n.next n.prev
    let h ← setNext h n.prev n.next
    .ok { heap := fun x => if x = m then none else h x,
          cur := if s.cur = some m then some n.next else s.cur, count := s.count - 1 }

/-- A few lookups in a row. -/
def finds (s : State) : List Int → C State
  | [] => .ok s
  | fd :: r => do
    let (_, s) ← find s fd
    finds s r

/-- `module_unregister`, `src/server/module.c:291-315`: `inner` are the lookups made by the
functions called between finding the module and deleting it. -/
def unregister (s : State) (fd : Int) (inner : List Int) : C State := do
  let (r, s) ← find s fd
  match r with
  | none => .ok s
  | some m => do
    let s ← finds s inner
    del s m

/-- `module_register`, `src/server/module.c:228-247`. -/
def register (s : State) (fd : Int) (name : List Byte) (a : Nat) (inner : List Int) : C State := do
  let (r, s) ← find s fd
  let s ← match r with
    | some m => do
      let n ← deref s.heap m
      unregister s n.fd inner
    | none => .ok s
  add s a fd name

/-- What is done with the list. -/
inductive Op where
  | reg (fd : Int) (name : List Byte) (a : Nat) (inner : List Int)
  | unreg (fd : Int) (inner : List Int)
  | find (fd : Int)
deriving Repr, DecidableEq

/-- One operation; a lookup answers with the name of the module found. -/
def step (s : State) : Op → C (State × Option (List Byte))
  | .reg fd name a inner => do
    let s ← register s fd name a inner
    .ok (s, none)
  | .unreg fd inner => do
    let s ← unregister s fd inner
    .ok (s, none)
  | .find fd => do
    let (r, s) ← find s fd
    match r with
    | none => .ok (s, none)
    | some a => do
      let n ← deref s.heap a
      .ok (s, some n.name)

def run (s : State) : List Op → C (State × List (Option (List Byte)))
  | [] => .ok (s, [])
  | o :: os => do
    let (s, r) ← step s o
    let (s, rs) ← run s os
    .ok (s, r :: rs)

end Dax.Ring
