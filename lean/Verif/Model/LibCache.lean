import Verif.Model.Types
/-!
# The tag cache of the client library: `src/lib/libdata.c`, `src/lib/libmsg.c`

`init_tag_cache`, `_cache_hit`, `check_cache_index`, `check_cache_name`, `cache_tag_add`,
`cache_tag_del` at the level of pointers, and how `dax_tag_add`, `dax_tag_byname`,
`dax_tag_byindex` and the functions that read and write use them.  What the server answers is an input.
-/
set_option autoImplicit false
namespace Dax.TagCache

/-- `dax_tag`, `src/opendax.h`: what the library knows about a tag. -/
structure Desc where
  idx : Int
  type : Nat
  count : Nat
  attr : Nat
  name : Name
deriving Repr, DecidableEq

/-- `tag_cnode`, `src/lib/libdax.h:51-59`. -/
structure Node where
  d : Desc
  next : Nat
  prev : Nat
deriving Repr, DecidableEq

/-- The allocated nodes by address. -/
abbrev Heap := Nat → Option Node

/-- `cache_head` (`none` is NULL), `cache_limit`, `cache_count`, `src/lib/libdax.h:113-115`.
`init_tag_cache`, `src/lib/libdata.c:36-43`, sets them: no node, the limit given by the attribute `cachesize`. -/
structure State where
  heap : Heap := fun _ => none
  head : Option Nat := none
  limit : Int
  count : Nat := 0

/-- `*p` -/
def deref (h : Heap) (a : Nat) : C Node :=
  match h a with
  | some n => .ok n
  | none => .ub "dangling cache pointer"

/-- Store a node. -/
def upd (h : Heap) (a : Nat) (n : Node) : Heap := fun x => if x = a then some n else h x

/-- `p->next = v` -/
def setNext (h : Heap) (a v : Nat) : C Heap := do
  let n ← deref h a
  .ok (upd h a { n with next := v })

/-- `p->prev = v` -/
def setPrev (h : Heap) (a v : Nat) : C Heap := do
  let n ← deref h a
  .ok (upd h a { n with prev := v })

/-- `_cache_hit`, `src/lib/libdata.c:64-97`: the node moves up by one. -/
def hit (s : State) (a : Nat) : C (State × Desc) := do
  let n ← deref s.heap a
  match s.head with
  | none => .ub "NULL cache_head"
  | some hd =>
    if a = hd then .ok (s, n.d)
    else do
      let hn ← deref s.heap hd
      if s.count = 2 then .ok ({ s with head := some hn.next }, n.d)
      else do
        let after := n.prev
        let an ← deref s.heap after
        let before := an.prev
        let h ← setNext s.heap before a
        let h ← setPrev h after a
        let n1 ← deref h a
        let h ← setNext h after n1.next
        let n2 ← deref h a
        let h ← setPrev h n2.next after
        let h ← setNext h a after
        let h ← setPrev h a before
        .ok ({ s with heap := h, head := some (if a = hn.next then a else hd) }, n.d)

/-- The loop of `check_cache_index`, `check_cache_name` and `cache_tag_del`,
`src/lib/libdata.c:117-119,145-147,215-217`.  A loop that goes on longer than there are nodes is
counted as undefined. -/
def findLoop (h : Heap) (p : Desc → Bool) (hd : Nat) : Nat → Nat → C (Option Nat)
  | 0, _ => .ub "endless loop"
  | k + 1, this =>
    if this = hd then .ok none
    else do
      let n ← deref h this
      if p n.d then .ok (some this) else findLoop h p hd k n.next

/-- The search in `check_cache_index`, `check_cache_name` and `cache_tag_del`,
`src/lib/libdata.c:108-123,136-151,207-221`. -/
def find (s : State) (p : Desc → Bool) : C (Option Nat) :=
  match s.head with
  | none => .ok none
  | some hd => do
    let n ← deref s.heap hd
    if p n.d then .ok (some hd) else findLoop s.heap p hd s.count n.next

/-- `check_cache_index` and `check_cache_name`, `src/lib/libdata.c:103-156`; `none` is ERR_NOTFOUND. -/
def check (s : State) (p : Desc → Bool) : C (State × Option Desc) := do
  match ← find s p with
  | none => .ok (s, none)
  | some a => do
    let (s, d) ← hit s a
    .ok (s, some d)

/-- Copying the description into the node, `src/lib/libdata.c:191-195`; the node has room for 32 characters. -/
def setDesc (h : Heap) (a : Nat) (d : Desc) : C Heap :=
  if d.name.length > TAGNAME_SIZE then .ub "strcpy past the name"
  else do
    let n ← deref h a
    .ok (upd h a { n with d := d })

/-- `cache_tag_add`, `src/lib/libdata.c:160-199`; `a` is the address `malloc` returns, which must be free. -/
def add (s : State) (a : Nat) (d : Desc) : C State :=
  match s.head with
  | none =>
    if (s.heap a).isSome then .ub "not an input"
    else do
      let h ← setDesc (upd s.heap a ⟨d, a, a⟩) a d
      .ok { s with heap := h, head := some a, count := s.count + 1 }
  | some hd =>
    if (s.count : Int) < s.limit then
      if (s.heap a).isSome then .ub "not an input"
      else do
        let hn ← deref s.heap hd
        let h := upd s.heap a ⟨d, hd, hn.prev⟩
        let hn ← deref h hd
        let h ← setNext h hn.prev a
        let h ← setPrev h hd a
        let h ← setDesc h a d
        .ok { s with heap := h, count := s.count + 1 }
    else do
      let hn ← deref s.heap hd
      let h ← setDesc s.heap hn.prev d
      .ok { s with heap := h }

/-- `cache_tag_del`, `src/lib/libdata.c:203-243`; the result is not used by any caller. -/
def del (s : State) (idx : Int) : C State := do
  match ← find s (fun d => d.idx == idx) with
  | none => .ok s
  | some a => do
    let n ← deref s.heap a
    if n.next = a then
      .ok { s with heap := (fun x => if x = a then none else s.heap x), head := none, count := s.count - 1 }
    else do
      let h ← setPrev s.heap n.next n.prev
      let h ← setNext h n.prev n.next
      .ok { s with heap := (fun x => if x = a then none else h x),
                   head := if s.head = some a then some n.next else s.head, count := s.count - 1 }

/-- What a module does; `srv` is what the server answers if it is asked (`none` is an error), `a` an address for `malloc`. -/
inductive Op where
  /-- `dax_tag_byname` -/
  | byName (n : Name) (srv : Option Desc) (a : Nat)
  /-- `dax_tag_byindex` -/
  | byIndex (i : Int) (srv : Option Desc) (a : Nat)
  /-- `dax_tag_add` that the server accepts; `d` is what was asked for and the index the server gave. -/
  | tagAdd (d : Desc) (a : Nat)
  /-- A read, write, mask write or atomic operation that the server answers with ERR_DELETED. -/
  | deleted (idx : Int)
deriving Repr, DecidableEq

/-- Asking the server after a miss, `src/lib/libmsg.c:580-610,634-657`. -/
def learn (s : State) (srv : Option Desc) (a : Nat) : C (State × Option Desc) :=
  match srv with
  | none => .ok (s, none)
  | some d => do
    let s ← add s a d
    .ok (s, some d)

/-- One operation: `dax_tag_byname` `src/lib/libmsg.c:566-614`, `dax_tag_byindex` `:625-660`, `dax_tag_add` `:513-522`,
`dax_read`, `dax_write`, `dax_mask`, `dax_atomic_op` `:701-704,756-759,812-815,1124-1127`. -/
def step (s : State) : Op → C (State × Option Desc)
  | .byName n srv a =>
    if n.length > TAGNAME_SIZE ∨ n = [] then .ok (s, none)
    else do
      match ← check s (fun d => d.name == n) with
      | (s, some d) => .ok (s, some d)
      | (s, none) => learn s srv a
  | .byIndex i srv a => do
    match ← check s (fun d => d.idx == i) with
    | (s, some d) => .ok (s, some d)
    | (s, none) => learn s srv a
  | .tagAdd d a => do
    let s ← del s d.idx
    let s ← add s a d
    .ok (s, none)
  | .deleted idx => do
    let s ← del s idx
    .ok (s, none)

def run (s : State) : List Op → C (State × List (Option Desc))
  | [] => .ok (s, [])
  | o :: os => do
    let (s, r) ← step s o
    let (s, rs) ← run s os
    .ok (s, r :: rs)

end Dax.TagCache
