import Verif.Model.LibPath
import Verif.Model.LibData
import Verif.Model.LibFunc
import Verif.Model.Wire
/-!
# The command-line client: `src/modules/daxc`

The division of a line into words and the functions for tags, overrides and atomic operations.  Failure of `malloc`, what is printed besides the values, and the commands for types, mappings
and events are not modelled.  A word is a string without its zero.
-/
set_option autoImplicit false
namespace Dax.Daxc
open LibPath LibData Conv

/-! ## Lines and words -/

/-- One call of `_str_daxtok`, `src/modules/daxc/daxc.c:59-78`: the loop, as the word it leaves at the start of the text and what is left of the text.  The character under which the word
ends is replaced by a zero.  `last` is the character before within quotation marks. -/
def scan : Bool → Byte → Name → Name × Name
  | _, _, [] => ([], [])
  | true, last, x :: xs =>
    let r := scan (!(x == 34#8 && last != 92#8)) x xs
    (x :: r.1, r.2)
  | false, last, x :: xs =>
    if x = 34#8 then
      let r := scan true x xs
      (x :: r.1, r.2)
    else if x = 32#8 then ([], xs)
    else
      let r := scan false last xs
      (x :: r.1, r.2)

theorem scan_length : ∀ (t : Name) (q : Bool) (b : Byte), (scan q b t).2.length ≤ t.length - 1 := by
  intro t
  induction t with
  | nil => intro q b; cases q <;> simp [scan]
  | cons x xs ih =>
    intro q b
    cases q
    · unfold scan
      split
      · have := ih true x; simp only [List.length_cons]; omega
      · split
        · simp
        · have := ih false b; simp only [List.length_cons]; omega
    · unfold scan
      have := ih (!(x == 34#8 && b != 92#8)) x
      simp only [List.length_cons]; omega

/-- The calls after the first, until nothing is left, `src/modules/daxc/daxc.c:53-57,288-290`. -/
def later (t : Name) : List Name :=
  if _h : t = [] then [] else (scan false 0 t).1 :: later (scan false 0 t).2
termination_by t.length
decreasing_by
  have := scan_length t false 0
  have : 0 < t.length := List.length_pos_iff.mpr _h
  omega

/-- All words of a line, `src/modules/daxc/daxc.c:283-309`: the first call returns a word whatever the text is. -/
def words (line : Name) : List Name := (scan false 0 line).1 :: later (scan false 0 line).2

/-- A store of eight bytes into a block of `size` bytes. -/
def store8 (size off : Nat) : C Unit := if off + 8 ≤ size then .ok () else .ub "write outside block"

/-- The pointers of the words, `src/modules/daxc/daxc.c:304-309`. -/
def storeWords (size : Nat) : Nat → Nat → C Unit
  | 0, _ => .ok ()
  | k + 1, n => do
    store8 size (8 * n)
    storeWords size k (n + 1)

/-- `runcmd`, `src/modules/daxc/daxc.c:269-310`, up to the choice of a function: the words, or none for a line that is skipped.  The block for the pointers has
`sizeof(char *) * tcount+1` bytes. -/
def runcmd (line : Name) : C (Option (List Name)) :=
  match line with
  | [] => .ok none
  | 35#8 :: _ => .ok none
  | _ => do
    let ws := words line
    let size := 8 * ws.length + 1
    storeWords size ws.length 0
    store8 size (8 * ws.length)
    .ok (some ws)

/-! ## A file of commands -/

/-- `LINE_BUFF_SIZE`, `src/modules/daxc/daxc.h:33`. -/
def LINE_BUFF_SIZE : Nat := 256

/-- What `fgets` takes of the file if `room` characters still fit, `src/modules/daxc/daxc.c:395`: the characters, what is left of the file, and whether the end was met. -/
def fgets : Nat → Name → Name × Name × Bool
  | 0, t => ([], t, false)
  | _ + 1, [] => ([], [], true)
  | k + 1, x :: xs =>
    if x = 10#8 then ([x], xs, false)
    else
      let r := fgets k xs
      (x :: r.1, r.2.1, r.2.2)

/-- The line without its end, `src/modules/daxc/daxc.c:396-397`.  For an empty string the character before the array is read. -/
def chop (str : Name) : C Name :=
  match str.getLast? with
  | none => .ub "read before block"
  | some x => .ok (if x = 10#8 then str.dropLast else str)

/-- The array when `fgets` has returned: unchanged if nothing could be read.  As a string it ends at the first zero. -/
def gotLine (str chunk : Name) : Name := if chunk = [] then str else chunk.takeWhile (· ≠ 0#8)

/-- The loop of `runfile`, `src/modules/daxc/daxc.c:394-399`: the lines given to `runcmd`.  `str` is what the array contains before; `k` bounds the passes. -/
def runLoop : Nat → Name → Name → C (List Name)
  | 0, _, _ => .ub "not reached"
  | k + 1, t, str => do
    let g := fgets (LINE_BUFF_SIZE - 1) t
    let line ← chop (gotLine str g.1)
    if g.2.2 then .ok [line]
    else do
      let r ← runLoop k g.2.1 line
      .ok (line :: r)

/-- `runfile`, `src/modules/daxc/daxc.c:382-401`, for a file with the given contents; `junk` is the array before anything was read. -/
def runfile (t junk : Name) : C (List Name) := runLoop (t.length + 1) t junk

/-! ## Values -/

/-- `strncmp(word, "~", 1)`, `src/modules/daxc/daxc_tag.c:468`. -/
def skipped (w : Name) : Bool := w.head? == some 126#8

/-- The loop over the values, `src/modules/daxc/daxc_tag.c:467-473`; the last component tells whether any was skipped. -/
def values (e : TextEnv) (type : Nat) : List Name → Nat → List Byte → List Byte → C (List Byte × List Byte × Bool)
  | [], _, b, m => .ok (b, m, false)
  | w :: ws, n, b, m =>
    if skipped w then do
      let (b, m, _) ← values e type ws (n + 1) b m
      .ok (b, m, true)
    else do
      let (_, b, m') ← stringToVal e w type b (some m) n
      values e type ws (n + 1) b (m'.getD m)

/-- A block of zeros. -/
def zeros (n : Nat) : List Byte := List.replicate n 0

/-- Writing values through a handle, `src/modules/daxc/daxc_tag.c:449-478`.  The mask is used for `BOOL` and if a value was skipped. -/
def writeValues (e : TextEnv) (s : Server) (fd : Int) (c : TypeCache) (h : Handle) (ws : List Name) : C (Server × TypeCache × Log × Outcome) := do
  let (b, m, skip) ← values e h.type (ws.take h.count) 0 (zeros h.size) (zeros h.size)
  if h.type = DAX_BOOL ∨ skip = true then do
    let (s, c, l, o, _) ← daxTagMask s fd c h b m
    .ok (s, c, l, o)
  else do
    let (s, c, l, o, _) ← daxTagWrite s fd c h b
    .ok (s, c, l, o)

/-- The text between the quotation marks, `src/modules/daxc/daxc_tag.c:411-420`, of a word with at least one of them.  The mark at the front and the one at the end are removed if they are
there; a word that is a single mark has length -1 afterwards, which is treated like 0. -/
def unquote (w : Name) : Name :=
  let w := if w.head? = some 34#8 then w.drop 1 else w
  if w.getLast? = some 34#8 then w.dropLast else w

/-- Writing a text, `src/modules/daxc/daxc_tag.c:439-442`. -/
def writeText (s : Server) (fd : Int) (c : TypeCache) (h : Handle) (t : Name) : C (Server × TypeCache × Log × Outcome) := do
  let (s, c, l, o, _) ← daxTagWrite s fd c h (t.take h.size ++ zeros (h.size - (t.take h.size).length))
  .ok (s, c, l, o)

/-- `tag_write`, `src/modules/daxc/daxc_tag.c:392-491`: what the function returns, and the outcome of the call that writes, if there was one. -/
def tagWrite (e : TextEnv) (s : Server) (fd : Int) (byname : Name → Option TagFound) (c : TypeCache) (toks : List Name) : C (Server × TypeCache × Log × Int × Option Outcome) :=
  match toks with
  | name :: w :: ws =>
    if w.contains 34#8 then
      let t := unquote w
      if t = [] then .ok (s, c, [], ERR_ARG, none)
      else do
        let (c, h, r) ← tagHandle s fd byname c name 0
        if r ≠ 0 then .ok (s, c, [], ERR_ARG, none)
        else if typeBits h.type ≠ 8 then .ok (s, c, [], ERR_ARG, none)
        else do
          let (s, c, l, o) ← writeText s fd c h t
          .ok (s, c, l, 0, some o)
    else do
      let (c, h, r) ← tagHandle s fd byname c name (w :: ws).length
      if r ≠ 0 then .ok (s, c, [], ERR_ARG, none)
      else do
        let (s, c, l, o) ← writeValues e s fd c h (w :: ws)
        .ok (s, c, l, 0, some o)
  | _ => .ok (s, c, [], ERR_ARG, none)

/-! ## Overrides and atomic operations

These functions end with one call of the library, or return before it. -/

/-- `override_add` with values, `src/modules/daxc/daxc_tag.c:667-694`: the call for a handle. -/
def overrideValues (e : TextEnv) (h : Handle) (ws : List Name) : C Wire.Call := do
  let (b, _, _) ← values e h.type (ws.take h.count) 0 (zeros h.size) (zeros h.size)
  .ok (.ovrAdd h b)

/-- `override_set`, `override_clr` and `override_del`, `src/modules/daxc/daxc_tag.c:712-800`: the call, with the handle `dax_tag_handle` has left, whether it succeeded or not. -/
def overrideName (mk : Handle → Wire.Call) (s : Server) (fd : Int) (byname : Name → Option TagFound) (c : TypeCache) (name : Name) : C (TypeCache × Wire.Call) := do
  let (c, h, _) ← tagHandle s fd byname c name 0
  .ok (c, mk h)

/-- `strncasecmp(word, text, text.length)` is 0; `text` in small letters. -/
def begins (w : Name) (text : String) : Bool :=
  (w.take text.length).map (fun b : Byte => if 65 ≤ b.toNat ∧ b.toNat ≤ 90 then b + 32 else b) == nm text

/-- `_get_atomic_op_type`, `src/modules/daxc/daxc_tag.c:802-814`, with the numbers of `src/opendax.h:175-183`. -/
def opType (w : Name) : Nat :=
  if begins w "inc" then 1
  else if begins w "dec" then 2
  else if begins w "not" then 3
  else if begins w "or" then 4
  else if begins w "and" then 5
  else if begins w "nor" then 6
  else if begins w "nand" then 7
  else if begins w "xor" then 8
  else if begins w "xno" then 8
  else 0

/-- The loop over the values of an operation, `src/modules/daxc/daxc_tag.c:914-918`: `prev` is the word before the value, and it is the one looked at. -/
def opValues (e : TextEnv) (type : Nat) : Name → List Name → Nat → List Byte → List Byte → C (List Byte)
  | _, [], _, b, _ => .ok b
  | prev, w :: ws, n, b, m =>
    if skipped prev then opValues e type w ws (n + 1) b m
    else do
      let (_, b, m') ← stringToVal e w type b (some m) n
      opValues e type w ws (n + 1) b (m'.getD m)

/-- `atomic_op`, `src/modules/daxc/daxc_tag.c:842-921`, after the handle was found: the call, or what is returned before it. -/
def atomicOp (e : TextEnv) (h : Handle) (op : Name) (ws : List Name) : C (Except Int Wire.Call) :=
  if opType op = 0 then .ok (.error ERR_ARG)
  else if ws = [] then
    if opType op = 1 ∨ opType op = 2 then
      -- every base type but BOOL has its own case, which ends with `return 0`
      if baseTypes.contains h.type ∧ h.type ≠ DAX_BOOL then .ok (.error 0) else .ok (.error (-1))
    else if opType op ≠ 3 then .ok (.error (-1))
    else .ok (.ok (.atomic h (some (zeros h.size)) 3))
  else do
    let b ← opValues e h.type op (ws.take h.count) 0 (zeros h.size) (zeros h.size)
    .ok (.ok (.atomic h (some b) (opType op)))

/-! ## Lists of tags -/

/-- What `dax_tag_byindex` answers: a tag, a tag that was deleted, or another error. -/
inductive Look where
  | live
  | deleted
  | other
deriving DecidableEq, Repr

/-- The loop that shows up to `k` tags from `next` on, `src/modules/daxc/daxc_tag.c:210-222,226-238`: the tags shown, and `nextindex` afterwards.  `room` is the number of tags up to the
last one. -/
def showLoop (look : Nat → Look) : Nat → Nat → Nat → List Nat × Nat
  | 0, _, next => ([], next)
  | _ + 1, 0, next => ([], next)
  | room + 1, k + 1, next =>
    match look next with
    | .live =>
      let r := showLoop look room k (next + 1)
      (next :: r.1, r.2)
    | .deleted => showLoop look room (k + 1) (next + 1)
    | .other => ([], next)

/-- `list_tags` with a single number, `src/modules/daxc/daxc_tag.c:191,224-238`. -/
def listNext (look : Nat → Look) (last k next : Nat) : List Nat × Nat :=
  let next := if next ≥ last then 0 else next
  showLoop look (last + 1 - next) k next

/-- `list_tags` with two numbers that are not negative, `src/modules/daxc/daxc_tag.c:205-222`. -/
def listFrom (look : Nat → Look) (last start k : Nat) : List Nat × Nat := showLoop look (last + 1 - start) k start

/-- The loop without arguments, `src/modules/daxc/daxc_tag.c:243-254`; it ends at an error that is not a deleted tag. -/
def listLoop (look : Nat → Look) : Nat → Nat → List Nat
  | 0, _ => []
  | room + 1, n =>
    match look n with
    | .live => n :: listLoop look room (n + 1)
    | .deleted => listLoop look room (n + 1)
    | .other => []

/-- `list_tags` without arguments, `src/modules/daxc/daxc_tag.c:241-256`. -/
def listAll (look : Nat → Look) (last : Nat) : List Nat × Nat := (listLoop look (last + 1) 0, 0)

/-- What the same command with one number shows, given again and again. -/
def pages (look : Nat → Look) (last k : Nat) : Nat → Nat → List (List Nat)
  | 0, _ => []
  | t + 1, next =>
    let r := listNext look last k next
    r.1 :: pages look last k t r.2

/-! ## Reading and deleting -/

/-- The values `tag_read` prints, `src/modules/daxc/daxc_tag.c:372-376`, for types that are neither custom nor `CHAR`. -/
def readTexts (type : Nat) (data : List Byte) : Nat → Nat → C (List Name)
  | 0, _ => .ok []
  | k + 1, n => do
    let t ← valToString 32 type data n
    let r ← readTexts type data k (n + 1)
    .ok (t :: r)

/-- `tag_del` with a name, `src/modules/daxc/daxc_tag.c:128-159`: the index given to `dax_tag_del`, if it is called.  `found` is the answer of `dax_tag_byname`, an error or an index;
`junk` is the index in the structure nothing was stored into. -/
def tagDel (found : Except Int Int) (junk : Int) : Option Int :=
  match found with
  | .ok i => some i
  | .error r => if r = ERR_NOTFOUND ∨ r = ERR_ARG ∨ r = ERR_DELETED then none else some junk

end Dax.Daxc
