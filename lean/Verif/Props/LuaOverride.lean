import Verif.Props.LuaTag
import Verif.Model.LuaOverride
/-!
# Overrides and atomic operations from Lua: C111

Full property: `override_add` overrides the elements that the value has with what it has there, and no others; `atomic_op` sends the value and the operation that it is given.
-/
set_option autoImplicit false
namespace Dax
open Dax.LibPath Dax.LibData Dax.Lua

/-- **C111**, overrides: for a value of the right shape the override is asked for with the values of all elements that are not nil where they belong.

Missing: the elements that the value leaves out, whose bits are what `malloc` left (`C111_left_out`), and what is missing in C68. -/
theorem C111_add_partial {s : Server} (hr : Reachable s) {env : LuaEnv} {fd : Int} {c : TypeCache} {h : Handle} {e cap : Nat} (hf : Compound h.type → Fits cap s h.type) (hfc : Faithful s c) (he : ElemBits s.cdts h.type e)
    (hn : 0 < h.count) (hN : e * h.count ≤ 2147483600) {v : Val} (hv : Shaped s.cdts h.type h.count v) {junk : List Byte} (hl : e * h.count ≤ 8 * junk.length) (hm : junk.length = h.size) :
    ∃ c' data' mask', luaOverrideAdd env s fd c h v junk = .ok (c', some (.ovrAdd h data')) ∧ data'.length = h.size ∧
      (∀ ks ty off, At s.cdts h.type h.count ks ty 1 off → Goes env ty off (valAt v ks) junk (List.replicate h.size 0) data' mask') ∧
      (∀ b, Changed junk (List.replicate h.size 0) data' mask' b → ∃ ks ty off e', At s.cdts h.type h.count ks ty 1 off ∧ valAt v ks ≠ .nil ∧ Width ty e' ∧ off ≤ b ∧ b < off + e') := by
  obtain ⟨c', data', mask', a1, -, a3, -, a5, a6⟩ := C68_write_partial hr (env := env) (fd := fd) hf hfc he hn hN hv (data := junk) (mask := List.replicate h.size 0) (st := []) hl (by rw [List.length_replicate, hm])
  refine ⟨c', data', mask', ?_, a3.trans hm, a5, a6⟩
  unfold luaOverrideAdd
  rw [a1]
  rfl

/-- **C111**, atomic operations with three arguments: value and operation are those given.

Missing: as for `C111_add_partial`; fewer arguments (`C111_two`, `C111_one`). -/
theorem C111_atomic_partial {s : Server} (hr : Reachable s) {env : LuaEnv} {fd : Int} {c : TypeCache} {h : Handle} {e cap : Nat} (hf : Compound h.type → Fits cap s h.type) (hfc : Faithful s c) (he : ElemBits s.cdts h.type e)
    (hn : 0 < h.count) (hN : e * h.count ≤ 2147483600) {v : Val} (hv : Shaped s.cdts h.type h.count v) {junk : List Byte} (hl : e * h.count ≤ 8 * junk.length) (hm : junk.length = h.size) (first : Val) {op : Nat} (ho : op < 65536) :
    ∃ c' data' mask', luaAtomicOp env s fd c h [first, v, .int op] junk = .ok (c', some (.atomic h (some data') op)) ∧ data'.length = h.size ∧
      ∀ ks ty off, At s.cdts h.type h.count ks ty 1 off → Goes env ty off (valAt v ks) junk (List.replicate h.size 0) data' mask' := by
  obtain ⟨c', data', mask', a1, -, a3, -, a5, -⟩ := C68_write_partial hr (env := env) (fd := fd) hf hfc he hn hN hv (data := junk) (mask := List.replicate h.size 0) (st := [first]) hl (by rw [List.length_replicate, hm])
  refine ⟨c', data', mask', ?_, a3.trans hm, a5⟩
  have e1 : (toInteger env (.int op) % 65536).toNat = op := by
    show ((op : Int) % 65536).toNat = op
    omega
  unfold luaAtomicOp
  rw [if_neg (by simp)]
  show (luaToDax env s fd c h.type h.count ⟨junk, List.replicate h.size 0, [v, first]⟩ >>= _) = _
  rw [a1]
  simp only [C.ok_bind]
  rw [if_neg (by simp)]
  simp only [List.getElem?_cons_succ, List.getElem?_cons_zero, e1]

/-- **C111** fails: of two INTs only the first is given, but both are overridden, the second with what `malloc` left, whatever that is. -/
theorem C111_left_out (a b x y : Byte) : Reachable (demo demoOps) ∧ luaOverrideAdd luaEnv (demo demoOps) 5 [] ⟨13, 0, 0, 2, 4, DAX_INT⟩ (.tbl [(.int 1, .int 7)]) [a, b, x, y] = .ok ([], some (.ovrAdd ⟨13, 0, 0, 2, 4, DAX_INT⟩ [7, 0, x, y])) :=
  ⟨demoOps_reachable, by kernel_rfl⟩

/-- **C111** fails: with two arguments the value is not used at all; the name of the tag is converted in its place. -/
theorem C111_two (env : LuaEnv) (s : Server) (fd : Int) (c : TypeCache) (h : Handle) (first v v' : Val) (junk : List Byte) : luaAtomicOp env s fd c h [first, v] junk = luaAtomicOp env s fd c h [first, v'] junk := rfl

/-- **C111** fails: with the name only, nothing is left on the stack that could be converted. -/
theorem C111_one (first : Val) (junk : List Byte) : luaAtomicOp luaEnv (demo demoOps) 5 [] ⟨13, 0, 0, 1, 2, DAX_INT⟩ [first] junk = .ub "empty stack" := by kernel_rfl

/-- **C111**, the number of arguments is checked otherwise. -/
theorem C111_count (env : LuaEnv) (s : Server) (fd : Int) (c : TypeCache) (h : Handle) (args : List Val) (junk : List Byte) (ha : args = [] ∨ 3 < args.length) : luaAtomicOp env s fd c h args junk = .ok (c, none) := by
  unfold luaAtomicOp
  rw [if_pos]
  rcases ha with rfl | ha
  · exact .inl (by decide)
  · exact .inr ha

/-- **C111**, a value that cannot be converted, such as a number for two INTs, is refused: nothing is sent. -/
theorem C111_refused (first : Val) (i : Int) (junk : List Byte) : luaOverrideAdd luaEnv (demo demoOps) 5 [] ⟨13, 0, 0, 2, 4, DAX_INT⟩ (.int i) junk = .ok ([], none) ∧
    luaAtomicOp luaEnv (demo demoOps) 5 [] ⟨13, 0, 0, 2, 4, DAX_INT⟩ [first, .int i, .int 1] junk = .ok ([], none) := ⟨by kernel_rfl, by kernel_rfl⟩

/-- **C111**, whenever the conversion gives an error nothing is sent. -/
theorem C111_error {env : LuaEnv} {s : Server} {fd : Int} {c c' : TypeCache} {h : Handle} {junk : List Byte} {w : W} {err : Int} (he : err ≠ 0) :
    (∀ v, luaToDax env s fd c h.type h.count ⟨junk, List.replicate h.size 0, [v]⟩ = .ok (c', w, err) → luaOverrideAdd env s fd c h v junk = .ok (c', none)) ∧
    ∀ first v op, luaToDax env s fd c h.type h.count ⟨junk, List.replicate h.size 0, [v, first]⟩ = .ok (c', w, err) → luaAtomicOp env s fd c h [first, v, op] junk = .ok (c', none) := by
  refine ⟨fun v hc => ?_, fun first v op hc => ?_⟩
  · unfold luaOverrideAdd
    rw [hc]
    simp only [C.ok_bind]
    rw [if_pos he]
  · unfold luaAtomicOp
    rw [if_neg (by simp)]
    show (luaToDax env s fd c h.type h.count ⟨junk, List.replicate h.size 0, [v, first]⟩ >>= _) = _
    rw [hc]
    simp only [C.ok_bind]
    rw [if_pos he]

/-- **C111** fails: an operation that 16 bits cannot hold becomes another one: 65537 becomes 1. -/
theorem C111_wraps (first : Val) : luaAtomicOp luaEnv (demo demoOps) 5 [] ⟨13, 0, 0, 1, 2, DAX_INT⟩ [first, .int 7, .int 65537] [0, 0] = .ok ([], some (.atomic ⟨13, 0, 0, 1, 2, DAX_INT⟩ (some [7, 0]) 1)) := by kernel_rfl

/-- Instance of the hypotheses of `C111_add_partial` and `C111_atomic_partial`: two INTs, both given. -/
example : Reachable (demo demoOps) ∧ Faithful (demo demoOps) [] ∧ ElemBits (demo demoOps).cdts DAX_INT 16 ∧ Shaped (demo demoOps).cdts DAX_INT 2 (.tbl [(.int 1, .int 7), (.int 2, .int (-1))]) ∧
    (∀ a b x y, luaOverrideAdd luaEnv (demo demoOps) 5 [] ⟨13, 0, 0, 2, 4, DAX_INT⟩ (.tbl [(.int 1, .int 7), (.int 2, .int (-1))]) [a, b, x, y] = .ok ([], some (.ovrAdd ⟨13, 0, 0, 2, 4, DAX_INT⟩ [7, 0, 0xFF, 0xFF]))) := by
  refine ⟨demoOps_reachable, faithful_nil _, .inr (.inl ⟨2, by decide, rfl⟩), .arr _ _ _ (by decide) fun i hi hne => ?_, fun a b x y => by kernel_rfl⟩
  have hi : i = 0 ∨ i = 1 := by omega
  rcases hi with rfl | rfl
  · exact .base _ _ (fun h => absurd h.1 (by decide)) (.inr (.inl ⟨2, true, 7, by decide, .inl rfl, by decide, by decide⟩))
  · exact .base _ _ (fun h => absurd h.1 (by decide)) (.inr (.inl ⟨2, true, -1, by decide, .inl rfl, by decide, by decide⟩))

end Dax
