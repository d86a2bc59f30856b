import Verif.Model.LuaTag
import Verif.Model.Wire
/-!
# Overrides and atomic operations from Lua: `src/lib/lua/libdaxlua.c`

The handle is an argument (making it from a name is in `Model/LibPath.lean`).
-/
set_option autoImplicit false
namespace Dax.Lua
open LibPath LibData

/-- `_override_add`, `src/lib/lua/libdaxlua.c:1313-1341`: the call of the library, none if the conversion fails.  `junk` is what `malloc` returns for the data; the mask is not used. -/
def luaOverrideAdd (env : LuaEnv) (s : Server) (fd : Int) (c : TypeCache) (h : Handle) (v : Val) (junk : List Byte) : C (TypeCache × Option Wire.Call) := do
  let (c, w, err) ← luaToDax env s fd c h.type h.count ⟨junk, List.replicate h.size 0, [v]⟩
  if err ≠ 0 then .ok (c, none)
  else .ok (c, some (.ovrAdd h w.data))

/-- `_atomic_op`, `src/lib/lua/libdaxlua.c:1127-1168`, with its arguments: the call of the library, none if it raises an error before.  The third argument is the operation in 16 bits, 0 if there is none; then the top of the stack, whatever it is, is taken off. -/
def luaAtomicOp (env : LuaEnv) (s : Server) (fd : Int) (c : TypeCache) (h : Handle) (args : List Val) (junk : List Byte) : C (TypeCache × Option Wire.Call) := do
  if args.length < 1 ∨ args.length > 3 then .ok (c, none)
  else do
    let op := match args[2]? with | some v => (toInteger env v % 65536).toNat | none => 0
    let (c, w, err) ← luaToDax env s fd c h.type h.count ⟨junk, List.replicate h.size 0, args.reverse.drop 1⟩
    if err ≠ 0 then .ok (c, none)
    else .ok (c, some (.atomic h (some w.data) op))

end Dax.Lua
