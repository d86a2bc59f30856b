import Verif.Model.LibLua
import Verif.Model.LibData
/-!
# Reading and writing tags from Lua: `src/lib/lua/libdaxlua.c`, `src/modules/daxlua/luaif.c`

The functions `tag_read` and `tag_write` of the Lua library, and `fetch_tag` and `send_tag` of the module daxlua, which transfer globals before and after a script.
The handle is an argument (making it from a name is in `Model/LibPath.lean`); the arguments of the Lua function are checked before.
-/
set_option autoImplicit false
namespace Dax.Lua
open LibPath LibData

/-- `_tag_read`, `src/lib/lua/libdaxlua.c:756-773`; `fetch_tag`, `src/modules/daxlua/luaif.c:33-53`.  No value if the transfer fails (an error is raised, or returned).
The value is not made if the transfer does not end. -/
def luaTagRead (s : Server) (fd : Int) (c : TypeCache) (h : Handle) : C (Server × TypeCache × Log × Outcome × Option Val) := do
  let (s, c, l, o, d) ← daxTagRead s fd c h
  if o ≠ .done 0 then .ok (s, c, l, o, none)
  else do
    let (c, v) ← daxToLua s fd c h.type h.count d
    .ok (s, c, l, o, some v)

/-- The loop over the mask, `src/lib/lua/libdaxlua.c:824-828`; `src/modules/daxlua/luaif.c:92-96`. -/
def anyUnmasked (mask : List Byte) (size : Nat) : Bool := (mask.take size).any (· ≠ 0xFF)

/-- `_tag_write`, `src/lib/lua/libdaxlua.c:801-841`; `send_tag`, `src/modules/daxlua/luaif.c:57-110`.  `v` is on the top of the stack; `junk` is what `malloc` returns for the data.  No outcome if the
conversion fails (then nothing is sent). -/
def luaTagWrite (env : LuaEnv) (s : Server) (fd : Int) (c : TypeCache) (h : Handle) (v : Val) (junk : List Byte) : C (Server × TypeCache × Log × Option Outcome) := do
  let (c, w, err) ← luaToDax env s fd c h.type h.count ⟨junk, List.replicate h.size 0, [v]⟩
  if err ≠ 0 then .ok (s, c, [], none)
  else if anyUnmasked w.mask h.size then do
    let (s, c, l, o, _) ← daxTagMask s fd c h w.data w.mask
    .ok (s, c, l, some o)
  else do
    let (s, c, l, o, _) ← daxTagWrite s fd c h w.data
    .ok (s, c, l, some o)

end Dax.Lua
