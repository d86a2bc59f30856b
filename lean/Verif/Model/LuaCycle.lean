import Verif.Model.LuaTag
/-!
# One execution of a Lua script: `src/modules/daxlua/scripts.c`

Tags and constants become globals of the script before it runs, and globals are written to tags after it has run.  Tables are values here: two globals do not share one.
What `_receive_globals` and `_send_globals` leave on the stack of Lua is not modelled, nor is `_trigger_data`.
-/
set_option autoImplicit false
namespace Dax.Lua
open LibPath LibData

/-- The globals of a Lua state. -/
abbrev Vars := Name → Val

/-- `lua_setglobal`. -/
def setVar (vars : Vars) (n : Name) (v : Val) : Vars := fun m => if m = n then v else vars m

/-- `global_t`, `src/modules/daxlua/daxlua.h:52-59`: `MODE_READ` and `MODE_WRITE`; a constant has its value in `static` (`MODE_STATIC`, `ref`); `handle` is there when `MODE_INIT` is set. -/
structure Glob where
  name : Name
  tagname : Name := []
  read : Bool := false
  write : Bool := false
  static : Option Val := none
  handle : Option Handle := none

/-- A script as far as its globals are concerned; `globs` is the list `globals`, which has the last one of the configuration first, `add_global` and `add_static`, `src/modules/daxlua/scripts.c:87-144`. -/
structure Script where
  globs : List Glob
  vars : Vars
  firstrun : Bool := true

/-- One round of the loop of `_receive_globals`, the part that gets the handle, `src/modules/daxlua/scripts.c:162-185`: a new handle without `MODE_READ` makes the global all zeros. -/
def findGlob (s : Server) (fd : Int) (byname : Name → Option TagFound) (c : TypeCache) (g : Glob) (vars : Vars) : C (TypeCache × Glob × Vars) :=
  match g.static with
  | some v => .ok (c, g, setVar vars g.name v)
  | none =>
    match g.handle with
    | some _ => .ok (c, g, vars)
    | none => do
      let (c, h, r) ← tagHandle s fd byname c g.tagname 0
      if r ≠ 0 then .ok (c, g, vars)
      else if g.read then .ok (c, { g with handle := some h }, vars)
      else do
        let (c, v) ← daxToLua s fd c h.type h.count (List.replicate h.size 0)
        .ok (c, { g with handle := some h }, setVar vars g.name v)

/-- The rest of the round, `src/modules/daxlua/scripts.c:189-195`: nil if the tag cannot be read. -/
def fetchGlob (s : Server) (fd : Int) (c : TypeCache) (g : Glob) (vars : Vars) : C (Server × TypeCache × Vars) :=
  match g.handle with
  | none => .ok (s, c, vars)
  | some h =>
    if g.read then do
      let (s, c, _, _, v) ← luaTagRead s fd c h
      .ok (s, c, setVar vars g.name (v.getD .nil))
    else .ok (s, c, vars)

/-- `_receive_globals`, `src/modules/daxlua/scripts.c:150-203`, the loop.  The result of `malloc` is not looked at. -/
def receiveGlobs (s : Server) (fd : Int) (byname : Name → Option TagFound) : TypeCache → List Glob → Vars → C (Server × TypeCache × List Glob × Vars)
  | c, [], vars => .ok (s, c, [], vars)
  | c, g :: gs, vars => do
    let (c, g, vars) ← findGlob s fd byname c g vars
    let (s, c, vars) ← fetchGlob s fd c g vars
    let (s, c, gs, vars) ← receiveGlobs s fd byname c gs vars
    .ok (s, c, g :: gs, vars)

/-- `_send_globals`, `src/modules/daxlua/scripts.c:208-228`.  `junk` is what `malloc` returns for a global.  The flag is whether all were written. -/
def sendGlobs (env : LuaEnv) (fd : Int) (junk : Glob → List Byte) (vars : Vars) : Server → TypeCache → List Glob → C (Server × TypeCache × Bool)
  | s, c, [] => .ok (s, c, true)
  | s, c, g :: gs =>
    match g.handle with
    | none => sendGlobs env fd junk vars s c gs
    | some h =>
      if g.write then do
        let (s, c, _, o) ← luaTagWrite env s fd c h (vars g.name) (junk g)
        if o = some (.done 0) then sendGlobs env fd junk vars s c gs else .ok (s, c, false)
      else sendGlobs env fd junk vars s c gs

/-- What a script does, and all that happens in the server meanwhile.  The flag is whether it ends with an error. -/
abbrev Body := Server → TypeCache → Vars → C (Server × TypeCache × Vars × Bool)

/-- `run_script`, `src/modules/daxlua/scripts.c:261-285`: the globals are written after an error, too. -/
def execScript (env : LuaEnv) (s : Server) (fd : Int) (byname : Name → Option TagFound) (c : TypeCache) (junk : Glob → List Byte) (x : Script) (body : Body) : C (Server × TypeCache × Script × Bool) := do
  let (s, c, gs, vars) ← receiveGlobs s fd byname c x.globs x.vars
  let vars := setVar vars (nm "_firstrun") (.bool x.firstrun)
  let (s, c, vars, err) ← body s c vars
  let (s, c, _) ← sendGlobs env fd junk vars s c gs
  .ok (s, c, { globs := gs, vars := vars, firstrun := false }, err)

end Dax.Lua
