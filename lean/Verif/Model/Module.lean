import Verif.Model.Groups
/-!
# Module registration: `src/server/module.c`
-/
namespace Dax

/-- Deletion of the tags a module owns, `src/server/module.c:304-309`: `k` tags left, next
index `n`. -/
def delOwned (fd : Int) : Nat → Nat → Server → C Server
  | 0, _, s => .ok s
  | k + 1, n, s =>
    match s.db[n]? with
    | none => .ub "database index"
    | some t =>
      if t.attr.owned && t.fd == fd then do
        let (s, _) ← tagDel s n
        delOwned fd k (n + 1) s
      else delOwned fd k (n + 1) s

/-- `module_unregister`, `src/server/module.c:292-315`, with `groups_cleanup`
(`src/server/groups.c:166-178`, which only frees memory of the module) and `module_del`
(`src/server/module.c:142-164`). -/
def moduleUnregister (s : Server) (fd : Int) : C Server :=
  match s.modByFd fd with
  | none => .ok s
  | some m => do
    let s ← eventsCleanup s m.uid
    if m.groupsSize > m.groups.length then .ub "group array"
    else do
      let s ← delOwned fd s.db.length 0 s
      let (s, _) ← tagDel s m.tagindex
      .ok { s with mods := s.mods.filter (fun x => x.uid ≠ m.uid) }

/-- Left-padded decimal number, `%03d` / `%05d`. -/
def padDec (w n : Nat) : Name :=
  List.replicate (w - (decNat n).length) 48#8 ++ decNat n

/-- The tag name of a module, `src/server/module.c:255-267`: `none` if the 33-byte buffer
overflows.  The second component is the new suffix counter. -/
def moduleTagName (s : Server) (name : Name) : C (Name × Nat) := do
  let base := nm "_m" ++ name.take (TAGNAME_SIZE - 2)
  match ← tagGetName s base with
  | .error _ => .ok (base, s.modUuid)
  | .ok _ =>
    let t := if s.modUuid < 1000 then base.take (TAGNAME_SIZE - 3) ++ padDec 3 s.modUuid
             else base.take (TAGNAME_SIZE - 5) ++ padDec 5 s.modUuid
    if t.length > TAGNAME_SIZE then .ub "tag name buffer" else .ok (t, s.modUuid + 1)

/-- `module_add`, `src/server/module.c:107-139`, followed by the assignments of
`module_register` (`:247-249`; timeout and host are not modelled).  `xmalloc` clears the
structure, so `tagindex` is 0. -/
def moduleAdd (s : Server) (name : Name) (fd : Int) : Server :=
  { s with mods := s.mods ++ [{ uid := s.nextUid, name := name, fd := fd, tagindex := 0,
                                eventCount := 0, groups := [], groupsSize := 0 }],
           nextUid := s.nextUid + 1 }

/-- The creation of the module tag, `src/server/module.c:250-281`.  If the tag cannot be
created, `tag_set_attribute` is called with a negative index. -/
def moduleTag (s : Server) (uid : Nat) (name : Name) (fd : Int) : C Server := do
  let (tn, uuid) ← moduleTagName s name
  let s := { s with modUuid := uuid }
  let (s, r) ← tagAdd s (-1) tn (cdtGetType s.cdts (nm "_module")) 1 0
  if r < 0 then .ub "tag_set_attribute of a negative index"
  else do
    let s := s.updMod uid (fun m => { m with tagindex := r })
    let (s, _) ← tagWrite s (-1) r 0 (toLE 8 s.env.now)
    let (s, _) ← tagWrite s (-1) r MOD_ID_OFFSET (le4 fd)
    match s.tag? r with
    | none => .ub "database index"
    | some t => do
      let s := s.setTag r { t with attr := { t.attr with special := true } }
      let (s, _) ← tagWrite s (-1) INDEX_LASTMODULE 0
        (tn ++ List.replicate (TAGNAME_SIZE - tn.length) 0)
      .ok s

/-- `module_register`, `src/server/module.c:228-289`. -/
def moduleRegister (s : Server) (name : Name) (fd : Int) : C Server := do
  let s ← match s.modByFd fd with
    | some _ => moduleUnregister s fd
    | none => .ok s
  let uid := s.nextUid
  let s := moduleAdd s name fd
  if s.env.exclude.contains name then .ok s
  else moduleTag s uid name fd

end Dax
