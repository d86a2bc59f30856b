import Verif.Model.ModuleRing
set_option autoImplicit false
/-!
# Specification for C59: a table of connections
-/
namespace Dax.Ring

/-- Connections and the names registered for them, the latest first. -/
abbrev Table := List (Int × List Byte)

/-- What the operations do to the table, and the answers. -/
def Table.step (t : Table) : Op → Table × Option (List Byte)
  | .reg fd name _ _ => ((fd, name) :: t.filter (fun e => e.1 ≠ fd), none)
  | .unreg fd _ => (t.filter (fun e => e.1 ≠ fd), none)
  | .find fd => (t, t.lookup fd)

def Table.run (t : Table) : List Op → Table × List (Option (List Byte))
  | [] => (t, [])
  | o :: os => ((((t.step o).1).run os).1, (t.step o).2 :: (((t.step o).1).run os).2)

end Dax.Ring
