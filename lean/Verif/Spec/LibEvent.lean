import Verif.Model.LibEvent
set_option autoImplicit false
/-!
# Specification for C47 and C49: pending events and registered callbacks
-/
namespace Dax.LibEv

/-- What a client knows: the events that wait for delivery, oldest first, and the callbacks
registered for every (tag, event) pair, first registered first. -/
structure Abs where
  pending : List Msg := []
  reg : List ((Nat × Nat) × Nat × Option Nat × Option Nat) := []

/-- The last `n` elements. -/
def lastN {α : Type} (n : Nat) (l : List α) : List α := l.drop (l.length - n)

/-- Tag and event number an event message is about. -/
def Msg.key (m : Msg) : Nat × Nat := (be4 (m.data.take 4), be4 ((m.data.drop 4).take 4))

/-- Delivery of one event: the callback registered for the pair, and no other. -/
def Abs.deliver (a : Abs) (m : Msg) : Ans :=
  match a.reg.lookup m.key with
  | some (u, c, _) =>
    { code := 0, invoked := c.map (fun c => (c, u, m.data.drop 8)),
      id := some (i32 m.key.1, i32 m.key.2) }
  | none => { code := ERR_GENERIC }

/-- What should happen. -/
def Abs.step (a : Abs) : Op → Abs × Ans
  | .arrive m =>
    if m.type.testBit 31 then ({ a with pending := lastN 8 (a.pending ++ [m]) }, { code := 0 })
    else (a, { code := 0 })
  | .poll =>
    match a.pending with
    | [] => (a, { code := ERR_NOTFOUND })
    | m :: r => ({ a with pending := r }, a.deliver m)
  | .wait =>
    match a.pending with
    | [] => (a, { code := ERR_TIMEOUT })
    | m :: r => ({ a with pending := r }, a.deliver m)
  | .add i d u c f => ({ a with reg := a.reg ++ [((u32 i, u32 d), u, c, f)] }, { code := 0 })
  | .del i d =>
    match a.reg.lookup (u32 i, u32 d) with
    | some (u, _, f) =>
      ({ a with reg := a.reg.eraseP (fun e => e.1 == (u32 i, u32 d)) },
        { code := 0, freed := f.map (fun f => (f, u)) })
    | none => (a, { code := ERR_NOTFOUND })

def Abs.run (a : Abs) : List Op → Abs × List Ans
  | [] => (a, [])
  | o :: os => ((((a.step o).1).run os).1, (a.step o).2 :: (((a.step o).1).run os).2)

end Dax.LibEv
