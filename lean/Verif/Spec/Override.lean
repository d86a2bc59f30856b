import Verif.Spec.Data
/-!
# Specification of overrides
-/
set_option autoImplicit false
namespace Dax

/-- What a client knows of the server's data and overrides: the data written, the value and mask
installed for each byte (if any), whether the override of a tag is switched on (if known), and
whether the last removal may have removed the override of the tag altogether. -/
structure OvrView where
  mem : Mem
  val : Nat → Nat → Option (Byte × Byte) := fun _ _ => none
  on : Nat → Option Bool := fun _ => some false
  gone : Nat → Bool := fun _ => false

/-- The known bytes of one tag after the bytes of `d` and `m` were installed at `off`. -/
def putAt (off : Nat) (d m : List Byte) (f : Nat → Option (Byte × Byte)) (p : Nat) : Option (Byte × Byte) :=
  if off ≤ p then
    match d[p - off]?, m[p - off]? with
    | some x, some y => some (x, y)
    | _, _ => f p
  else f p

/-- The known bytes of one tag after the bits in `m` were removed at `off`: a byte removed
altogether has an empty mask whatever was there. -/
def cutAt (off : Nat) (m : List Byte) (f : Nat → Option (Byte × Byte)) (p : Nat) : Option (Byte × Byte) :=
  if off ≤ p then
    match m[p - off]?, f p with
    | some y, some (v, k) => some (v &&& ~~~ y, k &&& ~~~ y)
    | some y, none => if y = 255 then some (0, 0) else none
    | none, x => x
  else f p

/-- The known bytes once the client accounts for a removed override: an install, even a refused one,
starts from nothing known. -/
def OvrView.base (X : OvrView) (i : Nat) : Nat → Option (Byte × Byte) :=
  if X.gone i then fun _ => none else X.val i

open Classical in
/-- What it learns from a request and its reply. -/
noncomputable def OvrView.see (X : OvrView) : Req × Reply → OvrView
  | (.ovrAdd i off d m, .resp _) =>
    { X with val := fun j => if j = i.toNat then putAt off.toNat d m (X.base j) else X.val j
             gone := fun j => if j = i.toNat then false else X.gone j }
  | (.ovrAdd i _ _ _, .err _) =>
    { X with val := fun j => if j = i.toNat then X.base j else X.val j
             gone := fun j => if j = i.toNat then false else X.gone j }
  | (.ovrDel i off m, .resp _) =>
    let f := cutAt off.toNat m (X.val i.toNat)
    let X' := { X with val := fun j => if j = i.toNat then f else X.val j }
    -- the override stays as long as any bit of its mask is set
    if ∃ p v k, f p = some (v, k) ∧ k ≠ 0 then X'
    else { X' with gone := fun j => if j = i.toNat then true else X.gone j
                   on := fun j => if j = i.toNat ∧ X.on j = some true then none else X.on j }
  | (.ovrSet i b, .resp _) => { X with on := fun j => if j = i.toNat then some b else X.on j }
  | x => { X with mem := remember X.mem x }

/-- Data requests, installing overrides (value and mask of the same length), removing them in part or
whole, switching them on and off. -/
def Req.isOvr : Req → Prop
  | .ovrAdd _ _ d m => m.length = d.length
  | .ovrDel _ _ _ => True
  | .ovrSet _ _ => True
  | q => q.isData

/-- A byte string `d` read at `off` of tag `i` is what the view predicts: the written bytes if the
override is off; and for all bytes with a known override, the written value in the bits where the mask
is 0, and the override value in the other bits if the override is on. -/
def OvrView.Predicts (X : OvrView) (i : Nat) (off : Int) (d : List Byte) : Prop :=
  ∀ k < d.length,
    (X.on i = some false → d[k]? = some (X.mem i (off.toNat + k))) ∧
    ∀ v m, X.val i (off.toNat + k) = some (v, m) → ∀ b < 8,
      (m.getLsbD b = false → bitOf d k b = (X.mem i (off.toNat + k)).getLsbD b) ∧
      (m.getLsbD b = true → X.on i = some true → bitOf d k b = v.getLsbD b)

/-- As `Req.isOvr` without overrides of the two status tags that count overrides, and creating tags. -/
def Req.isOvrAdd : Req → Prop
  | .ovrAdd i _ _ _ => i.toNat ≠ 7 ∧ i.toNat ≠ 8
  | .ovrSet i _ => i.toNat ≠ 7 ∧ i.toNat ≠ 8
  | .tagAdd _ _ _ _ => True
  | q => q.isData

end Dax
