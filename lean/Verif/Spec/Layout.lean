import Verif.Spec.Types
import Verif.Spec.Data

set_option autoImplicit false

namespace Dax

/-- A member as the layout sees it: its length in bits, and whether it has to begin on a byte. -/
structure Piece where
  len : Nat
  aligned : Bool
deriving DecidableEq

/-- Placement of pieces, in order, without overlap, from bit `p` on and before bit `e`; `ss` are
the positions of the pieces. -/
inductive Places : Nat → List Piece → List Nat → Nat → Prop
  | nil {p e} : p ≤ e → Places p [] [] e
  | cons {p s e x ps ss} : p ≤ s → (x.aligned = true → s % 8 = 0) → Places (s + x.len) ps ss e →
      Places p (x :: ps) (s :: ss) e

/-- The piece a member contributes: BOOLs count single bits anywhere, everything else a whole number
of bytes per element on a byte boundary; the size of an element of a compound type is the one the server
computes for that type. -/
def PieceOf (tbl : List Cdt) (m : Member) (x : Piece) : Prop :=
  (m.type = DAX_BOOL ∧ x = ⟨m.count, false⟩) ∨
  (∃ w, (m.type, w) ∈ elemBytes ∧ x = ⟨8 * (w * m.count), true⟩) ∨
  (Compound m.type ∧ ∃ k : Nat, typeSize tbl m.type = .ok (k : Int) ∧ x = ⟨8 * (k * m.count), true⟩)

/-- The pieces of a list of members. -/
inductive Pieces (tbl : List Cdt) : List Member → List Piece → Prop
  | nil : Pieces tbl [] []
  | cons {m x ms ps} : PieceOf tbl m x → Pieces tbl ms ps → Pieces tbl (m :: ms) (x :: ps)

end Dax
