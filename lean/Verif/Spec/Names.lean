import Verif.Spec.Api
/-!
# Specification of tag names and of the directory a client can infer from replies
-/
set_option autoImplicit false
namespace Dax

/-- ASCII letter. -/
def IsLetter (b : Byte) : Prop := (0x41 ≤ b.toNat ∧ b.toNat ≤ 0x5A) ∨ (0x61 ≤ b.toNat ∧ b.toNat ≤ 0x7A)
/-- ASCII digit. -/
def IsDigit (b : Byte) : Prop := 0x30 ≤ b.toNat ∧ b.toNat ≤ 0x39
/-- The character `_`. -/
def IsUnderscore (b : Byte) : Prop := b.toNat = 0x5F

/-- A name a client may give to a tag: 1 to 32 characters, first a letter, all letters, digits
or underscores. -/
structure ClientName (n : Name) : Prop where
  short : n.length ≤ 32
  first : ∃ c, n[0]? = some c ∧ IsLetter c
  chars : ∀ c ∈ n, IsLetter c ∨ IsDigit c ∨ IsUnderscore c

/-- The type code is one of the sixteen base types or a compound type defined so far,
possibly marked as a queue. -/
def KnownType (s : Server) (t : Nat) : Prop :=
  ∃ u, (u ∈ [DAX_BOOL, DAX_BYTE, DAX_SINT, DAX_CHAR, DAX_WORD, DAX_INT, DAX_UINT, DAX_DWORD,
       DAX_DINT, DAX_UDINT, DAX_TIME, DAX_REAL, DAX_LWORD, DAX_LINT, DAX_ULINT, DAX_LREAL] ∨
  ∃ j, j < s.cdts.length ∧ u = 0x80000000 + j) ∧ (t = u ∨ t = u + 0x40000000)

/-- A directory: index of each name. -/
abbrev Dir := Name → Option Nat

/-- What a client that sees all tag requests and replies knows about the names: a successful
creation binds the name to the index in the reply, a successful deletion unbinds whatever name
has that index, nothing else matters. -/
def observe (d : Dir) : Req × Reply → Dir
  | (.tagAdd _ _ _ name, .resp b) => fun n => if n = name then some (leNat (b.take 4)) else d n
  | (.tagDel idx, .resp _) => fun n => if d n = some idx.toNat then none else d n
  | _ => d

/-- The request is not a module registration. -/
def Req.notReg : Req → Bool
  | .modReg _ _ => false
  | _ => true

end Dax
