import Verif.Spec.Api
/-!
# Specification of tag contents
-/
set_option autoImplicit false
namespace Dax

/-- Bit `b` of byte `k` of a byte string. -/
def bitOf (d : List Byte) (k b : Nat) : Bool :=
  match d[k]? with
  | some x => x.getLsbD b
  | none => false

/-- Bytes per element of the base types other than BOOL. -/
def elemBytes : List (Nat × Nat) :=
  [(DAX_BYTE, 1), (DAX_SINT, 1), (DAX_CHAR, 1), (DAX_WORD, 2), (DAX_INT, 2), (DAX_UINT, 2),
   (DAX_DWORD, 4), (DAX_DINT, 4), (DAX_UDINT, 4), (DAX_REAL, 4), (DAX_LWORD, 8), (DAX_LINT, 8),
   (DAX_ULINT, 8), (DAX_TIME, 8), (DAX_LREAL, 8)]

/-- The integer types with their width in bytes and whether they are signed (TIME excluded). -/
def intTypes : List (Nat × Nat × Bool) :=
  [(DAX_BYTE, 1, false), (DAX_SINT, 1, true), (DAX_CHAR, 1, true), (DAX_WORD, 2, false), (DAX_INT, 2, true),
   (DAX_UINT, 2, false), (DAX_DWORD, 4, false), (DAX_DINT, 4, true), (DAX_UDINT, 4, false), (DAX_LWORD, 8, false),
   (DAX_LINT, 8, true), (DAX_ULINT, 8, false)]

/-- Value of a little-endian byte string, lowest byte first. -/
def unsignedVal (b : List Byte) : Nat := b.foldr (fun x n => x.toNat + 256 * n) 0

/-- Two's complement value: negative if the highest bit of the last byte is set. -/
def signedVal (b : List Byte) : Int :=
  if b.getLast?.any (·.getLsbD 7) then unsignedVal b - 256 ^ b.length else unsignedVal b

/-- Value of the bytes of an integer element. -/
def intVal (sg : Bool) (b : List Byte) : Int := if sg then signedVal b else unsignedVal b

/-- A memory: the byte at each offset of each tag. -/
abbrev Mem := Nat → Nat → Byte

/-- Store a byte string. -/
def Mem.store (M : Mem) (i off : Nat) (d : List Byte) : Mem := fun j k =>
  if j = i ∧ off ≤ k then (d[k - off]?).getD (M j k) else M j k

/-- Store the masked bits of a byte string. -/
def Mem.storeMasked (M : Mem) (i off : Nat) (d m : List Byte) : Mem := fun j k =>
  if j = i ∧ off ≤ k then
    match d[k - off]?, m[k - off]? with
    | some x, some y => (x &&& y) ||| (M j k &&& ~~~ y)
    | _, _ => M j k
  else M j k

/-- What a client remembers of the requests and replies it has seen. -/
def remember (M : Mem) : Req × Reply → Mem
  | (.tagWrite i off d, .resp _) => M.store i.toNat off.toNat d
  | (.tagMWrite i off d m, .resp _) => M.storeMasked i.toNat off.toNat d m
  | _ => M

/-- Reads, writes and masked writes (data and mask of the same length). -/
def Req.isData : Req → Prop
  | .tagRead _ _ _ => True
  | .tagWrite _ _ _ => True
  | .tagMWrite _ _ d m => m.length = d.length
  | _ => False

/-- Every read of an ordinary tag that is answered with data gives the remembered bytes. -/
def Agrees (M : Mem) (s : Server) : Prop :=
  ∀ (i : Nat) (fd off n : Int) (d : List Byte), Ordinary s i →
    Answers s fd (.tagRead i off n) (.resp d) → 0 ≤ off ∧ d.length = n.toNat ∧
      ∀ k < d.length, d[k]? = some (M i (off.toNat + k))

/-- Bytes occupied by `count` elements of a base type: BOOLs are packed, with one spare byte. -/
def TagBytes (type count n : Nat) : Prop :=
  (type = DAX_BOOL ∧ n = count / 8 + 1) ∨ ∃ w, (type, w) ∈ elemBytes ∧ n = w * count

/-- The request is answered with an error and has no effect. -/
def Refused (s : Server) (fd : Int) (q : Req) : Prop := ∃ e, handle s fd q = .ok (s, .err e)

/-- The requests by which clients read and write data, set up events and mappings, query tags and
types, and manage groups; all requests except: registration, creation and deletion of tags and
types, group write and the three override requests. -/
def Req.plain : Req → Prop
  | .modReg _ _ => False
  | .tagAdd _ _ _ _ => False
  | .tagDel _ => False
  | .cdtCreate _ => False
  | .grpWrite _ _ => False
  | .ovrAdd _ _ _ _ => False
  | .ovrDel _ _ _ => False
  | .ovrSet _ _ => False
  | _ => True

end Dax
