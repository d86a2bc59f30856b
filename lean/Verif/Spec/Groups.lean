import Verif.Spec.Api
/-!
# Specification of tag groups
-/
set_option autoImplicit false
namespace Dax

/-- The module on connection `fd` has a group with this id and these members. -/
def GroupAt (s : Server) (fd : Int) (i : Nat) (hs : List Handle) : Prop :=
  ∃ m g, s.modByFd fd = some m ∧ m.groups[i]? = some g ∧ g.notEmpty = true ∧ g.members = some hs

/-- Number of data bytes of a group. -/
def groupBytes (hs : List Handle) : Nat := (hs.map (·.size)).sum

/-- Sizes for which the sum of two of them is not close to 2³¹. -/
def SmallSizes (hs : List Handle) : Prop := ∀ h ∈ hs, h.size < 2147479564

/-- Reading the members one by one with ordinary read requests, stopping at the first refusal. -/
def readAll (s : Server) (fd : Int) : List Handle → List Byte → C (Server × Reply)
  | [], acc => .ok (s, .resp acc)
  | h :: hs, acc => do
    match ← handle s fd (.tagRead h.index (i32 h.byte) h.size) with
    | (s', .resp d) => readAll s' fd hs (acc ++ d)
    | (s', r) => .ok (s', r)

/-- Writing the members one by one with ordinary write requests, from consecutive parts of the
data, stopping at the first refusal. -/
def writeAll (s : Server) (fd : Int) : List Handle → List Byte → C (Server × Reply)
  | [], _ => .ok (s, .resp [])
  | h :: hs, buf => do
    match ← handle s fd (.tagWrite h.index (i32 h.byte) (buf.take h.size)) with
    | (s', .resp _) => writeAll s' fd hs (buf.drop h.size)
    | (s', r) => .ok (s', r)

/-- The tag of the handle is not computed by the server on demand (time, own name, queue). -/
def StoredTag (s : Server) (h : Handle) : Prop := ∀ t, s.tag? h.index = some t → t.attr.virt = false

/-- The tag of the handle exists and may be written by everybody, and no mapping leads away from
it. -/
def FreeTag (s : Server) (h : Handle) : Prop :=
  ∃ t, s.tag? h.index = some t ∧ t.attr.readonly = false ∧ t.attr.special = false ∧ t.maps = [] ∧ t.wildMaps = false

/-- The server's book-keeping of the group array of connection `fd` is in order: the recorded size
is the true one, or there is a free place within the recorded size. -/
def Roomy (s : Server) (fd : Int) : Prop :=
  ∃ m, s.modByFd fd = some m ∧ (m.groupsSize = m.groups.length ∨
    ∃ j g, j < m.groupsSize ∧ m.groups[j]? = some g ∧ g.notEmpty = false)

/-- The operation does not delete a group of connection `fd`. -/
def Op.keepsGroups (fd : Int) (o : Op) : Prop := ∀ i, o ≠ .req fd (.grpDel i)

/-- The operation neither adds nor deletes groups of connection `fd`, nor registers or closes it. -/
def Op.leavesGroups (fd : Int) : Op → Prop
  | .close f => f ≠ fd
  | .req f (.modReg _ _) => f ≠ fd
  | .req f (.grpAdd _) => f ≠ fd
  | .req f (.grpDel _) => f ≠ fd
  | _ => True

end Dax
