import Verif.Spec.Data
/-!
# Specification of event subscriptions
-/
set_option autoImplicit false
namespace Dax

/-- A subscription: the request that created it (`EVENT_ADD` for the range `h` of tag `i`, of kind
`et`, with threshold or band `arg`, on connection `fd`) and the id in the reply. -/
structure Sub where
  i : Nat
  id : Nat
  h : Handle
  et : Int
  arg : List Byte
  fd : Int

/-- The bytes stored in tag `i`. -/
def TagData (s : Server) (i : Nat) (b : List Byte) : Prop :=
  ∃ t, s.db[i]? = some t ∧ t.data = .mem b

/-- No mapping leads from tag `i` or to it. -/
def MapFree (s : Server) (i : Nat) : Prop :=
  NoMaps s i ∧ ∀ (j : Nat) (t : Tag), s.db[j]? = some t → t.wildMaps = false →
    ∀ m ∈ t.maps, m.dst.index.toNat ≠ i

/-- The notifications for subscription `id` of tag `i` sent between two states. -/
def notices (s s' : Server) (i id : Nat) : List Notif :=
  (s'.sent.drop s.sent.length).filter (fun n => n.idx = i ∧ n.id = id)

/-- The request writes `len` bytes at `off` of tag `i`. -/
def Req.writes (q : Req) (i : Nat) (off : Int) (len : Nat) : Prop :=
  (∃ d, q = .tagWrite i off d ∧ d.length = len) ∨
  (∃ d m, q = .tagMWrite i off d m ∧ d.length = len ∧ m.length = len)

/-- The written range and the range of the subscription have a byte in common. -/
def Sub.touched (S : Sub) (off : Int) (len : Nat) : Prop :=
  ∃ k : Nat, off ≤ k ∧ (k : Int) < off + len ∧ S.h.byte ≤ k ∧ k < S.h.byte + S.h.size

/-- Requests that leave the contents and the given subscription of a tag alone: queries, reads,
writes and atomic operations on other tags, subscriptions, deletion of all other subscriptions
(of the same tag or of others), mappings, groups other than group writes. -/
def Req.away (q : Req) (i id : Nat) : Prop :=
  match q with
  | .modReg _ _ => False
  | .tagAdd _ _ _ _ => False
  | .tagDel _ => False
  | .cdtCreate _ => False
  | .grpWrite _ _ => False
  | .ovrAdd _ _ _ _ => False
  | .ovrDel _ _ _ => False
  | .ovrSet _ _ => False
  | .tagWrite j _ _ => j ≠ i
  | .tagMWrite j _ _ _ => j ≠ i
  | .atomic h _ _ => h.index ≠ i
  | .evDel j k => j = i → k ≠ id
  | _ => True

/-- One look of the server at the subscribed range: contents of the tag, whether a notification was
sent, and the range of the write. -/
structure Look where
  content : List Byte
  hit : Bool
  off : Int
  len : Nat

/-- The history of a subscription, newest look first; the oldest entry is the subscription itself.
A look is recorded for every successful write that touches the range. -/
inductive Seen (S : Sub) : Server → List Look → Prop
  | start {s s' : Server} {b : List Byte} : Reachable s → S.h.index = S.i → S.id < 2147483648 →
      handle s S.fd (.evAdd S.h S.et S.arg) = .ok (s', .resp (le4 S.id)) →
      TagData s' S.i b → Seen S s' [⟨b, false, 0, 0⟩]
  | write {s s' : Server} {H : List Look} {fd off : Int} {len : Nat} {q : Req} {b : List Byte} :
      Seen S s H → MapFree s S.i → q.writes S.i off len → 0 ≤ off →
      handle s fd q = .ok (s', .resp []) →
      TagData s' S.i b → S.touched off len →
      Seen S s' (⟨b, !(notices s s' S.i S.id).isEmpty, off, len⟩ :: H)
  | miss {s s' : Server} {H : List Look} {fd off : Int} {len : Nat} {q : Req} :
      Seen S s H → MapFree s S.i → q.writes S.i off len → 0 ≤ off → 0 < len →
      handle s fd q = .ok (s', .resp []) → ¬ S.touched off len → Seen S s' H
  | other {s s' : Server} {H : List Look} {fd : Int} {q : Req} {r : Reply} :
      Seen S s H → MapFree s S.i → q.away S.i S.id → handle s fd q = .ok (s', r) → Seen S s' H

/-- Bit `k` of a block, counted from the lowest bit of the first byte. -/
def bitAt (b : List Byte) (k : Nat) : Bool := bitOf b (k / 8) (k % 8)

/-- The bits a subscription is about: `count` bits from the bit offset on for BOOL, all bits of the
byte range otherwise. -/
def Sub.bits (S : Sub) (k : Nat) : Prop :=
  if S.h.type = DAX_BOOL then 8 * S.h.byte + S.h.bit ≤ k ∧ k < 8 * S.h.byte + S.h.bit + S.h.count
  else 8 * S.h.byte ≤ k ∧ k < 8 * (S.h.byte + S.h.size)

/-- The byte range of a subscription covers its bits. -/
def Sub.covers (S : Sub) : Prop :=
  S.h.type = DAX_BOOL → S.h.bit + S.h.count ≤ 8 * S.h.size

/-- A subscription whose range does not wrap around the 32-bit address space, is not empty, and whose
notifications fit in a message. -/
def Sub.Sane (S : Sub) : Prop :=
  S.h.byte + S.h.size < 4294967296 ∧ 0 < S.h.size ∧ S.h.size + 16 ≤ DAX_MSGMAX

/-- The look at the previous notification, or the one at the subscription. -/
def lastNotified : List Look → Option Look
  | [] => none
  | [c] => some c
  | c :: H => if c.hit then some c else lastNotified H

/-- The `w` bytes at offset `off`. -/
def elemAt (b : List Byte) (off w : Nat) : List Byte := (b.drop off).take w

/-- Element `j` of the subscribed range, for elements of `w` bytes. -/
def Sub.elem (S : Sub) (w j : Nat) (b : List Byte) : List Byte := elemAt b (S.h.byte + w * j) w

/-- The write and element `j` have a byte in common. -/
def Sub.elemTouched (S : Sub) (w j : Nat) (off : Int) (len : Nat) : Prop :=
  ∃ k : Nat, off ≤ k ∧ (k : Int) < off + len ∧ S.h.byte + w * j ≤ k ∧ k < S.h.byte + w * j + w

/-- The write starts before the range or at an element of it. -/
def Sub.aligned (S : Sub) (w : Nat) (off : Int) : Prop :=
  off ≤ S.h.byte ∨ ∃ m : Nat, off = S.h.byte + w * m

/-- The condition held for element `j` when it was last checked (never checked: it did not). -/
def Sub.heldBefore (S : Sub) (w : Nat) (P : List Byte → Prop) (j : Nat) : List Look → Prop
  | [] => False
  | [_] => False
  | c :: H => (S.elemTouched w j c.off c.len ∧ P (S.elem w j c.content)) ∨
      (¬ S.elemTouched w j c.off c.len ∧ S.heldBefore w P j H)

/-- The condition of a comparison event with threshold `x`. -/
def relation (et : Int) (v x : Int) : Prop :=
  (et = EVENT_EQUAL ∧ v = x) ∨ (et = EVENT_GREATER ∧ v > x) ∨ (et = EVENT_LESS ∧ v < x)

open Classical in
/-- The value of element `j` against which a deadband event compares: the one of the last look at
which that element had moved by at least the band, or the one at the subscription. -/
noncomputable def Sub.refElem (S : Sub) (w : Nat) (moved : List Byte → List Byte → Prop) (j : Nat) :
    List Look → List Byte
  | [] => []
  | [c] => S.elem w j c.content
  | c :: H => if S.elemTouched w j c.off c.len ∧ moved (S.refElem w moved j H) (S.elem w j c.content)
      then S.elem w j c.content else S.refElem w moved j H

/-- The two values differ by at least `band`. -/
def movedBy (sg : Bool) (band : Int) (a b : List Byte) : Prop :=
  band ≤ intVal sg a - intVal sg b ∨ band ≤ intVal sg b - intVal sg a

/-- The difference of the two values is computed without error by the server's arithmetic for the type. -/
def diffFits (t : Nat) (sg : Bool) (a b : List Byte) : Prop :=
  (t = DAX_SINT ∨ t = DAX_CHAR → -128 ≤ intVal sg a - intVal sg b ∧ intVal sg a - intVal sg b < 128) ∧
  (t = DAX_INT → -32768 ≤ intVal sg a - intVal sg b ∧ intVal sg a - intVal sg b < 32768) ∧
  (t = DAX_UDINT ∨ t = DAX_DWORD → intVal sg b ≤ intVal sg a) ∧
  (t = DAX_ULINT ∨ t = DAX_LWORD → -9223372036854775808 < intVal sg a - intVal sg b ∧
    intVal sg a - intVal sg b < 9223372036854775808)

/-- All differences met in the history are of that kind. -/
def Sub.exact (S : Sub) (w : Nat) (sg : Bool) (moved : List Byte → List Byte → Prop) : List Look → Prop
  | [] => True
  | [_] => True
  | c :: H => S.exact w sg moved H ∧ ∀ j, j < S.h.count → S.elemTouched w j c.off c.len →
      diffFits S.h.type sg (S.refElem w moved j H) (S.elem w j c.content)

/-- With the history `H` behind it, a successful write of `len` bytes at `off` leads to state `s'`, in
which the tag holds `b`. -/
def Sub.writeTo (S : Sub) (H : List Look) (s s' : Server) (off : Int) (len : Nat) (b : List Byte) : Prop :=
  Seen S s H ∧ MapFree s S.i ∧ 0 ≤ off ∧ 0 < len ∧ TagData s' S.i b ∧
    ∃ fd q, q.writes S.i off len ∧ handle s fd q = .ok (s', .resp [])

/-- A notification of the subscription is sent. -/
def Sub.notified (S : Sub) (s s' : Server) : Prop := notices s s' S.i S.id ≠ []

end Dax
