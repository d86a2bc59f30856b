import Verif.Lemmas.Wire
import Verif.Lemmas.Tactic
import Verif.Lemmas.Demo
import Verif.Spec.Buffer
/-!
# C46: requests arrive as they were made
-/
set_option autoImplicit false
namespace Dax
open Dax.Wire

/-- **C46.** For every call with arguments in range: the library sends a message that fits (so it is
reassembled, C44), and whatever is behind it in the server's buffer, the server acts on the request
the call stands for. -/
theorem C46_carried_partial {junk : List Byte} (hj : junk.length = 4088) {c : Call} (v : Valid c) :
    ∃ cmd p, encode junk c = .ok (.ok (cmd, p)) ∧ Buff.Fits ⟨cmd, p⟩ ∧
      ∀ rest, p.length + rest.length = 4088 → ∃ r, Means c r ∧ ∀ s fd, serve s fd cmd p rest = handle s fd r := by
  obtain ⟨cmd, p, e, h1, h2, h3, h4⟩ := sent_of_valid hj v
  refine ⟨cmd, p, e, ⟨h1, h2, h3⟩, fun rest hr => ?_⟩
  obtain ⟨r, hd, hm⟩ := h4 rest hr
  refine ⟨r, hm, fun s fd => ?_⟩
  unfold serve
  rw [hd]
  rfl

/-- The answer a call gets before anything is sent. -/
inductive Refusal : Call → Int → Prop
  | noElements (t a n) : Refusal (.tagAdd t 0 a n) ERR_ARG
  | tagName (t c a n) : 0 < c → 32 < n.length → Refusal (.tagAdd t c a n) ERR_2BIG
  | byNameLong (n) : 32 < n.length → Refusal (.byName n) ERR_2BIG
  | byNameEmpty : Refusal (.byName []) ERR_NOTFOUND
  | read (i o n) : 4088 < n → Refusal (.read i o n) ERR_2BIG
  | write (i o d) : 4080 < d.length → Refusal (.write i o d) ERR_2BIG
  | mask (i o d m) : 2040 < d.length → Refusal (.mask i o d m) ERR_2BIG
  | atomicBig (h d op) : 4067 < h.size → Refusal (.atomic h d op) ERR_2BIG
  | atomicType (h d op) : h.size ≤ 4067 → isCustom h.type = true → Refusal (.atomic h d op) ERR_ILLEGAL
  | cdtCreate (t) : 4087 < t.length → Refusal (.cdtCreate t) ERR_2BIG
  | grpMany (hs o) : 150 < hs.length → Refusal (.grpAdd hs o) ERR_ARG
  | grpBig (hs o) : hs.length ≤ 150 → 4084 < (hs.map (·.size)).sum → Refusal (.grpAdd hs o) ERR_2BIG

/-- **C46**, what cannot be sent: the call says so, and sends nothing. -/
theorem C46_refused (junk : List Byte) {c : Call} {e : Int} (h : Refusal c e) : encode junk c = .ok (.error e) := by
  cases h with
  | noElements => rfl
  | tagName t c a n h1 h2 => exact (if_neg (by omega)).trans (if_pos h2)
  | byNameLong n h => exact if_pos h
  | byNameEmpty => rfl
  | read i o n h => exact if_pos h
  | write i o d h => exact if_pos (by unfold MSG_DATA_SIZE; omega)
  | mask i o d m h => exact if_pos (by unfold MSG_DATA_SIZE; omega)
  | atomicBig h d op h1 => exact if_pos (by unfold MSG_DATA_SIZE; omega)
  | atomicType h d op h1 h2 => exact (if_neg (by unfold MSG_DATA_SIZE; omega)).trans (if_pos h2)
  | cdtCreate t h => exact if_pos (by unfold MSG_DATA_SIZE; omega)
  | grpMany hs o h => exact if_pos h
  | grpBig hs o h1 h2 => exact (if_neg (by omega)).trans (if_pos h2)

/-- **C46**, the answer to `dax_map_get`: the handles the client takes out of it
(`src/lib/libmsg.c:1559-1571`) are those the server put in. -/
theorem C46_map_reply {a b : Handle} (ha : HandleOK a) (hb : HandleOK b) (pad : List Byte) :
    handle21 (handleBytes a ++ handleBytes b ++ pad) = a ∧
    handle21 ((handleBytes a ++ handleBytes b ++ pad).drop 21) = b := by
  have ea : handleBytes a = handle21Of a := rfl
  have eb : handleBytes b = handle21Of b := rfl
  rw [ea, eb, List.append_assoc, drop_here 21 _ _ (handle21Of_length a)]
  exact ⟨handle21_of ha _, handle21_of hb _⟩

example (junk : List Byte) (hj : junk.length = 4088) : ∃ cmd p, encode junk (.write 13 2 [7, 8]) = .ok (.ok (cmd, p)) ∧
    ∀ rest, p.length + rest.length = 4088 →
      ∀ s fd, serve s fd cmd p rest = handle s fd (.tagWrite 13 2 [7, 8]) := by
  obtain ⟨cmd, p, e, _, h⟩ := C46_carried_partial hj (c := .write 13 2 [7, 8]) ⟨⟨by decide, by decide⟩, by decide, by decide⟩
  refine ⟨cmd, p, e, fun rest hr => ?_⟩
  obtain ⟨r, hm, hs⟩ := h rest hr
  have : r = .tagWrite 13 2 [7, 8] := hm
  exact this ▸ hs

/-- Eleven bits of a `BOOL` array from bit 5 on. -/
def bits5 : Handle := { index := 14, byte := 0, bit := 5, count := 11, size := 2, type := DAX_BOOL }

example : Valid (.ovrAdd bits5 [0xFF, 0x07]) := by
  refine ⟨by unfold HandleOK; decide, by decide, fun _ => by decide, by decide, by decide⟩

example : Valid (.evAdd { index := 13, byte := 2, bit := 0, count := 1, size := 2, type := DAX_INT } 7 (some [5, 0])) := by
  refine ⟨by unfold HandleOK; decide, ⟨by decide, by decide⟩, ?_⟩
  rintro x ⟨⟩
  decide

/-- **C46 fails** for tag names of 29 to 32 characters, which the tag server would accept:
`dax_tag_add` copies them behind the end of its buffer. -/
theorem C46_tag_name (junk : List Byte) (t c a : Nat) (n : Name) (hc : 0 < c) (h1 : 28 < n.length) (h2 : n.length ≤ 32) :
    encode junk (.tagAdd t c a n) = .ub "write outside block" :=
  (if_neg (by omega)).trans ((if_neg (by unfold TAGNAME_SIZE; omega)).trans (if_pos (by omega)))

/-- **C46 fails** for overrides of more than 2038 bytes: the size is looked at, but the message is
made (and the mask freed twice) all the same. -/
theorem C46_override_big (junk : List Byte) (h : Handle) (d : List Byte) (ht : h.type ≠ DAX_BOOL)
    (hs : 2038 < h.size) (hd : h.size ≤ d.length) : encode junk (.ovrAdd h d) = .ub "write outside block" := by
  obtain ⟨nd, mk, e, l1, l2, -⟩ := shiftedBits_ok (h := h) (d := d) (fun x => absurd x ht)
    (by unfold numBits; rw [if_neg ht]; omega)
  show (shiftedBits h d >>= _) = _
  rw [e]
  exact if_pos (by unfold MSG_DATA_SIZE; omega)

/-- **C46 fails** for an event with data on a tag of a compound type whose number ends in 15: the
size of the data is computed from the type code as if it were a base type. -/
theorem C46_event_compound (junk : List Byte) (h : Handle) (et : Int) (d : List Byte) (ht : h.type % 16 = 15) :
    encode junk (.evAdd h et (some d)) = .ub "read outside block" := by
  show (eventData junk h.type d >>= _) = _
  have : eventData junk h.type d = .ub "read outside block" := by
    unfold eventData typeBits
    rw [ht]
    exact if_pos (by decide)
  rw [this]
  rfl

/-- **C46 fails** for offsets from 2^31 on: the server sees them negative. -/
theorem C46_far_offset (junk rest : List Byte) :
    encode junk (.write 13 2147483648 [1]) = .ok (.ok (7, [13, 0, 0, 0, 0, 0, 0, 128, 1])) ∧
    decode 7 9 ([13, 0, 0, 0, 0, 0, 0, 128, 1] ++ rest) = .ok (.tagWrite 13 (-2147483648) [1]) := by
  refine ⟨rfl, ?_⟩
  have e : rd ([13, 0, 0, 0, 0, 0, 0, 128, 1] ++ rest) 8 (((9 : Nat) : Int) - 8) = .ok [1] :=
    rd_drop (off := 8) (d := [1]) (l := rest) (by simp) rfl
  have e1 : i32 (u4 ([13, 0, 0, 0, 0, 0, 0, 128, 1] ++ rest) 0) = 13 := by
    rw [show u4 ([13, 0, 0, 0, 0, 0, 0, 128, 1] ++ rest) 0 = leNat [13, 0, 0, 0] from rfl]; decide
  have e2 : i32 (u4 ([13, 0, 0, 0, 0, 0, 0, 128, 1] ++ rest) 4) = -2147483648 := by
    rw [show u4 ([13, 0, 0, 0, 0, 0, 0, 128, 1] ++ rest) 4 = leNat [0, 0, 0, 128] from rfl]; decide
  rw [decode_write, e, e1, e2]
  rfl

/-- **C46 fails** for overrides of a bit above 7 of a handle: bit 9 is sent as bit 1. -/
theorem C46_bit_lost (junk : List Byte) (hj : (junk.drop 8).take 4 = [0, 0, 0, 0]) :
    encode junk (.ovrAdd { index := 14, byte := 0, bit := 9, count := 1, size := 2, type := DAX_BOOL } [1]) =
      .ok (.ok (24, [14, 0, 0, 0, 0, 0, 0, 0, 0, 0, 0, 0, 2, 0, 2, 0])) := by
  show (shiftedBits _ _ >>= _) = _
  have : shiftedBits { index := 14, byte := 0, bit := 9, count := 1, size := 2, type := DAX_BOOL } [1] =
    .ok ([2, 0], [2, 0]) := by rfl
  rw [this, C.ok_bind]
  simp only [hj]
  rfl

end Dax
