import Verif.Lemmas.LibRecv
import Verif.Lemmas.Tactic
/-!
# C45: how the client library reads messages
-/
set_option autoImplicit false
namespace Dax
open LibRecv
open LibEv (Msg)

/-- **C45** (part) However the stream of messages from the server is cut into reads — except inside the
eight bytes of a header, unless there is also a cut right behind the header — and however often a read
times out between two messages, the connection thread obtains exactly the messages sent, in
order.  Missing from the full claim: cuts inside a header and timeouts inside a message, where it
fails, see below. -/
theorem C45_reassembly_partial {ms : List Msg} {w : Net} {junk : Nat → List Byte}
    (hj : ∀ k, (junk k).length = 4096) (hf : ∀ m ∈ ms, Fits m) (hd : w.stream = ms.flatMap frame) (hp : w.pos = 0)
    (hs : ∀ q ∈ w.stalls, q ∈ starts 0 ms) (hc : ∀ q ∈ starts 0 ms, HeaderWhole w.cut q)
    (k : Nat) (hk : ms.length + w.stalls.length < k) :
    ∃ w', connLoop junk k w = .ok (ms, w') :=
  connLoop_ok hj hf (by rw [hp]; exact hd) (by rw [hp]; exact hs) (by rw [hp]; exact hc) hk

/-- Two messages from the server: an answer with four bytes of data, and an empty answer. -/
def twoMsgs : List Msg := [⟨0x01000006, [0, 0, 0, 9]⟩, ⟨0x01000007, []⟩]

/-- Instance: cuts in the middle of the data and right behind the first header as well as inside
it; a timeout before the second message. -/
example : (∀ m ∈ twoMsgs, Fits m) ∧
    let w : Net := { stream := twoMsgs.flatMap frame, cut := fun p => p == 3 || p == 8 || p == 10, stalls := [12], pos := 0 }
    (∀ q ∈ w.stalls, q ∈ starts 0 twoMsgs) ∧ (∀ q ∈ starts 0 twoMsgs, HeaderWhole w.cut q) := by
  refine ⟨?_, ?_, ?_⟩
  · intro m hm
    simp only [twoMsgs, List.mem_cons, List.not_mem_nil, or_false] at hm
    rcases hm with rfl | rfl <;> exact ⟨by decide, by decide⟩
  · intro q hq
    simp only [List.mem_cons, List.not_mem_nil, or_false] at hq
    subst hq; decide
  · have : starts 0 twoMsgs = [0, 12, 20] := by decide
    rw [this]
    intro q hq
    simp only [List.mem_cons, List.not_mem_nil, or_false] at hq
    rcases hq with rfl | rfl | rfl
    · exact .inl rfl
    · exact .inr (by intro k h1 h2; have : k = 1 ∨ k = 2 ∨ k = 3 ∨ k = 4 ∨ k = 5 ∨ k = 6 ∨ k = 7 := by omega
                     rcases this with rfl | rfl | rfl | rfl | rfl | rfl | rfl <;> rfl)
    · exact .inr (by intro k h1 h2; have : k = 1 ∨ k = 2 ∨ k = 3 ∨ k = 4 ∨ k = 5 ∨ k = 6 ∨ k = 7 := by omega
                     rcases this with rfl | rfl | rfl | rfl | rfl | rfl | rfl <;> rfl)

/-- **C45 fails** for a cut inside a header: the second read asks for eight more bytes and takes the data
for part of the header.  The data of the first message is lost, the header of the second is taken
for it, and the second message is lost. -/
theorem C45_header_cut :
    (connLoop (fun _ => List.replicate 4096 0) 9
      { stream := twoMsgs.flatMap frame, cut := fun p => p == 4, stalls := [], pos := 0 } >>= fun x => C.ok x.1)
    = .ok [⟨0x01000006, [0, 0, 0, 0]⟩] := by
  kernel_rfl

/-- **C45 fails** for a timeout inside a message: what was read of it is forgotten, and the rest is taken
for the start of the next one. -/
theorem C45_timeout_inside :
    (connLoop (fun _ => List.replicate 4096 0) 9
      { stream := twoMsgs.flatMap frame, cut := fun p => p == 8, stalls := [8], pos := 0 } >>= fun x => C.ok x.1)
    = .ok [] := by
  kernel_rfl

end Dax
