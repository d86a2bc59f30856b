import Verif.Lemmas.Buffer
import Verif.Lemmas.Tactic
/-!
# C44: how the server takes requests off the streams of its clients
-/
set_option autoImplicit false
namespace Dax
open Buff
open LibEv (Msg)

/-- **C44** (part) Any number of clients send requests; their bytes arrive in pieces, interleaved in any way.
If every client's pieces are `Clean` — no piece contains bytes of two requests, the first piece
of a request has at least four bytes, no piece ends one byte before the end of a request, a second of silence
comes only between requests, `read` does not fail — then for each client the server hands on
exactly the requests sent, in order, and closes the connection exactly where the stream ended, even in
the middle of a request.  Missing from the full claim: the other ways to cut the stream, for
which it fails, see below. -/
theorem C44_reassembly_partial {min : Int} {junk : Nat → List Byte} {ops : List Op} {out : Int → List (Option Msg)}
    (hm : 0 < min) (hj : ∀ k, (junk k).length = 4096) (h0 : ∀ fd d, .ready fd d ∈ ops → fd ≠ 0)
    (hc : ∀ fd, Clean [] (view fd ops) (out fd)) :
    ∃ s acts, run (init min junk) ops = .ok (s, acts) ∧ ∀ fd, actsOf fd acts = out fd :=
  run_ok (init_ok hm hj) (fun _ => by simp) h0 hc

/-- A request to read, with twelve bytes of arguments, and a request for the list of tags. -/
def reqA : Msg := ⟨6, [11, 0, 0, 0, 0, 0, 0, 0, 2, 0, 0, 0]⟩
/-- A request without arguments. -/
def reqB : Msg := ⟨5, []⟩

/-- Two clients, on 4 and 5; the first request of each comes in several pieces, interleaved. -/
def mixedOps : List Op :=
  [.ready 4 ((request reqA).take 4), .ready 5 ((request reqA).take 9), .ready 4 ((request reqA).drop 4),
   .ready 4 (request reqB), .ready 5 (((request reqA).drop 9).take 3), .ready 5 ((request reqA).drop 12), .idle,
   .ready 4 ((request reqA).take 7), .ready 4 []]

/-- Instance. -/
example : (∀ fd d, .ready fd d ∈ mixedOps → fd ≠ 0) ∧ Clean [] (view 4 mixedOps) [some reqA, some reqB, none] ∧
    Clean [] (view 5 mixedOps) [some reqA] ∧ ∀ fd, fd ≠ 4 → fd ≠ 5 → Clean [] (view fd mixedOps) [] := by
  have fa : Fits reqA := ⟨by decide, by decide, by decide⟩
  have fb : Fits reqB := ⟨by decide, by decide, by decide⟩
  refine ⟨?_, ?_, ?_, ?_⟩
  · intro fd d h
    simp only [mixedOps, List.mem_cons, List.not_mem_nil, or_false, Op.ready.injEq, reduceCtorEq, false_or] at h
    rcases h with h | h | h | h | h | h | h | h <;> rw [h.1] <;> decide
  · refine .more (m := reqA) fa (by decide) (by decide) (by decide) (by decide) (.last fa (by decide) (by decide) (.last fb (by decide)
      (by decide) (.idle (.more (m := reqA) fa (by decide) (by decide) (by decide) (by decide) (.close .done)))))
  · exact .more (m := reqA) fa (by decide) (by decide) (by decide) (by decide) (.more (m := reqA) fa (by decide) (by decide) (by decide)
      (by decide) (.last fa (by decide) (by decide) (.idle .done)))
  · intro fd h4 h5
    have : view fd mixedOps = [.idle] := by
      simp only [mixedOps, view, if_neg (Ne.symm h4), if_neg (Ne.symm h5)]
    rw [this]
    exact .idle .done

/-- Buffers that contain zeros at first. -/
def zeros : Nat → List Byte := fun _ => List.replicate 4096 0

/-- **C44 fails** if two requests of a client arrive together: the second is dropped. -/
theorem C44_coalesced :
    (run (init 5 zeros) [.ready 4 (request reqA ++ request reqB), .ready 4 (request reqA)] >>= fun x => C.ok x.2)
    = .ok [.msg 4 reqA, .msg 4 reqA] := by
  kernel_rfl

/-- **C44 fails** if a piece ends one byte before the end of a request: the request is handed on with a byte
that the client did not send, and the missing byte is taken for the start of the next one.  Here the client
asks to write 1, and then, one byte early, to write 513; the server writes 1 again. -/
theorem C44_one_short :
    (run (init 5 zeros) [.ready 4 (request ⟨7, [13, 0, 0, 0, 0, 0, 0, 0, 1, 0]⟩),
      .ready 4 ((request ⟨7, [13, 0, 0, 0, 0, 0, 0, 0, 1, 2]⟩).dropLast), .ready 4 [2], .ready 4 (request reqB)]
      >>= fun x => C.ok x.2)
    = .ok [.msg 4 ⟨7, [13, 0, 0, 0, 0, 0, 0, 0, 1, 0]⟩, .msg 4 ⟨7, [13, 0, 0, 0, 0, 0, 0, 0, 1, 0]⟩] := by
  kernel_rfl

/-- **C44 fails** if there is a second of silence inside a request: what had arrived is dropped. -/
theorem C44_silence :
    (run (init 5 zeros) [.ready 4 ((request reqA).take 8), .idle, .ready 4 ((request reqA).drop 8),
      .ready 4 (request reqB)] >>= fun x => C.ok x.2) = .ok [] := by
  kernel_rfl

/-- **C44 fails** if fewer than four bytes of a request arrive first: the rest of the size is what was in the
buffer before.  After a request of 257 bytes, three zero bytes make the server take the new request
for one of size 1 and copy 2^32 - 7 bytes. -/
theorem C44_short_start :
    run (init 5 zeros) [.ready 4 (request ⟨7, List.replicate 249 0⟩), .ready 4 ((request reqA).take 3)]
    = .ub "write outside block" := by
  kernel_rfl

/-- **C44 fails** after an unknown command: it stays in the buffer in front of the next request. -/
theorem C44_unknown_command :
    (run (init 5 zeros) [.ready 4 (request ⟨28, []⟩), .ready 4 (request reqA), .ready 4 (request reqB)]
      >>= fun x => C.ok x.2) = .ok [] := by
  kernel_rfl

/-- **C44 fails** if `read` fails, for example because the connection was reset: whatever request is left in the
buffer, from whatever client, is executed once more in the name of this client. -/
theorem C44_replay :
    (run (init 5 zeros) [.ready 4 (request reqA), .fail 5] >>= fun x => C.ok x.2)
    = .ok [.msg 4 reqA, .msg 5 reqA] := by
  kernel_rfl

end Dax
