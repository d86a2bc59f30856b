import Verif.Lemmas.DemoInit
/-!
# A concrete history for the examples beside the theorems
-/
set_option autoImplicit false
namespace Dax

/-- The state after a history from a plain start in the given environment, or the empty server
if the history is not free of undefined behaviour. -/
def demo (os : List Op) (e : Env := {}) : Server :=
  match run init0 (.env e :: os) with
  | .ok s => s
  | .ub _ => {}

theorem demo_reachable {os : List Op} {e : Env}
    (h : (run init0 (.env e :: os)).isOk = true) : Reachable (demo os e) := by
  obtain ⟨s, hs⟩ := C.isOk_iff.mp h
  refine ⟨{}, none, init0, .env e :: os, ?_, ?_⟩
  · unfold startServer; rw [init0_eq]; rfl
  · unfold demo; rw [hs]

/-- Two modules connect; the first makes an array of four INTs and a BOOL array, writes to the
array, the second makes and deletes a tag. -/
def demoOps : List Op :=
  [.req 5 (.modReg 1 (nm "modA")),
   .req 6 (.modReg 1 (nm "modB")),
   .req 5 (.tagAdd DAX_INT 4 0 (nm "Speed")),
   .req 5 (.tagAdd DAX_BOOL 20 0 (nm "Flags")),
   .req 5 (.tagWrite 13 0 [1, 2, 3, 4, 5, 6, 7, 8]),
   .req 6 (.tagAdd DAX_DINT 1 0 (nm "Tmp")),
   .req 6 (.tagDel 15)]

theorem demoOps_reachable : Reachable (demo demoOps) := demo_reachable (by decide +kernel)

/-! ## Checking examples by evaluation -/

/-- The reply part of an outcome. -/
def replyOf : C (Server × Reply) → Option Reply
  | .ok (_, r) => some r
  | .ub _ => none

theorem exists_reply {c : C (Server × Reply)} {r : Reply} (h : replyOf c = some r) :
    ∃ s', c = .ok (s', r) := by
  cases c with
  | ok x => obtain ⟨s', r'⟩ := x; simp only [replyOf, Option.some.injEq] at h; subst h; exact ⟨s', rfl⟩
  | ub w => simp [replyOf] at h

theorem exists_after {α : Type} {c : C (Server × α)} {p : Server → Prop} [DecidablePred p]
    (h : (match c with | .ok (s', _) => decide (p s') | .ub _ => false) = true) :
    ∃ s' r, c = .ok (s', r) ∧ p s' := by
  cases c with
  | ok x => obtain ⟨s', r'⟩ := x; exact ⟨s', r', rfl, by simpa using h⟩
  | ub w => simp at h

theorem exists_runR {s : Server} {qs : List (Int × Req)} {p : Server → Prop} [DecidablePred p]
    (h : (match runR s qs with | .ok (s', _) => decide (p s') | .ub _ => false) = true) :
    ∃ s' rs, runR s qs = .ok (s', rs) ∧ p s' := by
  cases hr : runR s qs with
  | ok x =>
    obtain ⟨s', rs⟩ := x
    rw [hr] at h
    exact ⟨s', rs, rfl, by simpa using h⟩
  | ub w => rw [hr] at h; simp at h

/-- A sequence of requests with the given replies, and a fact about the state after it. -/
theorem exists_run2 {s : Server} {qs : List (Int × Req)} {rs : List Reply} {p : Server → Prop}
    {Q : Server → Prop} [DecidablePred p]
    (h : (match runR s qs with | .ok (s', rs') => decide (rs' = rs ∧ p s') | .ub _ => false) = true)
    (hQ : ∀ s, p s → Q s) : ∃ s' rs', runR s qs = .ok (s', rs') ∧ rs' = rs ∧ Q s' := by
  cases hr : runR s qs with
  | ok x =>
    obtain ⟨s', rs'⟩ := x
    rw [hr] at h
    have := of_decide_eq_true h
    exact ⟨s', rs', rfl, this.1, hQ _ this.2⟩
  | ub w => rw [hr] at h; simp at h

theorem isOk_false {α : Type} {c : C α} (h : c.isOk = false) : ∃ w, c = .ub w := by
  cases c with
  | ok x => simp [C.isOk] at h
  | ub w => exact ⟨w, rfl⟩

theorem all_ub {s : Server} {fd : Int} {qs : List Req}
    (h : qs.all (fun q => !(handle s fd q).isOk) = true) : ∀ q ∈ qs, ∃ w, handle s fd q = .ub w :=
  fun q hq => isOk_false (by simpa using List.all_eq_true.mp h q hq)

/-- Histories can be continued. -/
theorem demo_run {os os' : List Op} {e : Env} (h : (run init0 (.env e :: (os ++ os'))).isOk = true) :
    run (demo os e) os' = .ok (demo (os ++ os') e) := by
  obtain ⟨s, hs⟩ := C.isOk_iff.mp h
  have hs' := hs
  rw [← List.cons_append, run_append] at hs'
  obtain ⟨s1, h1, h2⟩ := hs'
  have e1 : demo os e = s1 := by unfold demo; rw [h1]
  have e2 : demo (os ++ os') e = s := by unfold demo; rw [hs]
  rw [e1, e2]; exact h2

theorem demo_handle {os : List Op} {e : Env} {fd : Int} {q : Req} {r : Reply}
    (h : (run init0 (.env e :: (os ++ [.req fd q]))).isOk = true)
    (hr : replyOf (handle (demo os e) fd q) = some r) :
    handle (demo os e) fd q = .ok (demo (os ++ [.req fd q]) e, r) := by
  have h1 := demo_run h
  obtain ⟨s', h2⟩ := exists_reply hr
  simp only [run, step] at h1
  rw [h2] at h1
  simp only [C.ok_bind, C.ok.injEq] at h1
  rw [h2, h1]

end Dax
