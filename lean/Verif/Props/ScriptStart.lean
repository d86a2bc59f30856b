import Verif.Model.ScriptStart
import Verif.Spec.ScriptQueue
/-!
# The first run of triggered scripts: C107
-/
set_option autoImplicit false
namespace Dax
open Dax.ScriptQ Dax.ScriptStart

/-- The scripts put into the queue, in order. -/
def putIn : List SSeen → List Nat
  | [] => []
  | .put n :: l => n :: putIn l
  | .ran _ :: l => putIn l

theorem putIn_append (a b : List SSeen) : putIn (a ++ b) = putIn a ++ putIn b := by
  induction a with
  | nil => rfl
  | cons x a ih => cases x <;> simp [putIn, ih]

theorem putIn_seenOf (l : List (Seen Nat)) : putIn (seenOf l) = [] := by
  induction l with
  | nil => rfl
  | cons x l ih => cases x <;> simp [seenOf, putIn, ih]

/-- A script is to run at the start: it has a trigger and the switch for it. -/
def Wanted (scripts : List LuaConf.Script) (n : Nat) : Prop := ∃ s t, scripts[n]? = some s ∧ s.run = some t ∧ s.autoRun = true

theorem mem_chosen {scripts : List LuaConf.Script} {n : Nat} : n ∈ chosen scripts ↔ Wanted scripts n := by
  unfold chosen Wanted
  rw [List.mem_filter, List.mem_range]
  cases hs : scripts[n]? with
  | none => simp
  | some s =>
    have hlt := (List.getElem?_eq_some_iff.mp hs).1
    cases hr : s.run with
    | none => simp [hr]
    | some t => simp [hlt, hr]

theorem chosen_sorted (scripts : List LuaConf.Script) : (chosen scripts).Pairwise (· < ·) :=
  List.Pairwise.filter _ List.pairwise_lt_range

theorem step_put {s s' : Start} {a : SAct} {l : List SSeen} (h : ScriptStart.step s a = some (.ok (s', l))) : s.todo = putIn l ++ s'.todo := by
  cases a with
  | worker a =>
    have key : ∀ a, (if s.held then none else match ScriptQ.step s.pool a with
        | none => none
        | some (.ub w) => some (.ub w)
        | some (.ok (p, l)) => some (.ok ({ s with pool := p }, seenOf l))) = some (C.ok (s', l)) → s.todo = putIn l ++ s'.todo := by
      intro a h
      by_cases hh : s.held = true
      · rw [if_pos hh] at h; cases h
      · rw [if_neg hh] at h
        split at h
        · cases h
        · cases h
        · simp only [Option.some.injEq, C.ok.injEq, Prod.mk.injEq] at h
          obtain ⟨rfl, rfl⟩ := h
          rw [putIn_seenOf]
          rfl
    cases a with
    | event x w => cases h
    | enter t => exact key _ h
    | wake t => exact key _ h
    | go t => exact key _ h
  | main w =>
    unfold ScriptStart.step at h
    dsimp only at h
    by_cases hh : s.held = true
    · rw [if_pos hh] at h; cases h
    · rw [if_neg hh] at h
      cases ht : s.todo with
      | nil => rw [ht] at h; cases h
      | cons x r =>
        rw [ht] at h
        dsimp only at h
        by_cases hf : s.pool.q.full = true
        · rw [if_pos hf] at h
          simp only [Option.some.injEq, C.ok.injEq, Prod.mk.injEq] at h
          obtain ⟨rfl, rfl⟩ := h
          simp [putIn, ht]
        · rw [if_neg hf] at h
          split at h
          · cases h
          · cases h
          · simp only [Option.some.injEq, C.ok.injEq, Prod.mk.injEq] at h
            obtain ⟨rfl, rfl⟩ := h
            rfl

theorem run_put : ∀ (as : List SAct) (s s' : Start) (l : List SSeen), ScriptStart.run s as = some (.ok (s', l)) → s.todo = putIn l ++ s'.todo
  | [], s, s', l, h => by
    simp only [ScriptStart.run, Option.some.injEq, C.ok.injEq, Prod.mk.injEq] at h
    obtain ⟨rfl, rfl⟩ := h
    rfl
  | a :: as, s, s', l, h => by
    unfold ScriptStart.run at h
    split at h
    · cases h
    · cases h
    · rename_i s1 l1 h1
      split at h
      · cases h
      · cases h
      · rename_i s2 l2 h2
        simp only [Option.some.injEq, C.ok.injEq, Prod.mk.injEq] at h
        obtain ⟨rfl, rfl⟩ := h
        rw [putIn_append, List.append_assoc, ← run_put as s1 s2 l2 h2]
        exact step_put h1

/-- **C107**, once and in order: however the threads interleave, what was put into the queue are the first ones of the scripts that are to run at the start, each once and in the order of the configuration; no other script is put in; and when the main thread goes on to the events, all of them were. -/
theorem C107_order {slots : List Nat} {k : Nat} {scripts : List LuaConf.Script} {as : List SAct} {s' : Start} {l : List SSeen} (h : ScriptStart.run (ScriptStart.begin slots k scripts) as = some (.ok (s', l))) :
    (putIn l).Pairwise (· < ·) ∧ (∀ n ∈ putIn l, Wanted scripts n) ∧ (∀ n m, Wanted scripts n → m ∈ putIn l → n < m → n ∈ putIn l) ∧ (s'.todo = [] → ∀ n, Wanted scripts n → n ∈ putIn l) := by
  have e : chosen scripts = putIn l ++ s'.todo := run_put as _ _ _ h
  have hp := chosen_sorted scripts
  rw [e, List.pairwise_append] at hp
  refine ⟨hp.1, fun n hn => mem_chosen.1 (by rw [e]; exact List.mem_append_left _ hn), fun n m hn hm hlt => ?_, fun h0 n hn => ?_⟩
  · have := mem_chosen.2 hn
    rw [e] at this
    rcases List.mem_append.1 this with h1 | h1
    · exact h1
    · have := hp.2.2 m hm n h1
      omega
  · have := mem_chosen.2 hn
    rw [e, h0, List.append_nil] at this
    exact this

/-- The place for the next script is inside the array. -/
def LastIn (p : Pool Nat) : Prop := p.q.last < p.q.slots.length

theorem push_last {q q' : Queue Nat} {x : Nat} {b : Bool} (h : push q x = .ok (q', b)) (hl : q.last < q.slots.length) : q'.last < q'.slots.length := by
  unfold push at h
  by_cases hf : q.full = true
  · rw [if_pos hf] at h
    simp only [C.ok.injEq, Prod.mk.injEq] at h
    rw [← h.1]; exact hl
  · rw [if_neg hf, if_neg (by omega)] at h
    simp only [C.ok.injEq, Prod.mk.injEq] at h
    rw [← h.1]
    dsimp only
    rw [List.length_set]
    split <;> omega

theorem pop_last {q q' : Queue Nat} {x : Option Nat} (h : pop q = .ok (q', x)) (hl : q.last < q.slots.length) : q'.last < q'.slots.length := by
  unfold pop at h
  by_cases hf : q.empty = true
  · rw [if_pos hf] at h
    simp only [C.ok.injEq, Prod.mk.injEq] at h
    rw [← h.1]; exact hl
  · rw [if_neg hf] at h
    split at h
    · cases h
    · simp only [C.ok.injEq, Prod.mk.injEq] at h
      rw [← h.1]; exact hl

theorem qstep_last {p p' : Pool Nat} {a : Act Nat} {l : List (Seen Nat)} (h : ScriptQ.step p a = some (.ok (p', l))) (hl : LastIn p) : LastIn p' := by
  cases a with
  | enter t =>
    simp only [ScriptQ.step] at h
    split at h
    · simp only [Option.some.injEq, C.ok.injEq, Prod.mk.injEq] at h
      rw [← h.1]; exact hl
    · cases h
  | wake t =>
    simp only [ScriptQ.step] at h
    split at h
    · simp only [Option.some.injEq, C.ok.injEq, Prod.mk.injEq] at h
      rw [← h.1]; exact hl
    · cases h
  | event x w =>
    unfold ScriptQ.step at h
    dsimp only at h
    split at h
    · simp only [Option.some.injEq, C.ok.injEq, Prod.mk.injEq] at h
      rw [← h.1]; exact hl
    · cases w with
      | none =>
        dsimp only at h
        split at h
        · cases h
        · have h := Option.some.inj h
          obtain ⟨⟨q, b⟩, h1, h⟩ := C.bind_eq_ok.mp h
          simp only [C.ok.injEq, Prod.mk.injEq] at h
          rw [← h.1]; exact push_last h1 hl
      | some t =>
        dsimp only at h
        split at h
        · have h := Option.some.inj h
          obtain ⟨⟨q, b⟩, h1, h⟩ := C.bind_eq_ok.mp h
          simp only [C.ok.injEq, Prod.mk.injEq] at h
          rw [← h.1]; exact push_last h1 hl
        · cases h
  | go t =>
    unfold ScriptQ.step at h
    dsimp only at h
    split at h
    · have h := Option.some.inj h
      obtain ⟨⟨q, b⟩, h1, h⟩ := C.bind_eq_ok.mp h
      cases b with
      | none =>
        simp only [C.ok.injEq, Prod.mk.injEq] at h
        rw [← h.1]; exact hl
      | some x =>
        simp only [C.ok.injEq, Prod.mk.injEq] at h
        rw [← h.1]; exact pop_last h1 hl
    · cases h

theorem sstep_last {s s' : Start} {a : SAct} {l : List SSeen} (h : ScriptStart.step s a = some (.ok (s', l))) (hl : LastIn s.pool) : LastIn s'.pool := by
  have key : ∀ a, (if s.held then none else match ScriptQ.step s.pool a with
      | none => none
      | some (.ub w) => some (.ub w)
      | some (.ok (p, l)) => some (.ok ({ s with pool := p }, seenOf l))) = some (C.ok (s', l)) → LastIn s'.pool := by
    intro a h
    split at h
    · cases h
    · split at h
      · cases h
      · cases h
      · rename_i h1
        simp only [Option.some.injEq, C.ok.injEq, Prod.mk.injEq] at h
        rw [← h.1]; exact qstep_last h1 hl
  cases a with
  | worker a =>
    cases a with
    | event x w => cases h
    | enter t => exact key _ h
    | wake t => exact key _ h
    | go t => exact key _ h
  | main w =>
    unfold ScriptStart.step at h
    dsimp only at h
    split at h
    · cases h
    · split at h
      · cases h
      · split at h
        · simp only [Option.some.injEq, C.ok.injEq, Prod.mk.injEq] at h
          rw [← h.1]; exact hl
        · split at h
          · cases h
          · cases h
          · rename_i h1
            simp only [Option.some.injEq, C.ok.injEq, Prod.mk.injEq] at h
            rw [← h.1]; exact qstep_last h1 hl

theorem srun_last : ∀ (as : List SAct) (s s' : Start) (l : List SSeen), ScriptStart.run s as = some (.ok (s', l)) → LastIn s.pool → LastIn s'.pool
  | [], s, s', l, h, hl => by
    simp only [ScriptStart.run, Option.some.injEq, C.ok.injEq, Prod.mk.injEq] at h
    rw [← h.1]; exact hl
  | a :: as, s, s', l, h, hl => by
    unfold ScriptStart.run at h
    split at h
    · cases h
    · cases h
    · rename_i s1 l1 h1
      split at h
      · cases h
      · cases h
      · rename_i s2 l2 h2
        simp only [Option.some.injEq, C.ok.injEq, Prod.mk.injEq] at h
        rw [← h.1]; exact srun_last as s1 s2 l2 h2 (sstep_last h1 hl)

/-- **C107**, the main thread goes on as long as the queue is not full: it can always put in the next script.

Missing: a queue that is full, which should only be waited for (`C107_stuck`). -/
theorem C107_goes_on_partial {slots : List Nat} {k : Nat} {scripts : List LuaConf.Script} {as : List SAct} {s : Start} {l : List SSeen} (hpos : 0 < slots.length)
    (hr : ScriptStart.run (ScriptStart.begin slots k scripts) as = some (.ok (s, l))) (h0 : s.todo ≠ []) (hh : s.held = false) (hf : s.pool.q.full = false) :
    ∃ w s' x, ScriptStart.step s (.main w) = some (.ok (s', [.put x])) ∧ s'.todo = s.todo.tail ∧ s'.held = false := by
  have hl : s.pool.q.last < s.pool.q.slots.length := srun_last as _ _ _ hr hpos
  obtain ⟨x, r, ht⟩ := List.exists_cons_of_ne_nil h0
  have hpush : ∃ q, push s.pool.q x = .ok (q, true) := by
    unfold push
    rw [if_neg (by rw [hf]; decide), if_neg (by omega)]
    exact ⟨_, rfl⟩
  obtain ⟨q, hpush⟩ := hpush
  by_cases hw : Worker.waiting ∈ s.pool.workers
  · obtain ⟨t, hlt, he⟩ := List.mem_iff_getElem.1 hw
    have he' : s.pool.workers[t]? = some .waiting := by rw [List.getElem?_eq_getElem hlt, he]
    refine ⟨some t, ⟨⟨q, s.pool.workers.set t .awake⟩, r, s.held⟩, x, ?_, ?_⟩
    · unfold ScriptStart.step
      dsimp only
      rw [if_neg (by rw [hh]; decide), ht]
      dsimp only
      rw [if_neg (by rw [hf]; decide)]
      unfold ScriptQ.step
      dsimp only
      rw [if_neg (by rw [hf]; decide)]
      rw [if_pos he', hpush]
      rfl
    · exact ⟨by rw [ht]; rfl, hh⟩
  · refine ⟨none, ⟨⟨q, s.pool.workers⟩, r, s.held⟩, x, ?_, ?_⟩
    · unfold ScriptStart.step
      dsimp only
      rw [if_neg (by rw [hh]; decide), ht]
      dsimp only
      rw [if_neg (by rw [hf]; decide)]
      unfold ScriptQ.step
      dsimp only
      rw [if_neg (by rw [hf]; decide)]
      rw [if_neg hw, hpush]
      rfl
    · exact ⟨by rw [ht]; rfl, hh⟩

/-- **C107 fails**: if the main thread finds the queue full it takes the lock with it to sleep and then waits for itself; from then on no thread can do any step, so that no triggered script ever runs again. -/
theorem C107_stuck {s : Start} (w : Option Nat) (h0 : s.todo ≠ []) (hh : s.held = false) (hf : s.pool.q.full = true) :
    ∃ s', ScriptStart.step s (.main w) = some (.ok (s', [])) ∧ s'.todo = s.todo ∧ ∀ a, ScriptStart.step s' a = none := by
  obtain ⟨x, r, ht⟩ := List.exists_cons_of_ne_nil h0
  refine ⟨{ s with held := true }, ?_, rfl, fun a => ?_⟩
  · unfold ScriptStart.step
    dsimp only
    rw [if_neg (by rw [hh]; decide), ht]
    dsimp only
    rw [if_pos hf]
  · cases a with
    | worker a => cases a <;> rfl
    | main w => rfl

/-- A script with a trigger that runs at the start. -/
def firstScript (n : String) : LuaConf.Script := ⟨true, none, nm n, some ⟨nm "T", 1, 2, 0⟩, none, none, none, false, true, false⟩

def stuckActs : List SAct := [.worker (.enter 0), .main (some 0), .worker (.go 0), .main none, .main none, .main none]

/-- **C107 fails**: with a queue of two places and a worker that is busy with the first script, the fourth one is enough to stop the module for good. -/
theorem C107_stuck_shown : ∃ s', ScriptStart.run (ScriptStart.begin [0, 0] 1 [firstScript "a", firstScript "b", firstScript "c", firstScript "d"]) stuckActs = some (.ok (s', [.put 0, .ran 0, .put 1, .put 2])) ∧
    s'.todo = [3] ∧ ∀ a, ScriptStart.step s' a = none := by
  refine ⟨_, rfl, rfl, fun a => ?_⟩
  cases a with
  | worker a => cases a <;> rfl
  | main w => rfl

/-- **C107 fails**: if the scripts are put in before a worker has taken one, the queue is not seen as full: the third script takes the place of the first, which never runs. -/
theorem C107_lost : ∃ s', ScriptStart.run (ScriptStart.begin [9, 9] 1 [firstScript "a", firstScript "b", firstScript "c"]) [.main none, .main none, .main none, .worker (.enter 0), .worker (.wake 0), .worker (.go 0), .worker (.go 0)] =
    some (.ok (s', [.put 0, .put 1, .put 2, .ran 2])) ∧ s'.pool.q.empty = true ∧ s'.todo = [] := ⟨_, rfl, rfl, rfl⟩

/-- Instance of `C107_order`: two of three scripts are to run and do. -/
example : ∃ s', ScriptStart.run (ScriptStart.begin [9, 9, 9] 1 [firstScript "a", { firstScript "b" with run := none }, firstScript "c"]) [.worker (.enter 0), .main (some 0), .worker (.go 0), .main none, .worker (.go 0), .worker (.go 0)] =
    some (.ok (s', [.put 0, .ran 0, .put 2, .ran 2])) ∧ s'.todo = [] := ⟨_, rfl, rfl⟩

end Dax
