import Verif.Spec.Master
set_option autoImplicit false
/-!
# Lemmas about the process master
-/
namespace Dax.Master

theorem diffMs_stopwatch : Stopwatch diffMs := by
  intro a b ha hb
  obtain ⟨ha1, ha2⟩ := ha
  obtain ⟨hb1, hb2⟩ := hb
  have h := Int.mul_tdiv_add_tmod (b.usec - a.usec) 1000
  have h1 : (b.usec - a.usec).tmod 1000 < 1000 := Int.tmod_lt_of_pos _ (by decide)
  have h2 : -1000 < (b.usec - a.usec).tmod 1000 := by
    have := Int.lt_tmod_of_pos (b.usec - a.usec) (b := 1000) (by decide)
    omega
  unfold diffMs usBetween
  generalize (b.usec - a.usec).tdiv 1000 = q at *
  generalize (b.usec - a.usec).tmod 1000 = r at *
  omega

theorem delay_nonneg (n : Nat) : 0 ≤ delay n := by
  cases n with
  | zero => simp [delay]
  | succ n =>
    have : (0:Int) < 2 ^ n := Int.pow_pos (by decide)
    simp only [delay]; omega

theorem delay_le (n : Nat) : delay n ≤ 60000 := by
  cases n with
  | zero => simp [delay]
  | succ n => simp only [delay]; omega

theorem double_min (a : Int) (h : 0 < a) :
    (if (if min (100 * a) 60000 = 0 then 100 else min (100 * a) 60000 * 2) > 60000 then
      (60000 : Int) else (if min (100 * a) 60000 = 0 then 100 else min (100 * a) 60000 * 2)) =
      min (100 * (a * 2)) 60000 := by
  have hne : ¬ (min (100 * a) 60000 = 0) := by omega
  rw [if_neg hne]
  split <;> omega

theorem delay_step (n : Nat) (d : Int) (h : d = delay n) :
    (if (if d = 0 then 100 else d * 2) > 60000 then (60000 : Int)
      else (if d = 0 then 100 else d * 2)) = delay (n + 1) := by
  subst h
  cases n with
  | zero => decide
  | succ n =>
    have h1 : (0:Int) < 2 ^ n := Int.pow_pos (by decide)
    have h2 : (2:Int) ^ (n + 1) = 2 ^ n * 2 := Int.pow_succ 2 n
    simp only [delay, h2]
    exact double_min _ h1

theorem watch_snoc (ms : Tv → Tv → Int) (h : List PEv) (e : PEv) :
    watch ms (h ++ [e]) = (watch ms h).next ms e := by
  simp [watch, List.foldl_append]

theorem lastDeath_snoc (h : List PEv) (e : PEv) :
    lastDeath (h ++ [e]) = match e with | .died t => some t | _ => lastDeath h := by
  simp only [lastDeath, List.foldl_append, List.foldl_cons, List.foldl_nil]
  cases e <;> rfl

theorem running_snoc (h : List PEv) (e : PEv) :
    running (h ++ [e]) = match e with
      | .launch b => b.isSome
      | .died _ => false
      | .retry _ b => running h || b.isSome := by
  simp only [running, List.foldl_append, List.foldl_cons, List.foldl_nil]
  rfl

theorem launched_snoc {h : List PEv} (e : PEv) (hl : Launched h) : Launched (h ++ [e]) := by
  obtain ⟨t, r, rfl⟩ := hl
  exact ⟨t, r ++ [e], rfl⟩

theorem launched_of_snoc {h : List PEv} {e : PEv} (hn : h ≠ []) (hl : Launched (h ++ [e])) :
    Launched h := by
  obtain ⟨t, r, he⟩ := hl
  cases h with
  | nil => exact absurd rfl hn
  | cons x xs =>
    injection he with h1 h2
    exact ⟨t, xs, by rw [h1]⟩

/-- What every process entry looks like. -/
structure PInv (p : Proc) : Prop where
  ne : p.hist ≠ []
  dead : p.restart = true → Launched p.hist → p.state = PSTATE_DEAD →
    p.pid = 0 ∧ lastDeath p.hist = some p.dead ∧ running p.hist = false ∧
    (watch diffMs p.hist).since = p.start ∧
    (watch diffMs p.hist).long = decide (diffMs p.start p.dead > 60000) ∧
    ((watch diffMs p.hist).long = true ∨ p.restartdelay = delay (watch diffMs p.hist).tries)
  live : p.restart = true → Launched p.hist → p.state ≠ PSTATE_DEAD →
    p.pid > 0 ∧ running p.hist = true ∧ (watch diffMs p.hist).since = p.start ∧
    (watch diffMs p.hist).long = false ∧ p.restartdelay = delay (watch diffMs p.hist).tries
  past : ∀ (h1 : List PEv) (t : Tv) (b : Option Tv) (h2 : List PEv),
    p.hist = h1 ++ .retry t b :: h2 → Launched h1 →
    ∃ d, lastDeath h1 = some d ∧ running h1 = false ∧
      i32 (diffMs d t) > delay (watch diffMs h1).level

theorem split_snoc {h h1 h2 : List PEv} {e x : PEv} (hs : h ++ [e] = h1 ++ x :: h2) :
    (∃ h2', h = h1 ++ x :: h2' ∧ h2 = h2' ++ [e]) ∨ (h = h1 ∧ e = x ∧ h2 = []) := by
  rcases List.eq_nil_or_concat h2 with rfl | ⟨h2', y, rfl⟩
  · right
    have := List.append_inj' hs rfl
    obtain ⟨h3, h4⟩ := this
    injection h4 with h5 _
    exact ⟨h3, h5, rfl⟩
  · left
    rw [List.concat_eq_append] at hs ⊢
    have h3 : h1 ++ x :: (h2' ++ [y]) = (h1 ++ x :: h2') ++ [y] := by simp
    rw [h3] at hs
    obtain ⟨h4, h5⟩ := List.append_inj' hs rfl
    injection h5 with h6 _
    exact ⟨h2', h4, by rw [h6]⟩

theorem pinv_launch (r : Bool) (j : Nat) (f : Int) (t : Tv) :
    PInv (processLaunch (newProc r j) f t) := by
  unfold processLaunch processStart newProc
  by_cases hf : f > 0
  · simp only [hf, if_true, List.nil_append]
    refine ⟨by simp, ?_, ?_, ?_⟩
    · intro _ _ h; exact absurd h (by simp [PSTATE_STARTED, PSTATE_DEAD])
    · intro _ _ _
      exact ⟨hf, by simp [running], by simp [watch, Watch.next], by simp [watch, Watch.next],
        by simp [watch, Watch.next, delay]⟩
    · intro h1 t' b h2 he hl
      obtain ⟨t1, r1, rfl⟩ := hl
      simp at he
  · simp only [hf, if_false, List.nil_append]
    refine ⟨by simp, ?_, ?_, ?_⟩
    · rintro _ ⟨t1, r1, h⟩; simp at h
    · rintro _ ⟨t1, r1, h⟩; simp at h
    · intro h1 t' b h2 he hl
      obtain ⟨t1, r1, rfl⟩ := hl
      simp at he

theorem past_snoc {p : Proc} (hp : PInv p) {e : PEv} (he : ∀ t b, e ≠ .retry t b) :
    ∀ (h1 : List PEv) (t : Tv) (b : Option Tv) (h2 : List PEv),
    p.hist ++ [e] = h1 ++ .retry t b :: h2 → Launched h1 →
    ∃ d, lastDeath h1 = some d ∧ running h1 = false ∧
      i32 (diffMs d t) > delay (watch diffMs h1).level := by
  intro h1 t b h2 h hl
  rcases split_snoc h with ⟨h2', h3, _⟩ | ⟨_, h3, _⟩
  · exact hp.past h1 t b h2' h3 hl
  · exact absurd h3 (he t b)

theorem pinv_reap {p : Proc} (hp : PInv p) (st : Int) (now : Tv) (h0 : p.pid ≠ 0) :
    PInv (reap p st now) := by
  refine ⟨by simp [reap], ?_, ?_, past_snoc hp (by simp)⟩
  · intro hr hl _
    have hl' := launched_of_snoc hp.ne hl
    have hns : p.state ≠ PSTATE_DEAD := fun h => h0 (hp.dead hr hl' h).1
    obtain ⟨_, hrun, hsi, hlo, hd⟩ := hp.live hr hl' hns
    refine ⟨rfl, ?_, ?_, ?_, ?_, ?_⟩
    · simp only [reap, lastDeath_snoc]
    · simp only [reap, running_snoc]
    · simp only [reap, watch_snoc, Watch.next, hsi]
    · simp only [reap, watch_snoc, Watch.next, hsi]; rfl
    · right; simp only [reap, watch_snoc, Watch.next, hd]
  · intro _ _ h; exact absurd rfl h

theorem pinv_cleanup {ps : List Proc} (hps : ∀ p ∈ ps, PInv p) (pid st : Int) (now : Tv)
    (h0 : pid ≠ 0) : ∀ p ∈ cleanup ps pid st now, PInv p := by
  induction ps with
  | nil => intro p hp; simp [cleanup] at hp
  | cons q qs ih =>
    intro p hp
    unfold cleanup at hp
    split at hp
    · rename_i hq
      rcases List.mem_cons.mp hp with rfl | hp
      · exact pinv_reap (hps q (by simp)) st now (by rw [hq]; exact h0)
      · exact hps p (by simp [hp])
    · rcases List.mem_cons.mp hp with rfl | hp
      · exact hps _ (by simp)
      · exact ih (fun x hx => hps x (by simp [hx])) p hp

/-- The reset at the start of the restart branch. -/
theorem reset_delay {p : Proc} (hp : PInv p) (hr : p.restart = true) (hl : Launched p.hist)
    (hs : p.state = PSTATE_DEAD) :
    (if diffMs p.start p.dead > 60000 then { p with restartdelay := 0 } else p).restartdelay =
      delay (watch diffMs p.hist).level := by
  obtain ⟨_, _, _, _, hlo, hd⟩ := hp.dead hr hl hs
  unfold Watch.level
  by_cases h : diffMs p.start p.dead > 60000
  · rw [if_pos h, hlo]; simp [h, delay]
  · rw [if_neg h]
    rw [hlo] at hd ⊢
    simp only [h, decide_false] at hd ⊢
    rcases hd with hd | hd
    · simp at hd
    · simpa using hd

theorem pinv_restart {p : Proc} (hp : PInv p) (hr : p.restart = true)
    (hs : p.state = PSTATE_DEAD) (d : Int) (x : ProcIn)
    (hd : Launched p.hist → d = delay (watch diffMs p.hist).level)
    (hi : i32 (diffMs p.dead x.now) > d) :
    PInv (processRestart { p with restartdelay := d } x.now x.fork x.begun) := by
  have hpast : ∀ (b0 : Option Tv) (h1 : List PEv) (t : Tv) (b : Option Tv) (h2 : List PEv),
      p.hist ++ [.retry x.now b0] = h1 ++ .retry t b :: h2 → Launched h1 →
      ∃ d, lastDeath h1 = some d ∧ running h1 = false ∧
        i32 (diffMs d t) > delay (watch diffMs h1).level := by
    intro b0 h1 t b h2 h hl
    rcases split_snoc h with ⟨h2', h3, _⟩ | ⟨h3, h4, _⟩
    · exact hp.past h1 t b h2' h3 hl
    · subst h3
      injection h4 with h5 h6
      subst h5
      obtain ⟨_, h7, h8, _⟩ := hp.dead hr hl hs
      exact ⟨p.dead, h7, h8, by rw [← hd hl]; exact hi⟩
  unfold processRestart processStart
  by_cases hf : x.fork > 0
  · simp only [hf, if_true]
    refine ⟨by simp, ?_, ?_, hpast _⟩
    · intro _ _ h; exact absurd h (by simp [PSTATE_STARTED, PSTATE_DEAD])
    · intro _ hl _
      have hl' := launched_of_snoc hp.ne hl
      refine ⟨hf, ?_, ?_, ?_, ?_⟩
      · simp only [running_snoc]; simp
      · simp only [watch_snoc, Watch.next]
      · simp only [watch_snoc, Watch.next]
      · simp only [watch_snoc, Watch.next]
        exact delay_step _ _ (hd hl')
  · simp only [hf, if_false]
    refine ⟨by simp, ?_, ?_, hpast _⟩
    · intro _ hl _
      have hl' := launched_of_snoc hp.ne hl
      obtain ⟨h0, h7, h8, h9, h10, _⟩ := hp.dead hr hl' hs
      refine ⟨h0, ?_, ?_, ?_, ?_, ?_⟩
      · simp only [lastDeath_snoc]; exact h7
      · simp only [running_snoc, h8]; rfl
      · simp only [watch_snoc, Watch.next]; exact h9
      · simp only [watch_snoc, Watch.next]; exact h10
      · right
        simp only [watch_snoc, Watch.next]
        exact delay_step _ _ (hd hl')
    · intro _ _ h; exact absurd hs h

theorem checkLimits_face (p : Proc) (st : Option (Bool × Bool)) :
    (checkLimits p st).pid = p.pid ∧ (checkLimits p st).hist = p.hist ∧
    (checkLimits p st).restart = p.restart := by
  unfold checkLimits
  cases st with
  | none => dsimp only; split <;> split <;> simp
  | some v => obtain ⟨a, b⟩ := v; dsimp only; split <;> split <;> simp

theorem pinv_limits {p : Proc} (hp : PInv p) (hns : p.restart = true → p.state ≠ PSTATE_DEAD)
    (st : Option (Bool × Bool)) : PInv (checkLimits p st) := by
  have key : ∀ (a b : Bool) (st : Nat), (st = PSTATE_DEAD → p.restart = true → False) →
      PInv { p with hot := a, fat := b, state := st } := by
    intro a b st hst
    refine ⟨hp.ne, ?_, ?_, hp.past⟩
    · intro hr _ hs; exact absurd (hst hs hr) id
    · intro hr hl _; exact hp.live hr hl (hns hr)
  have hc : PSTATE_CONDEMNED ≠ PSTATE_DEAD := by decide
  have h1 : ∀ (a b : Bool), PInv { p with hot := a, fat := b, state := PSTATE_CONDEMNED } :=
    fun a b => key a b _ (fun h _ => hc h)
  have h2 : ∀ (a b : Bool), PInv { p with hot := a, fat := b } :=
    fun a b => key a b p.state (fun h hr => hns hr h)
  unfold checkLimits
  cases st with
  | none =>
    dsimp only
    cases hh : p.hot <;> cases hfat : p.fat
    · simpa [hh, hfat] using hp
    · simpa [hh, hfat] using h1 p.hot p.fat
    · simpa [hh, hfat] using h1 p.hot p.fat
    · simpa [hh, hfat] using h1 p.hot p.fat
  | some hf =>
    obtain ⟨a, b⟩ := hf
    dsimp only
    cases a <;> cases b
    · simpa using h2 false false
    · simpa using h1 false true
    · simpa using h1 true false
    · simpa using h1 true true

theorem pinv_scan {p : Proc} (hp : PInv p) (c : Nat) (x : ProcIn) (sl : Int) :
    PInv (scanProc p c x sl).1 := by
  unfold scanProc
  by_cases h : p.restart = true ∧ p.state = PSTATE_DEAD
  · rw [if_pos h]
    obtain ⟨hr, hs⟩ := h
    have hd := reset_delay hp hr (hs := hs)
    have hform : (if diffMs p.start p.dead > 60000 then { p with restartdelay := 0 } else p) =
        { p with restartdelay := (if diffMs p.start p.dead > 60000 then
          { p with restartdelay := 0 } else p).restartdelay } := by
      split <;> rfl
    dsimp only
    rw [hform]
    generalize (if diffMs p.start p.dead > 60000 then
          { p with restartdelay := 0 } else p).restartdelay = d at *
    split
    · rename_i hi
      exact pinv_restart hp hr hs d x hd hi
    · refine ⟨hp.ne, ?_, ?_, hp.past⟩
      · intro _ hl _
        obtain ⟨h0, h7, h8, h9, h10, h11⟩ := hp.dead hr hl hs
        refine ⟨h0, h7, h8, h9, h10, ?_⟩
        have := hd hl
        simp only [this, Watch.level]
        cases hlo : (watch diffMs p.hist).long <;> simp
      · intro _ _ h; exact absurd hs h
  · rw [if_neg h]
    split
    · exact pinv_limits hp (fun hr hs => h ⟨hr, hs⟩) _
    · exact hp

theorem pinv_scanProcs (c : Nat) : ∀ (ps : List Proc) (xs : List ProcIn) (sl : Int),
    (∀ p ∈ ps, PInv p) → ∀ p ∈ (scanProcs c ps xs sl).1, PInv p := by
  intro ps
  induction ps with
  | nil => intro xs sl h p hp; simp [scanProcs] at hp
  | cons q qs ih =>
    intro xs sl h p hp
    cases xs with
    | nil => exact h p (by simpa [scanProcs] using hp)
    | cons x xs =>
      simp only [scanProcs, List.mem_cons] at hp
      rcases hp with rfl | hp
      · exact pinv_scan (h q (by simp)) c x sl
      · exact ih xs _ (fun y hy => h y (by simp [hy])) p hp

theorem pinv_drain : ∀ (xs : List SlotIn) (n : Nat) (m m' : State),
    (∀ p ∈ m.procs, PInv p) → drain m n xs = .ok m' → ∀ p ∈ m'.procs, PInv p := by
  intro xs
  induction xs with
  | nil => intro n m m' h he; simp only [drain, C.ok.injEq] at he; rw [← he]; exact h
  | cons x xs ih =>
    intro n m m' h he
    unfold drain at he
    obtain ⟨q, _, he⟩ := C.bind_eq_ok.mp he
    split at he
    · exact absurd he (by simp)
    · rename_i sl _
      split at he
      · rename_i h0
        obtain ⟨q', _, he⟩ := C.bind_eq_ok.mp he
        exact ih _ _ _ (pinv_cleanup h _ _ _ h0) he
      · obtain ⟨q', _, he⟩ := C.bind_eq_ok.mp he
        exact ih _ _ _ (by exact h) he

theorem scan_inv {m m' : State} {slots : List SlotIn} {ins : List ProcIn} {z : Int}
    (h : processScan m slots ins = .ok (m', z)) :
    slots.length = DPQ_SIZE ∧ ins.length = m.procs.length ∧ ∃ m1, drain m 0 slots = .ok m1 ∧
      m' = { m1 with procs := (scanProcs m1.count m1.procs ins 60000).1,
                     kills := m1.kills ++ (scanProcs m1.count m1.procs ins 60000).2.1,
                     count := (m1.count + 1) % 4294967296 } ∧
      z = (scanProcs m1.count m1.procs ins 60000).2.2 := by
  unfold processScan at h
  split at h
  · rename_i hc
    obtain ⟨m1, h1, h⟩ := C.bind_eq_ok.mp h
    simp only [C.ok.injEq, Prod.mk.injEq] at h
    exact ⟨hc.1, hc.2, m1, h1, h.1.symm, h.2.symm⟩
  · exact absurd h (by simp)

theorem pinv_step {m m' : State} {o : Op} (h : ∀ p ∈ m.procs, PInv p) (he : step m o = .ok m') :
    ∀ p ∈ m'.procs, PInv p := by
  cases o with
  | signal ds =>
    simp only [step] at he
    obtain ⟨q, _, he⟩ := C.bind_eq_ok.mp he
    simp only [C.ok.injEq] at he
    rw [← he]; exact h
  | scan slots ins =>
    simp only [step] at he
    obtain ⟨⟨m1, z⟩, h1, he⟩ := C.bind_eq_ok.mp he
    simp only [C.ok.injEq] at he
    subst he
    obtain ⟨_, _, m2, h2, rfl, _⟩ := scan_inv h1
    exact pinv_scanProcs _ _ _ _ (pinv_drain _ _ _ _ h h2)

theorem pinv_run : ∀ (os : List Op) (m m' : State), (∀ p ∈ m.procs, PInv p) →
    run m os = .ok m' → ∀ p ∈ m'.procs, PInv p := by
  intro os
  induction os with
  | nil => intro m m' h he; simp only [run, C.ok.injEq] at he; rw [← he]; exact h
  | cons o os ih =>
    intro m m' h he
    simp only [run] at he
    obtain ⟨m1, h1, he⟩ := C.bind_eq_ok.mp he
    exact ih _ _ (pinv_step h h1) he

theorem Reach.pinv {m : State} (h : Reach m) : ∀ p ∈ m.procs, PInv p := by
  obtain ⟨cfg, os, h⟩ := h
  refine pinv_run os _ _ ?_ h
  intro p hp
  simp only [boot, List.mem_map] at hp
  obtain ⟨⟨r, j, f, t⟩, _, rfl⟩ := hp
  exact pinv_launch r j f t

/-! ## The queue -/

/-- Deaths in a queue. -/
def pend (q : List Slot) : List (Int × Int) :=
  (q.filter (fun s => s.pid ≠ 0)).map fun s => (s.pid, s.status)

theorem pend_cons (s : Slot) (q : List Slot) :
    pend (s :: q) = (if s.pid ≠ 0 then [(s.pid, s.status)] else []) ++ pend q := by
  unfold pend
  rw [List.filter_cons]
  split <;> simp_all

theorem dpqAdd_perm : ∀ (q q' : List Slot) (pid st : Int), pid ≠ 0 → dpqAdd q pid st = .ok q' →
    (pend q').Perm ((pid, st) :: pend q) ∧ q'.length = q.length := by
  intro q
  induction q with
  | nil => intro q' pid st _ h; simp [dpqAdd] at h
  | cons s q ih =>
    intro q' pid st h0 h
    unfold dpqAdd at h
    split at h
    · rename_i hs
      obtain ⟨q1, h1, h⟩ := C.bind_eq_ok.mp h
      simp only [C.ok.injEq] at h
      subst h
      obtain ⟨hp, hl⟩ := ih q1 pid st h0 h1
      refine ⟨?_, by simp [hl]⟩
      rw [pend_cons, pend_cons, if_pos hs]
      exact (List.Perm.append_left [(s.pid, s.status)] hp).trans (List.Perm.swap _ _ _)
    · rename_i hs
      simp only [C.ok.injEq] at h
      subst h
      refine ⟨?_, by simp⟩
      rw [pend_cons, pend_cons, if_neg hs, if_pos h0]
      simp

theorem childSignal_perm : ∀ (ds : List (Int × Int)) (q q' : List Slot),
    childSignal q ds = .ok q' → (pend q').Perm (reported ds ++ pend q) ∧ q'.length = q.length := by
  intro ds
  induction ds with
  | nil =>
    intro q q' h
    simp only [childSignal, C.ok.injEq] at h
    subst h
    exact ⟨by simp [reported], rfl⟩
  | cons d ds ih =>
    intro q q' h
    obtain ⟨pid, st⟩ := d
    unfold childSignal at h
    split at h
    · rename_i hp
      obtain ⟨q1, h1, h⟩ := C.bind_eq_ok.mp h
      obtain ⟨p1, l1⟩ := dpqAdd_perm q q1 pid st (by omega) h1
      obtain ⟨p2, l2⟩ := ih q1 q' h
      refine ⟨?_, by rw [l2, l1]⟩
      have : reported ((pid, st) :: ds) = (pid, st) :: reported ds := by
        unfold reported; rw [List.takeWhile_cons]; simp [hp]
      rw [this]
      refine p2.trans ((List.Perm.append_left _ p1).trans ?_)
      simpa using List.perm_middle
    · rename_i hp
      simp only [C.ok.injEq] at h
      subst h
      have : reported ((pid, st) :: ds) = [] := by
        unfold reported; rw [List.takeWhile_cons]; simp [hp]
      rw [this]
      exact ⟨by simp, rfl⟩

theorem dpqAdd_keep : ∀ (q q' : List Slot) (pid st : Int) (n : Nat) (sl : Slot), sl.pid ≠ 0 →
    q[n]? = some sl → dpqAdd q pid st = .ok q' → q'[n]? = some sl := by
  intro q
  induction q with
  | nil => intro q' pid st n sl _ h; simp at h
  | cons s q ih =>
    intro q' pid st n sl h0 hn h
    unfold dpqAdd at h
    split at h
    · obtain ⟨q1, h1, h⟩ := C.bind_eq_ok.mp h
      simp only [C.ok.injEq] at h
      subst h
      cases n with
      | zero => simpa using hn
      | succ n => simpa using ih q1 pid st n sl h0 (by simpa using hn) h1
    · rename_i hs
      simp only [C.ok.injEq] at h
      subst h
      cases n with
      | zero =>
        simp only [List.getElem?_cons_zero, Option.some.injEq] at hn
        subst hn
        exact absurd h0 hs
      | succ n => simpa using hn

theorem childSignal_keep : ∀ (ds : List (Int × Int)) (q q' : List Slot) (n : Nat) (sl : Slot),
    sl.pid ≠ 0 → q[n]? = some sl → childSignal q ds = .ok q' → q'[n]? = some sl := by
  intro ds
  induction ds with
  | nil => intro q q' n sl _ hn h; simp only [childSignal, C.ok.injEq] at h; rw [← h]; exact hn
  | cons d ds ih =>
    intro q q' n sl h0 hn h
    obtain ⟨pid, st⟩ := d
    unfold childSignal at h
    split at h
    · obtain ⟨q1, h1, h⟩ := C.bind_eq_ok.mp h
      exact ih q1 q' n sl h0 (dpqAdd_keep q q1 pid st n sl h0 hn h1) h
    · simp only [C.ok.injEq] at h; rw [← h]; exact hn

theorem pend_set : ∀ (q : List Slot) (n : Nat) (sl : Slot) (st : Int), q[n]? = some sl →
    sl.pid ≠ 0 →
    (pend q).Perm ((sl.pid, sl.status) :: pend (q.set n { pid := 0, status := st })) := by
  intro q
  induction q with
  | nil => intro n sl st h; simp at h
  | cons s q ih =>
    intro n sl st h h0
    cases n with
    | zero =>
      simp only [List.getElem?_cons_zero, Option.some.injEq] at h
      subst h
      rw [List.set_cons_zero, pend_cons, pend_cons, if_pos h0]
      simp
    | succ n =>
      simp only [List.getElem?_cons_succ] at h
      rw [List.set_cons_succ, pend_cons, pend_cons]
      refine (List.Perm.append_left _ (ih n sl st h h0)).trans ?_
      exact List.perm_middle

theorem drain_perm : ∀ (xs : List SlotIn) (n : Nat) (m m' : State), drain m n xs = .ok m' →
    (m'.handled ++ pend m'.dpq).Perm (m.handled ++ pend m.dpq ++ xs.flatMap SlotIn.deaths) ∧
    m'.dpq.length = m.dpq.length := by
  intro xs
  induction xs with
  | nil =>
    intro n m m' h
    simp only [drain, C.ok.injEq] at h
    subst h
    exact ⟨by simp, rfl⟩
  | cons x xs ih =>
    intro n m m' h
    unfold drain at h
    obtain ⟨q, h1, h⟩ := C.bind_eq_ok.mp h
    obtain ⟨p1, l1⟩ := childSignal_perm _ _ _ h1
    split at h
    · exact absurd h (by simp)
    · rename_i sl hsl
      split at h
      · rename_i h0
        obtain ⟨q', h2, h⟩ := C.bind_eq_ok.mp h
        obtain ⟨p2, l2⟩ := childSignal_perm _ _ _ h2
        obtain ⟨p3, l3⟩ := ih _ _ _ h
        refine ⟨?_, by rw [l3]; simp [l2, l1]⟩
        have hq' : q'[n]? = some sl := childSignal_keep _ _ _ n sl h0 hsl h2
        have p4 := pend_set q' n sl sl.status hq' h0
        refine p3.trans ?_
        dsimp only
        rw [List.flatMap_cons, SlotIn.deaths]
        have p5 : ((sl.pid, sl.status) :: pend (q'.set n { pid := 0, status := sl.status })).Perm
            (pend m.dpq ++ (reported x.before ++ reported x.during)) := by
          refine p4.symm.trans (p2.trans ((List.Perm.append_left _ p1).trans ?_))
          refine (List.perm_append_comm).trans ?_
          refine (List.Perm.append_right _ List.perm_append_comm).trans ?_
          simp
        have e1 : m.handled ++ [(sl.pid, sl.status)] ++
            pend (q'.set n { pid := 0, status := sl.status }) =
            m.handled ++ ((sl.pid, sl.status) ::
              pend (q'.set n { pid := 0, status := sl.status })) := by simp
        rw [e1]
        refine (List.Perm.append_right _ (List.Perm.append_left _ p5)).trans ?_
        simp
      · obtain ⟨q', h2, h⟩ := C.bind_eq_ok.mp h
        obtain ⟨p2, l2⟩ := childSignal_perm _ _ _ h2
        obtain ⟨p3, l3⟩ := ih _ _ _ h
        refine ⟨?_, by rw [l3]; simp [l2, l1]⟩
        refine p3.trans ?_
        dsimp only
        rw [List.flatMap_cons, SlotIn.deaths]
        have p5 : (pend q').Perm
            (pend m.dpq ++ (reported x.before ++ reported x.during)) := by
          refine (p2.trans ((List.Perm.append_left _ p1).trans ?_))
          refine (List.perm_append_comm).trans ?_
          refine (List.Perm.append_right _ List.perm_append_comm).trans ?_
          simp
        refine (List.Perm.append_right _ (List.Perm.append_left _ p5)).trans ?_
        simp

theorem dpqAdd_room : ∀ (q : List Slot) (pid st : Int), (pend q).length < q.length →
    ∃ q', dpqAdd q pid st = .ok q' := by
  intro q
  induction q with
  | nil => intro pid st h; simp at h
  | cons s q ih =>
    intro pid st h
    unfold dpqAdd
    split
    · rename_i hs
      rw [pend_cons, if_pos hs] at h
      obtain ⟨q', h'⟩ := ih pid st (by simp at h; omega)
      exact ⟨s :: q', by rw [h']; rfl⟩
    · exact ⟨_, rfl⟩

theorem dpqAdd_full : ∀ (q : List Slot) (pid st : Int), (pend q).length = q.length →
    dpqAdd q pid st = .ub "dead process queue overflow" := by
  intro q
  induction q with
  | nil => intro pid st h; rfl
  | cons s q ih =>
    intro pid st h
    unfold dpqAdd
    by_cases hs : s.pid ≠ 0
    · rw [if_pos hs]
      rw [pend_cons, if_pos hs] at h
      rw [ih pid st (by simp at h; omega)]
      rfl
    · rw [pend_cons, if_neg hs] at h
      have := List.length_filter_le (fun s : Slot => decide (s.pid ≠ 0)) q
      simp [pend] at h
      simp at this
      omega

theorem childSignal_room : ∀ (ds : List (Int × Int)) (q : List Slot),
    (pend q).length + (reported ds).length ≤ q.length → ∃ q', childSignal q ds = .ok q' := by
  intro ds
  induction ds with
  | nil => intro q _; exact ⟨q, rfl⟩
  | cons d ds ih =>
    intro q h
    obtain ⟨pid, st⟩ := d
    unfold childSignal
    split
    · rename_i hp
      have hr : reported ((pid, st) :: ds) = (pid, st) :: reported ds := by
        unfold reported; rw [List.takeWhile_cons]; simp [hp]
      rw [hr] at h
      simp only [List.length_cons] at h
      obtain ⟨q1, h1⟩ := dpqAdd_room q pid st (by omega)
      obtain ⟨p1, l1⟩ := dpqAdd_perm q q1 pid st (by omega) h1
      have := p1.length_eq
      simp only [List.length_cons] at this
      obtain ⟨q2, h2⟩ := ih q1 (by omega)
      exact ⟨q2, by rw [h1]; exact h2⟩
    · exact ⟨q, rfl⟩

theorem drain_room : ∀ (xs : List SlotIn) (n : Nat) (m : State),
    (pend m.dpq).length + (xs.flatMap SlotIn.deaths).length ≤ m.dpq.length →
    n + xs.length ≤ m.dpq.length → ∃ m', drain m n xs = .ok m' := by
  intro xs
  induction xs with
  | nil => intro n m _ _; exact ⟨m, rfl⟩
  | cons x xs ih =>
    intro n m h hn
    rw [List.flatMap_cons, SlotIn.deaths] at h
    simp only [List.length_append, List.length_cons] at h hn
    unfold drain
    obtain ⟨q, h1⟩ := childSignal_room x.before m.dpq (by omega)
    obtain ⟨p1, l1⟩ := childSignal_perm _ _ _ h1
    have e1 := p1.length_eq
    simp only [List.length_append] at e1
    rw [h1]
    simp only [C.ok_bind]
    obtain ⟨q', h2⟩ := childSignal_room x.during q (by omega)
    obtain ⟨p2, l2⟩ := childSignal_perm _ _ _ h2
    have e2 := p2.length_eq
    simp only [List.length_append] at e2
    split
    · rename_i hq
      rw [List.getElem?_eq_none_iff] at hq
      omega
    · rename_i sl hsl
      split
      · rename_i h0
        rw [h2]
        simp only [C.ok_bind]
        have hq' : q'[n]? = some sl := childSignal_keep _ _ _ n sl h0 hsl h2
        have p4 := (pend_set q' n sl sl.status hq' h0).length_eq
        simp only [List.length_cons] at p4
        apply ih
        · simp only [List.length_set]; omega
        · simp only [List.length_set]; omega
      · rw [h2]
        simp only [C.ok_bind]
        apply ih
        · dsimp only; omega
        · dsimp only; omega

/-- A scan that is not interrupted frees every slot it visits and keeps the free ones free. -/
theorem drain_clear : ∀ (xs : List SlotIn) (n : Nat) (m m' : State),
    (∀ x ∈ xs, x.before = [] ∧ x.during = []) → drain m n xs = .ok m' →
    (∀ i sl, i < n → m.dpq[i]? = some sl → sl.pid = 0) →
    ∀ i sl, i < n + xs.length → m'.dpq[i]? = some sl → sl.pid = 0 := by
  intro xs
  induction xs with
  | nil =>
    intro n m m' _ h hz i sl hi hs
    simp only [drain, C.ok.injEq] at h
    subst h
    exact hz i sl (by simpa using hi) hs
  | cons x xs ih =>
    intro n m m' hq h hz i sl hi hs
    obtain ⟨hb, hd⟩ := hq x (by simp)
    unfold drain at h
    rw [hb, hd] at h
    simp only [childSignal, C.ok_bind] at h
    split at h
    · exact absurd h (by simp)
    · rename_i s0 hs0
      simp only [List.length_cons] at hi
      split at h
      · refine ih (n + 1) _ m' (fun y hy => hq y (by simp [hy])) h ?_ i sl (by omega) hs
        intro j sj hj hsj
        dsimp only at hsj
        by_cases hjn : j = n
        · subst hjn
          have hlt : j < m.dpq.length := by
            rcases Nat.lt_or_ge j m.dpq.length with h | h
            · exact h
            · rw [List.getElem?_eq_none h] at hs0; simp at hs0
          rw [List.getElem?_set_self hlt] at hsj
          simp only [Option.some.injEq] at hsj
          rw [← hsj]
        · rw [List.getElem?_set_ne (fun h => hjn h.symm)] at hsj
          exact hz j sj (by omega) hsj
      · rename_i h0
        refine ih (n + 1) _ m' (fun y hy => hq y (by simp [hy])) h ?_ i sl (by omega) hs
        intro j sj hj hsj
        dsimp only at hsj
        by_cases hjn : j = n
        · subst hjn
          rw [hs0] at hsj
          simp only [Option.some.injEq] at hsj
          rw [← hsj]
          exact Classical.byContradiction h0
        · exact hz j sj (by omega) hsj

theorem pend_nil_of {q : List Slot} (h : ∀ i sl, i < q.length → q[i]? = some sl → sl.pid = 0) :
    pend q = [] := by
  unfold pend
  rw [List.map_eq_nil_iff, List.filter_eq_nil_iff]
  intro s hs
  obtain ⟨i, hi⟩ := List.mem_iff_getElem?.mp hs
  have hlt : i < q.length := by
    rcases Nat.lt_or_ge i q.length with h | h
    · exact h
    · rw [List.getElem?_eq_none h] at hi; simp at hi
  simp [h i s hlt hi]

theorem pend_nil {q : List Slot} (h : pend q = []) :
    ∀ (i : Nat) (sl : Slot), q[i]? = some sl → sl.pid = 0 := by
  intro i sl hi
  unfold pend at h
  rw [List.map_eq_nil_iff, List.filter_eq_nil_iff] at h
  have := h sl (List.mem_iff_getElem?.mpr ⟨i, hi⟩)
  simpa using this

/-- With nothing waiting and no signals, the first loop does nothing. -/
theorem drain_idle : ∀ (xs : List SlotIn) (n : Nat) (m : State),
    (∀ x ∈ xs, x.before = [] ∧ x.during = []) → pend m.dpq = [] →
    n + xs.length ≤ m.dpq.length → drain m n xs = .ok m := by
  intro xs
  induction xs with
  | nil => intro n m _ _ _; rfl
  | cons x xs ih =>
    intro n m hq hp hn
    obtain ⟨hb, hd⟩ := hq x (by simp)
    simp only [List.length_cons] at hn
    unfold drain
    rw [hb, hd]
    simp only [childSignal, C.ok_bind]
    have hlt : n < m.dpq.length := by omega
    have hs : m.dpq[n]? = some m.dpq[n] := List.getElem?_eq_getElem hlt
    have h0 := pend_nil hp n _ hs
    split
    · rename_i h; rw [hs] at h; simp at h
    · rename_i sl h
      rw [hs] at h
      simp only [Option.some.injEq] at h
      rw [← h, if_neg (by simp [h0])]
      exact ih (n + 1) m (fun y hy => hq y (by simp [hy])) hp (by omega)

theorem step_length {m m' : State} {o : Op} (h : step m o = .ok m') :
    m'.dpq.length = m.dpq.length ∧
    (m'.handled ++ pend m'.dpq).Perm (m.handled ++ pend m.dpq ++ o.deaths) := by
  cases o with
  | signal ds =>
    simp only [step] at h
    obtain ⟨q, h1, h⟩ := C.bind_eq_ok.mp h
    simp only [C.ok.injEq] at h
    subst h
    obtain ⟨p, l⟩ := childSignal_perm _ _ _ h1
    refine ⟨l, ?_⟩
    dsimp only [Op.deaths]
    rw [List.append_assoc]
    exact List.Perm.append_left _ (p.trans List.perm_append_comm)
  | scan slots ins =>
    simp only [step] at h
    obtain ⟨⟨m1, z⟩, h1, h⟩ := C.bind_eq_ok.mp h
    simp only [C.ok.injEq] at h
    subst h
    obtain ⟨_, _, m2, h2, rfl, _⟩ := scan_inv h1
    obtain ⟨p, l⟩ := drain_perm _ _ _ _ h2
    exact ⟨l, p⟩

theorem run_perm : ∀ (os : List Op) (m m' : State), run m os = .ok m' →
    m'.dpq.length = m.dpq.length ∧
    (m'.handled ++ pend m'.dpq).Perm (m.handled ++ pend m.dpq ++ os.flatMap Op.deaths) := by
  intro os
  induction os with
  | nil =>
    intro m m' h
    simp only [run, C.ok.injEq] at h
    subst h
    exact ⟨rfl, by simp⟩
  | cons o os ih =>
    intro m m' h
    simp only [run] at h
    obtain ⟨m1, h1, h⟩ := C.bind_eq_ok.mp h
    obtain ⟨l1, p1⟩ := step_length h1
    obtain ⟨l2, p2⟩ := ih _ _ h
    refine ⟨by rw [l2, l1], p2.trans ?_⟩
    rw [List.flatMap_cons]
    refine (List.Perm.append_right _ p1).trans ?_
    simp

theorem boot_pend (cfg : List (Bool × Nat × Int × Tv)) :
    (boot cfg).handled ++ pend (boot cfg).dpq = [] ∧ (boot cfg).dpq.length = 10 := by
  constructor <;> rfl

theorem Reach.dpq_length {m : State} (h : Reach m) : m.dpq.length = 10 := by
  obtain ⟨cfg, os, h⟩ := h
  rw [(run_perm os _ _ h).1]
  rfl

/-! ## Which processes are cleaned up -/

theorem cleanup_miss : ∀ (ps : List Proc) (pid st : Int) (now : Tv) (i : Nat) (p : Proc),
    ps[i]? = some p → p.pid ≠ pid → (cleanup ps pid st now)[i]? = some p := by
  intro ps
  induction ps with
  | nil => intro pid st now i p h; simp at h
  | cons a ps ih =>
    intro pid st now i p h hp
    unfold cleanup
    cases i with
    | zero =>
      simp only [List.getElem?_cons_zero, Option.some.injEq] at h
      subst h
      simp [hp]
    | succ i =>
      simp only [List.getElem?_cons_succ] at h
      split
      · simpa using h
      · simpa using ih pid st now i p h hp

/-- No two processes share a pid. -/
def Distinct (ps : List Proc) : Prop :=
  ∀ (i j : Nat) (p q : Proc), ps[i]? = some p → ps[j]? = some q → p.pid = q.pid → p.pid ≠ 0 → i = j

theorem cleanup_hit : ∀ (ps : List Proc) (pid st : Int) (now : Tv) (i : Nat) (p : Proc),
    ps[i]? = some p → p.pid = pid →
    (∀ (j : Nat) (q : Proc), j < i → ps[j]? = some q → q.pid ≠ pid) →
    (cleanup ps pid st now)[i]? = some (reap p st now) := by
  intro ps
  induction ps with
  | nil => intro pid st now i p h; simp at h
  | cons a ps ih =>
    intro pid st now i p h hp hd
    unfold cleanup
    cases i with
    | zero =>
      simp only [List.getElem?_cons_zero, Option.some.injEq] at h
      subst h
      simp [hp]
    | succ i =>
      simp only [List.getElem?_cons_succ] at h
      rw [if_neg (hd 0 a (by omega) (by simp)), List.getElem?_cons_succ]
      exact ih pid st now i p h hp (fun j q hj hq => hd (j + 1) q (by omega) (by simpa using hq))

theorem cleanup_cases (ps : List Proc) (pid st : Int) (now : Tv) (i : Nat) (p : Proc)
    (h : (cleanup ps pid st now)[i]? = some p) :
    ps[i]? = some p ∨ ∃ q, ps[i]? = some q ∧ q.pid = pid ∧ p = reap q st now := by
  induction ps generalizing i with
  | nil => simp [cleanup] at h
  | cons a ps ih =>
    unfold cleanup at h
    split at h
    · rename_i ha
      cases i with
      | zero =>
        simp only [List.getElem?_cons_zero, Option.some.injEq] at h
        exact .inr ⟨a, by simp, ha, h.symm⟩
      | succ i => left; simpa using h
    · cases i with
      | zero => left; simpa using h
      | succ i =>
        simp only [List.getElem?_cons_succ] at h ⊢
        exact ih i h

theorem cleanup_distinct {ps : List Proc} (hd : Distinct ps) (pid st : Int) (now : Tv) :
    Distinct (cleanup ps pid st now) := by
  intro i j p q hp hq he h0
  have key : ∀ (i : Nat) (p : Proc), (cleanup ps pid st now)[i]? = some p → p.pid ≠ 0 →
      ps[i]? = some p := by
    intro i p hp h0
    rcases cleanup_cases ps pid st now i p hp with h | ⟨q, _, _, rfl⟩
    · exact h
    · exact absurd rfl h0
  exact hd i j p q (key i p hp h0) (key j q hq (by rw [← he]; exact h0)) he h0

/-- An uninterrupted first loop: a process is reaped exactly if its pid is in one of the slots
still to be visited. -/
theorem drain_procs : ∀ (xs : List SlotIn) (n : Nat) (m m' : State),
    (∀ x ∈ xs, x.before = [] ∧ x.during = []) → drain m n xs = .ok m' → Distinct m.procs →
    ∀ (i : Nat) (p : Proc), m.procs[i]? = some p →
    (p.pid ≠ 0 → ∀ (k : Nat) (sl : Slot), n ≤ k → k < n + xs.length → m.dpq[k]? = some sl →
      sl.pid = p.pid → ∃ (k : Nat) (sl : Slot) (t : Tv), n ≤ k ∧ m.dpq[k]? = some sl ∧
        sl.pid = p.pid ∧ m'.procs[i]? = some (reap p sl.status t)) ∧
    ((p.pid = 0 ∨ ∀ (k : Nat) (sl : Slot), m.dpq[k]? = some sl → sl.pid ≠ p.pid) →
      m'.procs[i]? = some p) := by
  intro xs
  induction xs with
  | nil =>
    intro n m m' _ h _ i p hi
    simp only [drain, C.ok.injEq] at h
    subst h
    exact ⟨fun _ k sl h1 h2 => absurd h2 (by simp; omega), fun _ => hi⟩
  | cons x xs ih =>
    intro n m m' hq h hd i p hi
    obtain ⟨hb, hdu⟩ := hq x (by simp)
    unfold drain at h
    rw [hb, hdu] at h
    simp only [childSignal, C.ok_bind] at h
    split at h
    · exact absurd h (by simp)
    · rename_i s0 hs0
      have hq' : ∀ y ∈ xs, y.before = [] ∧ y.during = [] := fun y hy => hq y (by simp [hy])
      split at h
      · rename_i h0
        have hlt : n < m.dpq.length := by
          rcases Nat.lt_or_ge n m.dpq.length with h | h
          · exact h
          · rw [List.getElem?_eq_none h] at hs0; simp at hs0
        have hd' := cleanup_distinct hd s0.pid s0.status x.now
        by_cases hp : p.pid = s0.pid
        · have hp0 : p.pid ≠ 0 := by rw [hp]; exact h0
          have hr := cleanup_hit m.procs s0.pid s0.status x.now i p hi hp (by
            intro j q hj hjq he
            have := hd j i q p hjq hi (by rw [he, hp]) (by rw [he]; exact h0)
            omega)
          have hfin := (ih (n + 1) _ m' hq' h hd' i _ hr).2 (.inl rfl)
          refine ⟨fun _ k sl _ _ _ _ => ⟨n, s0, x.now, Nat.le_refl _, hs0, hp.symm, hfin⟩, ?_⟩
          rintro (h1 | h1)
          · exact absurd h1 hp0
          · exact absurd hp.symm (h1 n s0 hs0)
        · have hr := cleanup_miss m.procs s0.pid s0.status x.now i p hi hp
          obtain ⟨ih1, ih2⟩ := ih (n + 1) _ m' hq' h hd' i p hr
          constructor
          · intro hp0 k sl hk1 hk2 hsl he
            have hkn : k ≠ n := by
              rintro rfl
              rw [hs0] at hsl
              simp only [Option.some.injEq] at hsl
              rw [hsl] at hp
              exact hp he.symm
            simp only [List.length_cons] at hk2
            obtain ⟨k', sl', t, g1, g2, g3, g4⟩ := ih1 hp0 k sl (by omega) (by omega)
              (by dsimp only; rw [List.getElem?_set_ne (Ne.symm hkn)]; exact hsl) he
            dsimp only at g2
            by_cases hkn' : k' = n
            · omega
            · rw [List.getElem?_set_ne (Ne.symm hkn')] at g2
              exact ⟨k', sl', t, by omega, g2, g3, g4⟩
          · rintro (h1 | h1)
            · exact ih2 (.inl h1)
            · by_cases hz : p.pid = 0
              · exact ih2 (.inl hz)
              · refine ih2 (.inr ?_)
                intro k sl hk
                dsimp only at hk
                by_cases hkn : k = n
                · subst hkn
                  rw [List.getElem?_set_self hlt] at hk
                  simp only [Option.some.injEq] at hk
                  rw [← hk]
                  exact fun h => hz h.symm
                · rw [List.getElem?_set_ne (Ne.symm hkn)] at hk
                  exact h1 k sl hk
      · rename_i h0
        obtain ⟨ih1, ih2⟩ := ih (n + 1) _ m' hq' h hd i p hi
        refine ⟨?_, ih2⟩
        intro hp0 k sl hk1 hk2 hsl he
        have hkn : k ≠ n := by
          rintro rfl
          rw [hs0] at hsl
          simp only [Option.some.injEq] at hsl
          rw [hsl] at h0
          exact h0 (by rw [he]; exact hp0)
        simp only [List.length_cons] at hk2
        obtain ⟨k', sl', t, g1, g2, g3, g4⟩ := ih1 hp0 k sl (by omega) (by omega) hsl he
        exact ⟨k', sl', t, by omega, g2, g3, g4⟩

/-- The second loop only adds restarts to the history. -/
theorem scanProc_hist (p : Proc) (c : Nat) (x : ProcIn) (z : Int) :
    ∃ r, (scanProc p c x z).1.hist = p.hist ++ r ∧ (r = [] ∨ ∃ b, r = [.retry x.now b]) := by
  unfold scanProc
  split
  · have hh : (if diffMs p.start p.dead > 60000 then { p with restartdelay := 0 } else p).hist =
        p.hist := by split <;> rfl
    dsimp only
    generalize (if diffMs p.start p.dead > 60000 then { p with restartdelay := 0 } else p) = q at *
    by_cases hc : i32 (diffMs q.dead x.now) > q.restartdelay
    · rw [if_pos hc]
      unfold processRestart processStart
      rw [← hh]
      split <;> exact ⟨_, rfl, .inr ⟨_, rfl⟩⟩
    · rw [if_neg hc]
      exact ⟨[], by simp [hh], .inl rfl⟩
  · split
    · dsimp only
      refine ⟨[], ?_, .inl rfl⟩
      simp [checkLimits_face]
    · exact ⟨[], by simp, .inl rfl⟩

theorem scanProcs_get (c : Nat) : ∀ (ps : List Proc) (xs : List ProcIn) (z : Int) (i : Nat)
    (p : Proc) (x : ProcIn), ps[i]? = some p → xs[i]? = some x →
    ∃ z', (scanProcs c ps xs z).1[i]? = some (scanProc p c x z').1 := by
  intro ps
  induction ps with
  | nil => intro xs z i p x h; simp at h
  | cons a ps ih =>
    intro xs z i p x h hx
    cases xs with
    | nil => simp at hx
    | cons y ys =>
      cases i with
      | zero =>
        simp only [List.getElem?_cons_zero, Option.some.injEq] at h hx
        subst h; subst hx
        exact ⟨z, rfl⟩
      | succ i =>
        simp only [List.getElem?_cons_succ] at h hx
        obtain ⟨z', h'⟩ := ih ys (scanProc a c y z).2.2 i p x h hx
        exact ⟨z', by simpa [scanProcs] using h'⟩

/-- Where the signals of a scan come from. -/
theorem scanProcs_kills (c : Nat) : ∀ (ps : List Proc) (xs : List ProcIn) (z : Int)
    (k : Int × Nat), k ∈ (scanProcs c ps xs z).2.1 →
    ∃ (i : Nat) (p : Proc) (x : ProcIn) (z' : Int), ps[i]? = some p ∧ xs[i]? = some x ∧
      k ∈ (scanProc p c x z').2.1 ∧ (scanProcs c ps xs z).1[i]? = some (scanProc p c x z').1 := by
  intro ps
  induction ps with
  | nil => intro xs z k h; simp [scanProcs] at h
  | cons a ps ih =>
    intro xs z k h
    cases xs with
    | nil => simp [scanProcs] at h
    | cons y ys =>
      simp only [scanProcs, List.mem_append] at h
      rcases h with h | h
      · exact ⟨0, a, y, z, by simp, by simp, h, rfl⟩
      · obtain ⟨i, p, x, z', h1, h2, h3, h4⟩ := ih ys _ k h
        exact ⟨i + 1, p, x, z', by simpa using h1, by simpa using h2, h3,
          by simpa [scanProcs] using h4⟩

theorem scanProc_kills {p : Proc} {c : Nat} {x : ProcIn} {z : Int} {k : Int × Nat}
    (h : k ∈ (scanProc p c x z).2.1) :
    ¬ (p.restart = true ∧ p.state = PSTATE_DEAD) ∧ k.1 = p.pid ∧
      (scanProc p c x z).1.pid = p.pid ∧ (scanProc p c x z).1.hist = p.hist ∧
      (scanProc p c x z).1.restart = p.restart := by
  unfold scanProc at h ⊢
  split at h
  · dsimp only at h
    generalize (if diffMs p.start p.dead > 60000 then { p with restartdelay := 0 } else p) = q at *
    by_cases hc : i32 (diffMs q.dead x.now) > q.restartdelay
    · rw [if_pos hc] at h; simp at h
    · rw [if_neg hc] at h; simp at h
  · rename_i hn
    rw [if_neg hn]
    split at h
    · rename_i hm
      rw [if_pos hm]
      dsimp only at h ⊢
      simp only [List.mem_append] at h
      obtain ⟨hp, hh, hr⟩ := checkLimits_face p x.stat
      refine ⟨hn, ?_, hp, hh, hr⟩
      rcases h with h | h
      · split at h
        · simp only [List.mem_singleton] at h; rw [h]
        · simp at h
      · split at h
        · simp only [List.mem_singleton] at h; rw [h]; exact hp
        · simp at h
    · simp at h

theorem drain_kills : ∀ (xs : List SlotIn) (n : Nat) (m m' : State), drain m n xs = .ok m' →
    m'.kills = m.kills := by
  intro xs
  induction xs with
  | nil => intro n m m' h; simp only [drain, C.ok.injEq] at h; rw [← h]
  | cons x xs ih =>
    intro n m m' h
    unfold drain at h
    obtain ⟨q, _, h⟩ := C.bind_eq_ok.mp h
    split at h
    · exact absurd h (by simp)
    · split at h
      · obtain ⟨q', _, h⟩ := C.bind_eq_ok.mp h
        have := ih _ _ _ h; exact this
      · obtain ⟨q', _, h⟩ := C.bind_eq_ok.mp h
        have := ih _ _ _ h; exact this

end Dax.Master
