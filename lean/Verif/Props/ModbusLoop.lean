import Verif.Model.ModbusLoop
/-!
# C91: a Modbus master sends its commands in time

In view: in every round a master sends, in their order, the enabled cyclic commands whose interval is over; a port with `maxfailures` is
restarted after so many failures in a row.  Missing: a serial port that does not persist loses its device; the count of failures is kept over
a restart; a device that cannot be opened at first is never opened.
-/
set_option autoImplicit false
namespace Dax
open MbLoop

/-- A command is sent in round `n` (from 0): it is enabled, cyclic, and `interval` rounds are over since it was last sent. -/
def Due (n : Nat) (c : SchedCmd) : Bool := c.enable && c.cyclic && (n + 1) % max 1 c.interval == 0

/-- The numbers of the commands that are due, in order. -/
def dueList (n k : Nat) (cs : List SchedCmd) : List Nat := ((cs.zipIdx k).filter fun x => Due n x.1).map fun x => x.2

/-- The command as it is after `n` rounds. -/
def aged (n : Nat) (c : SchedCmd) : SchedCmd := if c.enable && c.cyclic then { c with icount := n % max 1 c.interval } else c

theorem MbLoop.tick_aged (n : Nat) (c : SchedCmd) : tick (aged n c) = (aged (n + 1) c, Due n c) := by
  unfold tick aged Due
  by_cases h : (c.enable && c.cyclic) = true
  · have h' : c.enable = true ∧ c.cyclic = true := by simpa using h
    rw [if_pos h, if_pos h]
    dsimp only
    rw [if_pos h]
    have hm : 0 < max 1 c.interval := by omega
    have hlt := Nat.mod_lt n hm
    by_cases hi : n % max 1 c.interval + 1 ≥ c.interval
    · rw [if_pos hi]
      have e : n % max 1 c.interval + 1 = max 1 c.interval := by omega
      have z : (n + 1) % max 1 c.interval = 0 := by
        rw [Nat.add_mod]
        by_cases h1 : max 1 c.interval = 1
        · rw [h1]; omega
        · rw [Nat.mod_eq_of_lt (by omega : 1 < max 1 c.interval), e, Nat.mod_self]
      rw [z]
      simp [h'.1, h'.2]
    · rw [if_neg hi]
      have z : (n + 1) % max 1 c.interval = n % max 1 c.interval + 1 := by
        rw [Nat.add_mod, Nat.mod_eq_of_lt (by omega : 1 < max 1 c.interval), Nat.mod_eq_of_lt (by omega)]
      rw [z]
      simp [h'.1, h'.2]
  · rw [if_neg h, if_neg h]
    rw [if_neg h]
    have : (c.enable && c.cyclic) = false := by simpa using h
    rw [this]
    rfl

theorem dueList_cons (n k : Nat) (c : SchedCmd) (cs : List SchedCmd) : dueList n k (c :: cs) = if Due n c then k :: dueList n (k + 1) cs else dueList n (k + 1) cs := by
  unfold dueList
  rw [List.zipIdx_cons, List.filter_cons]
  by_cases h : Due n c = true
  · rw [if_pos h, if_pos h]; rfl
  · rw [if_neg h, if_neg h]

theorem MbLoop.clientScan_aged (n : Nat) (cs : List SchedCmd) : ∀ k, clientScan k (cs.map (aged n)) = (cs.map (aged (n + 1)), dueList n k cs) := by
  induction cs with
  | nil => intro k; rfl
  | cons c cs ih =>
    intro k
    rw [List.map_cons]
    unfold clientScan
    rw [tick_aged]
    dsimp only
    rw [ih, dueList_cons]
    rfl

theorem aged_zero (c : SchedCmd) (h : c.icount = 0) : aged 0 c = c := by
  unfold aged
  by_cases hc : (c.enable && c.cyclic) = true
  · rw [if_pos hc, Nat.zero_mod, ← h]
  · rw [if_neg hc]

theorem map_aged_zero (cs : List SchedCmd) (h : ∀ c ∈ cs, c.icount = 0) : cs.map (aged 0) = cs := by
  conv => rhs; rw [← List.map_id cs]
  exact List.map_congr_left fun c hc => aged_zero c (h c hc)

/-- A TCP client sends in each round the commands that are due, in order, whatever is answered. -/
theorem C91_client (cs : List SchedCmd) (h : ∀ c ∈ cs, c.icount = 0) (m : Nat) :
    clientRun m cs = (List.range m).map fun n => dueList n 0 cs := by
  have key : ∀ m k, clientRun m (cs.map (aged k)) = (List.range' k m).map fun n => dueList n 0 cs := by
    intro m
    induction m with
    | zero => intro k; rfl
    | succ m ih =>
      intro k
      unfold clientRun
      rw [clientScan_aged, ih, List.range'_succ]
      rfl
  have := key m 0
  rw [map_aged_zero cs h] at this
  rw [this, List.range_eq_range']

/-- A scan of a serial port without `maxfailures`, with a port that persists: nothing but the counters changes. -/
theorem MbLoop.masterScan_aged (good : Nat → Bool) (n : Nat) (cs : List SchedCmd) : ∀ (k : Nat) (p : SchedPort), p.maxattempts = 0 → p.persist = true →
    p.online = true → p.inhibit = false → p.attempt = 0 →
    masterScan good k (cs.map (aged n)) p = (p, cs.map (aged (n + 1)), (dueList n k cs).map fun i => (i, true)) := by
  induction cs with
  | nil => intro k p _ _ _ _ _; rfl
  | cons c cs ih =>
    intro k p hm hp ho hi ha
    rw [List.map_cons]
    unfold masterScan
    rw [tick_aged, dueList_cons]
    dsimp only
    have e : ({ p with attempt := attemptAfter p.maxattempts (good k) p.attempt, online := p.online && (p.scanning || p.persist) } : SchedPort) = p := by
      have e1 : attemptAfter p.maxattempts (good k) p.attempt = p.attempt := by
        unfold attemptAfter
        rw [hm, ha]
        by_cases hg : good k = true
        · rw [if_pos hg]
        · rw [if_neg hg, if_neg (by simp)]
      have e2 : (p.online && (p.scanning || p.persist)) = p.online := by rw [hp, Bool.or_true, Bool.and_true]
      rw [e1, e2]
    by_cases hd : Due n c = true
    · rw [if_pos hd, if_pos hd, hm, if_neg (by simp)]
      rw [hm] at e
      rw [e, ih (k + 1) p hm hp ho hi ha, ho]
      rfl
    · rw [if_neg hd, if_neg hd, ih (k + 1) p hm hp ho hi ha]
      rfl

/-- A serial master that persists, without `maxfailures`, sends in each round the commands that are due, in order, all of them to its device. -/
theorem C91_master_partial (p : SchedPort) (hc : ∀ c ∈ p.cmds, c.icount = 0) (hm : p.maxattempts = 0) (hp : p.persist = true)
    (ho : p.online = true) (hi : p.inhibit = false) (ha : p.attempt = 0) (is : List RoundIn) :
    (masterRun is p).2 = (List.range is.length).map fun n => (dueList n 0 p.cmds).map fun i => (i, true) := by
  have round : ∀ (i : RoundIn) (n : Nat), masterRound i { p with cmds := p.cmds.map (aged n) } =
      (some { p with cmds := p.cmds.map (aged (n + 1)) }, (dueList n 0 p.cmds).map fun i => (i, true)) := by
    intro i n
    have hs : scanPart i { p with cmds := p.cmds.map (aged n) } = ({ p with cmds := p.cmds.map (aged (n + 1)) }, (dueList n 0 p.cmds).map fun i => (i, true)) := by
      unfold scanPart
      dsimp only
      rw [masterScan_aged i.good n p.cmds 0 { p with cmds := p.cmds.map (aged n) } hm hp ho hi ha, hi]
      rfl
    unfold masterRound
    rw [hs]
    unfold inhibitPart
    dsimp only
    rw [hi]
    unfold rest
    dsimp only
    rw [if_neg (by decide), if_neg (by rw [hp]; simp)]
  have key : ∀ (is : List RoundIn) (n : Nat), (masterRun is { p with cmds := p.cmds.map (aged n) }).2 =
      (List.range' n is.length).map fun n => (dueList n 0 p.cmds).map fun i => (i, true) := by
    intro is
    induction is with
    | nil => intro n; rfl
    | cons i is ih =>
      intro n
      unfold masterRun
      rw [round i n]
      dsimp only
      rw [ih, List.length_cons, List.range'_succ]
      rfl
  have := key is 0
  rw [map_aged_zero p.cmds hc] at this
  rw [List.range_eq_range']
  exact this

/-- How many failures there are in a row at the end, with `a` before. -/
def failuresAfter (a : Nat) : List Bool → Nat
  | [] => a
  | g :: gs => failuresAfter (if g then 0 else a + 1) gs

/-- The results of what was sent in a scan. -/
def results (good : Nat → Bool) (out : List (Nat × Bool)) : List Bool := out.map fun x => good x.1

/-- With `maxfailures` a scan counts the failures in a row, goes on while there are fewer, and gives up the port when there are so many. -/
theorem C91_failures (good : Nat → Bool) (cs : List SchedCmd) : ∀ (k : Nat) (p : SchedPort), p.maxattempts ≠ 0 → p.inhibit = false →
    ∀ p' cs' out, masterScan good k cs p = (p', cs', out) →
      p'.attempt = failuresAfter p.attempt (results good out) ∧
      (∀ i, i < out.length → failuresAfter p.attempt ((results good out).take i) < p.maxattempts ∨ i = 0) ∧
      (p'.inhibit = true ↔ out ≠ [] ∧ p.maxattempts ≤ p'.attempt) := by
  induction cs with
  | nil =>
    intro k p hm hi p' cs' out h
    cases h
    exact ⟨rfl, fun i hlt => absurd hlt (by simp), by rw [hi]; simp⟩
  | cons c cs ih =>
    intro k p hm hi p' cs' out h
    unfold masterScan at h
    cases ht : tick c with
    | mk c1 due =>
    rw [ht] at h
    dsimp only at h
    by_cases hd : due = true
    · rw [if_pos hd] at h
      have ea : attemptAfter p.maxattempts (good k) p.attempt = if good k = true then 0 else p.attempt + 1 := by
        unfold attemptAfter
        rw [if_pos hm]
      rw [ea] at h
      by_cases hb : p.maxattempts ≠ 0 ∧ (if good k = true then 0 else p.attempt + 1) ≥ p.maxattempts
      · rw [if_pos hb] at h
        cases h
        refine ⟨rfl, fun i hlt => Or.inr (by simp at hlt; exact hlt), ?_⟩
        simp only [true_iff]
        exact ⟨by simp, hb.2⟩
      · rw [if_neg hb] at h
        generalize hq : ({ p with attempt := if good k = true then 0 else p.attempt + 1, online := p.online && (p.scanning || p.persist) } : SchedPort) = q at h
        have q1 : q.maxattempts = p.maxattempts := by rw [← hq]
        have q2 : q.inhibit = false := by rw [← hq]; exact hi
        have q3 : q.attempt = if good k = true then 0 else p.attempt + 1 := by rw [← hq]
        cases hs : masterScan good (k + 1) cs q with
        | mk p1 rest1 =>
        obtain ⟨cs1, out1⟩ := rest1
        rw [hs] at h
        cases h
        obtain ⟨i1, i2, i3⟩ := ih (k + 1) q (by rw [q1]; exact hm) q2 _ _ _ hs
        have hlt : q.attempt < p.maxattempts := by
          rw [q3]
          apply Classical.byContradiction
          intro hn
          exact hb ⟨hm, by omega⟩
        refine ⟨?_, ?_, ?_⟩
        · rw [i1, q3]; rfl
        · intro i hlt1
          cases i with
          | zero => exact Or.inr rfl
          | succ i =>
            refine Or.inl ?_
            show failuresAfter (if good k = true then 0 else p.attempt + 1) ((results good out1).take i) < _
            rw [← q3, ← q1]
            rcases i2 i (by simpa using hlt1) with h2 | h2
            · exact h2
            · rw [h2, q1]; exact hlt
        · rw [i3, q1]
          constructor
          · rintro ⟨_, h2⟩; exact ⟨by simp, h2⟩
          · rintro ⟨_, h2⟩
            refine ⟨?_, h2⟩
            rintro rfl
            have e : _ = q.attempt := i1
            rw [e] at h2
            omega
    · rw [if_neg hd] at h
      cases hs : masterScan good (k + 1) cs p with
      | mk p1 rest1 =>
      obtain ⟨cs1, out1⟩ := rest1
      rw [hs] at h
      cases h
      exact ih (k + 1) p hm hi _ _ _ hs

/-- A port that has been given up sends nothing until its device is opened. -/
theorem C91_inhibited (i : RoundIn) (p : SchedPort) (h : p.inhibit = true) : (masterRound i p).2 = [] ∧
    (i.opens = false → ∀ q, (masterRound i p).1 = some q → q.inhibit = true ∧ q.cmds = p.cmds) := by
  have hs : scanPart i p = (p, []) := by unfold scanPart; rw [if_pos h]
  unfold masterRound
  rw [hs]
  refine ⟨rfl, fun ho q hq => ?_⟩
  unfold inhibitPart at hq
  dsimp only at hq
  rw [if_pos h, ho] at hq
  by_cases ht : p.inhibitTime ≠ 0
  · rw [if_pos ht] at hq
    cases hq
    unfold rest
    by_cases hx : i.quick = true ∧ p.persist = false
    · rw [if_pos hx]; exact ⟨rfl, rfl⟩
    · rw [if_neg hx]; exact ⟨rfl, rfl⟩
  · rw [if_neg ht] at hq
    cases hq

/-- It fails after a restart: the failures before count, so that the first failure gives the port up again. -/
theorem C91_again (good : Nat → Bool) (k : Nat) (c : SchedCmd) (cs : List SchedCmd) (p : SchedPort) (hm : p.maxattempts ≠ 0)
    (ha : p.maxattempts ≤ p.attempt) (hd : (tick c).2 = true) (hg : good k = false) :
    (masterScan good k (c :: cs) p).1.inhibit = true ∧ (masterScan good k (c :: cs) p).2.2 = [(k, p.online)] := by
  unfold masterScan
  cases ht : tick c with
  | mk c1 due =>
  rw [ht] at hd
  have hd' : due = true := hd
  dsimp only
  rw [if_pos hd', hg]
  have ea : attemptAfter p.maxattempts false p.attempt = p.attempt + 1 := by
    unfold attemptAfter
    rw [if_neg (by decide), if_pos hm]
  rw [ea, if_pos ⟨hm, by omega⟩]
  exact ⟨rfl, rfl⟩

theorem MbLoop.masterScan_offline (good : Nat → Bool) (cs : List SchedCmd) : ∀ (k : Nat) (p : SchedPort), p.maxattempts = 0 → p.online = false → p.inhibit = false →
    (masterScan good k cs p).1.maxattempts = 0 ∧ (masterScan good k cs p).1.online = false ∧ (masterScan good k cs p).1.inhibit = false ∧
      ∀ x ∈ (masterScan good k cs p).2.2, x.2 = false := by
  induction cs with
  | nil => intro k p h1 h2 h3; exact ⟨h1, h2, h3, by simp [masterScan]⟩
  | cons c cs ih =>
    intro k p h1 h2 h3
    unfold masterScan
    cases ht : tick c with
    | mk c1 due =>
    dsimp only
    by_cases hd : due = true
    · rw [if_pos hd, h1, if_neg (by simp)]
      have := ih (k + 1) { p with attempt := attemptAfter 0 (good k) p.attempt, maxattempts := 0, online := p.online && (p.scanning || p.persist) } rfl (by simp [h2]) h3
      rw [h1] at *
      refine ⟨this.1, this.2.1, this.2.2.1, ?_⟩
      intro x hx
      rcases List.mem_cons.mp hx with rfl | hx
      · exact h2
      · exact this.2.2.2 x hx
    · rw [if_neg hd]
      exact ih (k + 1) p h1 h2 h3

/-- A device that is lost stays lost. -/
theorem MbLoop.masterRun_offline (is : List RoundIn) : ∀ (p : SchedPort), p.maxattempts = 0 → p.online = false → p.inhibit = false →
    ∀ out ∈ (masterRun is p).2, ∀ x ∈ out, x.2 = false := by
  induction is with
  | nil => intro p _ _ _ out h; simp [masterRun] at h
  | cons i is ih =>
    intro p h1 h2 h3
    have hs := masterScan_offline i.good p.cmds 0 p h1 h2 h3
    have hr : masterRound i p = (some (rest i { (masterScan i.good 0 p.cmds p).1 with cmds := (masterScan i.good 0 p.cmds p).2.1 }),
        (masterScan i.good 0 p.cmds p).2.2) := by
      unfold masterRound scanPart
      rw [if_neg (by rw [h3]; decide)]
      unfold inhibitPart
      dsimp only
      rw [if_neg (by rw [hs.2.2.1]; decide)]
    unfold masterRun
    rw [hr]
    dsimp only
    intro out ho
    rcases List.mem_cons.mp ho with rfl | ho
    · exact hs.2.2.2
    · refine ih (rest i _) ?_ ?_ ?_ out ho
      · unfold rest
        by_cases hx : i.quick = true ∧ (masterScan i.good 0 p.cmds p).1.persist = false
        · rw [if_pos hx]; exact hs.1
        · rw [if_neg hx]; exact hs.1
      · unfold rest
        by_cases hx : i.quick = true ∧ (masterScan i.good 0 p.cmds p).1.persist = false
        · rw [if_pos hx]
        · rw [if_neg hx]; exact hs.2.1
      · unfold rest
        by_cases hx : i.quick = true ∧ (masterScan i.good 0 p.cmds p).1.persist = false
        · rw [if_pos hx]; exact hs.2.2.1
        · rw [if_neg hx]; exact hs.2.2.1

/-- It fails for a serial port that does not persist (as is the case if the configuration does not say so), without `maxfailures`: after the
first round that is quick no command reaches the device, ever. -/
theorem C91_lost (p : SchedPort) (hp : p.persist = false) (hm : p.maxattempts = 0) (hi : p.inhibit = false) (i : RoundIn) (hq : i.quick = true)
    (is : List RoundIn) (n : Nat) (out : List (Nat × Bool)) (h : (masterRun (i :: is) p).2[n + 1]? = some out) : ∀ x ∈ out, x.2 = false := by
  have inv : ∀ (cs : List SchedCmd) (k : Nat) (p : SchedPort), p.maxattempts = 0 → p.persist = false → p.inhibit = false →
      (masterScan i.good k cs p).1.maxattempts = 0 ∧ (masterScan i.good k cs p).1.persist = false ∧ (masterScan i.good k cs p).1.inhibit = false := by
    intro cs
    induction cs with
    | nil => intro k p h1 h2 h3; exact ⟨h1, h2, h3⟩
    | cons c cs ih =>
      intro k p h1 h2 h3
      unfold masterScan
      cases ht : tick c with
      | mk c1 due =>
      dsimp only
      by_cases hd : due = true
      · rw [if_pos hd, h1, if_neg (by simp)]
        exact ih (k + 1) { p with attempt := attemptAfter 0 (i.good k) p.attempt, maxattempts := 0, online := p.online && (p.scanning || p.persist) } rfl h2 h3
      · rw [if_neg hd]
        exact ih (k + 1) p h1 h2 h3
  have hs := inv p.cmds 0 p hm hp hi
  have hr : masterRound i p = (some (rest i { (masterScan i.good 0 p.cmds p).1 with cmds := (masterScan i.good 0 p.cmds p).2.1 }),
      (masterScan i.good 0 p.cmds p).2.2) := by
    unfold masterRound scanPart
    rw [if_neg (by rw [hi]; decide)]
    unfold inhibitPart
    dsimp only
    rw [if_neg (by rw [hs.2.2]; decide)]
  unfold masterRun at h
  rw [hr] at h
  dsimp only at h
  rw [List.getElem?_cons_succ] at h
  have hx : i.quick = true ∧ (masterScan i.good 0 p.cmds p).1.persist = false := ⟨hq, hs.2.1⟩
  refine masterRun_offline is (rest i _) ?_ ?_ ?_ out (List.mem_of_getElem? h)
  · unfold rest; rw [if_pos hx]; exact hs.1
  · unfold rest; rw [if_pos hx]
  · unfold rest; rw [if_pos hx]; exact hs.2.2

/-- A serial port whose device can be opened at once runs. -/
theorem C91_start (opens : Nat → Bool) (h : opens 0 = true) : runPort opens mainWaits 0 = .running 1 := by
  show (if opens 0 = true then _ else _) = _
  rw [if_pos h]

/-- It fails otherwise: if the first try fails, the thread of the port is blocked for ever, even if the second try succeeds. -/
theorem C91_blocked (opens : Nat → Bool) (h : opens 0 = false) : runPort opens mainWaits 0 = .blocked 2 := by
  show (if opens 0 = true then _ else _) = _
  rw [h]
  rfl

/-! ## Cases -/

def threeCmds : List SchedCmd := [{ interval := 2 }, { enable := false }, { interval := 3 }, {}]

example : clientRun 6 threeCmds = [[3], [0, 3], [2, 3], [0, 3], [3], [0, 2, 3]] := by decide +kernel
example : (masterRun (List.replicate 3 {}) { cmds := threeCmds, persist := true }).2 =
    [[(3, true)], [(0, true), (3, true)], [(2, true), (3, true)]] := by decide +kernel
/-- Without `persist`. -/
example : (masterRun (List.replicate 3 {}) { cmds := threeCmds, scanning := true }).2 =
    [[(3, true)], [(0, false), (3, false)], [(2, false), (3, false)]] := by decide +kernel
/-- Two failures allowed: given up in the second round, restarted, given up again after one failure. -/
example : (masterRun (List.replicate 4 { good := fun _ => false }) { cmds := threeCmds, persist := true, maxattempts := 2, inhibitTime := 5 }).2 =
    [[(3, true)], [(0, true)], [(3, true)], [(0, true)]] := by decide +kernel

end Dax
