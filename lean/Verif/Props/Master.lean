import Verif.Lemmas.Master
import Verif.Lemmas.Basic
import Verif.Lemmas.Tactic
set_option autoImplicit false
/-!
# C57, C58, C61: the process master
-/
namespace Dax
open Dax.Master

/-- The delays of the specification: 0, 100 ms, doubling, never more than a minute. -/
theorem delay_values : delay 0 = 0 ∧ delay 1 = 100 ∧
    (∀ n, delay (n + 2) = min (2 * delay (n + 1)) 60000) ∧ ∀ n, delay n ≤ 60000 := by
  refine ⟨rfl, by decide, ?_, delay_le⟩
  intro n
  have h : (2:Int) ^ (n + 1) = 2 ^ n * 2 := Int.pow_succ 2 n
  simp only [delay, h]
  omega

theorem diffMs_small {a b : Tv} (ha : a.proper) (hb : b.proper) (h : Near a b) :
    i32 (diffMs a b) = diffMs a b := by
  obtain ⟨h1, h2⟩ := diffMs_stopwatch a b ha hb
  obtain ⟨h3, h4⟩ := h
  exact i32_of_range (by omega)

/-- **C57** (partial).  Measured with a clock that is less than a millisecond off, a process is
restarted only after the delay due to its history has passed since it was found dead (whatever
the master did in between), and is restarted by the first scan that looks at it two
milliseconds after that.  Missing: clock readings 24 days apart (`C57_clock_set_back`), and
processes whose very first `fork` failed, for which `state` is uninitialised. -/
theorem C57_backoff_partial : ∃ ms : Tv → Tv → Int, Stopwatch ms ∧
    (∀ m : State, Reach m → ∀ p ∈ m.procs, ∀ (h1 : List PEv) (t : Tv) (b : Option Tv)
      (h2 : List PEv), p.hist = h1 ++ .retry t b :: h2 → Launched h1 →
      ∃ d, lastDeath h1 = some d ∧ running h1 = false ∧
        (d.proper → t.proper → Near d t →
          1000 * delay (watch ms h1).level < usBetween d t)) ∧
    (∀ (m m' : State) (slots : List SlotIn) (ins : List ProcIn) (z : Int), Reach m →
      processScan m slots ins = .ok (m', z) → m.pending = [] → (Op.scan slots ins).quiet →
      ∀ (i : Nat) (p : Proc) (x : ProcIn) (d : Tv), m.procs[i]? = some p → ins[i]? = some x →
        p.restart = true → Launched p.hist → running p.hist = false →
        lastDeath p.hist = some d → d.proper → x.now.proper → Near d x.now →
        1000 * (delay (watch ms p.hist).level + 2) ≤ usBetween d x.now →
        ∃ p' b, m'.procs[i]? = some p' ∧ p'.hist = p.hist ++ [.retry x.now b]) := by
  refine ⟨diffMs, diffMs_stopwatch, ?_, ?_⟩
  · intro m hm p hp h1 t b h2 he hl
    obtain ⟨d, hd, hr, hi⟩ := (hm.pinv p hp).past h1 t b h2 he hl
    refine ⟨d, hd, hr, fun hdp htp hn => ?_⟩
    rw [diffMs_small hdp htp hn] at hi
    obtain ⟨h3, _⟩ := diffMs_stopwatch d t hdp htp
    omega
  · intro m m' slots ins z hm hs hpe hq i p x d hi hx hr hl hrun hd hdp hxp hn hdue
    obtain ⟨hlen, _, m1, h1, rfl, _⟩ := scan_inv hs
    have hidle := drain_idle slots 0 m hq hpe (by
      rw [hm.dpq_length, hlen]; decide)
    rw [hidle] at h1
    simp only [C.ok.injEq] at h1
    subst h1
    have hp := hm.pinv p (List.mem_iff_getElem?.mpr ⟨i, hi⟩)
    have hst : p.state = PSTATE_DEAD := by
      apply Classical.byContradiction
      intro hns
      rw [(hp.live hr hl hns).2.1] at hrun
      exact absurd hrun (by simp)
    obtain ⟨_, hd', _⟩ := hp.dead hr hl hst
    rw [hd] at hd'
    simp only [Option.some.injEq] at hd'
    obtain ⟨z', hz⟩ := scanProcs_get m.count m.procs ins 60000 i p x hi hx
    refine ⟨_, (if x.fork > 0 then some x.begun else none), hz, ?_⟩
    unfold scanProc
    rw [if_pos ⟨hr, hst⟩]
    have hrd := reset_delay hp hr hl hst
    have hface : (if diffMs p.start p.dead > 60000 then { p with restartdelay := 0 } else p).hist =
        p.hist ∧ (if diffMs p.start p.dead > 60000 then { p with restartdelay := 0 }
          else p).dead = p.dead := by split <;> exact ⟨rfl, rfl⟩
    dsimp only
    generalize (if diffMs p.start p.dead > 60000 then { p with restartdelay := 0 } else p) = q at *
    rw [hrd, hface.2, ← hd', diffMs_small hdp hxp hn]
    obtain ⟨_, h4⟩ := diffMs_stopwatch d x.now hdp hxp
    rw [if_pos (by omega)]
    unfold processRestart processStart
    rw [← hface.1]
    split <;> simp

/-- A run in which a process dies at once, is restarted, dies again, waits, and is restarted
again: the history the theorems above speak about. -/
def crashOps : List Op :=
  [.signal [(50, 1)],
   .scan (List.replicate 10 { now := ⟨1000, 10⟩ }) [⟨⟨1000, 2000⟩, 51, ⟨1000, 2100⟩, none⟩],
   .signal [(51, 1)],
   .scan (List.replicate 10 { now := ⟨1000, 3000⟩ }) [⟨⟨1000, 90000⟩, 52, ⟨1000, 90100⟩, none⟩],
   .scan (List.replicate 10 { now := ⟨1000, 200000⟩ }) [⟨⟨1000, 200000⟩, 52, ⟨1000, 200100⟩, none⟩]]

def crashCfg : List (Bool × Nat × Int × Tv) := [(true, 7, 50, ⟨999, 0⟩)]

example : (run (boot crashCfg) crashOps >>= fun m => C.ok (m.procs.map Proc.hist)) =
    .ok [[.launch (some ⟨999, 0⟩), .died ⟨1000, 10⟩, .retry ⟨1000, 2000⟩ (some ⟨1000, 2100⟩),
      .died ⟨1000, 3000⟩, .retry ⟨1000, 200000⟩ (some ⟨1000, 200100⟩)]] := by kernel_rfl

/-- **C57** fails when the clock is set back by 25 days: the interval is stored in an `int` and
becomes positive, so the process is restarted although its delay of 100 ms has not passed. -/
theorem C57_clock_set_back : ∃ (m : State) (p : Proc) (h1 : List PEv) (t d : Tv) (b : Option Tv),
    Reach m ∧ p ∈ m.procs ∧ p.hist = h1 ++ [.retry t b] ∧ Launched h1 ∧
    lastDeath h1 = some d ∧ d.proper ∧ t.proper ∧ (watch diffMs h1).level = 1 ∧
    usBetween d t < 0 := by
  have key : run (boot crashCfg) (crashOps.take 4 ++ [.scan (List.replicate 10 { now := ⟨0, 0⟩ })
      [⟨⟨1000 - 2147484, 0⟩, 52, ⟨0, 0⟩, none⟩]]) = .ok
      { procs := [{ pid := 52, restart := true, state := 1, restartdelay := 200, restartcount := 2,
                    start := ⟨0, 0⟩, dead := ⟨1000, 3000⟩,
                    hist := [.launch (some ⟨999, 0⟩), .died ⟨1000, 10⟩,
                      .retry ⟨1000, 2000⟩ (some ⟨1000, 2100⟩), .died ⟨1000, 3000⟩] ++
                      [.retry ⟨1000 - 2147484, 0⟩ (some ⟨0, 0⟩)] }],
        dpq := [⟨0, 1⟩, ⟨0, 0⟩, ⟨0, 0⟩, ⟨0, 0⟩, ⟨0, 0⟩, ⟨0, 0⟩, ⟨0, 0⟩, ⟨0, 0⟩, ⟨0, 0⟩, ⟨0, 0⟩],
        count := 3, handled := [(50, 1), (51, 1)] } := by kernel_rfl
  exact ⟨_, _, _, _, ⟨1000, 3000⟩, _, ⟨_, _, key⟩, List.mem_singleton.mpr rfl, rfl, ⟨_, _, rfl⟩,
    rfl, ⟨by decide, by decide⟩, ⟨by decide, by decide⟩, by decide, by decide⟩

/-- **C58** (partial).  Every death reported so far has been handled exactly once or is still
waiting, whatever the interleaving of signals and scans.  Missing: histories in which more
than ten deaths wait at once (`C58_overflow`). -/
theorem C58_exactly_once_partial {cfg : List (Bool × Nat × Int × Tv)} {os : List Op} {m : State}
    (h : run (boot cfg) os = .ok m) :
    (m.handled ++ m.pending).Perm (os.flatMap Op.deaths) := by
  have := (run_perm os _ _ h).2
  rw [(boot_pend cfg).1] at this
  simpa [State.pending, pend] using this

/-- A scan that is not interrupted leaves nothing waiting. -/
theorem C58_drained {m m' : State} {slots : List SlotIn} {ins : List ProcIn} (hm : Reach m)
    (h : step m (.scan slots ins) = .ok m') (hq : (Op.scan slots ins).quiet) :
    m'.pending = [] := by
  simp only [step] at h
  obtain ⟨⟨m1, z⟩, h1, h⟩ := C.bind_eq_ok.mp h
  simp only [C.ok.injEq] at h
  subst h
  obtain ⟨hlen, _, m2, h2, rfl, _⟩ := scan_inv h1
  refine pend_nil_of (q := m2.dpq) ?_
  intro i sl hi hs
  refine drain_clear slots 0 m m2 hq h2 (fun i sl h => absurd h (by omega)) i sl ?_ hs
  have := (drain_perm _ _ _ _ h2).2
  rw [hm.dpq_length] at this
  rw [hlen]
  simp only [DPQ_SIZE]
  omega

/-- There is room for ten: an operation with at most ten deaths waiting or arriving runs. -/
theorem C58_room {m : State} (hm : Reach m) (o : Op)
    (hc : m.pending.length + o.deaths.length ≤ 10)
    (hi : ∀ slots ins, o = .scan slots ins → slots.length = 10 ∧ ins.length = m.procs.length) :
    ∃ m', step m o = .ok m' := by
  have hl := hm.dpq_length
  cases o with
  | signal ds =>
    obtain ⟨q, h⟩ := childSignal_room ds m.dpq (by
      have : (pend m.dpq).length = m.pending.length := rfl
      simp only [Op.deaths] at hc
      omega)
    exact ⟨_, by simp only [step]; rw [h]; rfl⟩
  | scan slots ins =>
    obtain ⟨h1, h2⟩ := hi slots ins rfl
    obtain ⟨m1, h⟩ := drain_room slots 0 m (by
      have : (pend m.dpq).length = m.pending.length := rfl
      simp only [Op.deaths] at hc
      omega) (by omega)
    refine ⟨{ m1 with procs := (scanProcs m1.count m1.procs ins 60000).1,
                      kills := m1.kills ++ (scanProcs m1.count m1.procs ins 60000).2.1,
                      count := (m1.count + 1) % 4294967296 }, ?_⟩
    simp only [step, processScan]
    rw [if_pos ⟨h1, h2⟩, h]
    rfl

/-- What handling means: after an uninterrupted scan a process has been recorded as dead, once,
exactly if its pid was waiting. -/
theorem C58_effect {m m' : State} {slots : List SlotIn} {ins : List ProcIn} (hm : Reach m)
    (h : step m (.scan slots ins) = .ok m') (hq : (Op.scan slots ins).quiet)
    (hd : Distinct m.procs) {i : Nat} {p : Proc} (hp : m.procs[i]? = some p) (hp0 : p.pid > 0) :
    ∃ p', m'.procs[i]? = some p' ∧
      ((∃ st, (p.pid, st) ∈ m.pending) → ∃ t r, p'.hist = p.hist ++ .died t :: r ∧
        ∀ e ∈ r, ∀ t', e ≠ .died t') ∧
      ((¬ ∃ st, (p.pid, st) ∈ m.pending) → ∃ r, p'.hist = p.hist ++ r ∧
        ∀ e ∈ r, ∀ t', e ≠ .died t') := by
  simp only [step] at h
  obtain ⟨⟨m1, z⟩, h1, h⟩ := C.bind_eq_ok.mp h
  simp only [C.ok.injEq] at h
  subst h
  obtain ⟨hlen, hlen2, m2, h2, rfl, _⟩ := scan_inv h1
  obtain ⟨hin, hout⟩ := drain_procs slots 0 m m2 hq h2 hd i p hp
  have hlt : i < ins.length := by
    rw [hlen2]
    rcases Nat.lt_or_ge i m.procs.length with h | h
    · exact h
    · rw [List.getElem?_eq_none h] at hp; simp at hp
  have hx : ins[i]? = some ins[i] := List.getElem?_eq_getElem hlt
  generalize ins[i] = x at hx
  have fin : ∀ q, m2.procs[i]? = some q → ∃ p', (scanProcs m2.count m2.procs ins 60000).1[i]? =
      some p' ∧ ∃ r, p'.hist = q.hist ++ r ∧ ∀ e ∈ r, ∀ t', e ≠ .died t' := by
    intro q hqi
    obtain ⟨z', hz⟩ := scanProcs_get m2.count m2.procs ins 60000 i q x hqi hx
    obtain ⟨r, hr, hr'⟩ := scanProc_hist q m2.count x z'
    refine ⟨_, hz, r, hr, ?_⟩
    intro e he t' hc
    rcases hr' with rfl | ⟨b, rfl⟩
    · simp at he
    · simp only [List.mem_singleton] at he
      rw [he] at hc
      simp at hc
  have hmem : (∃ st, (p.pid, st) ∈ m.pending) ↔
      ∃ (k : Nat) (sl : Slot), m.dpq[k]? = some sl ∧ sl.pid = p.pid := by
    unfold State.pending
    constructor
    · rintro ⟨st, hs⟩
      simp only [List.mem_map, List.mem_filter] at hs
      obtain ⟨sl, ⟨h3, _⟩, h4⟩ := hs
      obtain ⟨k, hk⟩ := List.mem_iff_getElem?.mp h3
      simp only [Prod.mk.injEq] at h4
      exact ⟨k, sl, hk, h4.1⟩
    · rintro ⟨k, sl, hk, he⟩
      refine ⟨sl.status, ?_⟩
      simp only [List.mem_map, List.mem_filter]
      refine ⟨sl, ⟨List.mem_iff_getElem?.mpr ⟨k, hk⟩, ?_⟩, by rw [he]⟩
      simp only [ne_eq, decide_not, Bool.not_eq_true', decide_eq_false_iff_not]
      omega
  by_cases hpm : ∃ st, (p.pid, st) ∈ m.pending
  · obtain ⟨k, sl, hk, he⟩ := hmem.mp hpm
    have hk10 : k < 0 + slots.length := by
      have := hm.dpq_length
      rcases Nat.lt_or_ge k m.dpq.length with h | h
      · rw [hlen]; simp only [DPQ_SIZE]; omega
      · rw [List.getElem?_eq_none h] at hk; simp at hk
    obtain ⟨k', sl', t, _, _, _, hq2⟩ := hin (by omega) k sl (by omega) hk10 hk he
    obtain ⟨p', hp', r, hr, hno⟩ := fin _ hq2
    refine ⟨p', hp', fun _ => ⟨t, r, ?_, hno⟩, fun hn => absurd hpm hn⟩
    rw [hr]
    simp [reap]
  · have := hout (.inr (fun k sl hk he => hpm (hmem.mpr ⟨k, sl, hk, he⟩)))
    obtain ⟨p', hp', r, hr, hno⟩ := fin _ this
    exact ⟨p', hp', fun hn => absurd hn hpm, fun _ => ⟨r, hr, hno⟩⟩

/-- **C58** fails when an eleventh death is reported: in every state with ten deaths waiting,
the next one is read and written beyond the end of the queue. -/
theorem C58_overflow {m : State} (hm : Reach m) (hf : m.pending.length = 10) {pid st : Int}
    (hp : pid > 0) : ∃ w, step m (.signal [(pid, st)]) = .ub w := by
  refine ⟨"dead process queue overflow", ?_⟩
  have : dpqAdd m.dpq pid st = .ub "dead process queue overflow" :=
    dpqAdd_full m.dpq pid st (by rw [hm.dpq_length]; exact hf)
  simp [step, childSignal, hp, this]

/-- Such a state is reached by ten deaths between two scans, in any configuration. -/
theorem C58_full_reachable (cfg : List (Bool × Nat × Int × Tv)) :
    ∃ m, Reach m ∧ m.pending.length = 10 := by
  refine ⟨{ boot cfg with dpq := List.replicate 10 ⟨7, 0⟩ },
    ⟨cfg, [.signal (List.replicate 10 (7, 0))], ?_⟩, rfl⟩
  rfl

/-- The hypotheses of `C58_effect` on the run above: after the first signal. -/
example : ∃ m, Reach m ∧ Distinct m.procs ∧ m.pending = [(50, 1)] ∧ ∃ m',
    step m (.scan (List.replicate 10 { now := ⟨1000, 10⟩ })
      [⟨⟨1000, 2000⟩, 51, ⟨1000, 2100⟩, none⟩]) = .ok m' := by
  refine ⟨{ boot crashCfg with dpq := ⟨50, 1⟩ :: List.replicate 9 {} },
    ⟨crashCfg, [.signal [(50, 1)]], by kernel_rfl⟩, ?_, by decide, C.isOk_iff.mp (by decide)⟩
  intro i j p q hi hj _ _
  have h1 : ∀ (k : Nat) (r : Proc), (boot crashCfg).procs[k]? = some r → k = 0 := by
    intro k r h
    cases k with
    | zero => rfl
    | succ k => simp [boot, crashCfg] at h
  rw [h1 i p hi, h1 j q hj]

/-- **C61** (partial).  A scan sends signals only to children that are running as far as the
master knows.  Missing: configurations with a process that is not to be restarted
(`C61_kills_group`), and processes whose first `fork` failed. -/
theorem C61_signals_partial {m m' : State} {slots : List SlotIn} {ins : List ProcIn} (hm : Reach m)
    (h : step m (.scan slots ins) = .ok m')
    (hc : ∀ p ∈ m'.procs, p.restart = true ∧ Launched p.hist) :
    ∃ ks, m'.kills = m.kills ++ ks ∧ ∀ k ∈ ks, k.1 > 0 ∧
      ∃ p ∈ m'.procs, p.pid = k.1 ∧ running p.hist = true := by
  simp only [step] at h
  obtain ⟨⟨m1, z⟩, h1, h⟩ := C.bind_eq_ok.mp h
  simp only [C.ok.injEq] at h
  subst h
  obtain ⟨_, _, m2, h2, rfl, _⟩ := scan_inv h1
  refine ⟨(scanProcs m2.count m2.procs ins 60000).2.1, ?_, ?_⟩
  · rw [drain_kills _ _ _ _ h2]
  · intro k hk
    obtain ⟨i, p, x, z', hp, _, hk, hp'⟩ := scanProcs_kills _ _ _ _ k hk
    have hmem := List.mem_iff_getElem?.mpr ⟨i, hp'⟩
    obtain ⟨hr, hl⟩ := hc _ hmem
    obtain ⟨hn, hpid, hpid', hh, hr'⟩ := scanProc_kills hk
    rw [hh] at hl
    rw [hr'] at hr
    have hinv := pinv_drain _ _ _ _ hm.pinv h2 p (List.mem_iff_getElem?.mpr ⟨i, hp⟩)
    obtain ⟨h0, hrun, _⟩ := hinv.live hr hl (fun hs => hn ⟨hr, hs⟩)
    exact ⟨by rw [hpid]; exact h0, _, hmem, by rw [hpid', hpid], by rw [hh]; exact hrun⟩

/-- A process without the restart flag exceeds its CPU limit, is told to quit and dies; when its
turn comes again the master finds the old reading still above the limit, condemns the dead
entry and sends the signal to pid 0: to its whole process group, itself included. -/
def quitOps : List Op :=
  [.scan (List.replicate 10 { now := ⟨0, 0⟩ }) [⟨⟨0, 0⟩, 0, ⟨0, 0⟩, some (true, false)⟩],
   .signal [(64, 0)]] ++
  List.replicate 64 (.scan (List.replicate 10 { now := ⟨0, 0⟩ }) [⟨⟨0, 0⟩, 0, ⟨0, 0⟩, none⟩])

/-- **C61** fails: `kill(0, SIGQUIT)`. -/
theorem C61_kills_group : ∃ m, Reach m ∧ m.kills = [(64, SIGQUIT), (0, SIGQUIT)] := by
  have h : (run (boot [(false, 0, 64, ⟨0, 0⟩)]) quitOps >>= fun m => C.ok m.kills) =
      .ok [(64, SIGQUIT), (0, SIGQUIT)] := by kernel_rfl
  obtain ⟨m, h1, h2⟩ := C.bind_eq_ok.mp h
  simp only [C.ok.injEq] at h2
  exact ⟨m, ⟨_, _, h1⟩, h2⟩

/-- The hypotheses of `C61_signals_partial` with a signal actually sent. -/
example : (run (boot [(true, 0, 64, ⟨0, 0⟩)]) (quitOps.take 1) >>= fun m =>
    C.ok (m.kills, m.procs.map fun p => (p.restart, p.hist))) =
    .ok ([(64, SIGQUIT)], [(true, [.launch (some ⟨0, 0⟩)])]) := by kernel_rfl

end Dax
