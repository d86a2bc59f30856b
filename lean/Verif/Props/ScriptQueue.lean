import Verif.Lemmas.ScriptQueue
/-!
# C72: triggered scripts run once each, in order
-/
set_option autoImplicit false
namespace Dax
open ScriptQ

variable {α : Type} [DecidableEq α]

theorem accepts_append (l l' : List (Seen α)) : accepts (l ++ l') = accepts l + accepts l' := by
  induction l with
  | nil => simp [accepts]
  | cons a l ih => cases a <;> simp only [List.cons_append, accepts, ih] <;> omega

theorem starts_append (l l' : List (Seen α)) : starts (l ++ l') = starts l + starts l' := by
  induction l with
  | nil => simp [starts]
  | cons a l ih => cases a <;> simp only [List.cons_append, starts, ih] <;> omega

/-- Workers that have all begun; if scripts wait, one of the workers will look at the queue. -/
def PoolServed (ws : List (Worker α)) (w : List α) : Prop := .starting ∉ ws ∧ ws ≠ [] ∧ (w ≠ [] → ∃ x ∈ ws, x.active = true)

theorem not_starting_set {ws : List (Worker α)} {t : Nat} {x : Worker α} (h : .starting ∉ ws) (hx : x ≠ .starting) : .starting ∉ ws.set t x := by
  intro hm
  rcases List.mem_or_eq_of_mem_set hm with h1 | h1
  · exact h h1
  · exact hx h1.symm

theorem mem_set_self {ws : List (Worker α)} {t : Nat} {x y : Worker α} (h : ws[t]? = some y) : x ∈ ws.set t x :=
  List.mem_of_getElem? (i := t) (List.getElem?_set_self (by
    obtain ⟨hl, -⟩ := List.getElem?_eq_some_iff.mp h
    exact hl))

/-- One step of a queue that holds the scripts `w`. -/
theorem step_holds {p p1 : Pool α} {a : Act α} {l : List (Seen α)} {w : List α} {r : Nat} (h : Holds p.q w r) (hs : step p a = some (.ok (p1, l)))
    (hsafe : w.length + accepts l = p.q.slots.length + starts l → (r + starts l) % p.q.slots.length ≠ 0) :
    ∃ w1, (∀ l', fifo p.q.slots.length w (l ++ l') = fifo p.q.slots.length w1 l') ∧ Holds p1.q w1 (r + starts l) ∧ p1.q.slots.length = p.q.slots.length ∧
      w1.length + starts l = w.length + accepts l ∧ (PoolServed p.workers w → PoolServed p1.workers w1) := by
  cases a with
  | enter t =>
    unfold step at hs
    dsimp only at hs
    split at hs
    · simp only [Option.some.injEq, C.ok.injEq, Prod.mk.injEq] at hs
      obtain ⟨rfl, rfl⟩ := hs
      exact ⟨w, fun _ => rfl, h, rfl, rfl, fun ⟨h1, _, _⟩ => absurd (List.mem_of_getElem? (by assumption)) h1⟩
    · cases hs
  | wake t =>
    unfold step at hs
    dsimp only at hs
    split at hs
    · simp only [Option.some.injEq, C.ok.injEq, Prod.mk.injEq] at hs
      obtain ⟨rfl, rfl⟩ := hs
      rename_i ht
      exact ⟨w, fun _ => rfl, h, rfl, rfl, fun ⟨h1, h2, _⟩ => ⟨not_starting_set h1 (by simp), by simpa using h2, fun _ => ⟨.awake, mem_set_self ht, rfl⟩⟩⟩
    · cases hs
  | event x wk =>
    unfold step at hs
    dsimp only at hs
    have hfit := h.fits
    split at hs
    · rename_i hf
      simp only [Option.some.injEq, C.ok.injEq, Prod.mk.injEq] at hs
      obtain ⟨rfl, rfl⟩ := hs
      rw [h.full, decide_eq_true_iff] at hf
      refine ⟨w, fun l' => ?_, h, rfl, rfl, id⟩
      show fifo _ w (.refused x :: l') = _
      rw [fifo, if_neg (by omega)]
    · rename_i hf
      have hf : p.q.full = false := by simpa using hf
      have hlen : w.length < p.q.slots.length := by
        have := h.full
        rw [hf] at this
        have hne : w.length ≠ p.q.slots.length := fun e => by simp [e] at this
        omega
      have fin : ∀ {q : Queue α} {b : Bool}, push p.q x = .ok (q, b) → l = [.accepted x] → p1.q = q → (PoolServed p.workers w → PoolServed p1.workers (w ++ [x])) →
          ∃ w1, (∀ l', fifo p.q.slots.length w (l ++ l') = fifo p.q.slots.length w1 l') ∧ Holds p1.q w1 (r + starts l) ∧ p1.q.slots.length = p.q.slots.length ∧
            w1.length + starts l = w.length + accepts l ∧ (PoolServed p.workers w → PoolServed p1.workers w1) := by
        intro q b hp hl hq hsv
        subst hl
        rw [hq, push_ok hp hf]
        simp only [accepts, starts, Nat.zero_add, Nat.add_zero] at hsafe
        refine ⟨w ++ [x], fun l' => ?_, Holds.push (.inl h) hf hsafe, by simp, by simp [accepts, starts], hsv⟩
        show fifo _ w (.accepted x :: l') = _
        rw [fifo, if_pos hlen]
      cases wk with
      | none =>
        dsimp only at hs
        split at hs
        · cases hs
        · rename_i hnw
          simp only [Option.some.injEq] at hs
          obtain ⟨⟨q, b⟩, h1, hs⟩ := C.bind_eq_ok.mp hs
          simp only [C.ok.injEq, Prod.mk.injEq] at hs
          refine fin h1 hs.2.symm (by rw [← hs.1]) (fun ⟨g1, g2, _⟩ => ?_)
          rw [← hs.1]
          refine ⟨g1, g2, fun _ => ?_⟩
          obtain ⟨y, ws, hy⟩ := List.exists_cons_of_ne_nil g2
          refine ⟨y, by dsimp only; rw [hy]; exact List.mem_cons_self, ?_⟩
          rw [hy] at hnw g1
          cases y with
          | starting => exact absurd List.mem_cons_self g1
          | waiting => exact absurd List.mem_cons_self hnw
          | awake => rfl
          | running z => rfl
      | some t =>
        dsimp only at hs
        split at hs
        · rename_i ht
          simp only [Option.some.injEq] at hs
          obtain ⟨⟨q, b⟩, h1, hs⟩ := C.bind_eq_ok.mp hs
          simp only [C.ok.injEq, Prod.mk.injEq] at hs
          refine fin h1 hs.2.symm (by rw [← hs.1]) (fun ⟨g1, g2, _⟩ => ?_)
          rw [← hs.1]
          exact ⟨not_starting_set g1 (by simp), by simpa using g2, fun _ => ⟨.awake, mem_set_self ht, rfl⟩⟩
        · cases hs
  | go t =>
    unfold step at hs
    dsimp only at hs
    split at hs
    · rename_i ha
      simp only [Option.some.injEq] at hs
      cases w with
      | nil =>
        rw [pop_empty h, C.ok_bind] at hs
        simp only [C.ok.injEq, Prod.mk.injEq] at hs
        obtain ⟨rfl, rfl⟩ := hs
        exact ⟨[], fun _ => rfl, h, rfl, rfl, fun ⟨g1, g2, _⟩ => ⟨not_starting_set g1 (by simp), by simpa using g2, fun hn => absurd rfl hn⟩⟩
      | cons y w =>
        obtain ⟨q', h1, h2, h3⟩ := h.pop
        rw [h1, C.ok_bind] at hs
        simp only [C.ok.injEq, Prod.mk.injEq] at hs
        obtain ⟨rfl, rfl⟩ := hs
        refine ⟨w, fun l' => ?_, h2, h3, by simp [starts, accepts], fun ⟨g1, g2, _⟩ => ⟨not_starting_set g1 (by simp), by simpa using g2, fun _ => ?_⟩⟩
        rotate_left
        · cases hx : p.workers[t]? with
          | none => rw [hx] at ha; cases ha
          | some z => exact ⟨.running y, mem_set_self hx, rfl⟩
        show fifo _ (y :: w) (.ran y :: l') = _
        rw [fifo, if_pos rfl]
    · cases hs

theorem run_cons {p p' : Pool α} {a : Act α} {as : List (Act α)} {l : List (Seen α)} (h : run p (a :: as) = some (.ok (p', l))) :
    ∃ p1 l1 l2, step p a = some (.ok (p1, l1)) ∧ run p1 as = some (.ok (p', l2)) ∧ l = l1 ++ l2 := by
  unfold run at h
  split at h
  · cases h
  · cases h
  · rename_i p1 l1 h1
    split at h
    · cases h
    · cases h
    · rename_i p2 l2 h2
      simp only [Option.some.injEq, C.ok.injEq, Prod.mk.injEq] at h
      obtain ⟨rfl, rfl⟩ := h
      exact ⟨p1, l1, l2, h1, h2, rfl⟩

/-- A history of a queue that holds the scripts `w` after `r` were started. -/
theorem run_holds : ∀ (as : List (Act α)) (p p' : Pool α) (l : List (Seen α)) (w : List α) (r : Nat), Holds p.q w r → run p as = some (.ok (p', l)) →
    (∀ l', l' <+: l → w.length + accepts l' = p.q.slots.length + starts l' → (r + starts l') % p.q.slots.length ≠ 0) →
    ∃ w', fifo p.q.slots.length w l = some w' ∧ Holds p'.q w' (r + starts l) ∧ p'.q.slots.length = p.q.slots.length ∧ (PoolServed p.workers w → PoolServed p'.workers w') := by
  intro as
  induction as with
  | nil =>
    intro p p' l w r h hr hs
    unfold run at hr
    simp only [Option.some.injEq, C.ok.injEq, Prod.mk.injEq] at hr
    obtain ⟨rfl, rfl⟩ := hr
    exact ⟨w, by unfold fifo; rfl, h, rfl, id⟩
  | cons a as ih =>
    intro p p' l w r h hr hs
    obtain ⟨p1, l1, l2, h1, h2, rfl⟩ := run_cons hr
    obtain ⟨w1, k1, k2, k3, k4, k5⟩ := step_holds h h1 (hs l1 (List.prefix_append _ _))
    obtain ⟨w', m1, m2, m3, m4⟩ := ih p1 p' l2 w1 (r + starts l1) k2 h2 (fun l' hl' he => by
      have := hs (l1 ++ l') ((List.prefix_append_right_inj l1).mpr hl')
      rw [accepts_append, starts_append] at this
      rw [k3] at he ⊢
      rw [Nat.add_assoc]
      exact this (by omega))
    rw [k3] at m1 m3
    refine ⟨w', by rw [k1]; exact m1, ?_, m3, fun hv => m4 (k5 hv)⟩
    rw [starts_append, ← Nat.add_assoc]
    exact m2

/-- A pool as `thread_start_all` leaves it: `n` places with anything in them, and workers that have not begun. -/
def freshPool (slots : List α) (k : Nat) : Pool α := ⟨{ slots := slots }, List.replicate k .starting⟩

/-- Up to the first event nothing happens but that workers begin to wait. -/
theorem run_fresh : ∀ (as : List (Act α)) (p p' : Pool α) (l : List (Seen α)), 0 < p.q.slots.length → p.q.first = 0 → p.q.last = 0 → p.q.full = false →
    (∀ x ∈ p.workers, x = .starting ∨ x = .waiting) → Calm as → run p as = some (.ok (p', l)) → Safe p.q.slots.length l →
    p'.q.slots.length = p.q.slots.length ∧
    ((l = [] ∧ p'.q = p.q ∧ ∀ x ∈ p'.workers, x = .starting ∨ x = .waiting) ∨ ∃ w', fifo p.q.slots.length [] l = some w' ∧ Holds p'.q w' (starts l) ∧
      (.starting ∉ p.workers → p.workers ≠ [] → PoolServed p'.workers w')) := by
  intro as
  induction as with
  | nil =>
    intro p p' l hpos h1 h2 h3 hw hc hr hs
    unfold run at hr
    simp only [Option.some.injEq, C.ok.injEq, Prod.mk.injEq] at hr
    obtain ⟨rfl, rfl⟩ := hr
    exact ⟨rfl, .inl ⟨rfl, rfl, hw⟩⟩
  | cons a as ih =>
    intro p p' l hpos hz1 hz2 hz3 hw hc hr hs
    obtain ⟨p1, l1, l2, h1, h2, rfl⟩ := run_cons hr
    cases a with
    | wake t => exact absurd hc (by unfold Calm; exact id)
    | enter t =>
      unfold step at h1
      dsimp only at h1
      split at h1
      · simp only [Option.some.injEq, C.ok.injEq, Prod.mk.injEq] at h1
        obtain ⟨rfl, rfl⟩ := h1
        rename_i ht
        obtain ⟨e1, e2⟩ := ih { p with workers := p.workers.set t .waiting } p' l2 hpos hz1 hz2 hz3 (fun x hx => by
          rcases List.mem_or_eq_of_mem_set hx with h | rfl
          · exact hw x h
          · exact .inr rfl) hc h2 hs
        refine ⟨e1, e2.imp id (fun ⟨w', f1, f2, _⟩ => ⟨w', f1, f2, fun hst => absurd (List.mem_of_getElem? ht) hst⟩)⟩
      · cases h1
    | go t =>
      unfold step at h1
      dsimp only at h1
      split at h1
      · rename_i ha
        exfalso
        cases hx : p.workers[t]? with
        | none => rw [hx] at ha; cases ha
        | some x =>
          rw [hx] at ha
          rcases hw x (List.mem_of_getElem? hx) with rfl | rfl <;> cases ha
      · cases h1
    | event x wk =>
      have hq : ∃ q b, push p.q x = .ok (q, b) ∧ p1.q = q ∧ l1 = [.accepted x] ∧ ((.waiting ∉ p.workers ∧ p1.workers = p.workers) ∨
          ∃ t, p.workers[t]? = some .waiting ∧ p1.workers = p.workers.set t .awake) := by
        unfold step at h1
        dsimp only at h1
        rw [hz3] at h1
        simp only [Bool.false_eq_true, if_false] at h1
        cases wk with
        | none =>
          dsimp only at h1
          split at h1
          · cases h1
          · rename_i hnw
            simp only [Option.some.injEq] at h1
            obtain ⟨⟨q, b⟩, g1, h1⟩ := C.bind_eq_ok.mp h1
            simp only [C.ok.injEq, Prod.mk.injEq] at h1
            exact ⟨q, b, g1, by rw [← h1.1], h1.2.symm, .inl ⟨hnw, by rw [← h1.1]⟩⟩
        | some t =>
          dsimp only at h1
          split at h1
          · rename_i ht
            simp only [Option.some.injEq] at h1
            obtain ⟨⟨q, b⟩, g1, h1⟩ := C.bind_eq_ok.mp h1
            simp only [C.ok.injEq, Prod.mk.injEq] at h1
            exact ⟨q, b, g1, by rw [← h1.1], h1.2.symm, .inr ⟨t, ht, by rw [← h1.1]⟩⟩
          · cases h1
      obtain ⟨q, b, g1, g2, rfl, g3⟩ := hq
      have hH : Holds p1.q ([] ++ [x]) 0 := by
        rw [g2, push_ok g1 hz3]
        refine Holds.push (.inr ⟨hz1, hz2, hz3, rfl, rfl, hpos⟩) hz3 (fun he => ?_)
        have := hs [.accepted x] (List.prefix_append _ _)
        simp only [accepts, starts, List.length_nil] at this he
        exact this (by omega)
      have hlen : p1.q.slots.length = p.q.slots.length := by rw [g2, push_ok g1 hz3]; simp
      obtain ⟨w', m1, m2, m3, m4⟩ := run_holds as p1 p' l2 [x] 0 hH h2 (fun l' hl' he => by
        have := hs ([.accepted x] ++ l') ((List.prefix_append_right_inj _).mpr hl')
        rw [accepts_append, starts_append] at this
        simp only [accepts, starts, List.length_singleton, Nat.zero_add] at this he ⊢
        rw [hlen] at he ⊢
        exact this (by omega))
      rw [hlen] at m1 m3
      refine ⟨m3, .inr ⟨w', ?_, ?_, fun hst hne => m4 ?_⟩⟩
      · show fifo _ [] (.accepted x :: l2) = _
        rw [fifo, if_pos (show ([] : List α).length < _ from hpos)]
        exact m1
      · rw [starts_append]
        exact m2
      · rcases g3 with ⟨hnw, hpw⟩ | ⟨t, ht, hpw⟩
        · exfalso
          obtain ⟨y, ws, hy⟩ := List.exists_cons_of_ne_nil hne
          rw [hy] at hnw hst
          rcases hw y (by rw [hy]; exact List.mem_cons_self) with rfl | rfl
          · exact hst List.mem_cons_self
          · exact hnw List.mem_cons_self
        · rw [hpw]
          exact ⟨not_starting_set hst (by simp), by simpa using hne, fun _ => ⟨.awake, mem_set_self ht, rfl⟩⟩

/-- **C72**, order: whatever the threads do, scripts run in the order of their events, each once; an event is refused only if the queue is full.

Missing: the queue must not fill up when the number of scripts started so far is a multiple of its size (`C72_overwritten`), and no worker may wake without a signal
before the first event (`C72_spurious`). -/
theorem C72_order_partial {slots : List α} {k : Nat} {as : List (Act α)} {p' : Pool α} {l : List (Seen α)} (hpos : 0 < slots.length) (hc : Calm as)
    (hr : run (freshPool slots k) as = some (.ok (p', l))) (hs : Safe slots.length l) : ∃ w, fifo slots.length [] l = some w := by
  obtain ⟨-, ⟨rfl, -⟩ | ⟨w', h, -, -⟩⟩ := run_fresh as (freshPool slots k) p' l hpos rfl rfl rfl (fun x hx => .inl (List.eq_of_mem_replicate hx)) hc hr hs
  · exact ⟨[], by unfold fifo; rfl⟩
  · exact ⟨w', h⟩


/-- **C72**, service: if all workers were waiting before the first event, no script is left in the queue when they all wait again.

Missing: what is missing in `C72_order_partial`; events that come before the workers wait (`C72_lost_signal`). -/
theorem C72_served_partial {slots : List α} {k : Nat} {as : List (Act α)} {p' : Pool α} {l : List (Seen α)} (hpos : 0 < slots.length) (hk : 0 < k) (hc : Calm as)
    (hr : run ⟨{ slots := slots }, List.replicate k .waiting⟩ as = some (.ok (p', l))) (hs : Safe slots.length l) (hend : ∀ x ∈ p'.workers, x = .waiting) :
    fifo slots.length [] l = some [] := by
  obtain ⟨-, ⟨rfl, -⟩ | ⟨w', h, -, hv⟩⟩ := run_fresh as ⟨{ slots := slots }, List.replicate k .waiting⟩ p' l hpos rfl rfl rfl (fun x hx => .inr (List.eq_of_mem_replicate hx)) hc hr hs
  · unfold fifo; rfl
  · obtain ⟨-, -, h3⟩ := hv (fun hm => by cases List.eq_of_mem_replicate hm) (by simp; omega)
    rw [h]
    congr 1
    apply Classical.byContradiction
    intro hne
    obtain ⟨x, hx, ha⟩ := h3 hne
    rw [hend x hx] at ha
    cases ha

theorem drain : ∀ (w : List α) (p : Pool α) (r t : Nat), Holds p.q w r → (∃ x, p.workers[t]? = some x ∧ x.active = true) →
    ∃ p', run p (List.replicate w.length (.go t)) = some (.ok (p', w.map .ran)) := by
  intro w
  induction w with
  | nil => exact fun p r t _ _ => ⟨p, rfl⟩
  | cons x w ih =>
    intro p r t h ⟨y, hy, ha⟩
    obtain ⟨q', h1, h2, h3⟩ := h.pop
    obtain ⟨p', hp'⟩ := ih ⟨q', p.workers.set t (.running x)⟩ (r + 1) t h2 ⟨.running x, List.getElem?_set_self (List.getElem?_eq_some_iff.mp hy).1, rfl⟩
    refine ⟨p', ?_⟩
    show run p (.go t :: List.replicate w.length (.go t)) = _
    unfold run
    have hstep : step p (.go t) = some (.ok (⟨q', p.workers.set t (.running x)⟩, [.ran x])) := by
      unfold step
      dsimp only
      rw [hy]
      simp only [Option.map_some, Option.getD_some]
      rw [if_pos ha, h1, C.ok_bind]
    rw [hstep]
    dsimp only
    rw [hp']
    rfl

/-- **C72**, progress: a worker that is awake or running takes all the scripts that wait, in order, if no other worker takes them, each as soon as it is done with the one before.

Missing: as for `C72_order_partial`. -/
theorem C72_drains_partial {slots : List α} {k t : Nat} {as : List (Act α)} {p' : Pool α} {l : List (Seen α)} {x : Worker α} (hpos : 0 < slots.length) (hc : Calm as)
    (hr : run (freshPool slots k) as = some (.ok (p', l))) (hs : Safe slots.length l) (hx : p'.workers[t]? = some x) (ha : x.active = true) :
    ∃ w p'', fifo slots.length [] l = some w ∧ run p' (List.replicate w.length (.go t)) = some (.ok (p'', w.map .ran)) := by
  obtain ⟨-, ⟨rfl, -, hw⟩ | ⟨w, h, hh, -⟩⟩ := run_fresh as (freshPool slots k) p' l hpos rfl rfl rfl (fun x hx => .inl (List.eq_of_mem_replicate hx)) hc hr hs
  · rcases hw x (List.mem_of_getElem? hx) with rfl | rfl <;> cases ha
  · obtain ⟨p'', hp⟩ := drain w p' _ t hh ⟨x, hx, ha⟩
    exact ⟨w, p'', h, hp⟩

/-- **C72**, memory: the indices never leave the array, whatever happens. -/
theorem C72_inside {slots : List α} {k : Nat} {as : List (Act α)} {c : C (Pool α × List (Seen α))} (hpos : 0 < slots.length) (hr : run (freshPool slots k) as = some c) :
    ∃ p l, c = .ok (p, l) := by
  have key : ∀ (as : List (Act α)) (p : Pool α) (c : C (Pool α × List (Seen α))), p.q.first < p.q.slots.length → p.q.last < p.q.slots.length → run p as = some c →
      ∃ p l, c = .ok (p, l) := by
    intro as
    induction as with
    | nil =>
      intro p c _ _ h
      unfold run at h
      simp only [Option.some.injEq] at h
      exact ⟨_, _, h.symm⟩
    | cons a as ih =>
      intro p c h1 h2 h
      have hst : ∀ c1, step p a = some c1 → ∃ p1 l1, c1 = .ok (p1, l1) ∧ p1.q.first < p1.q.slots.length ∧ p1.q.last < p1.q.slots.length := by
        intro c1 hc1
        have hpush : ∀ x, p.q.full = false → ∃ q, push p.q x = .ok (q, true) ∧ q.first < q.slots.length ∧ q.last < q.slots.length := by
          intro x hf
          unfold push
          rw [hf, if_neg (by simp), if_neg (by omega)]
          refine ⟨_, rfl, by simpa using h1, ?_⟩
          simp only [List.length_set]
          split <;> omega
        cases a with
        | enter t =>
          unfold step at hc1
          dsimp only at hc1
          split at hc1
          · simp only [Option.some.injEq] at hc1; exact ⟨_, _, hc1.symm, h1, h2⟩
          · cases hc1
        | wake t =>
          unfold step at hc1
          dsimp only at hc1
          split at hc1
          · simp only [Option.some.injEq] at hc1; exact ⟨_, _, hc1.symm, h1, h2⟩
          · cases hc1
        | event x wk =>
          unfold step at hc1
          dsimp only at hc1
          split at hc1
          · simp only [Option.some.injEq] at hc1; exact ⟨_, _, hc1.symm, h1, h2⟩
          · rename_i hf
            obtain ⟨q, e, g1, g2⟩ := hpush x (by simpa using hf)
            rw [e] at hc1
            cases wk with
            | none =>
              dsimp only at hc1
              split at hc1
              · cases hc1
              · simp only [Option.some.injEq, C.ok_bind] at hc1; exact ⟨_, _, hc1.symm, g1, g2⟩
            | some t =>
              dsimp only at hc1
              split at hc1
              · simp only [Option.some.injEq, C.ok_bind] at hc1; exact ⟨_, _, hc1.symm, g1, g2⟩
              · cases hc1
        | go t =>
          unfold step at hc1
          dsimp only at hc1
          split at hc1
          · simp only [Option.some.injEq] at hc1
            unfold pop at hc1
            split at hc1
            · rw [C.ok_bind] at hc1; exact ⟨_, _, hc1.symm, h1, h2⟩
            · rw [List.getElem?_eq_getElem h1] at hc1
              dsimp only at hc1
              rw [C.ok_bind] at hc1
              refine ⟨_, _, hc1.symm, ?_, h2⟩
              dsimp only
              split <;> omega
          · cases hc1
      unfold run at h
      split at h
      · cases h
      · rename_i w hw
        obtain ⟨_, _, e, -⟩ := hst _ hw
        cases e
      · rename_i p1 l1 hp
        obtain ⟨p2, l2, e, g1, g2⟩ := hst _ hp
        simp only [C.ok.injEq, Prod.mk.injEq] at e
        obtain ⟨rfl, rfl⟩ := e
        split at h
        · cases h
        · rename_i w hw
          obtain ⟨_, _, e⟩ := ih _ _ g1 g2 hw
          cases e
        · simp only [Option.some.injEq] at h
          exact ⟨_, _, h.symm⟩
  exact key as _ c hpos hpos hr

/-! ## A case, and where the code departs from C72 -/

/-- Two workers and three places; four events, one of them refused because three scripts wait (one script has been started before). -/
def queueActs : List (Act Nat) := [.enter 0, .enter 1, .event 7 (some 1), .go 1, .event 8 (some 0), .event 9 none, .event 10 none, .event 11 none, .go 1, .go 0, .go 1, .go 0, .go 1]

example : run (freshPool [0, 0, 0] 2) queueActs = some (.ok (⟨⟨[10, 8, 9], 1, 1, false, true⟩, [.waiting, .waiting]⟩,
    [.accepted 7, .ran 7, .accepted 8, .accepted 9, .accepted 10, .refused 11, .ran 8, .ran 9, .ran 10])) ∧ Calm queueActs ∧
    fifo 3 [] [.accepted 7, .ran 7, .accepted 8, .accepted 9, .accepted 10, .refused 11, .ran 8, .ran 9, .ran 10] = some [] := by
  refine ⟨by rfl, ?_, by decide⟩
  unfold queueActs
  simp [Calm]

example : Safe 3 ([.accepted 7, .ran 7, .accepted 8, .accepted 9, .accepted 10, .refused 11, .ran 8, .ran 9, .ran 10] : List (Seen Nat)) := by
  intro l' hl
  obtain ⟨l'', e⟩ := hl
  have : l' = List.take l'.length ([.accepted 7, .ran 7, .accepted 8, .accepted 9, .accepted 10, .refused 11, .ran 8, .ran 9, .ran 10] : List (Seen Nat)) := by
    rw [← e]; simp
  have hl : l'.length ≤ 9 := by
    have := congrArg List.length e
    simp at this; omega
  rw [this]
  have : l'.length = 0 ∨ l'.length = 1 ∨ l'.length = 2 ∨ l'.length = 3 ∨ l'.length = 4 ∨ l'.length = 5 ∨ l'.length = 6 ∨ l'.length = 7 ∨ l'.length = 8 ∨ l'.length = 9 := by omega
  rcases this with h | h | h | h | h | h | h | h | h | h <;> rw [h] <;> decide

/-- **C72 fails**: two scripts fill a queue of two places while the only worker is busy; the third is not refused but takes the place of the first.  It runs, and then the queue counts as empty: the other two never
run. -/
theorem C72_overwritten : run (freshPool [0, 0] 1) [.enter 0, .event 1 (some 0), .go 0, .event 2 none, .go 0, .event 3 none, .event 4 none, .event 5 none, .go 0, .go 0] =
    some (.ok (⟨⟨[5, 4], 1, 1, false, true⟩, [.waiting]⟩,
      [.accepted 1, .ran 1, .accepted 2, .ran 2, .accepted 3, .accepted 4, .accepted 5, .ran 5])) ∧
    fifo 2 [] [.accepted 1, .ran 1, .accepted 2, .ran 2, .accepted 3, .accepted 4, .accepted (5 : Nat), .ran 5] = none := by
  exact ⟨by rfl, by decide⟩

/-- **C72 fails**: a worker that wakes without a signal before the first event takes what `malloc` left in the array for a script, because the queue does not count as empty at the start. -/
theorem C72_spurious (junk : Nat) (rest : List Nat) : ∃ p, run (freshPool (junk :: rest) 1) [.enter 0, .wake 0, .go 0] = some (.ok (p, [.ran junk])) := ⟨_, rfl⟩

/-- **C72 fails**: a script whose event comes before the only worker waits (such as the first run of a triggered script) stays in the queue; the worker waits for the next event. -/
theorem C72_lost_signal : run (freshPool [0, 0, 0] 1) [.event 7 none, .enter 0] = some (.ok (⟨⟨[7, 0, 0], 0, 1, false, false⟩, [.waiting]⟩, [.accepted 7])) ∧
    fifo 3 [] [.accepted (7 : Nat)] = some [7] := ⟨by rfl, by decide⟩

/-- **C72 fails**: with a size of 0 the first event is written outside the array. -/
theorem C72_no_room (x : Nat) : ∃ w, run (freshPool ([] : List Nat) 1) [.event x none] = some (.ub w) := ⟨_, rfl⟩

end Dax
