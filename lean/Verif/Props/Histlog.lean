import Verif.Spec.Histlog
import Verif.Lemmas.EventKinds
import Verif.Lemmas.Tactic
/-!
# C76, C77, C78: the logger of histories
-/
set_option autoImplicit false
namespace Dax
open Hist

/-! ## The comparison -/

theorem signedDiff_ok {w : Nat} {a b d : Int} (h : signedDiff w a b = .ok d) : d = (a - b).natAbs := by
  unfold signedDiff at h
  split at h
  · simp only [C.ok.injEq] at h
    split at h <;> omega
  · cases h

/-- **C76**, the comparison: for the types where it is defined at all and right, it finds exactly the changes that are as large as the threshold. -/
theorem C76_test {flt : Nat → List Byte → List Byte → Int → Bool} {t w : Nat} {sg : Bool} {a b : List Byte} {threshold : Int} {r : Bool} (ht : (t, w, sg) ∈ fine) (ha : a.length = w) (hb : b.length = w)
    (h : testDifference flt t a b threshold = .ok r) : r = decide (threshold ≤ (dist sg a b : Int)) := by
  have key : ∀ {W : Nat} {f : List Byte → Int}, (signedDiff W (f (a.take w)) (f (b.take w)) >>= fun d => C.ok (decide (d ≥ threshold))) = .ok r →
      (∀ l, f l = num sg l) → r = decide (threshold ≤ (dist sg a b : Int)) := by
    intro W f h hf
    obtain ⟨d, h1, h2⟩ := C.bind_eq_ok.mp h
    have h3 := signedDiff_ok h1
    rw [List.take_of_length_le (by omega), List.take_of_length_le (by omega), hf, hf] at h3
    simp only [C.ok.injEq] at h2
    rw [← h2, h3]
    rfl
  have su : ∀ l : List Byte, ((leNat l : Nat) : Int) = num false l := fun l => by unfold num; rw [unsignedVal_eq]; rfl
  have ss : ∀ l : List Byte, leInt l = num true l := fun l => by unfold num; rw [signedVal_eq]; rfl
  unfold fine at ht
  simp only [List.mem_cons, Prod.mk.injEq, List.not_mem_nil, or_false] at ht
  rcases ht with ⟨rfl, rfl, rfl⟩ | ⟨rfl, rfl, rfl⟩ | ⟨rfl, rfl, rfl⟩ | ⟨rfl, rfl, rfl⟩ | ⟨rfl, rfl, rfl⟩ | ⟨rfl, rfl, rfl⟩
  · exact key (W := 32) (f := fun l => (leNat l : Int)) h su
  · exact key (W := 32) (f := leInt) h ss
  · exact key (W := 32) (f := leInt) h ss
  · exact key (W := 32) (f := leInt) h ss
  · exact key (W := 32) (f := leInt) h ss
  · exact key (W := 64) (f := leInt) h ss

/-! ## The state of the logger -/

theorem values_append (a b : List (Option (List Byte) × Int)) : values (a ++ b) = values a ++ values b := List.filterMap_append ..

theorem seen_append (a b : List Arrival) : seen (a ++ b) = seen a ++ seen b := List.filterMap_append ..

theorem seen_one {e : Arrival} {d : List Byte} (h : e.data = some d) : seen [e] = [(d, e.now)] := by
  unfold seen
  rw [List.filterMap_cons_some (b := (d, e.now)) (by rw [h]; rfl)]
  rfl

theorem getLast?_snoc {α : Type} (l : List α) (a : α) : (l ++ [a]).getLast? = some a := by simp

/-- What `cmpvalue`, `lastvalue` and `lastgood` mean. -/
structure HistInv (flt : Nat → List Byte → List Byte → Int → Bool) (g : Cfg) (x : St) (s : List (List Byte × Int)) : Prop where
  cmp : ∃ t, (values x.log).getLast? = some (x.cmp, t)
  good : x.lastgood = true → (values x.log).getLast? = s.getLast? ∧ (values x.log).Sublist s
  pend : x.lastgood = false → ∃ s0, s = s0 ++ [(x.last, x.lastTs)] ∧ (values x.log).Sublist s0 ∧ testDifference flt g.type x.cmp x.last g.threshold = .ok false

theorem HistInv.sub {flt : Nat → List Byte → List Byte → Int → Bool} {g : Cfg} {x : St} {s : List (List Byte × Int)} (h : HistInv flt g x s) : (values x.log).Sublist s := by
  cases hg : x.lastgood with
  | true => exact (h.good hg).2
  | false =>
    obtain ⟨s0, h1, h2, -⟩ := h.pend hg
    rw [h1]
    exact h2.trans (List.sublist_append_left ..)

theorem hist_start {flt : Nat → List Byte → List Byte → Int → Bool} {g : Cfg} {d junk : List Byte} {now late : Int} : HistInv flt g (start g (some d) junk now late) [(d, late)] := by
  refine ⟨⟨late, rfl⟩, fun _ => ⟨rfl, List.Sublist.refl _⟩, fun h => by cases h⟩

/-- The cases of one event for a tag whose changes are recorded. -/
theorem callback_change {flt : Nat → List Byte → List Byte → Int → Bool} {g : Cfg} {x x' : St} {e : Arrival} {d : List Byte} (ht : g.trigger = ON_CHANGE) (hd : e.data = some d) (hh : callback flt g x e = .ok x') :
    x'.lastTs = e.now ∧
    ((g.timeout > 0 ∧ e.now - x.lastTs > g.timeout) ∧ x'.log = x.log ++ [(none, e.now - g.timeout), (some d, e.now)] ∧ x'.cmp = d ∧ x'.lastgood = true ∨
    ¬ (g.timeout > 0 ∧ e.now - x.lastTs > g.timeout) ∧ testDifference flt g.type x.cmp d g.threshold = .ok true ∧
      x'.log = x.log ++ (if x.lastgood then [] else [(some x.last, x.lastTs)]) ++ [(some d, e.now)] ∧ x'.cmp = d ∧ x'.lastgood = true ∨
    ¬ (g.timeout > 0 ∧ e.now - x.lastTs > g.timeout) ∧ testDifference flt g.type x.cmp d g.threshold = .ok false ∧ x'.log = x.log ∧ x'.cmp = x.cmp ∧ x'.last = d ∧ x'.lastgood = false) := by
  unfold callback at hh
  rw [hd] at hh
  dsimp only at hh
  by_cases hto : g.timeout > 0 ∧ e.now - x.lastTs > g.timeout
  · rw [if_pos hto, if_pos ht] at hh
    simp only [C.ok.injEq] at hh
    subst hh
    refine ⟨rfl, .inl ⟨hto, ?_, rfl, rfl⟩⟩
    unfold St.put
    simp
  · rw [if_neg hto, if_neg (by rw [ht]; decide), if_pos ht] at hh
    obtain ⟨far, h1, hh⟩ := C.bind_eq_ok.mp hh
    cases far with
    | true =>
      rw [if_pos rfl] at hh
      simp only [C.ok.injEq] at hh
      subst hh
      cases hg : x.lastgood with
      | true => 
        refine ⟨rfl, .inr (.inl ⟨hto, h1, ?_, rfl, ?_⟩)⟩
        · unfold St.put
          simp
        · unfold St.put
          simp [hg]
      | false =>
        refine ⟨rfl, .inr (.inl ⟨hto, h1, ?_, rfl, ?_⟩)⟩
        · unfold St.put
          simp
        · unfold St.put
          simp
    | false =>
      rw [if_neg (by simp)] at hh
      simp only [C.ok.injEq] at hh
      subst hh
      exact ⟨rfl, .inr (.inr ⟨hto, h1, rfl, rfl, rfl, rfl⟩)⟩

theorem values_snoc (l : List (Option (List Byte) × Int)) (d : List Byte) (t : Int) : values (l ++ [(some d, t)]) = values l ++ [(d, t)] := values_append ..

theorem values_gap (l : List (Option (List Byte) × Int)) (d : List Byte) (t t' : Int) : values (l ++ [(none, t'), (some d, t)]) = values l ++ [(d, t)] := values_append ..

theorem hist_step {flt : Nat → List Byte → List Byte → Int → Bool} {g : Cfg} {x x' : St} {e : Arrival} {s : List (List Byte × Int)} (ht : g.trigger = ON_CHANGE) (hi : HistInv flt g x s) (hh : callback flt g x e = .ok x') :
    HistInv flt g x' (s ++ seen [e]) := by
  cases hd : e.data with
  | none =>
    unfold callback at hh
    rw [hd] at hh
    simp only [C.ok.injEq] at hh
    subst hh
    have : seen [e] = [] := by unfold seen; rw [List.filterMap_cons_none (by rw [hd]; rfl)]; rfl
    rw [this, List.append_nil]
    exact hi
  | some d =>
    rw [seen_one hd]
    obtain ⟨hts, ⟨-, h1, h2, h3⟩ | ⟨-, -, h1, h2, h3⟩ | ⟨-, hf, h1, h2, h3, h4⟩⟩ := callback_change ht hd hh
    · have hv : values x'.log = values x.log ++ [(d, e.now)] := by rw [h1, values_gap]
      refine ⟨⟨e.now, by rw [hv, h2]; exact getLast?_snoc ..⟩, fun _ => ⟨by rw [hv, getLast?_snoc, getLast?_snoc], ?_⟩, fun h => by rw [h3] at h; cases h⟩
      rw [hv]
      exact hi.sub.append (List.Sublist.refl _)
    · cases hg : x.lastgood with
      | true =>
        have hv : values x'.log = values x.log ++ [(d, e.now)] := by rw [h1, values_snoc, hg, if_pos rfl, List.append_nil]
        refine ⟨⟨e.now, by rw [hv, h2]; exact getLast?_snoc ..⟩, fun _ => ⟨by rw [hv, getLast?_snoc, getLast?_snoc], ?_⟩, fun h => by rw [h3] at h; cases h⟩
        rw [hv]
        exact hi.sub.append (List.Sublist.refl _)
      | false =>
        have hv : values x'.log = values x.log ++ [(x.last, x.lastTs)] ++ [(d, e.now)] := by rw [h1, values_snoc, hg, if_neg (by simp), values_snoc]
        refine ⟨⟨e.now, by rw [hv, h2]; exact getLast?_snoc ..⟩, fun _ => ⟨by rw [hv, getLast?_snoc, getLast?_snoc], ?_⟩, fun h => by rw [h3] at h; cases h⟩
        obtain ⟨s0, q1, q2, -⟩ := hi.pend hg
        rw [hv, q1]
        exact (q2.append (List.Sublist.refl _)).append (List.Sublist.refl _)
    · obtain ⟨t, ht'⟩ := hi.cmp
      refine ⟨⟨t, by rw [h1, h2]; exact ht'⟩, fun h => by (rw [h4] at h; cases h), fun _ => ⟨s, by rw [h3, hts], by rw [h1]; exact hi.sub, by rw [h2, h3]; exact hf⟩⟩

theorem hist_events {flt : Nat → List Byte → List Byte → Int → Bool} {g : Cfg} (ht : g.trigger = ON_CHANGE) (es : List Arrival) : ∀ {x x' : St} {s : List (List Byte × Int)}, HistInv flt g x s →
    events flt g x es = .ok x' → HistInv flt g x' (s ++ seen es) := by
  induction es with
  | nil =>
    intro x x' s hi hh
    rw [events] at hh
    simp only [C.ok.injEq] at hh
    subst hh
    rw [show seen ([] : List Arrival) = [] from rfl, List.append_nil]
    exact hi
  | cons e es ih =>
    intro x x' s hi hh
    rw [events] at hh
    obtain ⟨y, h1, h2⟩ := C.bind_eq_ok.mp hh
    have := ih (hist_step ht hi h1) h2
    rw [show e :: es = [e] ++ es from rfl, seen_append, ← List.append_assoc]
    exact this

/-! ## C76: changes -/

/-- **C76**, truth: what is recorded of a tag was its value at the time that is recorded, in the order in which the values came, and no value is recorded twice. -/
theorem C76_true {flt : Nat → List Byte → List Byte → Int → Bool} {g : Cfg} {d0 junk : List Byte} {now late : Int} {es : List Arrival} {x : St} (ht : g.trigger = ON_CHANGE)
    (hh : events flt g (start g (some d0) junk now late) es = .ok x) : (values x.log).Sublist ((d0, late) :: seen es) :=
  (hist_events ht es hist_start hh).sub

theorem mem_getLast? {α : Type} {l : List α} {a : α} (h : l.getLast? = some a) : a ∈ l := List.mem_of_getLast? h

theorem all_of {w : Nat} {d0 : List Byte} {late : Int} {es : List Arrival} (h0 : d0.length = w) (hl : ∀ p ∈ seen es, p.1.length = w) : ∀ p ∈ (d0, late) :: seen es, p.1.length = w := by
  intro p hp
  rcases List.mem_cons.mp hp with rfl | hp
  · exact h0
  · exact hl p hp

/-- **C76**, accuracy: at any time the value recorded last differs by less than the threshold from the value that came last, or is that value.

Missing: UINT and WORD (`C76_uint`), UDINT, DWORD, ULINT and LWORD (`C76_unsigned`), TIME (`C76_time`), BOOL (`C76_bool`); REAL and LREAL are not compared in the model; the first value must have been read. -/
theorem C76_near_partial {flt : Nat → List Byte → List Byte → Int → Bool} {g : Cfg} {w : Nat} {sg : Bool} {d0 junk : List Byte} {now late : Int} {es : List Arrival} {x : St} (ht : g.trigger = ON_CHANGE)
    (hty : (g.type, w, sg) ∈ fine) (h0 : d0.length = w) (hl : ∀ p ∈ seen es, p.1.length = w) (hh : events flt g (start g (some d0) junk now late) es = .ok x) :
    ∃ r v, (values x.log).getLast? = some r ∧ ((d0, late) :: seen es).getLast? = some v ∧ (r = v ∨ (dist sg r.1 v.1 : Int) < g.threshold) := by
  have hi := hist_events ht es (hist_start (flt := flt) (g := g) (d := d0) (junk := junk) (now := now) (late := late)) hh
  have hall := all_of (late := late) h0 hl
  obtain ⟨t, hc⟩ := hi.cmp
  cases hg : x.lastgood with
  | true => exact ⟨_, _, hc, ((hi.good hg).1.symm.trans hc), .inl rfl⟩
  | false =>
    obtain ⟨s0, h1, h2, h3⟩ := hi.pend hg
    refine ⟨_, (x.last, x.lastTs), hc, by rw [show ((d0, late) :: seen es) = [(d0, late)] ++ seen es from rfl, h1]; exact getLast?_snoc .., .inr ?_⟩
    have m1 := hall _ (hi.sub.subset (mem_getLast? hc))
    have m2 := hall (x.last, x.lastTs) (by show _ ∈ [(d0, late)] ++ seen es; rw [h1]; exact List.mem_append_right _ (List.mem_singleton.mpr rfl))
    have := C76_test hty m1 m2 h3
    simp only [Bool.false_eq, decide_eq_false_iff_not] at this
    show (dist sg x.cmp x.last : Int) < g.threshold
    omega

/-- The time that has passed since the last event is not more than the timeout, or there is no timeout. -/
def Recent (g : Cfg) (es : List Arrival) (now : Int) : Prop := g.timeout ≤ 0 ∨ ∃ p, (seen es).getLast? = some p ∧ now - p.2 ≤ g.timeout

theorem lastTs_events {flt : Nat → List Byte → List Byte → Int → Bool} {g : Cfg} (ht : g.trigger = ON_CHANGE ∨ g.trigger = ON_WRITE) (es : List Arrival) : ∀ {x x' : St}, events flt g x es = .ok x' →
    x'.lastTs = (((seen es).getLast?).map (·.2)).getD x.lastTs := by
  induction es with
  | nil =>
    intro x x' hh
    rw [events] at hh
    simp only [C.ok.injEq] at hh
    subst hh
    rfl
  | cons e es ih =>
    intro x x' hh
    rw [events] at hh
    obtain ⟨y, h1, h2⟩ := C.bind_eq_ok.mp hh
    rw [ih h2]
    cases hd : e.data with
    | none =>
      have : seen (e :: es) = seen es := List.filterMap_cons_none (by rw [hd]; rfl)
      rw [this]
      unfold callback at h1
      rw [hd] at h1
      simp only [C.ok.injEq] at h1
      rw [h1]
    | some d =>
      have hy : y.lastTs = e.now := by
        rcases ht with ht | ht
        · exact (callback_change ht hd h1).1
        · unfold callback at h1
          rw [hd] at h1
          dsimp only at h1
          by_cases hto : g.timeout > 0 ∧ e.now - x.lastTs > g.timeout
          · rw [if_pos hto] at h1
            simp only [C.ok.injEq] at h1
            rw [← h1]
          · rw [if_neg hto, if_pos ht] at h1
            simp only [C.ok.injEq] at h1
            rw [← h1]
      rw [show e :: es = [e] ++ es from rfl, seen_append, seen_one hd, hy, List.getLast?_append]
      cases (seen es).getLast? <;> rfl

theorem recent_not {flt : Nat → List Byte → List Byte → Int → Bool} {g : Cfg} {es : List Arrival} {x0 x : St} {now : Int} (ht : g.trigger = ON_CHANGE ∨ g.trigger = ON_WRITE) (hh : events flt g x0 es = .ok x) (hr : Recent g es now) :
    ¬ (g.timeout > 0 ∧ now - x.lastTs > g.timeout) := by
  intro ⟨h1, h2⟩
  rcases hr with hr | ⟨p, hp, hr⟩
  · omega
  · rw [lastTs_events ht es hh, hp] at h2
    simp only [Option.map_some, Option.getD_some] at h2
    omega

/-- **C76**, what is recorded when a value comes: nothing if it differs by less than the threshold from the value recorded last; otherwise the value, and right before it the value that came before, which is added unless it has been
recorded already.

Missing: as for `C76_near_partial`; values that come after the timeout (`C77_pending`). -/
theorem C76_step_partial {flt : Nat → List Byte → List Byte → Int → Bool} {g : Cfg} {w : Nat} {sg : Bool} {d0 junk d : List Byte} {now late : Int} {es : List Arrival} {e : Arrival} {x x' : St} (ht : g.trigger = ON_CHANGE)
    (hty : (g.type, w, sg) ∈ fine) (h0 : d0.length = w) (hl : ∀ p ∈ seen es, p.1.length = w) (hh : events flt g (start g (some d0) junk now late) es = .ok x)
    (hd : e.data = some d) (hw : d.length = w) (hr : Recent g es e.now) (hh' : callback flt g x e = .ok x') :
    ∃ r p, (values x.log).getLast? = some r ∧ ((d0, late) :: seen es).getLast? = some p ∧ (∃ more, x'.log = x.log ++ more ∧ ∀ q ∈ more, q.1 ≠ none) ∧
      ((dist sg r.1 d : Int) < g.threshold → x'.log = x.log) ∧
      (g.threshold ≤ (dist sg r.1 d : Int) → ∃ l, values x'.log = l ++ [p, (d, e.now)] ∧ (values x.log = l ∨ values x.log = l ++ [p])) := by
  have hi := hist_events ht es (hist_start (flt := flt) (g := g) (d := d0) (junk := junk) (now := now) (late := late)) hh
  have hall := all_of (late := late) h0 hl
  obtain ⟨t, hc⟩ := hi.cmp
  have m1 := hall _ (hi.sub.subset (mem_getLast? hc))
  have hno := recent_not (.inl ht) hh hr
  obtain ⟨-, ⟨ho, -⟩ | ⟨-, hf, h1, -, -⟩ | ⟨-, hf, h1, -, -⟩⟩ := callback_change ht hd hh'
  · exact absurd ho hno
  · have hf' := C76_test hty m1 hw hf
    simp only [true_eq_decide_iff] at hf'
    cases hg : x.lastgood with
    | true =>
      obtain ⟨g1, g2⟩ := hi.good hg
      rw [hg, if_pos rfl, List.append_nil] at h1
      refine ⟨_, _, hc, g1.symm.trans hc, ⟨_, h1, fun q hq => by rw [List.mem_singleton.mp hq]; simp⟩, fun h => by dsimp only at h; omega, fun _ => ?_⟩
      obtain ⟨l, hl'⟩ := List.getLast?_eq_some_iff.mp hc
      exact ⟨l, by rw [h1, values_snoc, hl', List.append_assoc]; rfl, .inr hl'⟩
    | false =>
      obtain ⟨s0, q1, q2, -⟩ := hi.pend hg
      rw [hg, if_neg (by simp)] at h1
      refine ⟨_, (x.last, x.lastTs), hc, by rw [show ((d0, late) :: seen es) = [(d0, late)] ++ seen es from rfl, q1]; exact getLast?_snoc .., ⟨_, by rw [h1, List.append_assoc], fun q hq => ?_⟩, fun h => by dsimp only at h; omega, fun _ => ?_⟩
      · rcases List.mem_cons.mp hq with rfl | hq
        · simp
        · rw [List.mem_singleton.mp hq]; simp
      · exact ⟨values x.log, by rw [h1, values_snoc, values_snoc, List.append_assoc]; rfl, .inl rfl⟩
  · have hf' := C76_test hty m1 hw hf
    simp only [Bool.false_eq, decide_eq_false_iff_not] at hf'
    have hs : ∃ p, ((d0, late) :: seen es).getLast? = some p := ⟨_, List.getLast?_eq_some_getLast (by simp)⟩
    obtain ⟨p, hp⟩ := hs
    exact ⟨_, p, hc, hp, ⟨[], by rw [h1, List.append_nil], fun q hq => by cases hq⟩, fun _ => h1, fun h => absurd h hf'⟩

/-- **C76**, tags of which every write is recorded: all values, in order, without gaps if there is no timeout. -/
theorem C76_writes {flt : Nat → List Byte → List Byte → Int → Bool} {g : Cfg} {d0 junk : List Byte} {now late : Int} (ht : g.trigger = ON_WRITE) (hto : g.timeout ≤ 0) (es : List Arrival) :
    ∃ x, events flt g (start g (some d0) junk now late) es = .ok x ∧ x.log = [(none, now), (some d0, late)] ++ es.filterMap fun e => e.data.map fun d => (some d, e.late) := by
  have key : ∀ (es : List Arrival) (x : St), ∃ x', events flt g x es = .ok x' ∧ x'.log = x.log ++ es.filterMap fun e => e.data.map fun d => (some d, e.late) := by
    intro es
    induction es with
    | nil => intro x; exact ⟨x, rfl, by simp⟩
    | cons e es ih =>
      intro x
      rw [events]
      cases hd : e.data with
      | none =>
        have : callback flt g x e = .ok x := by unfold callback; rw [hd]
        rw [this, List.filterMap_cons_none (by rw [hd]; rfl)]
        exact ih x
      | some d =>
        have : callback flt g x e = .ok { x.put (some d) e.late with lastTs := e.now } := by
          unfold callback
          rw [hd]
          dsimp only
          rw [if_neg (by omega), if_pos ht]
        rw [this, List.filterMap_cons_some (b := (some d, e.late)) (by rw [hd]; rfl)]
        obtain ⟨x', a1, a2⟩ := ih { x.put (some d) e.late with lastTs := e.now }
        refine ⟨x', a1, ?_⟩
        rw [a2]
        unfold St.put
        simp
  obtain ⟨x, h1, h2⟩ := key es (start g (some d0) junk now late)
  exact ⟨x, h1, h2⟩


/-! ## C77: gaps -/

theorem gap_log {flt : Nat → List Byte → List Byte → Int → Bool} {g : Cfg} {x x' : St} {e : Arrival} {d : List Byte} (ht : g.trigger = ON_CHANGE ∨ g.trigger = ON_WRITE) (hd : e.data = some d) (hh : callback flt g x e = .ok x') :
    ((g.timeout > 0 ∧ e.now - x.lastTs > g.timeout) → x'.log = x.log ++ [(none, e.now - g.timeout), (some d, e.now)]) ∧
    (¬ (g.timeout > 0 ∧ e.now - x.lastTs > g.timeout) → ∃ more, x'.log = x.log ++ more ∧ ∀ q ∈ more, q.1 ≠ none) := by
  rcases ht with ht | ht
  · obtain ⟨-, ⟨ho, h1, -⟩ | ⟨ho, -, h1, -, -⟩ | ⟨ho, -, h1, -, -⟩⟩ := callback_change ht hd hh
    · exact ⟨fun _ => h1, fun hn => absurd ho hn⟩
    · refine ⟨fun h => absurd h ho, fun _ => ⟨_, by rw [h1, List.append_assoc], fun q hq => ?_⟩⟩
      rcases List.mem_append.mp hq with hq | hq
      · split at hq
        · cases hq
        · rw [List.mem_singleton.mp hq]; simp
      · rw [List.mem_singleton.mp hq]; simp
    · exact ⟨fun h => absurd h ho, fun _ => ⟨[], by rw [h1, List.append_nil], fun q hq => by cases hq⟩⟩
  · unfold callback at hh
    rw [hd] at hh
    dsimp only at hh
    by_cases hto : g.timeout > 0 ∧ e.now - x.lastTs > g.timeout
    · rw [if_pos hto, if_neg (by rw [ht]; decide)] at hh
      simp only [C.ok.injEq] at hh
      refine ⟨fun _ => ?_, fun hn => absurd hto hn⟩
      rw [← hh]
      unfold St.put
      simp
    · rw [if_neg hto, if_pos ht] at hh
      simp only [C.ok.injEq] at hh
      refine ⟨fun h => absurd h hto, fun _ => ⟨[(some d, e.late)], ?_, fun q hq => by rw [List.mem_singleton.mp hq]; simp⟩⟩
      rw [← hh]
      rfl

/-- **C77**, gaps: if more time than the timeout has passed since the last event of a tag, then the gap is recorded, at a time after that event and before the new one, and then the new value; otherwise no gap is recorded.

Missing: the first event after the start (`C77_first`). -/
theorem C77_gap_partial {flt : Nat → List Byte → List Byte → Int → Bool} {g : Cfg} {d d0 junk : List Byte} {now late : Int} {es : List Arrival} {e : Arrival} {x x' : St} {p : List Byte × Int}
    (ht : g.trigger = ON_CHANGE ∨ g.trigger = ON_WRITE) (hto : 0 < g.timeout)
    (hh : events flt g (start g (some d0) junk now late) es = .ok x) (hp : (seen es).getLast? = some p) (hd : e.data = some d) (hh' : callback flt g x e = .ok x') :
    (e.now - p.2 > g.timeout → p.2 < e.now - g.timeout ∧ e.now - g.timeout < e.now ∧ x'.log = x.log ++ [(none, e.now - g.timeout), (some d, e.now)]) ∧
    (e.now - p.2 ≤ g.timeout → ∃ more, x'.log = x.log ++ more ∧ ∀ q ∈ more, q.1 ≠ none) := by
  have hts : x.lastTs = p.2 := by rw [lastTs_events ht es hh, hp]; rfl
  obtain ⟨h1, h2⟩ := gap_log ht hd hh'
  rw [hts] at h1 h2
  exact ⟨fun h => ⟨by omega, by omega, h1 ⟨hto, h⟩⟩, fun h => h2 (by omega)⟩

theorem sorted_append {l m : List (Option (List Byte) × Int)} {t : Int} (h : Hist.Sorted l) (hl : ∀ q ∈ l, q.2 ≤ t) (hm : Hist.Sorted m) (ht : ∀ q ∈ m, t ≤ q.2) : Hist.Sorted (l ++ m) :=
  List.pairwise_append.mpr ⟨h, hm, fun a ha b hb => by have := hl a ha; have := ht b hb; omega⟩

theorem order_events {flt : Nat → List Byte → List Byte → Int → Bool} {g : Cfg} (ht : g.trigger = ON_CHANGE) (es : List Arrival) : ∀ {x x' : St} {t t1 : Int}, Hist.Sorted x.log → (∀ q ∈ x.log, q.2 ≤ t) → t ≤ t1 →
    (x.lastgood = false → x.lastTs = t) → (x.lastTs = t ∨ g.timeout ≤ 0 ∨ ∀ e ∈ es, t + g.timeout ≤ e.now) → Ordered t1 es → events flt g x es = .ok x' → Hist.Sorted x'.log := by
  induction es with
  | nil =>
    intro x x' t t1 hs _ _ _ _ _ hh
    rw [events] at hh
    simp only [C.ok.injEq] at hh
    subst hh
    exact hs
  | cons e es ih =>
    intro x x' t t1 hs hle h01 hg hto ho hh
    obtain ⟨o1, o2, o3⟩ := ho
    rw [events] at hh
    obtain ⟨y, h1, h2⟩ := C.bind_eq_ok.mp hh
    cases hd : e.data with
    | none =>
      unfold callback at h1
      rw [hd] at h1
      simp only [C.ok.injEq] at h1
      subst h1
      refine ih hs hle (by omega : t ≤ e.late) hg ?_ o3 h2
      rcases hto with h | h | h
      · exact .inl h
      · exact .inr (.inl h)
      · exact .inr (.inr fun e he => h e (List.mem_cons_of_mem _ he))
    | some d =>
      have single : ∀ (v : Option (List Byte)) (u : Int), Hist.Sorted [(v, u)] := fun v u => List.pairwise_singleton ..
      obtain ⟨hts, ⟨⟨hpos, hgap⟩, k1, -, k3⟩ | ⟨-, -, k1, -, k3⟩ | ⟨-, -, k1, -, -, k3⟩⟩ := callback_change ht hd h1
      · have hge : t ≤ e.now - g.timeout := by
          rcases hto with h | h | h
          · omega
          · omega
          · have := h e (List.mem_cons_self ..); omega
        refine ih (t := e.now) (t1 := e.late) ?_ ?_ o2 (fun h => by rw [k3] at h; cases h) (.inl hts) o3 h2
        · rw [k1]
          refine sorted_append hs hle (List.pairwise_cons.mpr ⟨fun q hq => ?_, single _ _⟩) fun q hq => ?_
          · rw [List.mem_singleton.mp hq]; show e.now - g.timeout ≤ e.now; omega
          · rcases List.mem_cons.mp hq with rfl | hq
            · exact hge
            · rw [List.mem_singleton.mp hq]; show t ≤ e.now; omega
        · intro q hq
          rw [k1] at hq
          rcases List.mem_append.mp hq with hq | hq
          · have := hle q hq; omega
          · rcases List.mem_cons.mp hq with rfl | hq
            · show e.now - g.timeout ≤ e.now; omega
            · rw [List.mem_singleton.mp hq]; exact Int.le_refl _
      · have hmid : Hist.Sorted (x.log ++ if x.lastgood then [] else [(some x.last, x.lastTs)]) ∧ ∀ q ∈ x.log ++ (if x.lastgood then [] else [(some x.last, x.lastTs)]), q.2 ≤ t := by
          cases hl : x.lastgood with
          | true => rw [if_pos rfl, List.append_nil]; exact ⟨hs, hle⟩
          | false =>
            rw [if_neg (by simp)]
            have := hg hl
            refine ⟨sorted_append hs hle (single _ _) fun q hq => by rw [List.mem_singleton.mp hq]; show t ≤ x.lastTs; omega, fun q hq => ?_⟩
            rcases List.mem_append.mp hq with hq | hq
            · exact hle q hq
            · rw [List.mem_singleton.mp hq]; show x.lastTs ≤ t; omega
        refine ih (t := e.now) (t1 := e.late) ?_ ?_ o2 (fun h => by rw [k3] at h; cases h) (.inl hts) o3 h2
        · rw [k1]
          exact sorted_append hmid.1 hmid.2 (single _ _) fun q hq => by rw [List.mem_singleton.mp hq]; show t ≤ e.now; omega
        · intro q hq
          rw [k1] at hq
          rcases List.mem_append.mp hq with hq | hq
          · have := hmid.2 q hq; omega
          · rw [List.mem_singleton.mp hq]; exact Int.le_refl _
      · exact ih (t := e.now) (t1 := e.late) (by rw [k1]; exact hs) (fun q hq => by rw [k1] at hq; have := hle q hq; omega) o2 (fun _ => hts) (.inl hts) o3 h2

/-- **C77**, order: the times in the history of a tag whose changes are recorded grow.

Missing: with a timeout, a first event that comes before the timeout has passed since the start (`C77_first`). -/
theorem C77_order_partial {flt : Nat → List Byte → List Byte → Int → Bool} {g : Cfg} {d0 junk : List Byte} {now late : Int} {es : List Arrival} {x : St} (ht : g.trigger = ON_CHANGE) (hnl : now ≤ late)
    (ho : Ordered late es) (hto : g.timeout ≤ 0 ∨ ∀ e ∈ es, late + g.timeout ≤ e.now) (hh : events flt g (start g (some d0) junk now late) es = .ok x) : Hist.Sorted x.log := by
  refine order_events ht es (x := start g (some d0) junk now late) (t := late) (t1 := late) ?_ ?_ (Int.le_refl _) (fun h => by cases h) (.inr hto) ho hh
  · exact List.pairwise_cons.mpr ⟨fun q hq => by rw [List.mem_singleton.mp hq]; exact hnl, List.pairwise_singleton ..⟩
  · intro q hq
    rcases List.mem_cons.mp hq with rfl | hq
    · exact hnl
    · rw [List.mem_singleton.mp hq]; exact Int.le_refl _

/-! ## C78: begin and end -/

theorem search_inv (ks : List Nat) : ∀ {m : Search}, m.loops < 4294967296 → 1 ≤ m.interval → m.interval ≤ 12 → (m.run ks).1.loops < 4294967296 ∧ 1 ≤ (m.run ks).1.interval ∧ (m.run ks).1.interval ≤ 12 := by
  induction ks with
  | nil => intro m h0 h1 h2; exact ⟨h0, h1, h2⟩
  | cons k ks ih =>
    intro m h0 h1 h2
    rw [Search.run]
    refine ih ?_ ?_ ?_ <;> unfold Search.flush <;> split <;> dsimp only <;> (try split) <;> omega

theorem search_soon (n : Nat) : ∀ {m : Search} {ks : List Nat}, m.loops < 4294967296 → 1 ≤ m.interval → m.failures ≠ 0 → (m.interval - m.loops % m.interval) % m.interval ≤ n → n + 1 ≤ ks.length → true ∈ (m.run ks).2 := by
  induction n with
  | zero =>
    intro m ks hb h1 hf hn hl
    cases ks with
    | nil => simp at hl
    | cons k ks =>
      have hlt := Nat.mod_lt m.loops h1
      have h0 : m.loops % m.interval = 0 := by
        apply Classical.byContradiction
        intro hne
        rw [Nat.mod_eq_of_lt (by omega)] at hn
        omega
      rw [Search.run]
      unfold Search.flush
      rw [if_pos ⟨hf, h0⟩]
      exact List.mem_cons_self ..
  | succ n ih =>
    intro m ks hb h1 hf hn hl
    cases ks with
    | nil => simp at hl
    | cons k ks =>
      rw [List.length_cons] at hl
      have hlt := Nat.mod_lt m.loops h1
      rw [Search.run]
      by_cases h0 : m.loops % m.interval = 0
      · unfold Search.flush
        rw [if_pos ⟨hf, h0⟩]
        exact List.mem_cons_self ..
      · have hfl : m.flush k = ({ m with loops := (m.loops + 1) % 4294967296 }, false) := by
          unfold Search.flush
          rw [if_neg fun h => h0 h.2]
        rw [hfl]
        refine List.mem_cons_of_mem _ (ih (Nat.mod_lt _ (by decide)) h1 hf ?_ (by omega))
        dsimp only
        rw [Nat.mod_eq_of_lt (by omega)] at hn
        by_cases hw : m.loops + 1 < 4294967296
        · rw [Nat.mod_eq_of_lt hw]
          by_cases hlast : m.loops % m.interval + 1 = m.interval
          · have : (m.loops + 1) % m.interval = 0 := by
              have hd := Nat.div_add_mod m.loops m.interval
              have : m.loops + 1 = m.interval * (m.loops / m.interval + 1) := by rw [Nat.mul_add]; omega
              rw [this, Nat.mul_mod_right]
            rw [this, Nat.sub_zero, Nat.mod_self]
            omega
          · have : (m.loops + 1) % m.interval = m.loops % m.interval + 1 := by
              have hd := Nat.div_add_mod m.loops m.interval
              have : m.loops + 1 = m.interval * (m.loops / m.interval) + (m.loops % m.interval + 1) := by omega
              rw [this, Nat.mul_add_mod, Nat.mod_eq_of_lt (by omega)]
            rw [this, Nat.mod_eq_of_lt (by omega)]
            omega
        · rw [show m.loops + 1 = 4294967296 by omega, Nat.mod_self, Nat.zero_mod, Nat.sub_zero, Nat.mod_self]
          omega

/-- **C78**, the search: as long as tags of the configuration are missing, they are looked for again, at one of any twelve flushes in a row. -/
theorem C78_search (before after : List Nat) (h12 : 12 ≤ after.length) (hf : (Search.run {} before).1.failures ≠ 0) : true ∈ (Search.run (Search.run {} before).1 after).2 := by
  obtain ⟨h0, h1, h2⟩ := search_inv before (m := {}) (by decide) (by decide) (by decide)
  refine search_soon 11 h0 h1 hf ?_ (by omega)
  have := Nat.mod_lt ((Search.run {} before).1.interval - (Search.run {} before).1.loops % (Search.run {} before).1.interval) h1
  omega


/-- **C78**, the search ends: once no tag is missing, none is looked for any more. -/
theorem C78_found (ks : List Nat) : ∀ {m : Search}, m.failures = 0 → true ∉ (m.run ks).2 ∧ (m.run ks).1.failures = 0 := by
  induction ks with
  | nil => intro m h; exact ⟨by simp [Search.run], h⟩
  | cons k ks ih =>
    intro m h
    have hfl : m.flush k = ({ m with loops := (m.loops + 1) % 4294967296 }, false) := by
      unfold Search.flush
      rw [if_neg fun h' => h'.1 h]
    rw [Search.run, hfl]
    obtain ⟨i1, i2⟩ := ih (m := { m with loops := (m.loops + 1) % 4294967296 }) h
    refine ⟨fun hm => ?_, i2⟩
    rcases List.mem_cons.mp hm with hm | hm
    · cases hm
    · exact i1 hm

/-- **C78**, begin: the history of a tag begins with a gap, and then comes the value that it has, if it can be read. -/
theorem C78_begin (g : Cfg) (read : Option (List Byte)) (junk : List Byte) (now late : Int) :
    (start g read junk now late).log.head? = some (none, now) ∧ values (start g read junk now late).log = (read.map (·, late)).toList := by
  cases read <;> exact ⟨rfl, rfl⟩

/-- **C78**, end: at the end the history of every tag ends with a gap.

Missing: a tag that was never found, or is of a compound type (`C78_unfound`). -/
theorem C78_end_partial (now : Int) : ∀ (l : List (Option St)), (∀ o ∈ l, o ≠ none) → ∃ l', getout now l = .ok l' ∧ l'.length = l.length ∧
    ∀ (k : Nat) (x : St), l[k]? = some (some x) → ∃ x', l'[k]? = some (some x') ∧ x'.log = x.log ++ [(none, now)] := by
  intro l
  induction l with
  | nil => intro _; exact ⟨[], rfl, rfl, fun k x h => by simp at h⟩
  | cons o l ih =>
    intro ho
    obtain ⟨l', h1, h2, h3⟩ := ih fun o h => ho o (List.mem_cons_of_mem _ h)
    cases o with
    | none => exact absurd rfl (ho none (List.mem_cons_self ..))
    | some x =>
      refine ⟨some (x.put none now) :: l', by rw [getout, h1]; rfl, by simp [h2], fun k y hk => ?_⟩
      cases k with
      | zero =>
        simp only [List.getElem?_cons_zero, Option.some.injEq] at hk
        subst hk
        exact ⟨_, rfl, rfl⟩
      | succ k =>
        rw [List.getElem?_cons_succ] at hk ⊢
        exact h3 k y hk

/-- **C78**, where it fails: if a tag of the configuration was never found when the program ends, a pointer that was never set is given to the plugin, whatever the other tags are. -/
theorem C78_unfound (now : Int) (a b : List (Option St)) : ∃ why, getout now (a ++ none :: b) = .ub why := by
  induction a with
  | nil => exact ⟨_, rfl⟩
  | cons o a ih =>
    cases o with
    | none => exact ⟨_, rfl⟩
    | some x =>
      obtain ⟨why, h⟩ := ih
      exact ⟨why, by rw [List.cons_append, getout, h]; rfl⟩

/-! ## Where it fails -/

/-- No floating point numbers. -/
def noFlt : Nat → List Byte → List Byte → Int → Bool := fun _ _ _ _ => false

/-- **C76**, where it fails: of the unsigned types of 4 and 8 bytes the difference wraps around: for every threshold up to 2^32 - 1 an increase by one is a change that is recorded, and from 0 to the largest number it is one that is not recorded with any threshold above 1. -/
theorem C76_unsigned (flt : Nat → List Byte → List Byte → Int → Bool) (threshold : Int) (h1 : 1 < threshold) (h2 : threshold ≤ 4294967295) :
    (∀ t ∈ [DAX_UDINT, DAX_DWORD], testDifference flt t (toLE 4 7) (toLE 4 8) threshold = .ok true ∧ testDifference flt t (toLE 4 0) (toLE 4 4294967295) threshold = .ok false) ∧
    (∀ t ∈ [DAX_ULINT, DAX_LWORD], testDifference flt t (toLE 8 7) (toLE 8 8) threshold = .ok true ∧ testDifference flt t (toLE 8 0) (toLE 8 18446744073709551615) threshold = .ok false) := by
  have ha : unsignedDiff 32 (leNat ((toLE 4 7).take 4)) (leNat ((toLE 4 8).take 4)) = 4294967295 := by decide +kernel
  have hb : unsignedDiff 32 (leNat ((toLE 4 0).take 4)) (leNat ((toLE 4 4294967295).take 4)) = 1 := by decide +kernel
  have hc : unsignedDiff 64 (leNat ((toLE 8 7).take 8)) (leNat ((toLE 8 8).take 8)) = 18446744073709551615 := by decide +kernel
  have hd : unsignedDiff 64 (leNat ((toLE 8 0).take 8)) (leNat ((toLE 8 18446744073709551615).take 8)) = 1 := by decide +kernel
  have large : ∀ t ∈ [DAX_UDINT, DAX_DWORD], ∀ a b, testDifference flt t a b threshold = .ok (decide (unsignedDiff 32 (leNat (a.take 4)) (leNat (b.take 4)) ≥ threshold)) := by
    intro t ht a b
    rcases List.mem_cons.mp ht with rfl | ht
    · rfl
    · rw [List.mem_singleton.mp ht]; rfl
  have huge : ∀ t ∈ [DAX_ULINT, DAX_LWORD], ∀ a b, testDifference flt t a b threshold = .ok (decide (unsignedDiff 64 (leNat (a.take 8)) (leNat (b.take 8)) ≥ threshold)) := by
    intro t ht a b
    rcases List.mem_cons.mp ht with rfl | ht
    · rfl
    · rw [List.mem_singleton.mp ht]; rfl
  refine ⟨fun t ht => ?_, fun t ht => ?_⟩
  · rw [large t ht, large t ht, ha, hb, decide_eq_true (by omega), decide_eq_false (by omega)]
    exact ⟨rfl, rfl⟩
  · rw [huge t ht, huge t ht, hc, hd, decide_eq_true (by omega), decide_eq_false (by omega)]
    exact ⟨rfl, rfl⟩

/-- **C76**, where it fails: for UINT and WORD four bytes are read where two are. -/
theorem C76_uint (flt : Nat → List Byte → List Byte → Int → Bool) (a b : List Byte) (threshold : Int) :
    ∃ why, testDifference flt DAX_UINT a b threshold = .ub why ∧ testDifference flt DAX_WORD a b threshold = .ub why := ⟨_, rfl, rfl⟩

/-- **C76**, where it fails: a TIME that changes by a multiple of 2^32 has not changed. -/
theorem C76_time (flt : Nat → List Byte → List Byte → Int → Bool) (low : List Byte) (high1 high2 : List Byte) (hl : low.length = 4) (threshold : Int) (ht : 0 < threshold) :
    testDifference flt DAX_TIME (low ++ high1) (low ++ high2) threshold = .ok false := by
  have hz : unsignedDiff 32 (leNat low) (leNat low) = 0 := by
    unfold unsignedDiff
    rw [Nat.add_sub_cancel_left, Nat.mod_self]
    rfl
  show C.ok (decide (unsignedDiff 32 (leNat ((low ++ high1).take 4)) (leNat ((low ++ high2).take 4)) ≥ threshold)) = _
  rw [List.take_left' hl, List.take_left' hl, hz, decide_eq_false (by omega)]

/-- **C76**, where it fails: of a BOOL no change is ever recorded. -/
theorem C76_bool (flt : Nat → List Byte → List Byte → Int → Bool) (a b : List Byte) (threshold : Int) : testDifference flt DAX_BOOL a b threshold = .ok false := rfl

/-- A tag of type DINT, a change of 10 and a timeout of 60. -/
def demoCfg : Cfg := { type := DAX_DINT, size := 4, trigger := ON_CHANGE, threshold := 10, timeout := 60 }

/-- **C77**, where it fails: the time of the last event is 0 at first, so that the first event is always too late, however soon it comes: here 3 after the start.  A gap is recorded before the start, and the history is not in order. -/
theorem C77_first : ∃ x, events noFlt demoCfg (start demoCfg (some (toLE 4 1)) [] 100 100) [⟨some (toLE 4 2), 103, 103⟩] = .ok x ∧
    x.log = [(none, 100), (some (toLE 4 1), 100), (none, 43), (some (toLE 4 2), 103)] ∧ ¬ Hist.Sorted x.log := by
  refine ⟨_, rfl, by decide +kernel, fun h => ?_⟩
  have h' : List.Pairwise (fun a b => a.2 ≤ b.2) [((none : Option (List Byte)), (100 : Int)), (some (toLE 4 1), 100), (none, 43), (some (toLE 4 2), 103)] := h
  exact absurd ((List.pairwise_cons.mp h').1 (none, 43) (by simp)) (by decide)

/-- **C77**, where it fails: a value before a gap that was kept until the next change is never recorded (7, at 210). -/
theorem C77_pending : ∃ x, events noFlt demoCfg (start demoCfg (some (toLE 4 1)) [] 100 100)
      [⟨some (toLE 4 5), 200, 200⟩, ⟨some (toLE 4 7), 210, 210⟩, ⟨some (toLE 4 50), 300, 300⟩, ⟨some (toLE 4 70), 310, 310⟩] = .ok x ∧
    x.log = [(none, 100), (some (toLE 4 1), 100), (none, 140), (some (toLE 4 5), 200), (none, 240), (some (toLE 4 50), 300), (some (toLE 4 70), 310)] :=
  ⟨_, rfl, by decide +kernel⟩

/-! ## Examples -/

/-- 1, 5, 7, then 30: with a threshold of 10 and no timeout the values 1, 7 and 30 are recorded. -/
example : ∃ x, events noFlt { demoCfg with timeout := 0 } (start demoCfg (some (toLE 4 1)) [] 100 100)
      [⟨some (toLE 4 5), 200, 200⟩, ⟨some (toLE 4 7), 210, 210⟩, ⟨some (toLE 4 30), 300, 300⟩] = .ok x ∧
    x.log = [(none, 100), (some (toLE 4 1), 100), (some (toLE 4 7), 210), (some (toLE 4 30), 300)] ∧ Hist.Sorted x.log := by
  refine ⟨_, rfl, by decide +kernel, ?_⟩
  exact C77_order_partial (flt := noFlt) (g := { demoCfg with timeout := 0 }) (d0 := toLE 4 1) (junk := []) (now := 100) (late := 100)
    (es := [⟨some (toLE 4 5), 200, 200⟩, ⟨some (toLE 4 7), 210, 210⟩, ⟨some (toLE 4 30), 300, 300⟩]) rfl (by decide) ⟨by decide, by decide, by decide, by decide, by decide, by decide, trivial⟩ (.inl (by decide)) rfl

example : (DAX_DINT, 4, true) ∈ fine := by decide

/-- A gap after the event at 200: recorded at 240. -/
example : ∃ x x', events noFlt demoCfg (start demoCfg (some (toLE 4 1)) [] 100 100) [⟨some (toLE 4 5), 200, 200⟩] = .ok x ∧ callback noFlt demoCfg x ⟨some (toLE 4 6), 300, 300⟩ = .ok x' ∧
    200 < (300 : Int) - 60 ∧ x'.log = x.log ++ [(none, 240), (some (toLE 4 6), 300)] := by
  refine ⟨_, _, rfl, rfl, ?_⟩
  have h := (C77_gap_partial (flt := noFlt) (g := demoCfg) (d := toLE 4 6) (d0 := toLE 4 1) (junk := []) (now := 100) (late := 100) (es := [⟨some (toLE 4 5), 200, 200⟩]) (e := ⟨some (toLE 4 6), 300, 300⟩)
    (p := (toLE 4 5, 200)) (.inl rfl) (by decide) rfl rfl rfl rfl).1 (by decide)
  exact ⟨h.1, h.2.2⟩

/-- One tag missing until the third search. -/
example : (Search.run {} [1, 1, 1, 0, 0, 0]).2 = [true, false, true, true, false, false] := by decide
example : (Search.run {} [1, 1]).1.failures ≠ 0 := by decide

/-- Two tags, both found. -/
example : ∀ o ∈ [some (start demoCfg (some (toLE 4 1)) [] 100 100), some (start demoCfg none (toLE 4 0) 100 100)], o ≠ none := by decide

end Dax
