import Verif.Spec.LibEvent
set_option autoImplicit false
/-!
# The arrays of the client library represent the specification
-/
namespace Dax.LibEv

theorem shiftLoop_eq {α : Type} : ∀ (k n : Nat) (q : List α), n + k < q.length →
    shiftLoop k n q = .ok (q.take n ++ (q.drop (n + 1)).take k ++ q.drop (n + k)) := by
  intro k
  induction k with
  | zero =>
    intro n q _
    simp [shiftLoop]
  | succ k ih =>
    intro n q h
    have hx : n + 1 < q.length := by omega
    simp only [shiftLoop, List.getElem?_eq_getElem hx]
    rw [ih (n + 1) _ (by simp; omega)]
    congr 1
    apply List.ext_getElem?
    intro i
    by_cases h1 : i < n
    · rw [List.append_assoc, List.append_assoc, List.getElem?_append_left (by simp; omega),
        List.getElem?_append_left (by simp; omega), List.getElem?_take_of_lt (by omega),
        List.getElem?_take_of_lt (by omega), List.getElem?_set_ne (by omega)]
    · by_cases h2 : i < n + 1 + k
      · have e1 : (List.take n q ++ (List.drop (n + 1) q).take (k + 1) ++ q.drop (n + (k + 1)))[i]? =
            q[i + 1]? := by
          rw [List.append_assoc, List.getElem?_append_right (by simp; omega),
            List.getElem?_append_left (by simp; omega)]
          simp only [List.length_take, List.getElem?_take, List.getElem?_drop]
          rw [if_pos (by omega)]
          congr 1
          omega
        rw [e1]
        by_cases h3 : i = n
        · subst h3
          rw [List.append_assoc, List.getElem?_append_left (by simp; omega),
            List.getElem?_take_of_lt (by omega), List.getElem?_set_self (by omega),
            List.getElem?_eq_getElem hx]
        · rw [List.append_assoc, List.getElem?_append_right (by simp; omega),
            List.getElem?_append_left (by simp; omega)]
          simp only [List.length_take, List.length_set, List.getElem?_take, List.getElem?_drop]
          rw [if_pos (by omega), List.getElem?_set_ne (by omega)]
          congr 1
          omega
      · rw [List.getElem?_append_right (by simp; omega), List.getElem?_append_right (by simp; omega)]
        simp only [List.length_append, List.length_take, List.length_drop, List.length_set,
          List.getElem?_drop]
        rw [List.getElem?_set_ne (by omega)]
        congr 1
        omega

theorem putAt_eq {α : Type} {q : List α} {n : Nat} {x : α} (h : n < q.length) :
    putAt q n x = .ok (q.set n x) := by simp [putAt, h]

/-- A registration as it is stored. -/
def toEntry (e : (Nat × Nat) × Nat × Option Nat × Option Nat) : Entry :=
  { idx := e.1.1, id := e.1.2, udata := e.2.1, callback := e.2.2.1, free := e.2.2.2 }

/-- The arrays hold exactly what the client knows. -/
structure Rep (s : State) (a : Abs) : Prop where
  qlen : s.queue.length = 8
  qcnt : s.qcount = a.pending.length
  qle : a.pending.length ≤ 8
  q : s.queue.take s.qcount = a.pending.map some
  elen : 0 < s.events.length
  ele : s.ecount ≤ s.events.length
  e : s.events.take s.ecount = a.reg.map (fun x => some (toEntry x))

theorem Rep.ecnt {s : State} {a : Abs} (h : Rep s a) : s.ecount = a.reg.length := by
  have := congrArg List.length h.e
  have h2 := h.ele
  simp at this
  omega

theorem rep_init : Rep init {} := by
  refine ⟨rfl, rfl, by decide, rfl, by decide, by decide, rfl⟩

theorem arrive_rep {s : State} {a : Abs} (h : Rep s a) (m : Msg) (hm : m.type.testBit 31 = true) :
    ∃ s', arrive s m = .ok s' ∧ Rep s' { a with pending := lastN 8 (a.pending ++ [m]) } := by
  obtain ⟨qlen, qcnt, qle, q, elen, ele, e⟩ := h
  unfold arrive
  rw [if_pos hm]
  by_cases hf : s.qcount = s.queue.length
  · rw [if_pos hf]
    have hp : a.pending.length = 8 := by omega
    match hpen : a.pending with
    | [] => rw [hpen] at hp; simp at hp
    | x :: r =>
      rw [hpen] at q hp
      have hr : r.length = 7 := by simpa using hp
      have hq : s.queue = some x :: r.map some := by
        rw [List.take_of_length_le (by omega)] at q
        simpa using q
      have h0 : s.queue[0]? = some (some x) := by rw [hq]; rfl
      rw [h0]
      dsimp only
      rw [shiftLoop_eq _ _ _ (by omega)]
      simp only [C.ok_bind]
      rw [putAt_eq (by simp; omega)]
      refine ⟨_, rfl, ⟨by simp; omega, ?_, ?_, ?_, elen, ele, e⟩⟩
      · simp [lastN]; omega
      · simp [lastN]; omega
      · dsimp only
        rw [List.take_of_length_le (by simp; omega)]
        have hl : lastN 8 (x :: r ++ [m]) = r ++ [m] := by
          unfold lastN
          simp only [List.cons_append, List.length_cons, List.length_append, List.length_nil, hr]
          rfl
        rw [hl, hq]
        simp only [List.length_cons, List.length_map, hr, List.take_zero, List.nil_append,
          List.drop_succ_cons, List.drop_zero, Nat.zero_add, Nat.add_sub_cancel,
          List.map_append, List.map_cons, List.map_nil]
        rw [List.take_of_length_le (by simp; omega)]
        have h7 : (List.map some r).drop 6 = [(List.map some r)[6]'(by simp; omega)] := by
          rw [List.drop_eq_getElem_cons (by simp; omega), List.drop_of_length_le (by simp; omega)]
        rw [h7, List.set_append_right _ _ (by simp; omega)]
        simp [hr]
  · rw [if_neg hf, putAt_eq (by omega)]
    refine ⟨_, rfl, ⟨by simp; omega, ?_, ?_, ?_, elen, ele, e⟩⟩
    · simp [lastN]; omega
    · simp [lastN]; omega
    · have hl : lastN 8 (a.pending ++ [m]) = a.pending ++ [m] := by
        unfold lastN
        have : (a.pending ++ [m]).length - 8 = 0 := by simp; omega
        rw [this, List.drop_zero]
      dsimp only
      rw [hl, List.map_append, ← q]
      rw [List.take_add_one]
      rw [List.take_set_of_le (by omega), List.getElem?_set_self (by omega)]
      rfl

theorem pop_rep {s : State} {a : Abs} (h : Rep s a) {m : Msg} {r : List Msg}
    (hp : a.pending = m :: r) :
    ∃ s', pop s = .ok (m, s') ∧ Rep s' { a with pending := r } := by
  obtain ⟨qlen, qcnt, qle, q, elen, ele, e⟩ := h
  have hc : s.qcount = r.length + 1 := by rw [qcnt, hp]; rfl
  rw [hp, hc] at q
  unfold pop
  match hq : s.queue with
  | [] => rw [hq] at qlen; simp at qlen
  | y :: t =>
    rw [hq] at q qlen
    simp only [List.take_succ_cons, List.map_cons, List.cons.injEq] at q
    rw [q.1]
    simp only [List.getElem?_cons_zero, List.set_cons_zero]
    have hl : r.length ≤ t.length := by
      have := congrArg List.length q.2
      simp at this
      omega
    rw [shiftLoop_eq _ _ _ (by simp; omega)]
    simp only [C.ok_bind]
    rw [hp] at qle
    refine ⟨_, rfl, ⟨?_, by rw [hc]; rfl, by simp at qle ⊢; omega, ?_, elen, ele, e⟩⟩
    · simp at qlen ⊢; omega
    · dsimp only
      rw [hc]
      simp only [Nat.add_sub_cancel, List.take_zero, List.nil_append, List.drop_succ_cons,
        List.drop_zero, Nat.zero_add]
      rw [List.take_left' (by simp; omega), q.2]

theorem findLoop_rep {s : State} {a : Abs} (h : Rep s a) (i d : Nat) :
    (∃ n e, findLoop s.events i d s.ecount 0 = .ok (some (n, toEntry e)) ∧
      ∃ l1 l2, a.reg = l1 ++ e :: l2 ∧ l1.length = n ∧ (∀ x ∈ l1, x.1 ≠ (i, d)) ∧ e.1 = (i, d)) ∨
    (findLoop s.events i d s.ecount 0 = .ok none ∧ ∀ x ∈ a.reg, x.1 ≠ (i, d)) := by
  have go : ∀ (l2 l1 : List ((Nat × Nat) × Nat × Option Nat × Option Nat)),
      s.events.take s.ecount = (l1 ++ l2).map (fun x => some (toEntry x)) →
      (∃ n e, findLoop s.events i d l2.length l1.length = .ok (some (n, toEntry e)) ∧
        ∃ m1 m2, l2 = m1 ++ e :: m2 ∧ l1.length + m1.length = n ∧ (∀ x ∈ m1, x.1 ≠ (i, d)) ∧
          e.1 = (i, d)) ∨
      (findLoop s.events i d l2.length l1.length = .ok none ∧ ∀ x ∈ l2, x.1 ≠ (i, d)) := by
    intro l2
    induction l2 with
    | nil => intro l1 _; right; exact ⟨rfl, by simp⟩
    | cons e l2 ih =>
      intro l1 he
      have hlen : l1.length + (l2.length + 1) = min s.ecount s.events.length := by
        have := congrArg List.length he
        simpa using this.symm
      have hg : s.events[l1.length]? = some (some (toEntry e)) := by
        have h1 : (s.events.take s.ecount)[l1.length]? = s.events[l1.length]? :=
          List.getElem?_take_of_lt (by omega)
        rw [← h1, he]
        simp
      simp only [List.length_cons, findLoop, hg]
      by_cases hk : (toEntry e).idx = i ∧ (toEntry e).id = d
      · rw [if_pos hk]
        left
        refine ⟨_, e, rfl, [], l2, rfl, rfl, by simp, ?_⟩
        exact Prod.ext hk.1 hk.2
      · rw [if_neg hk]
        have hne : e.1 ≠ (i, d) := by
          intro hh
          apply hk
          unfold toEntry
          rw [hh]
          exact ⟨rfl, rfl⟩
        have := ih (l1 ++ [e]) (by simpa using he)
        simp only [List.length_append, List.length_singleton] at this
        rcases this with ⟨n, e', h1, m1, m2, h2, h3, h4, h5⟩ | ⟨h1, h2⟩
        · left
          refine ⟨n, e', h1, e :: m1, m2, by rw [h2]; rfl, by simp; omega, ?_, h5⟩
          intro x hx
          rcases List.mem_cons.mp hx with hx | hx
          · rw [hx]; exact hne
          · exact h4 x hx
        · right
          refine ⟨h1, ?_⟩
          intro x hx
          rcases List.mem_cons.mp hx with hx | hx
          · rw [hx]; exact hne
          · exact h2 x hx
  have := go a.reg [] (by simpa using h.e)
  rw [List.length_nil] at this
  rw [h.ecnt]
  rcases this with ⟨n, e, h1, m1, m2, h2, h3, h4, h5⟩ | this
  · exact .inl ⟨n, e, h1, m1, m2, h2, by omega, h4, h5⟩
  · exact .inr this

theorem lookup_split {l1 l2 : List ((Nat × Nat) × Nat × Option Nat × Option Nat)}
    {e : (Nat × Nat) × Nat × Option Nat × Option Nat} {k : Nat × Nat}
    (h1 : ∀ x ∈ l1, x.1 ≠ k) (h2 : e.1 = k) :
    (l1 ++ e :: l2).lookup k = some e.2 ∧
      (l1 ++ e :: l2).eraseP (fun x => x.1 == k) = l1 ++ l2 := by
  induction l1 with
  | nil =>
    obtain ⟨e1, e2⟩ := e
    simp only at h2
    subst h2
    simp
  | cons x l1 ih =>
    have hx := h1 x (by simp)
    obtain ⟨x1, x2⟩ := x
    have ih := ih (fun y hy => h1 y (by simp [hy]))
    have hk : (k == x1) = false := by
      simp only [beq_eq_false_iff_ne, ne_eq]
      exact fun hh => hx hh.symm
    have hk2 : (x1 == k) = false := by
      simp only [beq_eq_false_iff_ne, ne_eq]
      exact hx
    constructor
    · simp only [List.cons_append, List.lookup_cons, hk]
      exact ih.1
    · simp only [List.cons_append, List.eraseP_cons, hk2, cond_false]
      rw [ih.2]

theorem lookup_absent {l : List ((Nat × Nat) × Nat × Option Nat × Option Nat)} {k : Nat × Nat}
    (h : ∀ x ∈ l, x.1 ≠ k) : l.lookup k = none := by
  induction l with
  | nil => rfl
  | cons x l ih =>
    obtain ⟨x1, x2⟩ := x
    have hk : (k == x1) = false := by
      simp only [beq_eq_false_iff_ne, ne_eq]
      exact fun hh => h (x1, x2) (by simp) hh.symm
    simp only [List.lookup_cons, hk]
    exact ih (fun y hy => h y (by simp [hy]))

theorem dispatch_rep {s : State} {a : Abs} (h : Rep s a) (m : Msg) (hm : 8 ≤ m.data.length) :
    dispatch s m = .ok (a.deliver m) := by
  unfold dispatch
  rw [if_neg (by omega)]
  simp only
  rcases findLoop_rep h (be4 (m.data.take 4)) (be4 ((m.data.drop 4).take 4)) with
    ⟨n, e, h1, l1, l2, h2, _, h4, h5⟩ | ⟨h1, h2⟩
  · rw [h1]
    simp only [C.ok_bind]
    unfold Abs.deliver
    have := (lookup_split (l2 := l2) h4 h5).1
    rw [← h2] at this
    have hk : m.key = (be4 (m.data.take 4), be4 ((m.data.drop 4).take 4)) := rfl
    rw [hk, this]
    rfl
  · rw [h1]
    simp only [C.ok_bind]
    unfold Abs.deliver
    have hk : m.key = (be4 (m.data.take 4), be4 ((m.data.drop 4).take 4)) := rfl
    rw [hk, lookup_absent h2]

theorem add_rep {s : State} {a : Abs} (h : Rep s a) (i d : Int) (u : Nat) (c f : Option Nat) :
    ∃ s', addEvent s i d u c f = .ok (s', { code := 0 }) ∧
      Rep s' { a with reg := a.reg ++ [((u32 i, u32 d), u, c, f)] } := by
  obtain ⟨qlen, qcnt, qle, q, elen, ele, e⟩ := h
  have go : ∀ ev : List (Option Entry), s.events.length ≤ ev.length → s.ecount < ev.length →
      ev.take s.ecount = s.events.take s.ecount → ∀ x : (Nat × Nat) × Nat × Option Nat × Option Nat,
      ∃ ev', putAt ev s.ecount (some (toEntry x)) = .ok ev' ∧
        Rep { s with events := ev', ecount := s.ecount + 1 } { a with reg := a.reg ++ [x] } := by
    intro ev h1 h2 h3 x
    rw [putAt_eq h2]
    refine ⟨_, rfl, ⟨qlen, qcnt, qle, q, ?_, ?_, ?_⟩⟩
    · simp only [List.length_set]; omega
    · simp only [List.length_set]; omega
    · dsimp only
      rw [List.map_append, ← e, List.take_add_one, List.take_set_of_le (by omega),
        List.getElem?_set_self h2, h3]
      rfl
  unfold addEvent
  by_cases hf : s.ecount = s.events.length
  · rw [if_pos hf]
    obtain ⟨ev', h1, h2⟩ := go (s.events ++ List.replicate s.events.length none) (by simp)
      (by simp; omega) (by rw [List.take_append_of_le_length (by omega)])
      ((u32 i, u32 d), u, c, f)
    unfold toEntry at h1
    simp only [h1, C.ok_bind]
    exact ⟨_, rfl, h2⟩
  · rw [if_neg hf]
    obtain ⟨ev', h1, h2⟩ := go s.events (by omega) (by omega) rfl ((u32 i, u32 d), u, c, f)
    unfold toEntry at h1
    simp only [h1, C.ok_bind]
    exact ⟨_, rfl, h2⟩

theorem del_rep {s : State} {a : Abs} (h : Rep s a) (i d : Int) :
    ∃ s', delEvent s i d = .ok (s', (a.step (.del i d)).2) ∧ Rep s' (a.step (.del i d)).1 := by
  unfold delEvent
  rcases findLoop_rep h (u32 i) (u32 d) with ⟨n, e, h1, l1, l2, h2, h3, h4, h5⟩ | ⟨h1, h2⟩
  · have hec := h.ecnt
    obtain ⟨qlen, qcnt, qle, q, elen, ele, he⟩ := h
    rw [h1]
    simp only [C.ok_bind]
    have hn : n < s.ecount := by rw [hec, h2]; simp; omega
    rw [shiftLoop_eq _ _ _ (by omega)]
    simp only [C.ok_bind]
    obtain ⟨g1, g2⟩ := lookup_split (l2 := l2) h4 h5
    rw [← h2] at g1 g2
    simp only [Abs.step, g1]
    refine ⟨_, rfl, ⟨qlen, qcnt, qle, q, ?_, ?_, ?_⟩⟩
    · simp only [List.length_append, List.length_take, List.length_drop]; omega
    · simp only [List.length_append, List.length_take, List.length_drop]; omega
    · dsimp only
      rw [g2]
      have hlen : (s.events.take n ++ (s.events.drop (n + 1)).take (s.ecount - n - 1)).length =
          s.ecount - 1 := by simp; omega
      rw [List.take_left' hlen]
      rw [h2, List.map_append, List.map_cons] at he
      have e1 : s.events.take n = l1.map (fun x => some (toEntry x)) := by
        have := congrArg (List.take n) he
        rw [List.take_take, Nat.min_eq_left (by omega), List.take_left' (by simpa using h3)] at this
        exact this
      have e2 : (s.events.drop (n + 1)).take (s.ecount - n - 1) =
          l2.map (fun x => some (toEntry x)) := by
        have := congrArg (List.drop (n + 1)) he
        rw [List.drop_take] at this
        have hs : s.ecount - n - 1 = s.ecount - (n + 1) := by omega
        rw [hs, this]
        have : (List.map (fun x => some (toEntry x)) l1 ++
            some (toEntry e) :: List.map (fun x => some (toEntry x)) l2) =
            (List.map (fun x => some (toEntry x)) l1 ++ [some (toEntry e)]) ++
              List.map (fun x => some (toEntry x)) l2 := by simp
        rw [this, List.drop_left' (by simp; omega)]
      rw [e1, e2, List.map_append]
  · rw [h1]
    simp only [C.ok_bind, Abs.step, lookup_absent h2]
    exact ⟨s, rfl, h⟩

/-- The messages that arrive have the eight bytes every event message has. -/
def Op.ok (o : Op) : Prop := ∀ m, o = .arrive m → m.type.testBit 31 = true → 8 ≤ m.data.length

/-- All events that wait have their eight bytes. -/
def Abs.ok (a : Abs) : Prop := ∀ m ∈ a.pending, 8 ≤ m.data.length

theorem step_ok {a : Abs} {o : Op} (ha : a.ok) (ho : o.ok) : (a.step o).1.ok := by
  cases o with
  | arrive m =>
    simp only [Abs.step]
    split
    · rename_i hm
      intro x hx
      have := List.mem_of_mem_drop hx
      simp only [List.mem_append, List.mem_cons, List.not_mem_nil, or_false] at this
      rcases this with h | h
      · exact ha x h
      · exact ho x (by rw [h]) (h ▸ hm)
    · exact ha
  | poll =>
    simp only [Abs.step]
    split
    · exact ha
    · rename_i hp
      intro x hx
      exact ha x (by rw [hp]; simp [hx])
  | wait =>
    simp only [Abs.step]
    split
    · exact ha
    · rename_i hp
      intro x hx
      exact ha x (by rw [hp]; simp [hx])
  | add => exact ha
  | del i d =>
    simp only [Abs.step]
    split
    · exact ha
    · exact ha

theorem step_rep {s : State} {a : Abs} {o : Op} (h : Rep s a) (ha : a.ok) :
    ∃ s', step s o = .ok (s', (a.step o).2) ∧ Rep s' (a.step o).1 := by
  cases o with
  | arrive m =>
    by_cases hm : m.type.testBit 31 = true
    · obtain ⟨s', h1, h2⟩ := arrive_rep h m hm
      simp only [step, h1, C.ok_bind, Abs.step, if_pos hm]
      exact ⟨s', rfl, h2⟩
    · simp only [step, arrive, Abs.step, if_neg hm, C.ok_bind]
      exact ⟨_, rfl, ⟨h.qlen, h.qcnt, h.qle, h.q, h.elen, h.ele, h.e⟩⟩
  | poll =>
    simp only [step, poll, Abs.step]
    match hp : a.pending with
    | [] =>
      rw [if_neg (by rw [h.qcnt, hp]; simp)]
      exact ⟨s, rfl, h⟩
    | m :: r =>
      rw [if_pos (by rw [h.qcnt, hp]; simp)]
      obtain ⟨s', h1, h2⟩ := pop_rep h hp
      have hd := dispatch_rep h2 m (ha m (by rw [hp]; simp))
      simp only [h1, C.ok_bind, hd]
      exact ⟨s', rfl, h2⟩
  | wait =>
    simp only [step, wait, Abs.step]
    match hp : a.pending with
    | [] =>
      rw [if_pos (by rw [h.qcnt, hp]; simp)]
      exact ⟨s, rfl, h⟩
    | m :: r =>
      rw [if_neg (by rw [h.qcnt, hp]; simp)]
      obtain ⟨s', h1, h2⟩ := pop_rep h hp
      have hd := dispatch_rep h2 m (ha m (by rw [hp]; simp))
      simp only [h1, C.ok_bind, hd]
      exact ⟨s', rfl, h2⟩
  | add i d u c f => exact add_rep h i d u c f
  | del i d => exact del_rep h i d

theorem run_rep : ∀ (os : List Op) (s : State) (a : Abs), Rep s a → a.ok → (∀ o ∈ os, o.ok) →
    ∃ s', run s os = .ok (s', (a.run os).2) ∧ Rep s' (a.run os).1 := by
  intro os
  induction os with
  | nil => intro s a h _ _; exact ⟨s, rfl, h⟩
  | cons o os ih =>
    intro s a h ha ho
    obtain ⟨s1, h1, h2⟩ := step_rep (o := o) h ha
    obtain ⟨s2, h3, h4⟩ := ih s1 _ h2 (step_ok ha (ho o (by simp)))
      (fun x hx => ho x (by simp [hx]))
    exact ⟨s2, by simp [run, h1, h3, Abs.run], h4⟩

theorem Abs.run_append (a : Abs) (o1 o2 : List Op) :
    (a.run (o1 ++ o2)).1 = ((a.run o1).1.run o2).1 := by
  induction o1 generalizing a with
  | nil => rfl
  | cons o o1 ih => simp only [List.cons_append, Abs.run]; exact ih _

/-- The operation registers a callback for the pair. -/
def Op.adds (k : Nat × Nat) : Op → Prop
  | .add i d _ _ _ => (u32 i, u32 d) = k
  | _ => False

/-- The operation deletes a callback of the pair. -/
def Op.dels (k : Nat × Nat) : Op → Prop
  | .del i d => (u32 i, u32 d) = k
  | _ => False

theorem lookup_append_ne {l : List ((Nat × Nat) × Nat × Option Nat × Option Nat)} {k : Nat × Nat}
    {e : (Nat × Nat) × Nat × Option Nat × Option Nat} (h : e.1 ≠ k) :
    (l ++ [e]).lookup k = l.lookup k := by
  induction l with
  | nil =>
    obtain ⟨e1, e2⟩ := e
    have : (k == e1) = false := by simpa using fun hh => h hh.symm
    simp [List.lookup_cons, this]
  | cons x l ih =>
    obtain ⟨x1, x2⟩ := x
    simp only [List.cons_append, List.lookup_cons]
    split
    · rfl
    · exact ih

theorem lookup_append_none {l : List ((Nat × Nat) × Nat × Option Nat × Option Nat)} {k : Nat × Nat}
    {e : (Nat × Nat) × Nat × Option Nat × Option Nat} (h : l.lookup k = none) (he : e.1 = k) :
    (l ++ [e]).lookup k = some e.2 := by
  induction l with
  | nil =>
    obtain ⟨e1, e2⟩ := e
    simp only at he
    simp [he]
  | cons x l ih =>
    obtain ⟨x1, x2⟩ := x
    simp only [List.cons_append, List.lookup_cons] at h ⊢
    split at h
    · cases h
    · exact ih h

theorem lookup_erase_ne {l : List ((Nat × Nat) × Nat × Option Nat × Option Nat)} {k k' : Nat × Nat}
    (h : k' ≠ k) : (l.eraseP (fun e => e.1 == k')).lookup k = l.lookup k := by
  induction l with
  | nil => rfl
  | cons x l ih =>
    obtain ⟨x1, x2⟩ := x
    by_cases hx : x1 = k'
    · subst hx
      have : (k == x1) = false := by simpa using fun hh => h hh.symm
      simp [List.lookup_cons, this]
    · have hx' : (x1 == k') = false := by simpa using hx
      simp only [List.eraseP_cons, hx', cond_false, List.lookup_cons]
      split
      · rfl
      · exact ih

/-- Operations that do not concern a pair leave its callbacks alone. -/
theorem step_lookup {a : Abs} {o : Op} {k : Nat × Nat} (h1 : ¬ o.adds k) (h2 : ¬ o.dels k) :
    (a.step o).1.reg.lookup k = a.reg.lookup k := by
  cases o with
  | arrive m => simp only [Abs.step]; split <;> rfl
  | poll => simp only [Abs.step]; split <;> rfl
  | wait => simp only [Abs.step]; split <;> rfl
  | add i d u c f => exact lookup_append_ne h1
  | del i d =>
    simp only [Abs.step]
    split
    · exact lookup_erase_ne h2
    · rfl

/-- A pair without callback that is not registered stays so. -/
theorem step_keys {a : Abs} {o : Op} {k : Nat × Nat} (h1 : ¬ o.adds k)
    (h : ∀ x ∈ a.reg, x.1 ≠ k) : ∀ x ∈ (a.step o).1.reg, x.1 ≠ k := by
  cases o with
  | arrive m => simp only [Abs.step]; split <;> exact h
  | poll => simp only [Abs.step]; split <;> exact h
  | wait => simp only [Abs.step]; split <;> exact h
  | add i d u c f =>
    intro x hx
    simp only [Abs.step, List.mem_append, List.mem_cons, List.not_mem_nil, or_false] at hx
    rcases hx with hx | hx
    · exact h x hx
    · rw [hx]; exact h1
  | del i d =>
    simp only [Abs.step]
    split
    · intro x hx; exact h x (List.mem_of_mem_eraseP hx)
    · exact h

theorem run_keys {k : Nat × Nat} : ∀ (os : List Op) (a : Abs), (∀ o ∈ os, ¬ o.adds k) →
    (∀ x ∈ a.reg, x.1 ≠ k) → ∀ x ∈ (a.run os).1.reg, x.1 ≠ k := by
  intro os
  induction os with
  | nil => intro a _ h; exact h
  | cons o os ih =>
    intro a ho h
    exact ih _ (fun x hx => ho x (by simp [hx])) (step_keys (ho o (by simp)) h)

/-- At most one registration of the pair. -/
def Single (a : Abs) (k : Nat × Nat) (r : Nat × Option Nat × Option Nat) : Prop :=
  ∃ l1 l2, a.reg = l1 ++ (k, r) :: l2 ∧ (∀ x ∈ l1, x.1 ≠ k) ∧ ∀ x ∈ l2, x.1 ≠ k

theorem eraseP_keys {l : List ((Nat × Nat) × Nat × Option Nat × Option Nat)} {k k' : Nat × Nat}
    (h : ∀ x ∈ l, x.1 ≠ k) : ∀ x ∈ l.eraseP (fun e => e.1 == k'), x.1 ≠ k :=
  fun x hx => h x (List.mem_of_mem_eraseP hx)

theorem step_single {a : Abs} {o : Op} {k : Nat × Nat} {r : Nat × Option Nat × Option Nat}
    (h1 : ¬ o.adds k) (h2 : ¬ o.dels k) (h : Single a k r) : Single (a.step o).1 k r := by
  cases o with
  | arrive m => simp only [Abs.step]; split <;> exact h
  | poll => simp only [Abs.step]; split <;> exact h
  | wait => simp only [Abs.step]; split <;> exact h
  | add i d u c f =>
    obtain ⟨l1, l2, g1, g2, g3⟩ := h
    refine ⟨l1, l2 ++ [((u32 i, u32 d), u, c, f)], by simp [Abs.step, g1], g2, ?_⟩
    intro x hx
    simp only [List.mem_append, List.mem_cons, List.not_mem_nil, or_false] at hx
    rcases hx with hx | hx
    · exact g3 x hx
    · rw [hx]; exact h1
  | del i d =>
    obtain ⟨l1, l2, g1, g2, g3⟩ := h
    simp only [Abs.step]
    split
    · have hne : ((k : Nat × Nat) == (u32 i, u32 d)) = false := by
        simpa using fun hh => h2 hh.symm
      refine (?_ : ∃ m1 m2, a.reg.eraseP (fun e => e.1 == (u32 i, u32 d)) = m1 ++ (k, r) :: m2 ∧
        (∀ x ∈ m1, x.1 ≠ k) ∧ ∀ x ∈ m2, x.1 ≠ k)
      rw [g1, List.eraseP_append]
      split
      · exact ⟨_, _, rfl, eraseP_keys g2, g3⟩
      · refine ⟨l1, l2.eraseP (fun e => e.1 == (u32 i, u32 d)), ?_, g2, eraseP_keys g3⟩
        rw [List.eraseP_cons]
        simp only [hne, cond_false]
    · exact ⟨l1, l2, g1, g2, g3⟩

theorem run_single {k : Nat × Nat} {r : Nat × Option Nat × Option Nat} : ∀ (os : List Op) (a : Abs),
    (∀ o ∈ os, ¬ o.adds k ∧ ¬ o.dels k) → Single a k r → Single (a.run os).1 k r := by
  intro os
  induction os with
  | nil => intro a _ h; exact h
  | cons o os ih =>
    intro a ho h
    exact ih _ (fun x hx => ho x (by simp [hx]))
      (step_single (ho o (by simp)).1 (ho o (by simp)).2 h)

theorem lastN_append {α : Type} (n : Nat) (l : List α) (x : α) (m : List α) :
    lastN n (lastN n (l ++ [x]) ++ m) = lastN n (l ++ x :: m) := by
  unfold lastN
  have : l ++ x :: m = (l ++ [x]) ++ m := by simp
  rw [this]
  generalize l ++ [x] = k
  simp only [List.length_append, List.length_drop]
  by_cases hk : k.length ≤ n
  · have : k.length - n = 0 := by omega
    rw [this]
    simp
  · rw [List.drop_append, List.drop_append, List.drop_drop, List.length_drop]
    congr 2
    · omega
    · omega

theorem run_arrives : ∀ (ms : List Msg) (a : Abs), (∀ m ∈ ms, m.type.testBit 31 = true) →
    a.pending.length ≤ 8 →
    (a.run (ms.map .arrive)).1.pending = lastN 8 (a.pending ++ ms) := by
  intro ms
  induction ms with
  | nil =>
    intro a _ h
    have : a.pending.length - 8 = 0 := by omega
    simp [Abs.run, lastN, this]
  | cons m ms ih =>
    intro a h hl
    simp only [List.map_cons, Abs.run]
    rw [ih _ (fun x hx => h x (by simp [hx]))]
    · simp only [Abs.step, if_pos (h m (by simp))]
      exact lastN_append 8 _ m ms
    · simp only [Abs.step, if_pos (h m (by simp)), lastN, List.length_drop]
      omega

theorem arrive_reg {a : Abs} {m : Msg} : (a.step (.arrive m)).1.reg = a.reg := by
  simp only [Abs.step]
  split <;> rfl

theorem arrives_reg : ∀ (ms : List Msg) (a : Abs), (a.run (ms.map .arrive)).1.reg = a.reg := by
  intro ms
  induction ms with
  | nil => intro a; rfl
  | cons m ms ih =>
    intro a
    simp only [List.map_cons, Abs.run]
    rw [ih, arrive_reg]

theorem deliver_reg {a b : Abs} (h : a.reg = b.reg) (m : Msg) : a.deliver m = b.deliver m := by
  unfold Abs.deliver
  rw [h]

theorem polls : ∀ (p : List Msg) (a : Abs), a.pending = p →
    (a.run (List.replicate p.length .poll)).2 = p.map a.deliver := by
  intro p
  induction p with
  | nil => intro a _; rfl
  | cons m p ih =>
    intro a hp
    simp only [List.length_cons, List.replicate_succ, Abs.run, Abs.step, hp]
    rw [ih _ rfl]
    simp only [List.map_cons, List.cons.injEq, true_and]
    apply List.map_congr_left
    intro x _
    exact deliver_reg rfl x

end Dax.LibEv
