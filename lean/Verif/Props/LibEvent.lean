import Verif.Lemmas.LibEvent
import Verif.Lemmas.Tactic
set_option autoImplicit false
/-!
# C47 and C49: events in the client library
-/
namespace Dax
open Dax.LibEv

/-- **C47** and **C49** together: in every sequence of arriving messages, polls, waits,
registrations and deletions the library answers, and invokes callbacks, exactly as a client
does that keeps the newest eight undelivered events in order of arrival and a table of
callbacks.  Nothing is read or written outside the arrays. -/
theorem C47_queue (os : List Op) (h : ∀ o ∈ os, o.ok) :
    ∃ s, run init os = .ok (s, (Abs.run {} os).2) := by
  obtain ⟨s, h1, _⟩ := run_rep os init {} rep_init (by intro m hm; cases hm) h
  exact ⟨s, h1⟩

theorem ok_arrive {m : Msg} (h : 8 ≤ m.data.length) : Op.ok (.arrive m) := by
  intro m' he _
  cases he
  exact h

/-- However many events arrive while a module is busy, the polls that follow deliver the newest
eight in the order of arrival, each to the callback registered for it; older ones are gone. -/
theorem C47_newest (os : List Op) (h : ∀ o ∈ os, o.ok) (ms : List Msg)
    (hm : ∀ m ∈ ms, m.type.testBit 31 = true ∧ 8 ≤ m.data.length) (h8 : 8 ≤ ms.length) :
    ∃ s s1 s2 as bs ds, run init os = .ok (s, as) ∧ run s (ms.map .arrive) = .ok (s1, bs) ∧
      run s1 (List.replicate 8 .poll) = .ok (s2, ds) ∧
      ∀ i, i < 8 → ∃ m, ms[ms.length - 8 + i]? = some m ∧
        ∃ d, ds[i]? = some d ∧ dispatch s m = .ok d := by
  obtain ⟨s, h1, r1⟩ := run_rep os init {} rep_init (by intro m hm; cases hm) h
  have pk : ∀ (os : List Op) (a : Abs), a.ok → (∀ o ∈ os, o.ok) → (a.run os).1.ok := by
    intro os
    induction os with
    | nil => intro a h _; exact h
    | cons o os ih =>
      intro a ha ho
      exact ih _ (step_ok ha (ho o (by simp))) (fun x hx => ho x (by simp [hx]))
  have k1 : (Abs.run {} os).1.ok := pk os {} (by intro m hm; cases hm) h
  have hma : ∀ o ∈ ms.map Op.arrive, o.ok := by
    intro o ho
    obtain ⟨m, hmm, rfl⟩ := List.mem_map.mp ho
    exact ok_arrive (hm m hmm).2
  obtain ⟨s1, h2, r2⟩ := run_rep (ms.map .arrive) s _ r1 k1 hma
  have k2 := pk (ms.map .arrive) _ k1 hma
  obtain ⟨s2, h3, _⟩ := run_rep (List.replicate 8 .poll) s1 _ r2 k2 (by
    intro o ho
    rw [List.eq_of_mem_replicate ho]
    intro m hm
    cases hm)
  have hp := run_arrives ms (Abs.run {} os).1 (fun m hmm => (hm m hmm).1) r1.qle
  have hl : (lastN 8 ((Abs.run {} os).1.pending ++ ms)).length = 8 := by
    simp [lastN]; omega
  have hpolls := polls _ _ hp
  rw [hl] at hpolls
  refine ⟨s, s1, s2, _, _, _, h1, h2, h3, ?_⟩
  intro i hi
  have hlt : ms.length - 8 + i < ms.length := by omega
  refine ⟨_, List.getElem?_eq_getElem hlt, ?_⟩
  generalize hmi : ms[ms.length - 8 + i] = m
  have hmem : m ∈ ms := by rw [← hmi]; exact List.getElem_mem _
  refine ⟨(Abs.run {} os).1.deliver m, ?_, dispatch_rep r1 m (hm m hmem).2⟩
  rw [hpolls, List.getElem?_map]
  have : (lastN 8 ((Abs.run {} os).1.pending ++ ms))[i]? = some m := by
    unfold lastN
    rw [List.getElem?_drop, List.getElem?_append_right (by simp; omega)]
    have : ((Abs.run {} os).1.pending ++ ms).length - 8 + i - (Abs.run {} os).1.pending.length =
        ms.length - 8 + i := by simp; omega
    rw [this, List.getElem?_eq_getElem hlt, hmi]
  rw [this]
  simp only [Option.map_some, Option.some.injEq]
  exact deliver_reg (arrives_reg ms _) m

/-- **C49**.  An event for a pair invokes the callback registered for that pair, with its user
data and the event's data, whatever else was registered and deleted meanwhile. -/
theorem C49_invokes (os1 os2 : List Op) (h1 : ∀ o ∈ os1, o.ok) (h2 : ∀ o ∈ os2, o.ok)
    (i d : Int) (u : Nat) (c f : Option Nat)
    (hn1 : ∀ o ∈ os1, ¬ o.adds (u32 i, u32 d))
    (hn2 : ∀ o ∈ os2, ¬ o.adds (u32 i, u32 d) ∧ ¬ o.dels (u32 i, u32 d)) :
    ∃ s as, run init (os1 ++ .add i d u c f :: os2) = .ok (s, as) ∧
      ∀ m : Msg, m.key = (u32 i, u32 d) → 8 ≤ m.data.length →
        ∃ a, dispatch s m = .ok a ∧ a.code = 0 ∧
          a.invoked = c.map (fun c => (c, u, m.data.drop 8)) := by
  obtain ⟨s, e1, r1⟩ := run_rep (os1 ++ .add i d u c f :: os2) init {} rep_init
    (by intro m hm; cases hm) (by
      intro o ho
      simp only [List.mem_append, List.mem_cons] at ho
      rcases ho with ho | ho | ho
      · exact h1 o ho
      · rw [ho]; intro m hm; cases hm
      · exact h2 o ho)
  refine ⟨s, _, e1, ?_⟩
  intro m hk hl
  rw [Abs.run_append] at r1
  have k1 := run_keys os1 {} hn1 (by intro x hx; cases hx)
  have k2 : Single (((Abs.run {} os1).1.run (.add i d u c f :: os2)).1) (u32 i, u32 d) (u, c, f) := by
    simp only [Abs.run]
    apply run_single os2 _ hn2
    exact ⟨_, [], rfl, k1, by simp⟩
  obtain ⟨l1, l2, g1, g2, _⟩ := k2
  have hlk := (lookup_split (l2 := l2) (e := ((u32 i, u32 d), u, c, f)) g2 rfl).1
  rw [← g1] at hlk
  refine ⟨_, dispatch_rep r1 m hl, ?_, ?_⟩
  · unfold Abs.deliver; rw [hk, hlk]
  · unfold Abs.deliver; rw [hk, hlk]

/-- **C49**.  After the deletion, and as long as nothing is registered for the pair again, an
event for it invokes nothing. -/
theorem C49_deleted (os1 os2 os3 : List Op) (h1 : ∀ o ∈ os1, o.ok) (h2 : ∀ o ∈ os2, o.ok)
    (h3 : ∀ o ∈ os3, o.ok) (i d i' d' : Int) (u : Nat) (c f : Option Nat)
    (hid : (u32 i', u32 d') = (u32 i, u32 d))
    (hn1 : ∀ o ∈ os1, ¬ o.adds (u32 i, u32 d))
    (hn2 : ∀ o ∈ os2, ¬ o.adds (u32 i, u32 d) ∧ ¬ o.dels (u32 i, u32 d))
    (hn3 : ∀ o ∈ os3, ¬ o.adds (u32 i, u32 d)) :
    ∃ s as, run init (os1 ++ .add i d u c f :: (os2 ++ .del i' d' :: os3)) = .ok (s, as) ∧
      ∀ m : Msg, m.key = (u32 i, u32 d) → 8 ≤ m.data.length →
        ∃ a, dispatch s m = .ok a ∧ a.code = ERR_GENERIC ∧ a.invoked = none := by
  obtain ⟨s, e1, r1⟩ := run_rep (os1 ++ .add i d u c f :: (os2 ++ .del i' d' :: os3)) init {}
    rep_init (by intro m hm; cases hm) (by
      intro o ho
      simp only [List.mem_append, List.mem_cons] at ho
      rcases ho with ho | ho | ho | ho | ho
      · exact h1 o ho
      · rw [ho]; intro m hm; cases hm
      · exact h2 o ho
      · rw [ho]; intro m hm; cases hm
      · exact h3 o ho)
  refine ⟨s, _, e1, ?_⟩
  intro m hk hl
  rw [Abs.run_append] at r1
  have k1 := run_keys os1 {} hn1 (by intro x hx; cases hx)
  have k2 : ∀ x ∈ (((Abs.run {} os1).1.run (.add i d u c f :: (os2 ++ .del i' d' :: os3))).1).reg,
      x.1 ≠ (u32 i, u32 d) := by
    simp only [Abs.run]
    rw [Abs.run_append]
    simp only [Abs.run]
    apply run_keys os3 _ hn3
    have k2 : Single ((((Abs.run {} os1).1.step (.add i d u c f)).1.run os2).1) (u32 i, u32 d)
        (u, c, f) := by
      apply run_single os2 _ hn2
      exact ⟨_, [], rfl, k1, by simp⟩
    obtain ⟨l1, l2, g1, g2, g3⟩ := k2
    obtain ⟨e2, e3⟩ := lookup_split (l2 := l2) (e := ((u32 i, u32 d), u, c, f)) g2 rfl
    rw [← g1] at e2 e3
    rw [← hid] at e2 e3
    simp only [Abs.step] at e2 e3 ⊢
    rw [e2]
    dsimp only
    rw [e3]
    intro x hx
    rcases List.mem_append.mp hx with hx | hx
    · exact g2 x hx
    · exact g3 x hx
  refine ⟨_, dispatch_rep r1 m hl, ?_, ?_⟩
  · unfold Abs.deliver; rw [hk, lookup_absent k2]
  · unfold Abs.deliver; rw [hk, lookup_absent k2]

/-- An event message for tag 13, event `k`, with one byte of data. -/
def evMsg (k : Byte) (x : Byte) : Msg :=
  { type := 0x80000002, data := [0, 0, 0, 13, 0, 0, 0, k, x] }

example : (run init [.add 13 1 100 (some 7) none, .add 13 2 200 (some 8) (some 9),
    .arrive (evMsg 2 50), .arrive (evMsg 1 51), .poll, .poll, .poll, .del 13 2, .arrive (evMsg 2 52),
    .wait] >>= fun p => C.ok p.2) =
    .ok [{ code := 0 }, { code := 0 }, { code := 0 }, { code := 0 },
      { code := 0, invoked := some (8, 200, [50]), id := some (13, 2) },
      { code := 0, invoked := some (7, 100, [51]), id := some (13, 1) },
      { code := ERR_NOTFOUND }, { code := 0, freed := some (9, 200) }, { code := 0 },
      { code := ERR_GENERIC }] := by kernel_rfl

/-- Ten events arrive; the first two are discarded. -/
example : (run init (.add 13 1 100 (some 7) none ::
      ((List.range 10).map (fun n => .arrive (evMsg 1 (BitVec.ofNat 8 n)))) ++
      List.replicate 9 .poll) >>=
    fun p => C.ok ((p.2.drop 11).map (fun a => a.invoked))) =
    .ok ((List.range 8).map (fun n => some (7, 100, [BitVec.ofNat 8 (n + 2)])) ++ [none]) := by kernel_rfl

example : Op.ok (.arrive (evMsg 1 50)) := ok_arrive (by decide)

end Dax
