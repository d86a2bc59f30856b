import Verif.Spec.LuaScript
import Verif.Lemmas.Tactic
/-!
# Scripts of the Lua module: table, switch, interval (C73, C74, C75)
-/
set_option autoImplicit false
namespace Dax
open Script

/-! ## The table (C73) -/

/-- What `Table.add` keeps: the array holds 8 or 16 scripts. -/
def Script.Table.Good (t : Table) : Prop := (t.names = [] ∧ t.cap = 0 ∧ t.size = 0) ∨ (0 < t.names.length ∧ t.size = 8 ∧ t.names.length ≤ t.cap ∧ (t.cap = 8 ∨ t.cap = 16))

theorem Script.Table.Good.grow {t : Table} (h : t.Good) : t.grow.names = t.names ∧ t.grow.size = 8 ∧ t.names.length ≤ t.grow.cap ∧ (t.grow.cap = 8 ∨ t.grow.cap = 16) ∧ (t.names.length < 16 → t.names.length < t.grow.cap) := by
  have hN : NUM_SCRIPTS = 8 := rfl
  unfold Table.grow
  rcases h with ⟨h, hc, hs⟩ | ⟨hp, hs, hl, hc⟩
  · rw [if_pos (by rw [h]; rfl)]
    refine ⟨rfl, rfl, by rw [h]; exact Nat.zero_le _, Or.inl rfl, fun _ => by rw [h]; decide⟩
  · rw [if_neg (show ¬ t.names.length = 0 by omega)]
    by_cases e : t.names.length = t.size
    · rw [if_pos e]
      refine ⟨rfl, hs, ?_, Or.inr ?_, fun _ => ?_⟩ <;> dsimp only <;> omega
    · rw [if_neg e]
      refine ⟨rfl, hs, hl, hc, fun hh => ?_⟩
      rcases hc with hc | hc <;> omega

theorem Script.Table.Good.add {t : Table} (h : t.Good) (n : Name) (hl : t.names.length < 16) :
    ∃ t', t.add n = .ok (t', if n ∈ t.names then none else some t.names.length) ∧ (t.names ≠ [] ∨ n ∉ t.names) ∧ t'.names = (if n ∈ t.names then t.names else t.names ++ [n]) ∧ t'.Good := by
  obtain ⟨g1, g2, g3, g4, g5⟩ := h.grow
  have g5 := g5 hl
  unfold Table.add
  dsimp only
  rw [g1, if_neg (show ¬ t.names.length ≥ t.grow.cap by omega)]
  by_cases hm : n ∈ t.names
  · rw [if_pos hm, if_pos hm, if_pos hm]
    have hne : t.names ≠ [] := List.ne_nil_of_mem hm
    refine ⟨_, rfl, Or.inl hne, g1, Or.inr ⟨?_, g2, ?_, g4⟩⟩
    · rw [g1]; exact List.length_pos_iff.mpr hne
    · rw [g1]; exact g3
  · rw [if_neg hm, if_neg hm, if_neg hm]
    refine ⟨_, rfl, Or.inr hm, ?_, Or.inr ⟨?_, g2, ?_, g4⟩⟩
    · rfl
    · simp
    · simp only [List.length_append, List.length_cons, List.length_nil]; omega

/-- Adding distinct new names. -/
theorem Script.Table.Good.addAll (ns : List Name) : ∀ (t : Table), t.Good → (t.names ++ ns).Nodup → t.names.length + ns.length ≤ 16 →
    ∃ t', t.addAll ns = .ok (t', (List.range' t.names.length ns.length).map some) ∧ t'.names = t.names ++ ns ∧ t'.Good := by
  induction ns with
  | nil => intro t h _ _; exact ⟨t, rfl, by simp, h⟩
  | cons n ns ih =>
    intro t h hd hl
    simp only [List.length_cons] at hl
    have hn : n ∉ t.names := by
      intro hm
      rw [List.nodup_append] at hd
      exact hd.2.2 n hm n (List.mem_cons_self ..) rfl
    obtain ⟨t1, e1, -, e2, g1⟩ := h.add n (by omega)
    rw [if_neg hn] at e1 e2
    obtain ⟨t2, f1, f2, g2⟩ := ih t1 g1 (by rw [e2]; simpa using hd) (by rw [e2, List.length_append]; simp only [List.length_cons, List.length_nil]; omega)
    refine ⟨t2, ?_, by rw [f2, e2]; simp, g2⟩
    rw [Table.addAll, e1]
    show (t1.addAll ns >>= _) = _
    rw [f1, e2]
    simp [List.range'_succ, bind, C.bind]

/-- C73, up to sixteen scripts: every script of a configuration with different names gets a place, the places are numbered in the order of the configuration, and names and numbers belong together in both directions.  What is missing: `C73_overflow`. -/
theorem C73_table_partial (ns : List Name) (hd : ns.Nodup) (hl : ns.length ≤ 16) :
    ∃ t, Table.addAll {} ns = .ok (t, (List.range ns.length).map some) ∧ t.names = ns
      ∧ (∀ (i : Nat) n, ns[i]? = some n → t.idOf n = some i ∧ t.nameOf i = .ok (some n) ∧ t.target i = some i)
      ∧ (∀ n, n ∉ ns → t.idOf n = none)
      ∧ (∀ i : Int, ns.length ≤ i → i < 2147483648 → t.nameOf i = .ok none ∧ t.target i = none) := by
  obtain ⟨t, e1, e2, g⟩ := Table.Good.addAll ns {} (Or.inl ⟨rfl, rfl, rfl⟩) (by simpa using hd) (by simpa using hl)
  have e2' : t.names = ns := by rw [e2]; rfl
  refine ⟨t, ?_, e2', ?_, ?_, ?_⟩
  · rw [e1, List.range_eq_range']; rfl
  · intro i n hi
    obtain ⟨hlt, hget⟩ := List.getElem?_eq_some_iff.mp hi
    have hti : toInt (i : Int) = i := by unfold toInt; omega
    refine ⟨?_, ?_, ?_⟩
    · unfold Table.idOf
      rw [e2', List.findIdx?_eq_some_iff_getElem]
      refine ⟨hlt, by simpa using hget, fun j hj => ?_⟩
      simp only [decide_eq_true_eq]
      intro he
      have := (List.getElem_inj (h₀ := by omega) (h₁ := hlt) hd).mp (he.trans hget.symm)
      omega
    · unfold Table.nameOf
      dsimp only
      rw [hti, e2', if_pos (show (i : Int) < ns.length by omega), if_neg (show ¬ (i : Int) < 0 by omega)]
      simp [hi]
    · unfold Table.target
      dsimp only
      rw [hti, e2', if_pos (show 0 ≤ (i : Int) ∧ (i : Int) < ns.length by omega)]
      simp
  · intro n hn
    unfold Table.idOf
    rw [e2', List.findIdx?_eq_none_iff]
    intro x hx
    simp only [decide_eq_false_iff_not]
    intro he
    exact hn (he ▸ hx)
  · intro i h1 h2
    have hti : toInt i = i := by unfold toInt; omega
    unfold Table.nameOf Table.target
    dsimp only
    rw [hti, e2', if_neg (show ¬ i < ns.length by omega), if_neg (show ¬ (0 ≤ i ∧ i < ns.length) by omega)]
    exact ⟨rfl, rfl⟩

/-- C73: a name that is in the table already is refused and leaves the scripts as they are. -/
theorem C73_duplicate (ns : List Name) (hd : ns.Nodup) (hl : ns.length ≤ 15) (n : Name) (hn : n ∈ ns) :
    ∃ t t' l, Table.addAll {} ns = .ok (t, l) ∧ t.add n = .ok (t', none) ∧ t'.names = ns := by
  obtain ⟨t, e1, e2, g⟩ := Table.Good.addAll ns {} (Or.inl ⟨rfl, rfl, rfl⟩) (by simpa using hd) (by show 0 + ns.length ≤ 16; omega)
  have e2' : t.names = ns := by rw [e2]; rfl
  obtain ⟨t', f1, -, f2, -⟩ := g.add n (by rw [e2']; omega)
  rw [e2', if_pos hn] at f1 f2
  exact ⟨t, t', _, e1, f1, f2⟩

theorem Script.Table.addAll_append (xs ys : List Name) : ∀ (t t1 : Table) (l : List (Option Nat)), t.addAll xs = .ok (t1, l) →
    (∀ w, t1.addAll ys = .ub w → t.addAll (xs ++ ys) = .ub w) := by
  induction xs with
  | nil => intro t t1 l h w hw; cases h; exact hw
  | cons x xs ih =>
    intro t t1 l h w hw
    rw [Table.addAll] at h
    obtain ⟨⟨u, r⟩, h1, h2⟩ := C.bind_eq_ok.mp h
    obtain ⟨⟨v, k⟩, h3, h4⟩ := C.bind_eq_ok.mp h2
    cases h4
    rw [List.cons_append, Table.addAll, h1]
    show (u.addAll (xs ++ ys) >>= _) = _
    rw [ih u _ _ h3 w hw]
    rfl

/-- C73 is false beyond sixteen scripts: every configuration with seventeen or more different names makes the module write behind its array. -/
theorem C73_overflow (ns : List Name) (hd : ns.Nodup) (hl : 17 ≤ ns.length) :
    Table.addAll {} ns = .ub "write behind the array of scripts" := by
  have hsplit : ns = ns.take 16 ++ ns.drop 16 := (List.take_append_drop 16 ns).symm
  have hlen : (ns.take 16).length = 16 := by rw [List.length_take]; omega
  obtain ⟨t, e1, e2, g⟩ := Table.Good.addAll (ns.take 16) {} (Or.inl ⟨rfl, rfl, rfl⟩) (by simpa using hd.sublist (List.take_sublist 16 ns)) (by show 0 + _ ≤ 16; omega)
  have e2' : t.names = ns.take 16 := by rw [e2]; rfl
  rw [hsplit]
  refine Table.addAll_append _ _ _ _ _ e1 _ ?_
  cases hdr : ns.drop 16 with
  | nil => have := List.drop_eq_nil_iff.mp hdr; omega
  | cons n rest =>
    obtain ⟨g1, g2, g3, g4, -⟩ := g.grow
    have : t.add n = .ub "write behind the array of scripts" := by
      unfold Table.add
      dsimp only
      rw [g1, e2', if_pos (show (ns.take 16).length ≥ t.grow.cap by rw [hlen]; rcases g4 with g4 | g4 <;> omega)]
    rw [Table.addAll, this]
    rfl

/-- C73 is false for negative numbers: asking for the name of a script with one reads before the array. -/
theorem C73_negative (t : Table) (i : Int) (h1 : -2147483648 ≤ i) (h2 : i < 0) : t.nameOf i = .ub "read before the array of scripts" := by
  have hti : toInt i = i := by unfold toInt; omega
  unfold Table.nameOf
  dsimp only
  rw [hti, if_pos (show i < t.names.length by omega), if_pos h2]

/-- C73 is false for numbers of more than 32 bits: they mean some other script. -/
theorem C73_wide (t : Table) (i : Int) : t.nameOf (i + 4294967296) = t.nameOf i ∧ t.target (i + 4294967296) = t.target i := by
  have h : toInt (i + 4294967296) = toInt i := by unfold toInt; omega
  unfold Table.nameOf Table.target
  rw [h]
  exact ⟨rfl, rfl⟩

/-- A configuration with three scripts. -/
example : [nm "a", nm "b", nm "c"].Nodup ∧ [nm "a", nm "b", nm "c"].length ≤ 15 ∧ nm "b" ∈ [nm "a", nm "b", nm "c"] := by decide

/-- Names for a configuration with seventeen scripts. -/
def manyNames : List Name := (List.range 17).map (fun i => [BitVec.ofNat 8 (97 + i)])

example : manyNames.Nodup ∧ 17 ≤ manyNames.length := by decide

/-! ## The switch (C74) -/

theorem Script.Ctl.run_cons (c : Ctl) (a : Act) (as : List Act) :
    c.run (a :: as) = (((c.step a).1.run as).1, match a with | .turn _ _ _ => (c.step a).2 :: ((c.step a).1.run as).2 | _ => ((c.step a).1.run as).2) := rfl

theorem Script.Ctl.write_same (c : Ctl) (v : Shown) : (c.write v).enabled = c.enabled ∧ (c.write v).failed = c.failed ∧ (c.write v).command = c.command ∧ (c.write v).failOnError = c.failOnError
    ∧ (c.write v).executions = c.executions ∧ (c.write v).runsignal = c.runsignal ∧ (c.write v).tag = v := by
  unfold Ctl.write
  split
  · next h => exact ⟨rfl, rfl, rfl, rfl, rfl, rfl, h⟩
  · exact ⟨rfl, rfl, rfl, rfl, rfl, rfl, rfl⟩

theorem Script.Ctl.obey_same (c : Ctl) : c.obey.failed = c.failed ∧ c.obey.command = 0 ∧ c.obey.failOnError = c.failOnError ∧ c.obey.executions = c.executions ∧ c.obey.runsignal = c.runsignal
    ∧ c.obey.tag = c.tag ∧ c.obey.msgs = c.msgs ∧ c.obey.enabled = (if c.command = 1 then true else if c.command = 2 then false else c.enabled) := by
  unfold Ctl.obey
  by_cases h0 : c.command = 0
  · rw [if_pos h0]; simp [h0]
  · rw [if_neg h0]
    by_cases h1 : c.command = 1
    · rw [if_pos h1]; simp [h1]
    · rw [if_neg h1]
      by_cases h2 : c.command = 2
      · rw [if_pos h2]; simp [h2]
      · rw [if_neg h2]; simp [h1, h2]

/-- C74: a turn executes the script exactly if it has not failed, the module is running, its tags are there, and the script is enabled, where the latest command counts before everything else; and one that does not execute it
changes nothing but that the command is obeyed. -/
theorem C74_turn (c : Ctl) (ready disable error : Bool) :
    ((c.step (.turn ready disable error)).2 = true ↔ c.failed = false ∧ c.runsignal = true ∧ ready = true ∧ (c.command = 1 ∨ (c.command ≠ 2 ∧ c.enabled = true)))
    ∧ ((c.step (.turn ready disable error)).2 = true → (c.step (.turn ready disable error)).1.tag = ⟨!disable, error && c.failOnError, (c.executions + 1) % 18446744073709551616⟩)
    ∧ ((c.step (.turn ready disable error)).2 = false → (c.step (.turn ready disable error)).1.tag = c.tag ∧ (c.step (.turn ready disable error)).1.msgs = c.msgs) := by
  obtain ⟨o1, o2, o3, o4, o5, o6, o7, o8⟩ := c.obey_same
  have hen : c.obey.enabled = true ↔ (c.command = 1 ∨ (c.command ≠ 2 ∧ c.enabled = true)) := by
    rw [o8]
    by_cases h1 : c.command = 1
    · simp [h1]
    · by_cases h2 : c.command = 2
      · simp [h2]
      · simp [h1, h2]
  rw [← hen]
  simp only [Ctl.step]
  by_cases hg : (c.obey.failed || !c.obey.enabled || !c.obey.runsignal || !ready) = true
  · rw [if_pos hg]
    refine ⟨⟨fun h => by simp at h, ?_⟩, fun h => by simp at h, fun _ => ⟨o6, o7⟩⟩
    rintro ⟨h1, h2, h3, h4⟩
    rw [o1, o5, h1, h2, h3, h4] at hg
    simp at hg
  · rw [if_neg hg]
    simp only [Bool.or_eq_true, not_or, Bool.not_eq_true', Bool.not_eq_true] at hg
    obtain ⟨⟨⟨g1, g2⟩, g3⟩, g4⟩ := hg
    simp only [Bool.not_eq_false] at g2 g3 g4
    refine ⟨⟨fun _ => ⟨by rw [← o1]; exact g1, by rw [← o5]; exact g3, g4, g2⟩, fun _ => rfl⟩, fun _ => ?_, fun h => by simp at h⟩
    unfold Ctl.show
    rw [(Ctl.write_same _ _).2.2.2.2.2.2]
    cases disable <;> cases error <;> cases hf : c.failOnError <;> simp [o3, o4, hf, g1, g2]

theorem Script.Ctl.step_failed (c : Ctl) (a : Act) (h : c.failed = true) : (c.step a).1.failed = true ∧ (c.step a).2 = false := by
  cases a with
  | turn ready disable error =>
    simp only [Ctl.step]
    rw [if_pos (by rw [c.obey_same.1, h]; rfl)]
    exact ⟨by rw [c.obey_same.1, h], rfl⟩
  | command b => exact ⟨h, rfl⟩
  | client b =>
    simp only [Ctl.step]
    exact ⟨by rw [(Ctl.write_same _ _).2.1, h], trivial⟩
  | deliver =>
    simp only [Ctl.step]
    cases c.msgs with
    | nil => exact ⟨h, rfl⟩
    | cons m ms => exact ⟨by unfold Ctl.show; rw [(Ctl.write_same _ _).2.1]; exact h, rfl⟩

/-- C74: a script that has failed is never executed again, whatever happens; nobody can clear the mark. -/
theorem C74_failed_for_ever (acts : List Act) : ∀ c : Ctl, c.failed = true → (c.run acts).1.failed = true ∧ ran (c.run acts).2 = 0 := by
  induction acts with
  | nil => intro c h; exact ⟨h, rfl⟩
  | cons a as ih =>
    intro c h
    obtain ⟨h1, h2⟩ := c.step_failed a h
    obtain ⟨i1, i2⟩ := ih _ h1
    rw [Ctl.run_cons]
    refine ⟨i1, ?_⟩
    cases a with
    | turn r d e => dsimp only; rw [h2]; unfold ran at i2 ⊢; simp [i2]
    | _ => exact i2

theorem Script.Ctl.step_count (c : Ctl) (a : Act) (h : c.executions < 18446744073709551616) :
    (c.step a).1.executions = (c.executions + (if (c.step a).2 = true then 1 else 0)) % 18446744073709551616 := by
  have hm : c.executions = (c.executions + 0) % 18446744073709551616 := by omega
  cases a with
  | turn ready disable error =>
    simp only [Ctl.step]
    obtain ⟨o1, o2, o3, o4, o5, o6, o7, o8⟩ := c.obey_same
    split
    · rw [o4]; simpa using hm
    · unfold Ctl.show
      rw [(Ctl.write_same _ _).2.2.2.2.1]
      cases disable <;> cases error <;> cases hf : c.failOnError <;> simp [o3, o4, hf]
  | command b => simpa [Ctl.step] using hm
  | client b => simp only [Ctl.step]; rw [(Ctl.write_same _ _).2.2.2.2.1]; simpa using hm
  | deliver =>
    obtain ⟨en, fa, co, fo, ex, ru, ta, ms⟩ := c
    cases ms with
    | nil => simpa [Ctl.step] using hm
    | cons m ms => simp only [Ctl.step]; unfold Ctl.show; dsimp only; rw [(Ctl.write_same _ _).2.2.2.2.1]; simpa using hm

/-- C74: the counter counts the executions, in every history. -/
theorem C74_counts (acts : List Act) : ∀ c : Ctl, c.executions < 18446744073709551616 →
    (c.run acts).1.executions = (c.executions + ran (c.run acts).2) % 18446744073709551616 := by
  induction acts with
  | nil => intro c h; show c.executions = (c.executions + 0) % _; omega
  | cons a as ih =>
    intro c h
    have h1 := c.step_count a h
    have h2 : (c.step a).1.executions < 18446744073709551616 := by rw [h1]; exact Nat.mod_lt _ (by decide)
    have h3 := ih _ h2
    rw [Ctl.run_cons]
    dsimp only
    rw [h3, h1]
    cases a with
    | turn r d e =>
      dsimp only
      unfold ran
      rw [List.count_cons]
      generalize (c.step (.turn r d e)).2 = x
      cases x <;> simp <;> omega
    | command b => simp [Ctl.step]
    | client b => simp [Ctl.step]
    | deliver =>
      have : (c.step .deliver).2 = false := by simp only [Ctl.step]; split <;> rfl
      dsimp only
      rw [this]
      simp

/-- The module and the tag agree, and no message is on its way. -/
structure Script.Ctl.Settled (c : Ctl) (s : Switch) : Prop where
  none : c.msgs = []
  quiet : c.command = 0
  running : c.runsignal = true
  count : c.executions = s.runs % 18446744073709551616
  on : c.enabled = s.on
  fail : c.failed = s.failed
  tag : c.tag = ⟨s.on, s.failed, s.runs % 18446744073709551616⟩

/-- A message about what the module has shown itself changes nothing. -/
theorem Script.Ctl.write_deliver (c : Ctl) (v : Shown) (h : c.msgs = []) (he : v.failed = c.failed) (hx : v.executions = c.executions) (hen : v = c.tag → c.enabled = v.enable) :
    ((c.write v).step .deliver) = ({ c with tag := v, enabled := v.enable, msgs := [] }, false) := by
  obtain ⟨ve, vf, vx⟩ := v
  dsimp only at he hx
  subst he hx
  unfold Ctl.write
  by_cases e : c.tag = ⟨ve, c.failed, c.executions⟩
  · rw [if_pos e]
    have := hen e.symm
    dsimp only at this
    subst this
    simp only [Ctl.step, h, ← e]
    cases c
    simp_all
  · rw [if_neg e]
    simp only [Ctl.step, h, List.nil_append, Ctl.show, Ctl.write, if_true]

theorem Script.Ctl.Settled.step {c : Ctl} {s : Switch} (h : c.Settled s) (a : Act) (ha : plain a = true) :
    ((c.step a).1.step .deliver).1.Settled (s.step c.failOnError a).1 ∧ ((c.step a).1.step .deliver).1.failOnError = c.failOnError ∧ (c.step a).2 = (s.step c.failOnError a).2 := by
  cases a with
  | turn ready disable error =>
    have ho : c.obey = c := by unfold Ctl.obey; rw [if_pos h.quiet]
    simp only [Ctl.step, ho, Switch.step, h.fail, h.on, h.running]
    by_cases hg : s.on = true ∧ s.failed = false ∧ ready = true
    · rw [if_pos hg, if_neg (by simp [hg.1, hg.2.1, hg.2.2])]
      obtain ⟨g1, g2, g3⟩ := hg
      refine ⟨?_, ?_, rfl⟩
      · have hw := Ctl.write_deliver { c with enabled := !disable, failed := error && c.failOnError, executions := (s.runs + 1) % 18446744073709551616 } ⟨!disable, error && c.failOnError, (s.runs + 1) % 18446744073709551616⟩ h.none rfl rfl (fun _ => rfl)
        have hx : (c.executions + 1) % 18446744073709551616 = (s.runs + 1) % 18446744073709551616 := by rw [h.count]; omega
        have hs : ∀ d : Ctl, d = { c with enabled := !disable, failed := error && c.failOnError, executions := (s.runs + 1) % 18446744073709551616 } → ((d.show).step .deliver).1.Settled ⟨!disable, error && c.failOnError, s.runs + 1⟩ := by
          rintro d rfl
          unfold Ctl.show
          rw [hw]
          exact ⟨rfl, h.quiet, h.running, rfl, rfl, rfl, rfl⟩
        refine hs _ ?_
        have h1 := h.on
        have h2 := h.fail
        have h3 := h.running
        rw [g1] at h1
        rw [g2] at h2
        cases disable <;> cases error <;> cases hf : c.failOnError <;> cases c <;> simp_all
      · have key : ∀ d : Ctl, d.failOnError = c.failOnError → ((d.show).step .deliver).1.failOnError = c.failOnError := by
          intro d hd
          have : d.show.failOnError = c.failOnError := by unfold Ctl.show; rw [(Ctl.write_same _ _).2.2.2.1]; exact hd
          simp only [Ctl.step]
          split
          · exact this
          · unfold Ctl.show at this ⊢
            rw [(Ctl.write_same _ _).2.2.2.1]; exact this
        refine key _ ?_
        cases disable <;> cases error <;> cases hf : c.failOnError <;> simp [hf]
    · rw [if_neg hg, if_pos (by
        cases h1 : s.on <;> cases h2 : s.failed <;> cases h3 : ready <;> simp_all)]
      dsimp only
      simp only [h.none]
      exact ⟨h, trivial, trivial⟩
  | client b =>
    simp only [Ctl.step.eq_3, Switch.step]
    have hw := Ctl.write_deliver c { c.tag with enable := b } h.none (by rw [h.tag]; exact h.fail.symm) (by rw [h.tag]; exact h.count.symm) (fun e => by
      have : c.tag.enable = b := by rw [← e]
      rw [h.tag] at this
      dsimp only at this ⊢
      rw [h.on, this])
    dsimp only at hw ⊢
    rw [hw]
    exact ⟨⟨rfl, h.quiet, h.running, h.count, rfl, h.fail, by rw [h.tag]⟩, rfl, trivial⟩
  | command b => simp [plain] at ha
  | deliver => simp [plain] at ha

theorem Script.Switch.run_cons (strict : Bool) (s : Switch) (a : Act) (as : List Act) :
    s.run strict (a :: as) = (((s.step strict a).1.run strict as).1, match a with | .turn _ _ _ => (s.step strict a).2 :: ((s.step strict a).1.run strict as).2 | _ => ((s.step strict a).1.run strict as).2) := rfl

theorem Script.Ctl.Settled.run (acts : List Act) : ∀ {c : Ctl} {s : Switch}, c.Settled s → (∀ a ∈ acts, plain a = true) →
    (c.run (promptly acts)).1.Settled (s.run c.failOnError acts).1 ∧ (c.run (promptly acts)).2 = (s.run c.failOnError acts).2 := by
  induction acts with
  | nil => intro c s h _; exact ⟨h, rfl⟩
  | cons a as ih =>
    intro c s h ha
    obtain ⟨h1, h2, h3⟩ := h.step a (ha a (List.mem_cons_self ..))
    obtain ⟨i1, i2⟩ := ih h1 (fun x hx => ha x (List.mem_cons_of_mem _ hx))
    rw [h2] at i1 i2
    rw [promptly, Ctl.run_cons, Ctl.run_cons, Switch.run_cons]
    refine ⟨i1, ?_⟩
    cases a <;> dsimp only <;> simp only [i2, h3]

/-- C74, if every message of the server is handled before the next thing happens, and neither scripts nor triggers enable or disable the script: it runs in exactly those turns in which a user expects it to, by the latest value
written to its switch and by its own wish, and the tag shows what is the case.  What is missing: `C74_flicker`, `C74_stuck`. -/
theorem C74_switch_partial (on strict : Bool) (acts : List Act) (hp : ∀ a ∈ acts, plain a = true) :
    let c : Ctl := { enabled := on, failOnError := strict, tag := ⟨on, false, 0⟩ }
    let s := (Switch.mk on false 0).run strict acts
    (c.run (promptly acts)).2 = s.2 ∧ (c.run (promptly acts)).1.tag = ⟨s.1.on, s.1.failed, s.1.runs % 18446744073709551616⟩
      ∧ (c.run (promptly acts)).1.enabled = s.1.on ∧ (c.run (promptly acts)).1.msgs = [] := by
  intro c s
  have h : c.Settled ⟨on, false, 0⟩ := ⟨rfl, rfl, rfl, rfl, rfl, rfl, rfl⟩
  obtain ⟨h1, h2⟩ := h.run acts hp
  exact ⟨h2, h1.tag, h1.on, h1.none⟩

/-- A script runs, disables itself, is enabled by another module, and fails. -/
def switchActs : List Act := [.turn true false false, .turn true true false, .turn true false false, .client true, .turn true false true, .client true, .turn true false false]

example : (∀ a ∈ switchActs, plain a = true) ∧ ((Switch.mk true false 0).run true switchActs).2 = [true, true, false, true, false] := by decide

/-- A history in which the script disables itself before the message of its previous run is handled. -/
def flickerActs : List Act := [.turn true false false, .turn true true false]

/-- The state in which messages go to and fro. -/
def flicker (b : Bool) : Ctl := { enabled := b, executions := 2, tag := ⟨b, false, 2⟩, msgs := [⟨!b, false, 2⟩, ⟨b, false, 2⟩] }

theorem flicker_step (b : Bool) : ((flicker b).step .deliver).1 = flicker (!b) := by cases b <;> rfl

theorem flicker_run (n : Nat) : ∀ b, ((flicker b).run (List.replicate n .deliver)).1 = flicker (if n % 2 = 0 then b else !b) := by
  induction n with
  | zero => intro b; rfl
  | succ n ih =>
    intro b
    rw [List.replicate_succ, Ctl.run_cons]
    dsimp only
    rw [flicker_step, ih]
    by_cases h : n % 2 = 0
    · rw [if_pos h, if_neg (show ¬ (n + 1) % 2 = 0 by omega)]
    · rw [if_neg h, if_pos (show (n + 1) % 2 = 0 by omega), Bool.not_not]

/-- C74 is false if a message is still on its way when the script disables itself: from then on, without anything else happening, every message switches the script on or off again and causes another one, for ever. -/
theorem C74_flicker (n : Nat) :
    let c : Ctl := { enabled := true, tag := ⟨true, false, 0⟩ }
    let d := (c.run (flickerActs ++ List.replicate n .deliver)).1
    (n = 0 → d.enabled = false) ∧ (0 < n → d.enabled = decide (n % 2 = 1) ∧ d.msgs.length = 2) := by
  intro c d
  have key : ∀ n, (c.run (flickerActs ++ List.replicate (n + 1) .deliver)).1 = flicker (if n % 2 = 0 then true else false) := by
    intro n
    have : (c.run (flickerActs ++ List.replicate (n + 1) .deliver)).1 = ((flicker true).run (List.replicate n .deliver)).1 := rfl
    rw [this, flicker_run]
    rfl
  refine ⟨fun h => by subst h; rfl, fun h => ?_⟩
  obtain ⟨m, rfl⟩ : ∃ m, n = m + 1 := ⟨n - 1, by omega⟩
  have hd : d = flicker (if m % 2 = 0 then true else false) := key m
  rw [hd]
  refine ⟨?_, rfl⟩
  by_cases h : m % 2 = 0
  · rw [if_pos h, decide_eq_true (show (m + 1) % 2 = 1 by omega)]; rfl
  · rw [if_neg h, decide_eq_false (show ¬ (m + 1) % 2 = 1 by omega)]; rfl

/-- C74 is false for a script that another script has disabled: its tag goes on to show that it is enabled, therefore writing that it shall be enabled has no effect, however often it is done and however promptly messages are handled. -/
theorem C74_stuck (k : Nat) :
    let c : Ctl := { enabled := true, tag := ⟨true, false, 0⟩ }
    let d := (c.run [.command false, .turn true false false]).1
    d.enabled = false ∧ d.tag.enable = true ∧ (d.run (promptly (List.replicate k (.client true)))).1 = d := by
  intro c d
  refine ⟨rfl, rfl, ?_⟩
  induction k with
  | zero => rfl
  | succ k ih =>
    rw [List.replicate_succ, promptly, Ctl.run_cons, Ctl.run_cons]
    exact ih

/-! ## Intervals (C75) -/

/-- C75 for scripts that begin and end in the same part of a second: the thread waits so long that its scripts are begun in the configured interval, and reports an overrun exactly if they took longer than it.  What is missing: `C75_longer`, `C75_missed`, `C75_short`. -/
theorem C75_interval_partial (interval : Nat) (s₀ s₁ n : Int) (hi : interval ≤ 4294967) :
    elapsed s₀ n s₁ n + 1000 * pause interval s₀ n s₁ n = interval * 1000000 ∧ (pause interval s₀ n s₁ n < 0 ↔ elapsed s₀ n s₁ n > interval * 1000000) := by
  have hm : interval * 1000 % 4294967296 = interval * 1000 := Nat.mod_eq_of_lt (by omega)
  have hp : pause interval s₀ n s₁ n = interval * 1000 - (s₁ - s₀) * 1000000 := by
    unfold pause
    rw [hm, Int.sub_self, Int.add_zero, Int.mul_tdiv_cancel_left _ (by decide)]
    omega
  unfold elapsed
  rw [hp]
  constructor <;> omega

/-- C75: the period of the thread in general, up to a microsecond: it is wrong by twice the difference of the parts of a second. -/
theorem C75_period (interval : Nat) (s₀ n₀ s₁ n₁ : Int) (hi : interval ≤ 4294967) :
    let p := elapsed s₀ n₀ s₁ n₁ + 1000 * pause interval s₀ n₀ s₁ n₁
    interval * 1000000 + 2 * (n₁ - n₀) - 1000 < p ∧ p < interval * 1000000 + 2 * (n₁ - n₀) + 1000 := by
  have hm : interval * 1000 % 4294967296 = interval * 1000 := Nat.mod_eq_of_lt (by omega)
  unfold elapsed pause
  rw [hm]
  generalize hx : (1000 * (((interval * 1000 : Nat) : Int) - (s₁ - s₀) * 1000000) + (n₁ - n₀)) = x
  have h1 := Int.mul_tdiv_add_tmod x 1000
  have h2 : -1000 < x.tmod 1000 ∧ x.tmod 1000 < 1000 := by
    constructor
    · have := Int.lt_tmod_of_pos x (show (0 : Int) < 1000 by decide); omega
    · exact Int.tmod_lt_of_pos x (by decide)
  omega

/-- C75 is false for scripts that take time within a second: the time they take is added to the pause instead of being taken off. -/
theorem C75_longer (interval : Nat) (s n : Int) (t : Nat) (hi : interval ≤ 4294967) : pause interval s n s (n + 1000 * t) = interval * 1000 + t := by
  have hm : interval * 1000 % 4294967296 = interval * 1000 := Nat.mod_eq_of_lt (by omega)
  unfold pause
  have : 1000 * (((interval * 1000 : Nat) : Int) - (s - s) * 1000000) + (n + 1000 * t - n) = 1000 * ((interval : Int) * 1000 + t) := by omega
  rw [hm, this, Int.mul_tdiv_cancel_left _ (by decide)]

/-- C75 is false for overruns within a second: none is ever noticed. -/
theorem C75_missed (interval : Nat) (s n₀ n₁ : Int) (h : n₀ ≤ n₁) : ¬ pause interval s n₀ s n₁ < 0 := by
  unfold pause
  have : 0 ≤ 1000 * (((interval * 1000 % 4294967296 : Nat) : Int) - (s - s) * 1000000) + (n₁ - n₀) := by omega
  have := Int.tdiv_nonneg this (show (0 : Int) ≤ 1000 by decide)
  omega

/-- C75 is false across the end of a second: an overrun is reported for scripts that took no time. -/
theorem C75_false_overrun : elapsed 5 999999000 6 1000 = 2000 ∧ pause 100 5 999999000 6 1000 < 0 := by decide

/-- C75 is false for intervals of 72 minutes and more: the thread waits for a different time. -/
theorem C75_short (interval : Nat) (s n : Int) (h : 4294967 < interval) : pause interval s n s n < interval * 1000 := by
  unfold pause
  rw [Int.sub_self, Int.sub_self, Int.add_zero, Int.mul_tdiv_cancel_left _ (by decide)]
  have := Nat.mod_lt (interval * 1000) (show 4294967296 > 0 by decide)
  omega

/-- An interval of a second and scripts that take one. -/
example : (1000 : Nat) ≤ 4294967 ∧ pause 1000 7 123 8 123 = 0 ∧ pause 1000 7 123 9 123 < 0 := by decide

end Dax
