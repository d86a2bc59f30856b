import Verif.Spec.ModbusEvents
/-!
# Setting up the events of a Modbus master
-/
set_option autoImplicit false
namespace Dax.MbConf

theorem tryEvent_fst (b cl : Nat) (a : Int) (c : EvCmd) (r r' : Int) : (tryEvent b cl a c r).1 = (tryEvent b cl a c r').1 := by
  unfold tryEvent
  by_cases h : c.mode &&& b = 0
  · rw [if_pos h, if_pos h]
  · rw [if_neg h, if_neg h]

theorem tryCommand_fst (a : Answers) (c : EvCmd) (r r' : Int) : (tryCommand a c r).1 = (tryCommand a c r').1 := by
  show (tryEvent _ _ _ (tryEvent _ _ _ (tryEvent _ _ _ c r).1 _).1 _).1 = (tryEvent _ _ _ (tryEvent _ _ _ (tryEvent _ _ _ c r').1 _).1 _).1
  rw [tryEvent_fst _ _ _ c r r', tryEvent_fst MB_ONCHANGE _ _ _ _ (tryEvent MB_ONWRITE (MB_ONWRITE ||| MB_ONCHANGE) a.write c r').2]
  exact tryEvent_fst _ _ _ _ _ _

/-- The command after one pass. -/
def pass (a : Answers) (c : EvCmd) : EvCmd := (tryCommand a c 0).1

theorem setupEvents_at (ans : Nat → Answers) (cs : List EvCmd) : ∀ (k : Nat) (r : Int) (j : Nat),
    (setupEvents ans k cs r).1[j]? = cs[j]?.map (pass (ans (k + j))) := by
  induction cs with
  | nil => intro k r j; simp [setupEvents]
  | cons c cs ih =>
    intro k r j
    show ((tryCommand (ans k) c r).1 :: (setupEvents ans (k + 1) cs (tryCommand (ans k) c r).2).1)[j]? = _
    cases j with
    | zero => simp [pass, tryCommand_fst (ans k) c r 0]
    | succ j =>
      simp only [List.getElem?_cons_succ]
      rw [ih, Nat.add_right_comm, Nat.add_assoc]

theorem setupPorts_at (ans : Nat → Nat → Answers) (ps : List (List EvCmd)) : ∀ (k : Nat) (r : Int) (i : Nat),
    (setupPorts ans k ps r).1[i]? = ps[i]?.map (fun p => (setupEvents (ans (k + i)) 0 p 0).1) := by
  induction ps with
  | nil => intro k r j; simp [setupPorts]
  | cons c cs ih =>
    intro k r j
    show ((setupEvents (ans k) 0 c 0).1 :: (setupPorts ans (k + 1) cs (setupEvents (ans k) 0 c 0).2).1)[j]? = _
    cases j with
    | zero => simp
    | succ j =>
      simp only [List.getElem?_cons_succ]
      rw [ih, Nat.add_right_comm, Nat.add_assoc]

theorem cmdAt_pass (ans : Nat → Nat → Answers) (ps : List (List EvCmd)) (r : Int) (i j : Nat) :
    cmdAt (setupPorts ans 0 ps r).1 i j = (cmdAt ps i j).map (pass (ans i j)) := by
  unfold cmdAt
  rw [setupPorts_at, Nat.zero_add]
  cases ps[i]? with
  | none => rfl
  | some p =>
    show (setupEvents (ans i) 0 p 0).1[j]? = _
    rw [setupEvents_at, Nat.zero_add]
    rfl

theorem rounds_succ (ans : Nat → Nat → Nat → Answers) (ports : List (List EvCmd)) (n : Nat) :
    rounds ans ports (n + 1) = if (rounds ans ports n).2 ≠ 0 ∧ n < 60 then setupPorts (ans n) 0 (rounds ans ports n).1 (rounds ans ports n).2
      else rounds ans ports n := rfl

theorem cmdAt_succ (ans : Nat → Nat → Nat → Answers) (ports : List (List EvCmd)) (n i j : Nat) :
    cmdAt (rounds ans ports (n + 1)).1 i j = (cmdAt (rounds ans ports n).1 i j).map
      (if (rounds ans ports n).2 ≠ 0 ∧ n < 60 then pass (ans n i j) else id) := by
  rw [rounds_succ]
  by_cases h : (rounds ans ports n).2 ≠ 0 ∧ n < 60
  · rw [if_pos h, if_pos h, cmdAt_pass]
  · rw [if_neg h, if_neg h, Option.map_id]
    rfl

/-- What holds of a command all along: `m` is the mode it was configured with. -/
structure Inv (m : Nat) (c : EvCmd) : Prop where
  small : c.mode < 32
  once : Once m c.made
  write : c.mode.testBit 3 = (m.testBit 3 && !c.made.contains 8)
  change : c.mode.testBit 2 = (m.testBit 2 && !c.made.contains 4 && !c.made.contains 8)
  trigger : c.mode.testBit 4 = (m.testBit 4 && !c.made.contains 16)

theorem bits_write : ∀ m < 32, (m &&& 8 = 0 ↔ m.testBit 3 = false) ∧ (m &&& 243) < 32 ∧ (m &&& 243).testBit 3 = false ∧
    (m &&& 243).testBit 2 = false ∧ (m &&& 243).testBit 4 = m.testBit 4 := by decide
theorem bits_change : ∀ m < 32, (m &&& 4 = 0 ↔ m.testBit 2 = false) ∧ (m &&& 251) < 32 ∧ (m &&& 251).testBit 2 = false ∧
    (m &&& 251).testBit 3 = m.testBit 3 ∧ (m &&& 251).testBit 4 = m.testBit 4 := by decide
theorem bits_trigger : ∀ m < 32, (m &&& 16 = 0 ↔ m.testBit 4 = false) ∧ (m &&& 239) < 32 ∧ (m &&& 239).testBit 4 = false ∧
    (m &&& 239).testBit 3 = m.testBit 3 ∧ (m &&& 239).testBit 2 = m.testBit 2 := by decide

theorem asks_bit (m : Nat) (k : Kind) : Asks m k ↔ m.testBit (match k with | .change => 2 | .write => 3 | .trigger => 4) = true := by
  cases k <;> simp [Asks, Kind.bit, Nat.testBit_eq_decide_div_mod_eq]

theorem once_snoc {m : Nat} {made : List Nat} (h : Once m made) (k : Kind) (hk : Asks m k) (hn : made.contains k.bit = false) :
    Once m (made ++ [k.bit]) := by
  have hn' : k.bit ∉ made := by simpa using hn
  refine ⟨?_, ?_⟩
  · rw [List.nodup_append]
    refine ⟨h.1, by simp, ?_⟩
    intro a ha b hb
    simp at hb
    rintro rfl
    exact hn' (hb ▸ ha)
  · intro b hb
    rcases List.mem_append.mp hb with hb | hb
    · exact h.2 b hb
    · simp at hb
      exact ⟨k, hb.symm, hk⟩

theorem inv_write {m : Nat} {c : EvCmd} (h : Inv m c) (a : Int) (r : Int) :
    Inv m (tryEvent MB_ONWRITE (MB_ONWRITE ||| MB_ONCHANGE) a c r).1 := by
  have ⟨b1, b2, b3, b4, b5⟩ := bits_write c.mode h.small
  unfold tryEvent
  by_cases h0 : c.mode &&& MB_ONWRITE = 0
  · rw [if_pos h0]; exact h
  rw [if_neg h0]
  by_cases ha : a = 0
  · rw [if_pos ha]
    have hb : c.mode.testBit 3 = true := by
      cases hx : c.mode.testBit 3 with
      | true => rfl
      | false => exact absurd (b1.mpr hx) h0
    have hw := h.write
    rw [hb] at hw
    have h3 : m.testBit 3 = true ∧ c.made.contains 8 = false := by
      cases h3 : m.testBit 3 <;> cases h8 : c.made.contains 8 <;> rw [h3, h8] at hw <;> first | exact ⟨rfl, rfl⟩ | cases hw
    refine ⟨b2, once_snoc h.once .write ((asks_bit m .write).mpr h3.1) h3.2, ?_, ?_, ?_⟩
    · show (c.mode &&& 243).testBit 3 = _
      rw [b3]; simp [MB_ONWRITE]
    · show (c.mode &&& 243).testBit 2 = _
      rw [b4]; simp [MB_ONWRITE]
    · show (c.mode &&& 243).testBit 4 = _
      rw [b5, h.trigger]; simp [MB_ONWRITE]
  · rw [if_neg ha]; exact h

theorem inv_change {m : Nat} {c : EvCmd} (h : Inv m c) (a : Int) (r : Int) :
    Inv m (tryEvent MB_ONCHANGE MB_ONCHANGE a c r).1 := by
  have ⟨b1, b2, b3, b4, b5⟩ := bits_change c.mode h.small
  unfold tryEvent
  by_cases h0 : c.mode &&& MB_ONCHANGE = 0
  · rw [if_pos h0]; exact h
  rw [if_neg h0]
  by_cases ha : a = 0
  · rw [if_pos ha]
    have hb : c.mode.testBit 2 = true := by
      cases hx : c.mode.testBit 2 with
      | true => rfl
      | false => exact absurd (b1.mpr hx) h0
    have hw := h.change
    rw [hb] at hw
    have h3 : m.testBit 2 = true ∧ c.made.contains 4 = false := by
      cases h3 : m.testBit 2 <;> cases h8 : c.made.contains 4 <;> rw [h3, h8] at hw <;> first | exact ⟨rfl, rfl⟩ | cases hw
    refine ⟨b2, once_snoc h.once .change ((asks_bit m .change).mpr h3.1) h3.2, ?_, ?_, ?_⟩
    · show (c.mode &&& 251).testBit 3 = _
      rw [b4, h.write]; simp [MB_ONCHANGE]
    · show (c.mode &&& 251).testBit 2 = _
      rw [b3]; simp [MB_ONCHANGE]
    · show (c.mode &&& 251).testBit 4 = _
      rw [b5, h.trigger]; simp [MB_ONCHANGE]
  · rw [if_neg ha]; exact h

theorem inv_trigger {m : Nat} {c : EvCmd} (h : Inv m c) (a : Int) (r : Int) :
    Inv m (tryEvent MB_TRIGGER MB_TRIGGER a c r).1 := by
  have ⟨b1, b2, b3, b4, b5⟩ := bits_trigger c.mode h.small
  unfold tryEvent
  by_cases h0 : c.mode &&& MB_TRIGGER = 0
  · rw [if_pos h0]; exact h
  rw [if_neg h0]
  by_cases ha : a = 0
  · rw [if_pos ha]
    have hb : c.mode.testBit 4 = true := by
      cases hx : c.mode.testBit 4 with
      | true => rfl
      | false => exact absurd (b1.mpr hx) h0
    have hw := h.trigger
    rw [hb] at hw
    have h3 : m.testBit 4 = true ∧ c.made.contains 16 = false := by
      cases h3 : m.testBit 4 <;> cases h8 : c.made.contains 16 <;> rw [h3, h8] at hw <;> first | exact ⟨rfl, rfl⟩ | cases hw
    refine ⟨b2, once_snoc h.once .trigger ((asks_bit m .trigger).mpr h3.1) h3.2, ?_, ?_, ?_⟩
    · show (c.mode &&& 239).testBit 3 = _
      rw [b4, h.write]; simp [MB_TRIGGER]
    · show (c.mode &&& 239).testBit 2 = _
      rw [b5, h.change]; simp [MB_TRIGGER]
    · show (c.mode &&& 239).testBit 4 = _
      rw [b3]; simp [MB_TRIGGER]
  · rw [if_neg ha]; exact h

theorem inv_pass {m : Nat} {c : EvCmd} (h : Inv m c) (a : Answers) : Inv m (pass a c) :=
  inv_trigger (inv_change (inv_write h _ _) _ _) _ _

theorem tryEvent_keeps (b cl : Nat) (a : Int) (c : EvCmd) (r : Int) (x : Nat) (h : x ∈ c.made) : x ∈ (tryEvent b cl a c r).1.made := by
  unfold tryEvent
  by_cases h0 : c.mode &&& b = 0
  · rw [if_pos h0]; exact h
  rw [if_neg h0]
  by_cases ha : a = 0
  · rw [if_pos ha]; exact List.mem_append_left _ h
  · rw [if_neg ha]; exact h

theorem pass_keeps (a : Answers) (c : EvCmd) (x : Nat) (h : x ∈ c.made) : x ∈ (pass a c).made :=
  tryEvent_keeps _ _ _ _ _ _ (tryEvent_keeps _ _ _ _ _ _ (tryEvent_keeps _ _ _ _ _ _ h))

/-- With the bit in the mode and a good answer the event is made. -/
theorem tryEvent_makes (b cl : Nat) (a : Int) (c : EvCmd) (r : Int) (h : c.mode &&& b ≠ 0) (ha : a = 0) : b ∈ (tryEvent b cl a c r).1.made := by
  unfold tryEvent
  rw [if_neg h, if_pos ha]
  exact List.mem_append_right _ (by simp)

/-- A kind that is asked for is there after a pass with a good answer for it. -/
theorem pass_there {m : Nat} {c : EvCmd} (h : Inv m c) (a : Answers) (k : Kind) (hk : Asks m k) (ha : a.code k = 0) :
    k.There (pass a c).made := by
  have h1 := inv_write h a.write 0
  have h2 := inv_change h1 a.change (tryEvent MB_ONWRITE (MB_ONWRITE ||| MB_ONCHANGE) a.write c 0).2
  rw [asks_bit] at hk
  cases k with
  | write =>
    refine Or.inl ?_
    by_cases hc : (8 : Nat) ∈ c.made
    · exact pass_keeps _ _ _ hc
    · have hb := h.write
      have hc' : c.made.contains 8 = false := by simpa using hc
      rw [hk, hc'] at hb
      have h0 : c.mode &&& MB_ONWRITE ≠ 0 := fun e => by
        have := (bits_write c.mode h.small).1.mp e
        rw [hb] at this; cases this
      have ha' : a.write = 0 := ha
      have hm := tryEvent_makes MB_ONWRITE (MB_ONWRITE ||| MB_ONCHANGE) _ c 0 h0 ha'
      exact tryEvent_keeps _ _ _ _ _ _ (tryEvent_keeps _ _ _ _ _ _ hm)
  | change =>
    generalize hx : (tryEvent MB_ONWRITE (MB_ONWRITE ||| MB_ONCHANGE) a.write c 0).1 = c1 at h1 h2
    have hp : (pass a c).made = (tryEvent MB_TRIGGER MB_TRIGGER a.trigger (tryEvent MB_ONCHANGE MB_ONCHANGE a.change c1
        (tryEvent MB_ONWRITE (MB_ONWRITE ||| MB_ONCHANGE) a.write c 0).2).1 (tryEvent MB_ONCHANGE MB_ONCHANGE a.change c1
        (tryEvent MB_ONWRITE (MB_ONWRITE ||| MB_ONCHANGE) a.write c 0).2).2).1.made := by rw [← hx]; rfl
    rw [hp]
    by_cases h8 : (8 : Nat) ∈ c1.made
    · exact Or.inr ⟨rfl, tryEvent_keeps _ _ _ _ _ _ (tryEvent_keeps _ _ _ _ _ _ h8)⟩
    refine Or.inl ?_
    by_cases h4 : (4 : Nat) ∈ c1.made
    · exact tryEvent_keeps _ _ _ _ _ _ (tryEvent_keeps _ _ _ _ _ _ h4)
    have hb := h1.change
    have e8 : c1.made.contains 8 = false := by simpa using h8
    have e4 : c1.made.contains 4 = false := by simpa using h4
    rw [hk, e8, e4] at hb
    have h0 : c1.mode &&& MB_ONCHANGE ≠ 0 := fun e => by
      have := (bits_change c1.mode h1.small).1.mp e
      rw [hb] at this; cases this
    have ha' : a.change = 0 := ha
    have hm := tryEvent_makes MB_ONCHANGE MB_ONCHANGE _ c1 (tryEvent MB_ONWRITE (MB_ONWRITE ||| MB_ONCHANGE) a.write c 0).2 h0 ha'
    exact tryEvent_keeps _ _ _ _ _ _ hm
  | trigger =>
    refine Or.inl ?_
    generalize hx : (tryEvent MB_ONCHANGE MB_ONCHANGE a.change (tryEvent MB_ONWRITE (MB_ONWRITE ||| MB_ONCHANGE) a.write c 0).1
      (tryEvent MB_ONWRITE (MB_ONWRITE ||| MB_ONCHANGE) a.write c 0).2) = c2 at h2
    have hp : (pass a c).made = (tryEvent MB_TRIGGER MB_TRIGGER a.trigger c2.1 c2.2).1.made := by rw [← hx]; rfl
    rw [hp]
    by_cases h4 : (16 : Nat) ∈ c2.1.made
    · exact tryEvent_keeps _ _ _ _ _ _ h4
    have hb := h2.trigger
    have e4 : c2.1.made.contains 16 = false := by simpa using h4
    rw [hk, e4] at hb
    have h0 : c2.1.mode &&& MB_TRIGGER ≠ 0 := fun e => by
      have := (bits_trigger c2.1.mode h2.small).1.mp e
      rw [hb] at this; cases this
    have ha' : a.trigger = 0 := ha
    have hm := tryEvent_makes MB_TRIGGER MB_TRIGGER _ c2.1 c2.2 h0 ha'
    exact hm

theorem inv_new {m : Nat} (h : m < 32) : Inv m ⟨m, []⟩ :=
  ⟨h, ⟨List.nodup_nil, by simp⟩, by simp, by simp, by simp⟩

/-- Each command at any time comes from one that was configured. -/
theorem inv_rounds (ans : Nat → Nat → Nat → Answers) (ports : List (List EvCmd)) (hn : New ports) (n : Nat) :
    ∀ i j c, cmdAt (rounds ans ports n).1 i j = some c → ∃ c0, cmdAt ports i j = some c0 ∧ Inv c0.mode c := by
  induction n with
  | zero =>
    intro i j c h
    have ⟨h1, h2⟩ := hn i j c h
    refine ⟨c, h, ?_⟩
    have := inv_new h1
    rw [← h2] at this
    exact this
  | succ n ih =>
    intro i j c h
    rw [cmdAt_succ] at h
    rcases hc : cmdAt (rounds ans ports n).1 i j with _ | c1
    · rw [hc] at h; cases h
    · obtain ⟨c0, h0, hi⟩ := ih i j c1 hc
      rw [hc] at h
      simp only [Option.map_some, Option.some.injEq] at h
      refine ⟨c0, h0, ?_⟩
      by_cases hr : (rounds ans ports n).2 ≠ 0 ∧ n < 60
      · rw [if_pos hr] at h
        exact h ▸ inv_pass hi _
      · rw [if_neg hr] at h
        exact h ▸ hi

/-- A command that was configured is there at any time. -/
theorem cmdAt_some (ans : Nat → Nat → Nat → Answers) (ports : List (List EvCmd)) (i j : Nat) {c0 : EvCmd}
    (h : cmdAt ports i j = some c0) (n : Nat) : ∃ c, cmdAt (rounds ans ports n).1 i j = some c := by
  induction n with
  | zero => exact ⟨c0, h⟩
  | succ n ih =>
    obtain ⟨c, hc⟩ := ih
    rw [cmdAt_succ, hc]
    exact ⟨_, rfl⟩

/-- Events stay. -/
theorem rounds_keep (ans : Nat → Nat → Nat → Answers) (ports : List (List EvCmd)) (i j n : Nat) (x : Nat) (d : Nat) :
    ∀ c, cmdAt (rounds ans ports n).1 i j = some c → x ∈ c.made → ∀ c', cmdAt (rounds ans ports (n + d)).1 i j = some c' → x ∈ c'.made := by
  induction d with
  | zero =>
    intro c hc hx c' hc'
    rw [Nat.add_zero, hc] at hc'
    cases hc'
    exact hx
  | succ d ih =>
    intro c hc hx c' hc'
    rw [← Nat.add_assoc, cmdAt_succ] at hc'
    rcases h1 : cmdAt (rounds ans ports (n + d)).1 i j with _ | c1
    · rw [h1] at hc'; cases hc'
    · rw [h1] at hc'
      simp only [Option.map_some, Option.some.injEq] at hc'
      have := ih c hc hx c1 h1
      rw [← hc']
      by_cases hr : (rounds ans ports (n + d)).2 ≠ 0 ∧ n + d < 60
      · rw [if_pos hr]; exact pass_keeps _ _ _ this
      · rw [if_neg hr]; exact this

/-! ## The number of errors -/

theorem setupEvents_last (ans : Nat → Answers) (cs : List EvCmd) : ∀ (k : Nat) (r : Int) (j : Nat) (c : EvCmd), cs[j]? = some c →
    cs[j + 1]? = none → ∃ r', (setupEvents ans k cs r).2 = (tryCommand (ans (k + j)) c r').2 := by
  induction cs with
  | nil => intro k r j c h; simp at h
  | cons d cs ih =>
    intro k r j c h hn
    cases j with
    | zero =>
      simp at h hn
      subst h hn
      exact ⟨r, rfl⟩
    | succ j =>
      rw [List.getElem?_cons_succ] at h hn
      obtain ⟨r', h⟩ := ih (k + 1) (tryCommand (ans k) d r).2 j c h hn
      refine ⟨r', ?_⟩
      show (setupEvents ans (k + 1) cs (tryCommand (ans k) d r).2).2 = _
      rw [h, Nat.add_right_comm, Nat.add_assoc]

theorem setupPorts_last (ans : Nat → Nat → Answers) (ps : List (List EvCmd)) : ∀ (k : Nat) (r : Int) (i : Nat) (p : List EvCmd),
    ps[i]? = some p → ps[i + 1]? = none → (setupPorts ans k ps r).2 = (setupEvents (ans (k + i)) 0 p 0).2 := by
  induction ps with
  | nil => intro k r j c h; simp at h
  | cons d cs ih =>
    intro k r j p h hn
    cases j with
    | zero =>
      simp at h hn
      subst h hn
      rfl
    | succ j =>
      rw [List.getElem?_cons_succ] at h hn
      show (setupPorts ans (k + 1) cs (setupEvents (ans k) 0 d 0).2).2 = _
      rw [ih _ _ j p h hn, Nat.add_right_comm, Nat.add_assoc]

theorem rounds_port (ans : Nat → Nat → Nat → Answers) (ports : List (List EvCmd)) (i : Nat) (h : ports[i]? = none) (n : Nat) :
    (rounds ans ports n).1[i]? = none := by
  induction n with
  | zero => exact h
  | succ n ih =>
    rw [rounds_succ]
    by_cases hr : (rounds ans ports n).2 ≠ 0 ∧ n < 60
    · rw [if_pos hr, setupPorts_at, ih]; rfl
    · rw [if_neg hr]; exact ih

theorem rounds_cmd (ans : Nat → Nat → Nat → Answers) (ports : List (List EvCmd)) (i j : Nat) (h : cmdAt ports i j = none) (n : Nat) :
    cmdAt (rounds ans ports n).1 i j = none := by
  induction n with
  | zero => exact h
  | succ n ih => rw [cmdAt_succ, ih]; rfl

/-- A command that asks for one kind only, and does not get it, leaves an error. -/
theorem tryCommand_err {m : Nat} {c : EvCmd} (h : Inv m c) (a : Answers) (k : Kind) (hk : Asks m k) (ho : ∀ k', Asks m k' → k' = k)
    (ha : a.code k ≠ -1) (hn : ¬ k.There (pass a c).made) (r : Int) : (tryCommand a c r).2 ≠ 0 := by
  have hc : a.code k ≠ 0 := fun e => hn (pass_there h a k hk e)
  have hm : k.bit ∉ c.made := fun e => hn (Or.inl (pass_keeps _ _ _ e))
  have other : ∀ k', k' ≠ k → m.testBit (match k' with | .change => 2 | .write => 3 | .trigger => 4) = false := fun k' hne => by
    apply Bool.eq_false_iff.mpr
    intro hb
    exact hne (ho k' ((asks_bit m k').mpr hb))
  have e8 : c.mode &&& MB_ONWRITE = 0 ↔ c.mode.testBit 3 = false := (bits_write c.mode h.small).1
  have e4 : c.mode &&& MB_ONCHANGE = 0 ↔ c.mode.testBit 2 = false := (bits_change c.mode h.small).1
  have e16 : c.mode &&& MB_TRIGGER = 0 ↔ c.mode.testBit 4 = false := (bits_trigger c.mode h.small).1
  have key := (asks_bit m k).mp hk
  have hw := h.write
  have hch := h.change
  have ht := h.trigger
  have skip : ∀ (b cl : Nat) (x : Int) (r : Int), c.mode &&& b = 0 → tryEvent b cl x c r = (c, r) := fun b cl x r e => by
    unfold tryEvent; rw [if_pos e]
  have fail : ∀ (b cl : Nat) (x : Int) (r : Int), c.mode &&& b ≠ 0 → x ≠ 0 → tryEvent b cl x c r = (c, x + 1) := fun b cl x r e hx => by
    unfold tryEvent; rw [if_neg e, if_neg hx]
  unfold tryCommand
  cases k with
  | write =>
    have n8 : c.made.contains 8 = false := by simpa [Kind.bit] using hm
    have o1 := other .change (by decide)
    have o2 := other .trigger (by decide)
    dsimp only at key o1 o2
    rw [key, n8] at hw
    rw [o1] at hch
    rw [o2] at ht
    have z4 := e4.mpr hch
    have z16 := e16.mpr ht
    have z8 : c.mode &&& MB_ONWRITE ≠ 0 := fun e => by have := e8.mp e; rw [hw] at this; cases this
    have hc' : a.write ≠ 0 := hc
    rw [fail _ _ _ _ z8 hc']
    dsimp only
    rw [skip _ _ _ _ z4]
    dsimp only
    rw [skip _ _ _ _ z16]
    intro e
    have ha' : a.write ≠ -1 := ha
    have e' : a.write + 1 = 0 := e
    omega
  | change =>
    have n4 : c.made.contains 4 = false := by simpa [Kind.bit] using hm
    have o1 := other .write (by decide)
    have o2 := other .trigger (by decide)
    dsimp only at key o1 o2
    have n8 : c.made.contains 8 = false := by
      have : (8 : Nat) ∉ c.made := fun e => hn (Or.inr ⟨rfl, pass_keeps _ _ _ e⟩)
      simpa using this
    rw [key, n4, n8] at hch
    rw [o1] at hw
    rw [o2] at ht
    have z8 := e8.mpr hw
    have z16 := e16.mpr ht
    have z4 : c.mode &&& MB_ONCHANGE ≠ 0 := fun e => by have := e4.mp e; rw [hch] at this; cases this
    have hc' : a.change ≠ 0 := hc
    rw [skip _ _ _ _ z8]
    dsimp only
    rw [fail _ _ _ _ z4 hc']
    dsimp only
    rw [skip _ _ _ _ z16]
    intro e
    have ha' : a.change ≠ -1 := ha
    have e' : a.change + 1 = 0 := e
    omega
  | trigger =>
    have n16 : c.made.contains 16 = false := by simpa [Kind.bit] using hm
    have o1 := other .write (by decide)
    have o2 := other .change (by decide)
    dsimp only at key o1 o2
    rw [key, n16] at ht
    rw [o1] at hw
    rw [o2] at hch
    have z8 := e8.mpr hw
    have z4 := e4.mpr hch
    have z16 : c.mode &&& MB_TRIGGER ≠ 0 := fun e => by have := e16.mp e; rw [ht] at this; cases this
    have hc' : a.trigger ≠ 0 := hc
    rw [skip _ _ _ _ z8]
    dsimp only
    rw [skip _ _ _ _ z4]
    dsimp only
    rw [fail _ _ _ _ z16 hc']
    intro e
    have ha' : a.trigger ≠ -1 := ha
    have e' : a.trigger + 1 = 0 := e
    omega

/-- While the last command of the last port has not its event, there are errors. -/
theorem rounds_err (ans : Nat → Nat → Nat → Answers) (ports : List (List EvCmd)) (hnew : New ports) (i j : Nat) (c0 : EvCmd)
    (h0 : cmdAt ports i j = some c0) (hi : ports[i + 1]? = none) (hj : cmdAt ports i (j + 1) = none) (k : Kind) (hk : Asks c0.mode k)
    (ho : ∀ k', Asks c0.mode k' → k' = k) (hc : ∀ n, (ans n i j).code k ≠ -1) (n : Nat) :
    ∀ c, cmdAt (rounds ans ports n).1 i j = some c → ¬ k.There c.made → (rounds ans ports n).2 ≠ 0 := by
  induction n with
  | zero => intro c _ _; show (-1 : Int) ≠ 0; decide
  | succ n ih =>
    intro c hcm hnt
    have hs := cmdAt_succ ans ports n i j
    obtain ⟨c1, hc1⟩ := cmdAt_some ans ports i j h0 n
    obtain ⟨c0', h0', hinv⟩ := inv_rounds ans ports hnew n i j c1 hc1
    rw [h0] at h0'
    cases h0'
    rw [hs, hc1] at hcm
    simp only [Option.map_some, Option.some.injEq] at hcm
    rw [rounds_succ]
    by_cases hr : (rounds ans ports n).2 ≠ 0 ∧ n < 60
    · rw [if_pos hr] at hcm ⊢
      have hp : ∃ p, (rounds ans ports n).1[i]? = some p ∧ p[j]? = some c1 := by
        unfold cmdAt at hc1
        cases hp : (rounds ans ports n).1[i]? with
        | none => rw [hp] at hc1; cases hc1
        | some p => rw [hp] at hc1; exact ⟨p, rfl, hc1⟩
      obtain ⟨p, hp, hpj⟩ := hp
      have hpn : p[j + 1]? = none := by
        have := rounds_cmd ans ports i (j + 1) hj n
        unfold cmdAt at this
        rw [hp] at this
        exact this
      rw [setupPorts_last _ _ _ _ i p hp (rounds_port ans ports (i + 1) hi n)]
      obtain ⟨r', hr'⟩ := setupEvents_last (ans n (0 + i)) p 0 0 j c1 hpj hpn
      rw [hr', Nat.zero_add, Nat.zero_add]
      exact tryCommand_err hinv _ k hk ho (hc n) (hcm ▸ hnt) _
    · rw [if_neg hr] at hcm ⊢
      have hcm' : c1 = c := hcm
      exact ih c1 hc1 (hcm' ▸ hnt)

theorem setupEvents_quiet (ans : Nat → Answers) (cs : List EvCmd) : ∀ (k : Nat) (r : Int), (∀ c ∈ cs, c.mode &&& 28 = 0) →
    setupEvents ans k cs r = (cs, r) := by
  induction cs with
  | nil => intro k r _; rfl
  | cons c cs ih =>
    intro k r h
    have hc := h c (by simp)
    have sub : ∀ b, (28 : Nat) &&& b = b → c.mode &&& b = 0 := fun b hb => by
      rw [← hb, ← Nat.and_assoc, hc, Nat.zero_and]
    have ht : tryCommand (ans k) c r = (c, r) := by
      unfold tryCommand tryEvent
      simp only [if_pos (sub MB_ONWRITE (by decide)), if_pos (sub MB_ONCHANGE (by decide)), if_pos (sub MB_TRIGGER (by decide))]
    show ((tryCommand (ans k) c r).1 :: (setupEvents ans (k + 1) cs (tryCommand (ans k) c r).2).1,
      (setupEvents ans (k + 1) cs (tryCommand (ans k) c r).2).2) = _
    rw [ht, ih _ _ (fun d hd => h d (List.mem_cons_of_mem _ hd))]

/-! ## The tag that enables the commands -/

theorem enableFrom_at (bits : List Byte) (cs : List Modbus.Cmd) : ∀ (n : Nat), (n + cs.length ≤ 8 * bits.length) → ∃ out,
    enableFrom bits n cs = .ok out ∧ out.length = cs.length ∧ ∀ (j : Nat) c, cs[j]? = some c →
      out[j]? = some { c with enable := if (bits[(n + j) / 8]?.getD 0).getLsbD ((n + j) % 8) = true then 1 else 0 } := by
  induction cs with
  | nil => intro n _; exact ⟨[], rfl, rfl, by simp⟩
  | cons c cs ih =>
    intro n hn
    rw [List.length_cons] at hn
    obtain ⟨out, ho, hl, hat⟩ := ih (n + 1) (by omega)
    have hlt : n / 8 < bits.length := by omega
    have hb : bits[n / 8]? = some bits[n / 8] := List.getElem?_eq_getElem hlt
    have hbit : ∀ b : Byte, ∀ i < 8, (b &&& BitVec.ofNat 8 (2 ^ i) ≠ 0 ↔ b.getLsbD i = true) := by decide +kernel
    have key := hbit bits[n / 8] (n % 8) (by omega)
    refine ⟨{ c with enable := if bits[n / 8] &&& BitVec.ofNat 8 (2 ^ (n % 8)) ≠ 0 then 1 else 0 } :: out, ?_, by simp [hl], ?_⟩
    · unfold enableFrom
      rw [hb, ho]
      rfl
    · intro j d hd
      cases j with
      | zero =>
        simp only [List.getElem?_cons_zero, Option.some.injEq] at hd ⊢
        subst hd
        rw [Nat.add_zero, hb]
        simp only [Option.getD_some, key]
      | succ j =>
        rw [List.getElem?_cons_succ] at hd ⊢
        rw [hat j d hd, Nat.add_right_comm, Nat.add_assoc]

theorem enableBits_at (es : List Nat) : ∀ (n : Nat) (bits : List Byte), (n + es.length ≤ 8 * bits.length) → ∃ out,
    enableBits n es bits = .ok out ∧ out.length = bits.length ∧ (∀ i, i < n → (bitAt out i ↔ bitAt bits i)) ∧
    ∀ (j : Nat) e, es[j]? = some e → (bitAt out (n + j) ↔ e ≠ 0) := by
  induction es with
  | nil => intro n bits _; exact ⟨bits, rfl, rfl, fun _ _ => Iff.rfl, by simp⟩
  | cons e es ih =>
    intro n bits hn
    rw [List.length_cons] at hn
    have hlt : n / 8 < bits.length := by omega
    have hb : bits[n / 8]? = some bits[n / 8] := List.getElem?_eq_getElem hlt
    generalize hnew : (if e ≠ 0 then bits[n / 8] ||| BitVec.ofNat 8 (2 ^ (n % 8)) else bits[n / 8] &&& ~~~(BitVec.ofNat 8 (2 ^ (n % 8)))) = new
    have hbit : ∀ b : Byte, ∀ i < 8, ∀ k < 8, (b ||| BitVec.ofNat 8 (2 ^ i)).getLsbD k = (b.getLsbD k || decide (k = i)) ∧
        (b &&& ~~~(BitVec.ofNat 8 (2 ^ i))).getLsbD k = (b.getLsbD k && !decide (k = i)) := by decide +kernel
    have hk : ∀ k < 8, new.getLsbD k = if k = n % 8 then decide (e ≠ 0) else bits[n / 8].getLsbD k := by
      intro k hk
      have ⟨h1, h2⟩ := hbit bits[n / 8] (n % 8) (by omega) k hk
      rw [← hnew]
      by_cases he : e ≠ 0
      · rw [if_pos he, h1]
        by_cases hkn : k = n % 8 <;> simp [hkn, he]
      · rw [if_neg he, h2]
        by_cases hkn : k = n % 8 <;> simp [hkn, he]
    have hset : ∀ i, i ≠ n → i / 8 < bits.length → (bitAt (bits.set (n / 8) new) i ↔ bitAt bits i) := by
      intro i hi hl
      unfold bitAt
      by_cases hq : i / 8 = n / 8
      · rw [hq, List.getElem?_set_self hlt, hb]
        simp only [Option.getD_some]
        rw [hk (i % 8) (by omega), if_neg (by omega)]
      · rw [List.getElem?_set_ne (by omega)]
    obtain ⟨out, ho, hl, hlow, hat⟩ := ih (n + 1) (bits.set (n / 8) new) (by rw [List.length_set]; omega)
    refine ⟨out, ?_, by rw [hl, List.length_set], ?_, ?_⟩
    · unfold enableBits
      rw [hb]
      dsimp only
      rw [hnew, ho]
    · intro i hi
      rw [hlow i (by omega), hset i (by omega) (by omega)]
    · intro j d hd
      cases j with
      | zero =>
        simp only [List.getElem?_cons_zero, Option.some.injEq] at hd
        subst hd
        rw [Nat.add_zero, hlow n (by omega)]
        unfold bitAt
        rw [List.getElem?_set_self hlt]
        simp only [Option.getD_some]
        rw [hk (n % 8) (by omega), if_pos rfl]
        simp
      | succ j =>
        rw [List.getElem?_cons_succ] at hd
        rw [← hat j d hd, Nat.add_right_comm, Nat.add_assoc]

end Dax.MbConf
