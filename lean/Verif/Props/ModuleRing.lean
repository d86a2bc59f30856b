import Verif.Lemmas.ModuleRing
set_option autoImplicit false
/-!
# C59: the list of modules
-/
namespace Dax
open Dax.Ring

/-- **C59**.  Whatever registrations, removals and lookups are made in whatever order, every
lookup answers exactly what a table of connections answers: the module registered last for
that connection and not removed since.  No lookup runs into a dangling pointer or goes round
for ever.  (`"not an input"`: an address was proposed for a new module that is in use.) -/
theorem C59_lookup (os : List Op) :
    (∃ s, run {} os = .ok (s, (Table.run [] os).2)) ∨ run {} os = .ub "not an input" := by
  rcases run_rep os {} [] rep_init with ⟨s, h, _⟩ | h
  · exact .inl ⟨s, h⟩
  · exact .inr h

/-- Every operation on a list of modules that has come about this way succeeds, if the
allocator proposes a free address: there is always a next state. -/
theorem C59_accepts {os : List Op} {s : State} {rs : List (Option (List Byte))}
    (h : run {} os = .ok (s, rs)) (o : Op)
    (ha : ∀ fd name a inner, o = .reg fd name a inner → s.heap a = none) :
    ∃ s' r, step s o = .ok (s', r) := by
  have hr : ∃ t, Rep s t := by
    rcases run_rep os {} [] rep_init with ⟨s1, h1, h2⟩ | h1
    · rw [h1] at h
      simp only [C.ok.injEq, Prod.mk.injEq] at h
      exact ⟨_, h.1 ▸ h2⟩
    · rw [h1] at h; simp at h
  obtain ⟨t, hr⟩ := hr
  cases o with
  | reg fd name a inner =>
    rcases register_rep hr fd name a inner with ⟨s1, h1, _⟩ | h1
    · exact ⟨s1, none, by simp [step, h1]⟩
    · exfalso
      have ha := ha fd name a inner rfl
      have fin : ∀ s1, s1.heap a = none → ∀ l, Shape s1 l →
          add s1 a fd name ≠ .ub "not an input" := by
        intro s1 h2 l hl hc
        obtain ⟨s2, g1, _⟩ := add_shape hl h2 fd name
        rw [g1] at hc
        simp at hc
      rcases find_rep hr fd with ⟨s1, b, n, g1, g2, g3, _, g5, _⟩ | ⟨s1, g1, _, g3⟩
      · obtain ⟨s2, u1, ⟨l, u2, _⟩, _⟩ := unregister_rep g5 fd inner
        have : register s fd name a inner = add s2 a fd name := by
          simp [register, g1, deref, g2, g3, u1]
        rw [this] at h1
        exact fin s2 (unregister_free u1 (by rw [find_heap g1]; exact ha)) l u2 h1
      · have : register s fd name a inner = add s1 a fd name := by
          simp [register, g1]
        rw [this] at h1
        obtain ⟨⟨l, g4, _⟩, _⟩ := g3
        exact fin s1 (by rw [find_heap g1]; exact ha) l g4 h1
  | unreg fd inner =>
    obtain ⟨s1, h1, _⟩ := unregister_rep hr fd inner
    exact ⟨s1, none, by simp [step, h1]⟩
  | find fd =>
    rcases find_rep hr fd with ⟨s1, a, n, h1, h2, _⟩ | ⟨s1, h1, _⟩
    · exact ⟨s1, some n.name, by simp [step, h1, deref, h2]⟩
    · exact ⟨s1, none, by simp [step, h1]⟩

example : (run {} [.reg 5 [65] 100 [], .reg 6 [66] 200 [], .reg 7 [67] 300 [], .find 5, .find 6,
    .unreg 6 [7, 5], .find 6, .find 7, .reg 5 [68] 400 [7], .find 5, .find 7] >>=
      fun p => C.ok p.2) =
    .ok [none, none, none, some [65], some [66], none, none, some [67], none, some [68],
      some [67]] := by rfl

end Dax
