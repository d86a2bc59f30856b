import Verif.Spec.Joystick
import Verif.Lemmas.Basic
/-!
# The joystick module: C110
-/
set_option autoImplicit false
namespace Dax
open Dax.Joystick
open Dax.MasterConf (Field)

theorem index_some {i : Option Int} {n : Nat} (h : Joystick.index i = some n) : i = some (n : Int) ∧ n < 256 := by
  cases i with
  | none => cases h
  | some i =>
    simp only [Joystick.index] at h
    split at h
    · cases h
    · cases h
      refine ⟨?_, by omega⟩
      congr 1
      omega

theorem setAll_snoc (c : Joystick.Call) : ∀ (cs : List Joystick.Call) (l : Lists), setAll l (cs ++ [c]) = (setAll l cs).bind (fun l => Joystick.set l c)
  | [], l => by
    simp only [List.nil_append, setAll, Option.bind_some]
    cases Joystick.set l c <;> rfl
  | d :: cs, l => by
    simp only [List.cons_append, setAll]
    cases Joystick.set l d with
    | none => rfl
    | some l => exact setAll_snoc c cs l

theorem set_button {l l' : Lists} {i : Option Int} {f : Field} (h : Joystick.set l (.button i f) = some l') : ∃ (n : Nat) (t : Name), i = some (n : Int) ∧ n < 256 ∧ f = .text t ∧
    l' = { l with buttons := Joystick.put l.buttons n { l.buttons n with tag := some t } } := by
  simp only [Joystick.set] at h
  cases hi : Joystick.index i with
  | none => rw [hi] at h; cases h
  | some n =>
    cases f with
    | nil => rw [hi] at h; cases h
    | other => rw [hi] at h; cases h
    | text t =>
      rw [hi] at h
      cases h
      obtain ⟨h1, h2⟩ := index_some hi
      exact ⟨n, t, h1, h2, rfl, rfl⟩

theorem set_axis {l l' : Lists} {i : Option Int} {f : Field} {o s : Option Int} (h : Joystick.set l (.axis i f o s) = some l') : ∃ (n : Nat) (t : Name) (o' s' : Int), i = some (n : Int) ∧ n < 256 ∧ f = .text t ∧ o = some o' ∧ s = some s' ∧
    l' = { l with axes := Joystick.put l.axes n { l.axes n with tag := some t, offset := int32 o', scale := s' } } := by
  simp only [Joystick.set] at h
  cases hi : Joystick.index i with
  | none => rw [hi] at h; cases h
  | some n =>
    cases f with
    | nil => rw [hi] at h; cases h
    | other => rw [hi] at h; cases h
    | text t =>
      cases o with
      | none => rw [hi] at h; cases h
      | some o =>
        cases s with
        | none => rw [hi] at h; cases h
        | some s =>
          rw [hi] at h
          cases h
          obtain ⟨h1, h2⟩ := index_some hi
          exact ⟨n, t, o, s, h1, h2, rfl, rfl, rfl, rfl⟩

theorem button_tag {n : Nat} {t : Name} {cs : List Joystick.Call} (hb : ButtonTag n cs t) : ∀ {l : Lists}, setAll start cs = some l → (l.buttons n).tag = some t := by
  induction hb with
  | @last cs t =>
    intro l h
    rw [setAll_snoc] at h
    obtain ⟨l0, -, h⟩ := Option.bind_eq_some_iff.mp h
    obtain ⟨m, t', h1, -, h3, rfl⟩ := set_button h
    cases h3
    have : m = n := by simp only [Option.some.injEq] at h1; omega
    subst this
    simp [Joystick.put]
  | @before cs c t _ hc ih =>
    intro l h
    rw [setAll_snoc] at h
    obtain ⟨l0, h0, h⟩ := Option.bind_eq_some_iff.mp h
    have h1 := ih h0
    cases c with
    | axis i f o s =>
      obtain ⟨m, t', o', s', -, -, -, -, -, rfl⟩ := set_axis h
      exact h1
    | button i f =>
      obtain ⟨m, t', rfl, -, -, rfl⟩ := set_button h
      have : n ≠ m := by rintro rfl; exact hc f rfl
      simp only [Joystick.put]
      rw [if_neg this]
      exact h1

theorem axis_tag {n : Nat} {t : Name} {o s : Int} {cs : List Joystick.Call} (hb : AxisTag n cs t o s) : ∀ {l : Lists}, setAll start cs = some l →
    (l.axes n).tag = some t ∧ (l.axes n).offset = int32 o ∧ (l.axes n).scale = s := by
  induction hb with
  | @last cs t o s =>
    intro l h
    rw [setAll_snoc] at h
    obtain ⟨l0, -, h⟩ := Option.bind_eq_some_iff.mp h
    obtain ⟨m, t', o', s', h1, -, h3, h4, h5, rfl⟩ := set_axis h
    cases h3
    cases h4
    cases h5
    have : m = n := by simp only [Option.some.injEq] at h1; omega
    subst this
    simp [Joystick.put]
  | @before cs c t o s _ hc ih =>
    intro l h
    rw [setAll_snoc] at h
    obtain ⟨l0, h0, h⟩ := Option.bind_eq_some_iff.mp h
    have h1 := ih h0
    cases c with
    | axis i f o' s' =>
      obtain ⟨m, t', o'', s'', rfl, -, -, -, -, rfl⟩ := set_axis h
      have : n ≠ m := by rintro rfl; exact hc f o' s' rfl
      simp only [Joystick.put]
      rw [if_neg this]
      exact h1
    | button i f =>
      obtain ⟨m, t', -, -, -, rfl⟩ := set_button h
      exact h1

/-- **C110**, buttons: pressing or releasing one writes its tag, that of the last call for its number, and nothing else. -/
theorem C110_button {cs : List Joystick.Call} {l : Lists} {n k : Nat} {t : Name} {real bool : Name → Option Nat} (h : setAll start cs = some l) (ht : ButtonTag n cs t) (hk : bool t = some k) (h0 : k ≠ 0) (v : Int) :
    Joystick.event (addTags real bool l) ⟨1, n, v⟩ = .ok (some (.bool k (BitVec.ofInt 8 v))) := by
  have h1 := button_tag ht h
  unfold Joystick.event addTags
  simp [h1, hk, h0]

/-- **C110**, axes: moving one writes its tag, that of the last call for its number; the value is that of the transfer function only if sum and product are the same.

Missing: other values (`C110_scale`). -/
theorem C110_axis_partial {cs : List Joystick.Call} {l : Lists} {n k : Nat} {t : Name} {o s : Int} {real bool : Name → Option Nat} (h : setAll start cs = some l) (ht : AxisTag n cs t o s) (hk : real t = some k) (h0 : k ≠ 0)
    {v : Int} (hv : -32768 ≤ v ∧ v < 32768) (ho : -2147450880 ≤ o ∧ o ≤ 2147450880) :
    ∃ r, Joystick.event (addTags real bool l) ⟨2, n, v⟩ = .ok (some (.real k r)) ∧ (r = transfer v o s ↔ (v + o) + s = (v + o) * s) := by
  obtain ⟨h1, h2, h3⟩ := axis_tag ht h
  have e : int32 o = o := by unfold int32; omega
  rw [e] at h2
  refine ⟨(v + o) + s, ?_, Iff.rfl⟩
  unfold Joystick.event addTags
  simp only [h1, h2, h3, hk, Option.bind_some, Option.getD_some]
  rw [if_neg (by decide), if_pos True.intro, if_pos h0, if_neg (by omega)]

/-- **C110** fails: the scale is added, not multiplied. -/
theorem C110_scale : ∃ l, setAll start [.axis (some 0) (.text (nm "X")) (some 0) (some 2)] = some l ∧
    Joystick.event (addTags (fun _ => some 16) (fun _ => none) l) ⟨2, 0, 100⟩ = .ok (some (.real 16 102)) ∧ transfer 100 0 2 = 200 := ⟨_, rfl, rfl, rfl⟩

/-- **C110** fails: with a large offset moving the axis overflows, and one that an `int` cannot hold is changed. -/
theorem C110_offset : (∃ l w, setAll start [.axis (some 0) (.text (nm "X")) (some 2147483647) (some 1)] = some l ∧ Joystick.event (addTags (fun _ => some 16) (fun _ => none) l) ⟨2, 0, 1⟩ = .ub w) ∧
    ∃ l, setAll start [.axis (some 0) (.text (nm "X")) (some 4294967296) (some 1)] = some l ∧ (l.axes 0).offset = 0 := ⟨⟨_, _, rfl, rfl⟩, ⟨_, rfl, rfl⟩⟩

theorem setAll_unset (n : Nat) : ∀ (cs : List Joystick.Call) {l l' : Lists}, setAll l cs = some l' →
    ((∀ f, Joystick.Call.button (some n) f ∉ cs) → (l'.buttons n).tag = (l.buttons n).tag) ∧ ((∀ f o s, Joystick.Call.axis (some n) f o s ∉ cs) → (l'.axes n).tag = (l.axes n).tag)
  | [], l, l', h => by cases h; exact ⟨fun _ => rfl, fun _ => rfl⟩
  | c :: cs, l, l', h => by
    simp only [setAll] at h
    cases hs : Joystick.set l c with
    | none => rw [hs] at h; cases h
    | some l1 =>
      rw [hs] at h
      obtain ⟨h1, h2⟩ := setAll_unset n cs h
      refine ⟨fun q => (h1 (fun f hf => q f (List.mem_cons_of_mem _ hf))).trans ?_, fun q => (h2 (fun f o s hf => q f o s (List.mem_cons_of_mem _ hf))).trans ?_⟩
      · cases c with
        | axis i f o s => obtain ⟨m, t', o', s', -, -, -, -, -, rfl⟩ := set_axis hs; rfl
        | button i f =>
          obtain ⟨m, t', rfl, -, -, rfl⟩ := set_button hs
          have : n ≠ m := by rintro rfl; exact q f List.mem_cons_self
          simp only [Joystick.put]
          rw [if_neg this]
      · cases c with
        | button i f => obtain ⟨m, t', -, -, -, rfl⟩ := set_button hs; rfl
        | axis i f o s =>
          obtain ⟨m, t', o', s', rfl, -, -, -, -, rfl⟩ := set_axis hs
          have : n ≠ m := by rintro rfl; exact q f o s List.mem_cons_self
          simp only [Joystick.put]
          rw [if_neg this]

/-- **C110**, what is not configured, and every other kind of event, writes nothing. -/
theorem C110_others {cs : List Joystick.Call} {l : Lists} {real bool : Name → Option Nat} (h : setAll start cs = some l) (n : Nat) (v : Int) :
    ((∀ f, Joystick.Call.button (some n) f ∉ cs) → Joystick.event (addTags real bool l) ⟨1, n, v⟩ = .ok none) ∧
    ((∀ f o s, Joystick.Call.axis (some n) f o s ∉ cs) → Joystick.event (addTags real bool l) ⟨2, n, v⟩ = .ok none) ∧
    ∀ k, k ≠ 1 → k ≠ 2 → Joystick.event (addTags real bool l) ⟨k, n, v⟩ = .ok none := by
  obtain ⟨h1, h2⟩ := setAll_unset n cs h
  refine ⟨fun q => ?_, fun q => ?_, fun k k1 k2 => ?_⟩
  · have : (l.buttons n).tag = none := h1 q
    unfold Joystick.event addTags
    simp [this]
  · have : (l.axes n).tag = none := h2 q
    unfold Joystick.event addTags
    simp [this]
  · unfold Joystick.event
    rw [if_neg k1, if_neg k2]

/-- **C110**, a configuration is accepted exactly if each call has a number from 0 to 255, a name, and for an axis offset and scale. -/
theorem C110_accepted : ∀ (cs : List Joystick.Call) (l : Lists), (∃ l', setAll l cs = some l') ↔
    ∀ c ∈ cs, (∃ (n : Nat) (t : Name), n < 256 ∧ c = .button (some n) (.text t)) ∨ ∃ (n : Nat) (t : Name) (o s : Int), n < 256 ∧ c = .axis (some n) (.text t) (some o) (some s)
  | [], l => ⟨fun _ c hc => absurd hc (by simp), fun _ => ⟨l, rfl⟩⟩
  | c :: cs, l => by
    have hi : ∀ n : Nat, n < 256 → Joystick.index (some (n : Int)) = some n := by
      intro n hn
      simp only [Joystick.index]
      rw [if_neg (by omega)]
      rfl
    constructor
    · rintro ⟨l', h⟩ x hx
      simp only [setAll] at h
      cases hs : Joystick.set l c with
      | none => rw [hs] at h; cases h
      | some l1 =>
        rw [hs] at h
        rcases List.mem_cons.mp hx with rfl | hx
        · cases x with
          | axis i f o s =>
            obtain ⟨m, t', o', s', rfl, hm, rfl, rfl, rfl, -⟩ := set_axis hs
            exact .inr ⟨m, t', o', s', hm, rfl⟩
          | button i f =>
            obtain ⟨m, t', rfl, hm, rfl, -⟩ := set_button hs
            exact .inl ⟨m, t', hm, rfl⟩
        · exact (C110_accepted cs l1).mp ⟨l', h⟩ x hx
    · intro hall
      simp only [setAll]
      rcases hall c List.mem_cons_self with ⟨n, t, hn, rfl⟩ | ⟨n, t, o, s, hn, rfl⟩
      · simp only [Joystick.set, hi n hn, Field.str]
        exact (C110_accepted cs _).mpr (fun x hx => hall x (List.mem_cons_of_mem _ hx))
      · simp only [Joystick.set, hi n hn, Field.str]
        exact (C110_accepted cs _).mpr (fun x hx => hall x (List.mem_cons_of_mem _ hx))

/-- Instance of the hypotheses: two calls for the same button, the second counts; an axis between them. -/
example : ∃ l, setAll start [.button (some 3) (.text (nm "A")), .axis (some 3) (.text (nm "X")) (some 5) (some 0), .button (some 3) (.text (nm "B"))] = some l ∧
    ButtonTag 3 [.button (some 3) (.text (nm "A")), .axis (some 3) (.text (nm "X")) (some 5) (some 0), .button (some 3) (.text (nm "B"))] (nm "B") ∧
    AxisTag 3 [.button (some 3) (.text (nm "A")), .axis (some 3) (.text (nm "X")) (some 5) (some 0), .button (some 3) (.text (nm "B"))] (nm "X") 5 0 :=
  ⟨_, rfl, .last (cs := [_, _]), .before (cs := [_, _]) (.last (cs := [_])) (fun _ _ _ h => by cases h)⟩

end Dax
