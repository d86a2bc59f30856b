import Verif.Props.LuaConf
/-!
# Setting up the triggers of Lua scripts: C104
-/
set_option autoImplicit false
namespace Dax
open Dax.LuaConf
open Conv

/-! ## Lemmas -/

theorem cast_holds {n : Nat} {sg : Bool} {v : Int} {u b : List Byte} (h : LuaConf.cast n sg v u = .ok b) :
    (if sg then -(2 ^ (8 * n - 1) : Int) ≤ v ∧ v < 2 ^ (8 * n - 1) else 0 ≤ v ∧ v < 2 ^ (8 * n)) ∧ Holds b n 0 v := by
  unfold LuaConf.cast at h
  by_cases h1 : (if sg then -(2 ^ (8 * n - 1) : Int) ≤ v ∧ v < 2 ^ (8 * n - 1) else 0 ≤ v ∧ v < 2 ^ (8 * n))
  · rw [if_pos h1] at h
    injection h with h
    refine ⟨h1, ?_⟩
    rw [← h]
    constructor
    · rw [List.length_append, intLE_length]; omega
    · rw [Nat.mul_zero, List.drop_zero, List.take_left' (intLE_length n v), leNat_intLE]
  · rw [if_neg h1] at h; cases h

theorem luaConvert_holds {flt dbl : Int → List Byte} {type : Nat} {v : Int} {u b : List Byte} (h : LuaConf.convert flt dbl type v u = .ok b) {n : Nat} {lo hi : Int} (hi' : IntType type n lo hi) (ht : type ≠ DAX_TIME) :
    lo ≤ v ∧ v ≤ hi ∧ Holds b n 0 v := by
  cases hi' with
  | time => exact absurd rfl ht
  | byte => obtain ⟨h1, h2⟩ := cast_holds (n := 1) (sg := false) h; exact ⟨h1.1, by have := h1.2; simp at this; omega, h2⟩
  | sint => obtain ⟨h1, h2⟩ := cast_holds (n := 1) (sg := true) h; simp at h1; exact ⟨by omega, by omega, h2⟩
  | char => obtain ⟨h1, h2⟩ := cast_holds (n := 1) (sg := true) h; simp at h1; exact ⟨by omega, by omega, h2⟩
  | word => obtain ⟨h1, h2⟩ := cast_holds (n := 2) (sg := false) h; simp at h1; exact ⟨by omega, by omega, h2⟩
  | uint => obtain ⟨h1, h2⟩ := cast_holds (n := 2) (sg := false) h; simp at h1; exact ⟨by omega, by omega, h2⟩
  | int => obtain ⟨h1, h2⟩ := cast_holds (n := 2) (sg := true) h; simp at h1; exact ⟨by omega, by omega, h2⟩
  | dword => obtain ⟨h1, h2⟩ := cast_holds (n := 4) (sg := false) h; simp at h1; exact ⟨by omega, by omega, h2⟩
  | udint => obtain ⟨h1, h2⟩ := cast_holds (n := 4) (sg := false) h; simp at h1; exact ⟨by omega, by omega, h2⟩
  | dint => obtain ⟨h1, h2⟩ := cast_holds (n := 4) (sg := true) h; simp at h1; exact ⟨by omega, by omega, h2⟩
  | lword => obtain ⟨h1, h2⟩ := cast_holds (n := 8) (sg := false) h; simp at h1; exact ⟨by omega, by omega, h2⟩
  | ulint => obtain ⟨h1, h2⟩ := cast_holds (n := 8) (sg := false) h; simp at h1; exact ⟨by omega, by omega, h2⟩
  | lint => obtain ⟨h1, h2⟩ := cast_holds (n := 8) (sg := true) h; simp at h1; exact ⟨by omega, by omega, h2⟩

/-- The state of a trigger that was `s₀`: not set up, or set up with one event, which needs a nonzero size; or lost. -/
structure Follows (s₀ s : LuaConf.Slot) : Prop where
  trig : s.trig = s₀.trig
  script : s.script = s₀.script
  effect : s.effect = s₀.effect
  zero : s.size = 0 → s.added = []
  state : s.added = [] ∨ ∃ type e, s.added = [e] ∧ EventFor s₀.trig s₀.script s₀.effect type e

/-- One trigger in one round. -/
theorem setOne_follows {flt dbl : Int → List Byte} {u : List Byte} {s₀ s s' : LuaConf.Slot} {a : Ans} {f : Bool} (h : setOne flt dbl u s a = .ok (s', f)) (hf : Follows s₀ s) (hsz : ∀ n t, a.handle = some (n, t) → n ≠ 0) :
    Follows s₀ s' := by
  unfold setOne at h
  by_cases h0 : s.size = 0
  · rw [if_pos h0] at h
    cases ha : a.handle with
    | none => rw [ha] at h; cases h; exact hf
    | some p =>
      obtain ⟨n, t⟩ := p
      rw [ha] at h
      have hn := hsz n t ha
      dsimp only at h
      cases hc : LuaConf.convert flt dbl t s.trig.value u with
      | ub y => rw [hc] at h; cases h
      | ok v =>
        rw [hc, C.ok_bind] at h
        by_cases hd : a.added = true
        · rw [if_pos hd] at h
          cases h
          refine ⟨hf.trig, hf.script, hf.effect, fun h9 => absurd h9 hn, .inr ⟨t, ⟨s.trig.tag, s.trig.count, s.trig.type, v, s.script, s.effect⟩, by rw [hf.zero h0]; rfl, ?_⟩⟩
          refine ⟨by rw [hf.trig], by rw [hf.trig], by rw [hf.trig], hf.script, hf.effect, ?_⟩
          intro k lo hi hi' ht
          rw [hf.trig] at hc
          exact luaConvert_holds hc hi' ht
        · rw [if_neg hd] at h
          cases h
          exact ⟨hf.trig, hf.script, hf.effect, fun _ => hf.zero h0, hf.state⟩
  · rw [if_neg h0] at h
    cases h
    exact hf

/-- Lists that agree place by place. -/
inductive All2 (R : LuaConf.Slot → LuaConf.Slot → Prop) : List LuaConf.Slot → List LuaConf.Slot → Prop where
  | nil : All2 R [] []
  | cons {x y : LuaConf.Slot} {l m : List LuaConf.Slot} : R x y → All2 R l m → All2 R (x :: l) (y :: m)

theorem All2.get {R : LuaConf.Slot → LuaConf.Slot → Prop} {l m : List LuaConf.Slot} (h : All2 R l m) : ∀ {x}, x ∈ l → ∃ y ∈ m, R x y := by
  induction h with
  | nil => intro x hx; cases hx
  | cons hr _ ih =>
    intro z hz
    rcases List.mem_cons.1 hz with rfl | hz
    · exact ⟨_, List.mem_cons_self, hr⟩
    · obtain ⟨y, hy, hry⟩ := ih hz
      exact ⟨y, List.mem_cons_of_mem _ hy, hry⟩

theorem All2.back {R : LuaConf.Slot → LuaConf.Slot → Prop} {l m : List LuaConf.Slot} (h : All2 R l m) : ∀ {y}, y ∈ m → ∃ x ∈ l, R x y := by
  induction h with
  | nil => intro x hx; cases hx
  | cons hr _ ih =>
    intro z hz
    rcases List.mem_cons.1 hz with rfl | hz
    · exact ⟨_, List.mem_cons_self, hr⟩
    · obtain ⟨y, hy, hry⟩ := ih hz
      exact ⟨y, List.mem_cons_of_mem _ hy, hry⟩

theorem round_cons {flt dbl : Int → List Byte} {u : List Byte} {ans : Nat → Ans} {n : Nat} {s : LuaConf.Slot} {ss r : List LuaConf.Slot} {f : Bool} (h : LuaConf.round flt dbl u ans n (s :: ss) = .ok (r, f)) :
    ∃ s' f1 r' f2, setOne flt dbl u s (ans n) = .ok (s', f1) ∧ LuaConf.round flt dbl u ans (n + 1) ss = .ok (r', f2) ∧ r = s' :: r' ∧ f = (f1 || f2) := by
  unfold LuaConf.round at h
  cases h1 : setOne flt dbl u s (ans n) with
  | ub y => rw [h1] at h; cases h
  | ok p =>
    cases h2 : LuaConf.round flt dbl u ans (n + 1) ss with
    | ub y => rw [h1, h2] at h; cases h
    | ok q =>
      rw [h1, h2] at h
      cases h
      exact ⟨p.1, p.2, q.1, q.2, rfl, rfl, rfl, rfl⟩

/-- A relation that one trigger keeps is kept by a round. -/
theorem round_all {flt dbl : Int → List Byte} {u : List Byte} {ans : Nat → Ans} {R : LuaConf.Slot → LuaConf.Slot → Prop}
    (hR : ∀ s₀ s s' n f, R s₀ s → setOne flt dbl u s (ans n) = .ok (s', f) → R s₀ s') {l₀ l : List LuaConf.Slot} (ha : All2 R l₀ l) :
    ∀ {n : Nat} {r : List LuaConf.Slot} {f : Bool}, LuaConf.round flt dbl u ans n l = .ok (r, f) → All2 R l₀ r := by
  induction ha with
  | nil => intro n r f h; cases h; exact .nil
  | cons hr _ ih =>
    intro n r f h
    obtain ⟨s', f1, r', f2, h1, h2, rfl, -⟩ := round_cons h
    exact .cons (hR _ _ _ _ _ hr h1) (ih h2)

theorem rounds_succ {flt dbl : Int → List Byte} {u : List Byte} {ans : Nat → Nat → Ans} {k : Nat} {l r : List LuaConf.Slot} {f : Bool} (h : rounds flt dbl u ans (k + 1) l = .ok (r, f)) :
    rounds flt dbl u ans k l = .ok (r, true) ∧ f = true ∨ ∃ l1 g, rounds flt dbl u ans k l = .ok (l1, false) ∧ LuaConf.round flt dbl u (ans k) 0 l1 = .ok (r, g) ∧ f = !g := by
  unfold rounds at h
  cases h1 : rounds flt dbl u ans k l with
  | ub y => rw [h1] at h; cases h
  | ok p =>
    obtain ⟨l1, e⟩ := p
    rw [h1, C.ok_bind] at h
    cases e with
    | true => rw [if_pos rfl] at h; cases h; exact .inl ⟨rfl, rfl⟩
    | false =>
      rw [if_neg (by simp)] at h
      cases h2 : LuaConf.round flt dbl u (ans k) 0 l1 with
      | ub y => rw [h2] at h; cases h
      | ok q => rw [h2] at h; cases h; exact .inr ⟨l1, q.2, rfl, h2, rfl⟩

theorem rounds_all {flt dbl : Int → List Byte} {u : List Byte} {ans : Nat → Nat → Ans} {R : LuaConf.Slot → LuaConf.Slot → Prop} (hR : ∀ s₀ s s' k n f, R s₀ s → setOne flt dbl u s (ans k n) = .ok (s', f) → R s₀ s')
    {l : List LuaConf.Slot} (ha : All2 R l l) : ∀ {k : Nat} {r : List LuaConf.Slot} {f : Bool}, rounds flt dbl u ans k l = .ok (r, f) → All2 R l r := by
  intro k
  induction k with
  | zero => intro r f h; cases h; exact ha
  | succ k ih =>
    intro r f h
    rcases rounds_succ h with ⟨h1, -⟩ | ⟨l1, g, h1, h2, -⟩
    · exact ih h1
    · exact round_all (fun s₀ s s' n f hr h => hR s₀ s s' k n f hr h) (ih h1) h2

/-- The triggers of scripts are not set up at first. -/
theorem slots_fresh : ∀ (l : List LuaConf.Script) (n : Nat), ∀ s ∈ slots n l, s.size = 0 ∧ s.added = [] := by
  intro l
  induction l with
  | nil => intro n s hs; cases hs
  | cons x l ih =>
    intro n s hs
    rcases List.mem_append.1 hs with h | h
    · unfold slotsOf at h
      rcases List.mem_append.1 h with h | h
      · rcases List.mem_append.1 h with h | h
        · cases hx : x.run with
          | none => rw [hx] at h; cases h
          | some t => rw [hx] at h; cases List.mem_singleton.1 h; exact ⟨rfl, rfl⟩
        · cases hx : x.enable with
          | none => rw [hx] at h; cases h
          | some t => rw [hx] at h; cases List.mem_singleton.1 h; exact ⟨rfl, rfl⟩
      · cases hx : x.disable with
        | none => rw [hx] at h; cases h
        | some t => rw [hx] at h; cases List.mem_singleton.1 h; exact ⟨rfl, rfl⟩
    · exact ih (n + 1) s h

/-- Every trigger of every script is among them. -/
theorem slots_mem : ∀ (l : List LuaConf.Script) (n i : Nat) (s : LuaConf.Script) (e : Effect) (t : LuaConf.Trigger), l[i]? = some s → s.trigger e = some t →
    ({ trig := t, script := n + i, effect := e } : LuaConf.Slot) ∈ slots n l := by
  intro l
  induction l with
  | nil => intro n i s e t h; cases h
  | cons x l ih =>
    intro n i s e t h ht
    cases i with
    | zero =>
      cases h
      refine List.mem_append_left _ ?_
      unfold slotsOf
      cases e with
      | run => rw [show x.run = some t from ht]; exact List.mem_append_left _ (List.mem_append_left _ List.mem_cons_self)
      | enable => rw [show x.enable = some t from ht]; exact List.mem_append_left _ (List.mem_append_right _ List.mem_cons_self)
      | disable => rw [show x.disable = some t from ht]; exact List.mem_append_right _ List.mem_cons_self
    | succ i =>
      refine List.mem_append_right _ ?_
      rw [show n + (i + 1) = (n + 1) + i by omega]
      exact ih (n + 1) i s e t h ht

theorem all2_refl {l : List LuaConf.Slot} (h : ∀ s ∈ l, s.size = 0 ∧ s.added = []) : All2 Follows l l := by
  induction l with
  | nil => exact .nil
  | cons x l ih =>
    exact .cons ⟨rfl, rfl, rfl, fun _ => (h x List.mem_cons_self).2, .inl (h x List.mem_cons_self).2⟩ (ih fun s hs => h s (List.mem_cons_of_mem _ hs))

/-! ## C104 -/

/-- The library gives handles of a nonzero size. -/
def Sized (ans : Nat → Nat → Ans) : Prop := ∀ k n size type, (ans k n).handle = some (size, type) → size ≠ 0

/-- **C104**, at most once: whatever the server answers and however long it takes, each trigger of each script has at most one event, of its tag, type and value and for its script. -/
theorem C104_once {flt dbl : Int → List Byte} {u : List Byte} {ans : Nat → Nat → Ans} (hs : Sized ans) {l : List LuaConf.Script} {k : Nat} {r : List LuaConf.Slot} {f : Bool} (h : rounds flt dbl u ans k (slots 0 l) = .ok (r, f)) :
    ∀ x ∈ r, x.added = [] ∨ ∃ type e, x.added = [e] ∧ EventFor x.trig x.script x.effect type e := by
  intro x hx
  obtain ⟨y, -, hy⟩ := (rounds_all (R := Follows) (fun s₀ s s' k n f hr h => setOne_follows h hr (hs k n)) (all2_refl (slots_fresh l 0)) h).back hx
  rw [hy.trig, hy.script, hy.effect]
  exact hy.state

/-- What the last round leaves if none failed. -/
theorem round_done {flt dbl : Int → List Byte} {u : List Byte} {ans : Nat → Ans} (hs : ∀ n size type, (ans n).handle = some (size, type) → size ≠ 0) : ∀ {l r : List LuaConf.Slot} {n : Nat}, LuaConf.round flt dbl u ans n l = .ok (r, false) →
    ∀ x ∈ r, x.size ≠ 0 := by
  intro l
  induction l with
  | nil => intro r n h x hx; cases h; cases hx
  | cons s l ih =>
    intro r n h x hx
    obtain ⟨s', f1, r', f2, h1, h2, rfl, h3⟩ := round_cons h
    obtain ⟨rfl, rfl⟩ : f1 = false ∧ f2 = false := by cases f1 <;> cases f2 <;> first | exact ⟨rfl, rfl⟩ | cases h3
    rcases List.mem_cons.1 hx with rfl | hx
    · unfold setOne at h1
      by_cases h0 : s.size = 0
      · rw [if_pos h0] at h1
        cases ha : (ans n).handle with
        | none => rw [ha] at h1; cases h1
        | some p =>
          obtain ⟨z, t⟩ := p
          rw [ha] at h1
          dsimp only at h1
          cases hc : LuaConf.convert flt dbl t s.trig.value u with
          | ub y => rw [hc] at h1; cases h1
          | ok v =>
            rw [hc, C.ok_bind] at h1
            by_cases hd : (ans n).added = true
            · rw [if_pos hd] at h1; cases h1; exact hs n z t ha
            · rw [if_neg hd] at h1; cases h1
      · rw [if_neg h0] at h1; cases h1; exact h0
    · exact ih h2 x hx

theorem rounds_done {flt dbl : Int → List Byte} {u : List Byte} {ans : Nat → Nat → Ans} (hs : Sized ans) : ∀ {k : Nat} {l r : List LuaConf.Slot}, rounds flt dbl u ans k l = .ok (r, true) → ∀ x ∈ r, x.size ≠ 0 := by
  intro k
  induction k with
  | zero => intro l r h; cases h
  | succ k ih =>
    intro l r h
    rcases rounds_succ h with ⟨h1, -⟩ | ⟨l1, g, -, h2, h3⟩
    · exact ih h1
    · cases g with
      | true => cases h3
      | false => exact round_done (hs k) h2

/-- A trigger that is set up has its event, if adding never failed. -/
def Kept2 (s₀ s : LuaConf.Slot) : Prop := Follows s₀ s ∧ (s.size ≠ 0 → s.added ≠ [])

/-- **C104**: when the loop has ended, each trigger of each script has exactly one event, of its tag, type and value and for its script.

Missing: executions in which the server refuses an event once (`C104_lost`), tags of type TIME (`C104_time`), values outside of the type (`C104_range`). -/
theorem C104_set_partial {flt dbl : Int → List Byte} {u : List Byte} {ans : Nat → Nat → Ans} (hs : Sized ans) (hadd : ∀ k n, (ans k n).handle ≠ none → (ans k n).added = true) {l : List LuaConf.Script} {k : Nat} {r : List LuaConf.Slot}
    (h : rounds flt dbl u ans k (slots 0 l) = .ok (r, true)) {i : Nat} {s : LuaConf.Script} {e : Effect} {t : LuaConf.Trigger} (hi : l[i]? = some s) (ht : s.trigger e = some t) :
    ∃ x ∈ r, ∃ type ev, x.added = [ev] ∧ EventFor t i e type ev := by
  have hstep : ∀ s₀ s s' k n f, Kept2 s₀ s → setOne flt dbl u s (ans k n) = .ok (s', f) → Kept2 s₀ s' := by
    intro s₀ s s' k n f hk h1
    refine ⟨setOne_follows h1 hk.1 (hs k n), ?_⟩
    unfold setOne at h1
    by_cases h0 : s.size = 0
    · rw [if_pos h0] at h1
      cases ha : (ans k n).handle with
      | none => rw [ha] at h1; cases h1; exact hk.2
      | some p =>
        obtain ⟨z, ty⟩ := p
        rw [ha] at h1
        dsimp only at h1
        cases hc : LuaConf.convert flt dbl ty s.trig.value u with
        | ub y => rw [hc] at h1; cases h1
        | ok v =>
          rw [hc, C.ok_bind, if_pos (hadd k n (by rw [ha]; simp))] at h1
          cases h1
          intro _
          simp
    · rw [if_neg h0] at h1
      cases h1
      exact hk.2
  have hrefl : ∀ m : List LuaConf.Slot, (∀ s ∈ m, s.size = 0 ∧ s.added = []) → All2 Kept2 m m := by
    intro m hm
    induction m with
    | nil => exact .nil
    | cons x m ih =>
      have hx := hm x List.mem_cons_self
      exact .cons ⟨⟨rfl, rfl, rfl, fun _ => hx.2, .inl hx.2⟩, fun h9 => absurd hx.1 h9⟩ (ih fun s hs => hm s (List.mem_cons_of_mem _ hs))
  obtain ⟨x, hx, hk⟩ := (rounds_all hstep (hrefl _ (slots_fresh l 0)) h).get (slots_mem l 0 i s e t hi ht)
  refine ⟨x, hx, ?_⟩
  rcases hk.1.state with h0 | ⟨type, ev, h1, h2⟩
  · exact absurd h0 (hk.2 (rounds_done hs h x hx))
  · rw [Nat.zero_add] at h2
    exact ⟨type, ev, h1, h2⟩

/-- **C104**: once the server answers with all tags and adds all events in a round, the loop has ended. -/
theorem C104_ends {flt dbl : Int → List Byte} {u : List Byte} {ans : Nat → Nat → Ans} {k : Nat} (hk : ∀ n, (ans k n).handle ≠ none ∧ (ans k n).added = true) {l r : List LuaConf.Slot} {f : Bool}
    (h : rounds flt dbl u ans (k + 1) l = .ok (r, f)) : f = true := by
  have hone : ∀ (m r : List LuaConf.Slot) (n : Nat) (g : Bool), LuaConf.round flt dbl u (ans k) n m = .ok (r, g) → g = false := by
    intro m
    induction m with
    | nil => intro r n g h; cases h; rfl
    | cons s m ih =>
      intro r n g h
      obtain ⟨s', f1, r', f2, h1, h2, -, rfl⟩ := round_cons h
      rw [ih _ _ _ h2, Bool.or_false]
      unfold setOne at h1
      by_cases h0 : s.size = 0
      · rw [if_pos h0] at h1
        cases ha : (ans k n).handle with
        | none => exact absurd ha (hk n).1
        | some p =>
          rw [ha] at h1
          dsimp only at h1
          cases hc : LuaConf.convert flt dbl p.2 s.trig.value u with
          | ub y => rw [hc] at h1; cases h1
          | ok v => rw [hc, C.ok_bind, if_pos (hk n).2] at h1; cases h1; rfl
      · rw [if_neg h0] at h1; cases h1; rfl
  rcases rounds_succ h with ⟨-, h1⟩ | ⟨l1, g, -, h2, rfl⟩
  · exact h1
  · rw [hone _ _ _ _ h2]; rfl

/-- **C104** fails: if the server has the tag but refuses the event once, the trigger is never tried again; the next round ends the loop, with the message that all events were created. -/
theorem C104_lost {flt dbl : Int → List Byte} {u : List Byte} {ans : Nat → Nat → Ans} (x : LuaConf.Slot) (h0 : x.size = 0) (hx : x.added = []) {z ty : Nat} {v : List Byte} (hz : z ≠ 0) (ha : ans 0 0 = ⟨some (z, ty), false⟩)
    (hv : LuaConf.convert flt dbl ty x.trig.value u = .ok v) (k : Nat) : ∃ y, rounds flt dbl u ans (k + 2) [x] = .ok ([y], true) ∧ y.added = [] := by
  have h1 : rounds flt dbl u ans 1 [x] = .ok ([{ x with size := z }], false) := by
    simp [rounds, LuaConf.round, setOne, h0, ha, hv]
  refine ⟨{ x with size := z }, ?_, hx⟩
  induction k with
  | zero =>
    show (rounds flt dbl u ans 1 [x] >>= _) = _
    rw [h1]
    simp [LuaConf.round, setOne, hz]
  | succ k ih =>
    show (rounds flt dbl u ans (k + 2) [x] >>= _) = _
    rw [ih]
    rfl

/-- **C104** fails: of the value for a tag of type TIME only four bytes are set; the others are what was in the memory before. -/
theorem C104_time {flt dbl : Int → List Byte} {u b : List Byte} {v : Int} (h : LuaConf.convert flt dbl DAX_TIME v u = .ok b) : b.drop 4 = u.drop 4 := by
  have h' : LuaConf.cast 4 false v u = .ok b := h
  unfold LuaConf.cast at h'
  by_cases hr : if false = true then -(2 ^ (8 * 4 - 1) : Int) ≤ v ∧ v < 2 ^ (8 * 4 - 1) else 0 ≤ v ∧ v < 2 ^ (8 * 4)
  · rw [if_pos hr] at h'
    injection h' with h'
    rw [← h', List.drop_left' (intLE_length 4 v)]
  · rw [if_neg hr] at h'
    cases h'

/-- **C104** fails: a value outside of the type of the tag is not refused; its conversion is undefined. -/
theorem C104_range {flt dbl : Int → List Byte} {u : List Byte} {type n : Nat} {lo hi v : Int} (hi' : IntType type n lo hi) (ht : type ≠ DAX_TIME) (hv : v < lo ∨ hi < v) : ∃ y, LuaConf.convert flt dbl type v u = .ub y := by
  cases h : LuaConf.convert flt dbl type v u with
  | ub y => exact ⟨y, rfl⟩
  | ok b =>
    obtain ⟨h1, h2, -⟩ := luaConvert_holds h hi' ht
    omega

/-- Instance of the hypotheses: the tag of a trigger comes late. -/
example : ∃ r, rounds (fun _ => []) (fun _ => []) (List.replicate 8 0#8) (fun k _ => if k < 1 then ⟨none, true⟩ else ⟨some (4, DAX_DINT), true⟩) 3
    (slots 0 [{ enabled := true, thread := none, name := nm "a", run := some ⟨nm "x", 0, 3, 5⟩, enable := none, disable := none, filename := some (nm "f"), failOnError := true, autoRun := true, autoReload := false }]) = .ok (r, true) :=
  ⟨_, rfl⟩

end Dax
