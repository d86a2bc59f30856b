import Verif.Spec.LuaConf
import Verif.Lemmas.Conv
/-!
# Configuration of Lua scripts and their triggers: C103, C104
-/
set_option autoImplicit false
namespace Dax
open Dax.LuaConf
open Conv

/-! ## Lemmas -/

theorem typeName_of {s : Name} (h : eventStringToType s ≠ 0) : TypeName s (eventStringToType s) := by
  unfold eventStringToType at h ⊢
  by_cases h1 : strcaseeq s (nm "WRITE") = true
  · rw [if_pos h1]; exact .write h1
  rw [if_neg h1] at h ⊢
  by_cases h2 : strcaseeq s (nm "CHANGE") = true
  · rw [if_pos h2]; exact .change h2
  rw [if_neg h2] at h ⊢
  by_cases h3 : strcaseeq s (nm "SET") = true
  · rw [if_pos h3]; exact .set h3
  rw [if_neg h3] at h ⊢
  by_cases h4 : strcaseeq s (nm "RESET") = true
  · rw [if_pos h4]; exact .reset h4
  rw [if_neg h4] at h ⊢
  by_cases h5 : strcaseeq s (nm "EQUAL") = true
  · rw [if_pos h5]; exact .equal h5
  rw [if_neg h5] at h ⊢
  by_cases h6 : strcaseeq s (nm "GREATER") = true
  · rw [if_pos h6]; exact .greater h6
  rw [if_neg h6] at h ⊢
  by_cases h7 : strcaseeq s (nm "LESS") = true
  · rw [if_pos h7]; exact .less h7
  rw [if_neg h7] at h ⊢
  by_cases h8 : strcaseeq s (nm "DEADBAND") = true
  · rw [if_pos h8]; exact .deadband h8
  rw [if_neg h8] at h
  exact absurd rfl h

theorem readTrigger_some {f : TrigField} {t : Option LuaConf.Trigger} (h : readTrigger f = .ok (some t)) : Describes f t := by
  cases f with
  | nil => cases h; exact .nil
  | other => cases h
  | table a =>
    obtain ⟨tag, type, count, value⟩ := a
    cases tag with
    | nil => cases h
    | other => cases h
    | text tag =>
      cases type with
      | nil => cases h
      | other => cases h
      | text s =>
        by_cases h0 : eventStringToType s = 0
        · simp [readTrigger, setTrigger, MasterConf.Field.str, h0] at h
        · simp [readTrigger, setTrigger, MasterConf.Field.str, h0] at h
          rw [← h]
          exact .table (typeName_of h0)

theorem triggers_some {a : LuaConf.Arg} {r e d : Option LuaConf.Trigger} (h : triggers a = .ok (some (r, e, d))) : Describes a.trigger r ∧ Describes a.enableTrigger e ∧ Describes a.disableTrigger d := by
  unfold triggers at h
  cases h1 : readTrigger a.trigger with
  | ub y => rw [h1] at h; cases h
  | ok r' =>
    rw [h1] at h
    cases r' with
    | none => cases h
    | some r' =>
      cases h2 : readTrigger a.enableTrigger with
      | ub y => simp only [C.ok_bind, h2] at h; cases h
      | ok e' =>
        cases e' with
        | none => simp only [C.ok_bind, h2] at h; cases h
        | some e' =>
          cases h3 : readTrigger a.disableTrigger with
          | ub y => simp only [C.ok_bind, h2, h3] at h; cases h
          | ok d' =>
            cases d' with
            | none => simp only [C.ok_bind, h2, h3] at h; cases h
            | some d' =>
              simp only [C.ok_bind, h2, h3] at h
              cases h
              exact ⟨readTrigger_some h1, readTrigger_some h2, readTrigger_some h3⟩

theorem text_str (f : MasterConf.Field) : LuaConf.Text f f.str := by
  cases f with
  | nil => exact .nil
  | other => exact .other
  | text s => exact .text

theorem switch_getD (d : Bool) (o : Option Bool) : Switch d o (o.getD d) := by
  cases o with
  | none => exact .absent
  | some b => exact .given

/-! ## C103: scripts -/

/-- **C103**: a call that is accepted adds at the end the script that is written, with a new name. -/
theorem C103_kept {l l' : List LuaConf.Script} {a : LuaConf.Arg} (h : addScript l a = .ok (some l')) : ∃ s, l' = l ++ [s] ∧ Made a s ∧ ∀ x ∈ l, x.name ≠ s.name := by
  unfold addScript at h
  cases hn : a.name with
  | nil => rw [hn] at h; cases h
  | other => rw [hn] at h; cases h
  | text name =>
    rw [hn] at h
    dsimp only [MasterConf.Field.str] at h
    by_cases hd : (l.any fun s => s.name == name) = true
    · rw [if_pos hd] at h; cases h
    · rw [if_neg hd] at h
      cases ht : triggers a with
      | ub y => rw [ht] at h; cases h
      | ok t =>
        rw [ht] at h
        cases t with
        | none => cases h
        | some t =>
          obtain ⟨r, e, d⟩ := t
          obtain ⟨h1, h2, h3⟩ := triggers_some ht
          simp only [C.ok_bind] at h
          injection h with h
          injection h with h
          refine ⟨_, h.symm, ⟨hn, text_str _, text_str _, ?_, ?_, switch_getD _ _, switch_getD _ _, switch_getD _ _, h1, h2, h3⟩, ?_⟩
          · intro hf
            dsimp only at hf ⊢
            cases hs : a.filename with
            | nil => rw [hs] at hf; exact absurd rfl hf
            | other => rw [hs] at hf; exact absurd rfl hf
            | text f => exact switch_getD _ _
          · intro hf
            dsimp only at hf ⊢
            rw [hf]
            rfl
          · intro x hx he
            apply hd
            rw [List.any_eq_true]
            exact ⟨x, hx, by rw [he]; exact beq_self_eq_true _⟩

theorem addAll_some {as : List LuaConf.Arg} : ∀ {l l' : List LuaConf.Script}, addAll l as = .ok (some l') → (l.map (·.name)).Nodup →
    ∃ m, l' = l ++ m ∧ m.length = as.length ∧ (l'.map (·.name)).Nodup ∧ ∀ (i : Nat) a s, as[i]? = some a → m[i]? = some s → Made a s := by
  induction as with
  | nil =>
    intro l l' h hd
    cases h
    exact ⟨[], (List.append_nil _).symm, rfl, hd, fun i a s hi => by cases hi⟩
  | cons a as ih =>
    intro l l' h hd
    unfold addAll at h
    cases h1 : addScript l a with
    | ub y => rw [h1] at h; cases h
    | ok r =>
      rw [h1] at h
      cases r with
      | none => cases h
      | some l1 =>
        obtain ⟨s, rfl, hm, hnew⟩ := C103_kept h1
        have hd' : ((l ++ [s]).map (·.name)).Nodup := by
          rw [List.map_append, List.nodup_append]
          refine ⟨hd, List.nodup_cons.2 ⟨List.not_mem_nil, List.nodup_nil⟩, ?_⟩
          intro x hx y hy
          obtain ⟨z, hz, rfl⟩ := List.mem_map.1 hx
          rw [List.map_cons, List.map_nil, List.mem_singleton] at hy
          rw [hy]
          exact hnew z hz
        obtain ⟨m, rfl, hl, hn, hall⟩ := ih h hd'
        refine ⟨s :: m, by rw [List.append_assoc]; rfl, by simp [hl], hn, ?_⟩
        intro i b t hb ht
        cases i with
        | zero => cases hb; cases ht; exact hm
        | succ i => exact hall i b t hb ht

/-- **C103**: after a configuration without error there is one script for each call, in their order, and no two have the same name. -/
theorem C103_all {as : List LuaConf.Arg} {l : List LuaConf.Script} (h : addAll [] as = .ok (some l)) :
    l.length = as.length ∧ (l.map (·.name)).Nodup ∧ ∀ (i : Nat) a s, as[i]? = some a → l[i]? = some s → Made a s := by
  obtain ⟨m, rfl, h1, h2, h3⟩ := addAll_some h List.nodup_nil
  exact ⟨h1, h2, h3⟩

/-- **C103**: a second script of a name is refused. -/
theorem C103_refused {l : List LuaConf.Script} {a : LuaConf.Arg} {s : LuaConf.Script} (hs : s ∈ l) (hn : a.name = .text s.name) : addScript l a = .ok none := by
  unfold addScript
  rw [hn]
  dsimp only [MasterConf.Field.str]
  have hany : (l.any fun x => x.name == s.name) = true := List.any_eq_true.2 ⟨s, hs, beq_self_eq_true _⟩
  rw [if_pos hany]

/-- **C103** fails: a trigger without tag should be refused with a message, but NULL is copied first. -/
theorem C103_no_tag {l : List LuaConf.Script} {a : LuaConf.Arg} {n : Name} {t : TrigArg} (hn : a.name = .text n) (hnew : ∀ s ∈ l, s.name ≠ n) (ht : a.trigger = .table t) (h : t.tag.str = none) :
    ∃ y, addScript l a = .ub y := by
  refine ⟨"strdup of NULL", ?_⟩
  have hr : triggers a = .ub "strdup of NULL" := by
    unfold triggers
    rw [ht]
    show (setTrigger t >>= fun r => C.ok (r.map some)) >>= _ = _
    unfold setTrigger
    rw [h]
    rfl
  unfold addScript
  rw [hn, hr]
  dsimp only [MasterConf.Field.str]
  rw [if_neg]
  · rfl
  · intro hd
    obtain ⟨x, hx, he⟩ := List.any_eq_true.1 hd
    exact hnew x hx (eq_of_beq he)

/-- **C103** fails: so with a trigger without type. -/
theorem C103_no_type {l : List LuaConf.Script} {a : LuaConf.Arg} {n g : Name} {t : TrigArg} (hn : a.name = .text n) (hnew : ∀ s ∈ l, s.name ≠ n) (ht : a.trigger = .table t) (hg : t.tag = .text g)
    (h : t.type.str = none) : ∃ y, addScript l a = .ub y := by
  refine ⟨"strcasecmp of NULL", ?_⟩
  have hr : triggers a = .ub "strcasecmp of NULL" := by
    unfold triggers
    rw [ht]
    show (setTrigger t >>= fun r => C.ok (r.map some)) >>= _ = _
    unfold setTrigger
    rw [hg, h]
    rfl
  unfold addScript
  rw [hn, hr]
  dsimp only [MasterConf.Field.str]
  rw [if_neg]
  · rfl
  · intro hd
    obtain ⟨x, hx, he⟩ := List.any_eq_true.1 hd
    exact hnew x hx (eq_of_beq he)

/-- **C103** fails: a script without file is read from the standard input of the module. -/
theorem C103_stdin {l l' : List LuaConf.Script} {a : LuaConf.Arg} (h : addScript l a = .ok (some l')) (hf : a.filename = .nil) : ∃ s, l' = l ++ [s] ∧ LuaConf.source s = .stdin := by
  obtain ⟨s, hl, hm, -⟩ := C103_kept h
  refine ⟨s, hl, ?_⟩
  have := hm.filename
  rw [hf] at this
  unfold LuaConf.source
  generalize s.filename = o at this
  cases this
  rfl

/-- **C103**: a script with a file is read from it. -/
theorem C103_file {l l' : List LuaConf.Script} {a : LuaConf.Arg} {f : Name} (h : addScript l a = .ok (some l')) (hf : a.filename = .text f) : ∃ s, l' = l ++ [s] ∧ LuaConf.source s = .file f := by
  obtain ⟨s, hl, hm, -⟩ := C103_kept h
  refine ⟨s, hl, ?_⟩
  have := hm.filename
  rw [hf] at this
  unfold LuaConf.source
  generalize s.filename = o at this
  cases this
  rfl

/-- **C103**: a thread runs exactly the scripts that name it. -/
theorem C103_thread {as : List LuaConf.Arg} {l : List LuaConf.Script} (h : addAll [] as = .ok (some l)) {i : Nat} {a : LuaConf.Arg} {s : LuaConf.Script} (ha : as[i]? = some a) (hs : l[i]? = some s) (t : Name) :
    s ∈ threadScripts l t ↔ a.thread = .text t := by
  have hm := ((C103_all h).2.2 i a s ha hs).thread
  unfold threadScripts
  rw [List.mem_filter]
  generalize s.thread = o at hm
  constructor
  · rintro ⟨-, he⟩
    rw [eq_of_beq he] at hm
    generalize a.thread = f at hm
    cases hm
    rfl
  · intro he
    rw [he] at hm
    cases hm
    exact ⟨List.mem_of_getElem? hs, beq_self_eq_true _⟩

/-- Instance of the hypotheses: a script with a trigger. -/
example : ∃ l, addAll [] [{ name := .text (nm "a"), filename := .text (nm "a.lua"), trigger := .table ⟨.text (nm "x"), .text (nm "Change"), 0, 0⟩ }, { name := .text (nm "b"), thread := .text (nm "t") }] = .ok (some l) :=
  ⟨_, rfl⟩

end Dax
