import Verif.Lemmas.Moves
import Verif.Lemmas.Counts
import Verif.Lemmas.Frame
/-!
# The retention file follows the tags
-/
set_option autoImplicit false
namespace Dax

theorem foldlM_inv {α β : Type} {P : β → Prop} {f : β → α → C β} {l : List α}
    (hf : ∀ b a b', P b → a ∈ l → f b a = .ok b' → P b') : ∀ {b b' : β}, P b → l.foldlM f b = .ok b' → P b' := by
  induction l with
  | nil => intro b b' hb h; simp only [List.foldlM_nil] at h; cases h; exact hb
  | cons a l ih =>
    intro b b' hb h
    rw [List.foldlM_cons] at h
    obtain ⟨b1, h1, h⟩ := C.bind_eq_ok.mp h
    exact ih (fun b a b' hb ha => hf b a b' hb (List.mem_cons_of_mem _ ha)) (hf b a b1 hb (by simp) h1) h

/-- Storing a type definition leaves the table of tags alone. -/
theorem retAddType_rows {tbl : List Cdt} : ∀ {fuel : Nat} {r r' : Ret} {t : Nat}, retAddType tbl fuel r t = .ok r' →
    r'.rows = r.rows ∧ r'.lastId = r.lastId ∧ r'.isOpen = r.isOpen := by
  intro fuel
  induction fuel with
  | zero => intro r r' t h; simp [retAddType] at h
  | succ n ih =>
    intro r r' t h
    unfold retAddType at h
    split at h
    · simp at h
    split at h
    · simp at h
    rename_i c hc
    obtain ⟨r1, h1, h⟩ := C.bind_eq_ok.mp h
    have e1 : r1.rows = r.rows ∧ r1.lastId = r.lastId ∧ r1.isOpen = r.isOpen := by
      refine foldlM_inv (P := fun x : Ret => x.rows = r.rows ∧ x.lastId = r.lastId ∧ x.isOpen = r.isOpen) ?_ ⟨rfl, rfl, rfl⟩ h1
      intro b m b' hb _ hh
      split at hh
      · obtain ⟨k1, k2, k3⟩ := ih hh
        exact ⟨k1.trans hb.1, k2.trans hb.2.1, k3.trans hb.2.2⟩
      · simp only [C.ok.injEq] at hh; subst hh; exact hb
    obtain ⟨o, -, h⟩ := C.bind_eq_ok.mp h
    split at h
    · simp at h
    · split at h
      · simp only [C.ok.injEq] at h; subst h; exact e1
      · simp only [C.ok.injEq] at h; subst h; exact e1

theorem RetInsert.cases {s : Server} {t : Tag} {p : Nat} {rt : Ret} (h : RetInsert s t p rt) :
    rt.isOpen = s.ret.isOpen ∧
    ((p = t.retPtr ∧ rt.rows = s.ret.rows ∧ rt.lastId = s.ret.lastId ∧
        (s.ret.isOpen = true → ∀ name, t.name = some name → ∃ x ∈ s.ret.rows, x.name = name)) ∨
      (s.ret.isOpen = true ∧ ∃ tn name, cdtGetName s.cdts t.type = some tn ∧ t.name = some name ∧
        (∀ x ∈ s.ret.rows, x.name ≠ name) ∧ p = s.ret.lastId + 1 ∧ rt.lastId = s.ret.lastId + 1 ∧
        rt.rows = s.ret.rows ++ [{ id := s.ret.lastId + 1, name := name, type := tn, count := i32 t.count, data := none }])) := by
  obtain ⟨r, hr, h⟩ := h
  have e : r.rows = s.ret.rows ∧ r.lastId = s.ret.lastId ∧ r.isOpen = s.ret.isOpen := by
    split at hr
    · exact retAddType_rows hr
    · simp only [C.ok.injEq] at hr; subst hr; exact ⟨rfl, rfl, rfl⟩
  obtain ⟨e1, e2, e3⟩ := e
  rcases h with ⟨ho, rfl, rfl⟩ | ⟨ho, tn, name, h1, h2, ⟨hx, rfl, rfl⟩ | ⟨hx, rfl, rfl⟩⟩
  · exact ⟨e3, .inl ⟨rfl, e1, e2, fun h => by rw [← e3, ho] at h; simp at h⟩⟩
  · refine ⟨e3, .inl ⟨rfl, e1, e2, fun _ n hn => ?_⟩⟩
    rw [h2] at hn; simp only [Option.some.injEq] at hn; subst hn
    rw [← e1]; exact hx
  · exact ⟨e3, .inr ⟨by rw [← e3]; exact ho, tn, name, h1, h2, by rw [← e1]; exact hx, by rw [e2],
      by dsimp only; rw [e2], by dsimp only; rw [e1, e2]⟩⟩

theorem RetSync.cases {s : Server} {t : Tag} {b : List Byte} {rt : Ret} (h : RetSync s t b rt) :
    (rt = s.ret ∧ (t.attr.retain = true → s.ret.isOpen = false)) ∨
    (t.attr.retain = true ∧ s.ret.isOpen = true ∧ ∃ ts d, typeSize s.cdts t.type = .ok ts ∧
      rd b 0 (i32 (ts * t.count)) = .ok d ∧
      rt = { s.ret with rows := s.ret.rows.map fun x => if x.id = t.retPtr then { x with data := some d } else x }) := by
  rcases h with ⟨h1, h2⟩ | ⟨h1, ts, hts, ⟨h2, h3⟩ | ⟨h2, d, hd, h3⟩⟩
  · exact .inl ⟨h2, fun h => by rw [h1] at h; simp at h⟩
  · exact .inl ⟨h3, fun _ => h2⟩
  · exact .inr ⟨h1, h2, ts, d, hts, hd, h3⟩

/-- What can happen to the rows when a tag changes. -/
theorem RetMove.delta {fl : Kind → Bool} {s : Server} {t t' : Tag} {rt : Ret} (h : RetMove fl s t t' rt) :
    rt.isOpen = s.ret.isOpen ∧
    ((t'.retPtr = t.retPtr ∧ rt.rows = s.ret.rows ∧ rt.lastId = s.ret.lastId) ∨
      (t'.retPtr = t.retPtr ∧ rt.lastId = s.ret.lastId ∧ t.attr.retain = true ∧ ∃ d, rt.rows = s.ret.rows.map fun x =>
        if x.id = t.retPtr then { x with data := some d } else x) ∨
      (t'.retPtr = s.ret.lastId + 1 ∧ rt.lastId = s.ret.lastId + 1 ∧ fl .retAdd = true ∧ ∃ tn name, t.name = some name ∧
        (∀ x ∈ s.ret.rows, x.name ≠ name) ∧
        rt.rows = s.ret.rows ++ [{ id := s.ret.lastId + 1, name := name, type := tn, count := i32 t.count, data := none }])) := by
  cases h with
  | same hp => exact ⟨rfl, .inl ⟨hp, rfl, rfl⟩⟩
  | sync hp ha hd h =>
    rcases h.cases with ⟨rfl, -⟩ | ⟨h1, h2, ts, d, -, -, rfl⟩
    · exact ⟨rfl, .inl ⟨hp, rfl, rfl⟩⟩
    · exact ⟨rfl, .inr (.inl ⟨hp, rfl, h1, d, rfl⟩)⟩
  | insert hd hf h =>
    obtain ⟨e, ⟨h1, h2, h3, -⟩ | ⟨-, tn, name, -, h2, h3, h4, h5, h6⟩⟩ := h.cases
    · exact ⟨e, .inl ⟨h1, h2, h3⟩⟩
    · exact ⟨e, .inr (.inr ⟨h4, h5, hf, tn, name, h2, h3, h6⟩)⟩

/-- Facts about the retention file and the row numbers of the tags. -/
structure RetWF (s : Server) : Prop where
  rowId : ∀ x ∈ s.ret.rows, 1 ≤ x.id ∧ x.id ≤ s.ret.lastId
  ids : s.ret.rows.Pairwise (fun a b => a.id ≠ b.id)
  names : s.ret.rows.Pairwise (fun a b => a.name ≠ b.name)
  ptr : ∀ (i : Nat) (t : Tag), i < 1024 → s.db[i]? = some t → t.retPtr ≤ s.ret.lastId
  inj : ∀ (i j : Nat) (t u : Tag), i < 1024 → j < 1024 → i ≠ j → s.db[i]? = some t → s.db[j]? = some u →
    t.retPtr = u.retPtr → t.retPtr = 0

theorem RetWF.congr {s s' : Server} (h : RetWF s) (h1 : s'.db = s.db) (h2 : s'.ret = s.ret) : RetWF s' := by
  constructor
  · rw [h2]; exact h.rowId
  · rw [h2]; exact h.ids
  · rw [h2]; exact h.names
  · rw [h1, h2]; exact h.ptr
  · rw [h1]; exact h.inj

theorem pairwise_map_same {α β : Type} {R : β → β → Prop} {g : α → α} {f : α → β} (hg : ∀ a, f (g a) = f a) {l : List α}
    (h : l.Pairwise (fun a b => R (f a) (f b))) : (l.map g).Pairwise (fun a b => R (f a) (f b)) := by
  rw [List.pairwise_map]
  simpa only [hg] using h

theorem retWF_move {fl : Kind → Bool} (hf : fl .restore = false) (s s' : Server) (h : RetWF s) (m : Move fl s s') :
    RetWF s' := by
  cases m with
  | @tag i t t' rt ht hm hr =>
    have hlt := (List.getElem?_eq_some_iff.mp ht).1
    obtain ⟨-, ⟨h1, h2, h3⟩ | ⟨h1, h3, -, d, h2⟩ | ⟨h1, h3, -, tn, name, hn, hx, h2⟩⟩ := hr.delta
    · have hptr : ∀ (k : Nat) (u : Tag), k < 1024 → (s.db.set i t')[k]? = some u → ∃ v, s.db[k]? = some v ∧ u.retPtr = v.retPtr := by
        intro k u _ hu
        by_cases hk : i = k
        · subst hk
          rw [List.getElem?_set_self hlt] at hu
          simp only [Option.some.injEq] at hu; subst hu
          exact ⟨t, ht, h1⟩
        · rw [List.getElem?_set_ne hk] at hu
          exact ⟨u, hu, rfl⟩
      refine ⟨by dsimp only; rw [h2, h3]; exact h.rowId, by dsimp only; rw [h2]; exact h.ids, by dsimp only; rw [h2]; exact h.names, ?_, ?_⟩
      · intro k u hk hu
        obtain ⟨v, hv, he⟩ := hptr k u hk hu
        dsimp only
        rw [he, h3]; exact h.ptr k v hk hv
      · intro k l u v hk hl hkl hu hv he
        obtain ⟨u', hu', e1⟩ := hptr k u hk hu
        obtain ⟨v', hv', e2⟩ := hptr l v hl hv
        rw [e1]
        exact h.inj k l u' v' hk hl hkl hu' hv' (by rw [← e1, ← e2]; exact he)
    · have hptr : ∀ (k : Nat) (u : Tag), k < 1024 → (s.db.set i t')[k]? = some u → ∃ v, s.db[k]? = some v ∧ u.retPtr = v.retPtr := by
        intro k u _ hu
        by_cases hk : i = k
        · subst hk
          rw [List.getElem?_set_self hlt] at hu
          simp only [Option.some.injEq] at hu; subst hu
          exact ⟨t, ht, h1⟩
        · rw [List.getElem?_set_ne hk] at hu
          exact ⟨u, hu, rfl⟩
      refine ⟨?_, ?_, ?_, ?_, ?_⟩
      · dsimp only
        rw [h2, h3]
        intro x hx
        obtain ⟨y, hy, rfl⟩ := List.mem_map.mp hx
        have := h.rowId y hy
        split <;> exact this
      · dsimp only
        rw [h2]
        exact pairwise_map_same (R := (· ≠ ·)) (f := RetRow.id) (by intro a; split <;> rfl) h.ids
      · dsimp only
        rw [h2]
        exact pairwise_map_same (R := (· ≠ ·)) (f := RetRow.name) (by intro a; split <;> rfl) h.names
      · intro k u hk hu
        obtain ⟨v, hv, he⟩ := hptr k u hk hu
        dsimp only
        rw [he, h3]; exact h.ptr k v hk hv
      · intro k l u v hk hl hkl hu hv he
        obtain ⟨u', hu', e1⟩ := hptr k u hk hu
        obtain ⟨v', hv', e2⟩ := hptr l v hl hv
        rw [e1]
        exact h.inj k l u' v' hk hl hkl hu' hv' (by rw [← e1, ← e2]; exact he)
    · have hptr : ∀ (k : Nat) (u : Tag), k < 1024 → (s.db.set i t')[k]? = some u →
          (k = i ∧ u.retPtr = s.ret.lastId + 1) ∨ (k ≠ i ∧ s.db[k]? = some u) := by
        intro k u _ hu
        by_cases hk : i = k
        · subst hk
          rw [List.getElem?_set_self hlt] at hu
          simp only [Option.some.injEq] at hu; subst hu
          exact .inl ⟨rfl, h1⟩
        · rw [List.getElem?_set_ne hk] at hu
          exact .inr ⟨fun e => hk e.symm, hu⟩
      refine ⟨?_, ?_, ?_, ?_, ?_⟩
      · dsimp only
        rw [h2, h3]
        intro x hx
        rcases List.mem_append.mp hx with hx | hx
        · have := h.rowId x hx; omega
        · simp only [List.mem_singleton] at hx; subst hx; dsimp only; omega
      · dsimp only
        rw [h2, List.pairwise_append]
        refine ⟨h.ids, by simp, ?_⟩
        intro a ha b hb
        simp only [List.mem_singleton] at hb; subst hb
        have := h.rowId a ha
        dsimp only; omega
      · dsimp only
        rw [h2, List.pairwise_append]
        refine ⟨h.names, by simp, ?_⟩
        intro a ha b hb
        simp only [List.mem_singleton] at hb; subst hb
        exact hx a ha
      · intro k u hk hu
        dsimp only
        rw [h3]
        rcases hptr k u hk hu with ⟨-, e⟩ | ⟨-, e⟩
        · omega
        · have := h.ptr k u hk e; omega
      · intro k l u v hk hl hkl hu hv he
        rcases hptr k u hk hu with ⟨e1, e2⟩ | ⟨e1, e2⟩ <;> rcases hptr l v hl hv with ⟨e3, e4⟩ | ⟨e3, e4⟩
        · exact absurd (e1.trans e3.symm) hkl
        · have := h.ptr l v hl e4; omega
        · have := h.ptr k u hk e2; omega
        · exact h.inj k l u v hk hl hkl e2 e4 he
  | push fd name type count size =>
    have hnew : ∀ (k : Nat) (u : Tag), k < 1024 →
        (s.db ++ [newTag s.env s.db.length fd name type count size])[k]? = some u →
        s.db[k]? = some u ∨ (k = s.db.length ∧ u.retPtr = 0) := by
      intro k u hk hu
      rcases Nat.lt_or_ge k s.db.length with hl | hl
      · rw [List.getElem?_append_left hl] at hu; exact .inl hu
      · rw [List.getElem?_append_right hl] at hu
        have : k - s.db.length = 0 := by
          apply Classical.byContradiction; intro hc
          rw [List.getElem?_eq_none (by simp; omega)] at hu; simp at hu
        rw [this] at hu
        simp only [List.getElem?_cons_zero, Option.some.injEq] at hu
        subst hu
        refine .inr ⟨by omega, ?_⟩
        have : TAGLIST_SIZE = 1024 := rfl
        simp only [newTag]; rw [if_pos (by omega)]
    refine ⟨h.rowId, h.ids, h.names, ?_, ?_⟩
    · intro k u hk hu
      rcases hnew k u hk hu with e | ⟨-, e⟩
      · exact h.ptr k u hk e
      · rw [e]; exact Nat.zero_le _
    · intro k l u v hk hl hkl hu hv he
      rcases hnew k u hk hu with e1 | ⟨-, e1⟩
      · rcases hnew l v hl hv with e2 | ⟨-, e2⟩
        · exact h.inj k l u v hk hl hkl e1 e2 he
        · rw [he]; exact e2
      · exact e1
  | other h1 h2 h3 h4 h5 h6 h7 h8 =>
    rcases h8 with h8 | ⟨h8, -⟩
    · exact h.congr h1 h8
    · rw [hf] at h8; simp at h8
  | _ => exact h.congr rfl rfl


/-! ## Start-up -/

/-- No tag has a row yet. -/
structure NoRows (s : Server) : Prop where
  rows : s.ret.rows = []
  last : s.ret.lastId = 0
  ptr : ∀ (i : Nat) (t : Tag), i < 1024 → s.db[i]? = some t → t.retPtr = 0

theorem NoRows.wf {s : Server} (h : NoRows s) : RetWF s := by
  refine ⟨?_, ?_, ?_, ?_, ?_⟩
  · rw [h.rows]; simp
  · rw [h.rows]; exact .nil
  · rw [h.rows]; exact .nil
  · intro i t hi ht; rw [h.ptr i t hi ht]; exact Nat.zero_le _
  · intro i j t u hi _ _ ht _ _; exact h.ptr i t hi ht

theorem noRows_move {fl : Kind → Bool} (hf : fl .retAdd = false) (s s' : Server) (h : NoRows s) (m : Move fl s s') :
    NoRows s' := by
  cases m with
  | @tag i t t' rt ht hm hr =>
    have hlt := (List.getElem?_eq_some_iff.mp ht).1
    have key : t'.retPtr = t.retPtr → ∀ (k : Nat) (u : Tag), k < 1024 → (s.db.set i t')[k]? = some u → u.retPtr = 0 := by
      intro h1 k u hk' hu
      by_cases hk : i = k
      · subst hk
        rw [List.getElem?_set_self hlt] at hu
        simp only [Option.some.injEq] at hu; subst hu
        rw [h1]; exact h.ptr _ _ hk' ht
      · rw [List.getElem?_set_ne hk] at hu
        exact h.ptr k u hk' hu
    obtain ⟨-, ⟨h1, h2, h3⟩ | ⟨h1, h3, -, d, h2⟩ | ⟨-, -, h1, -⟩⟩ := hr.delta
    · exact ⟨h2.trans h.rows, h3.trans h.last, key h1⟩
    · refine ⟨?_, h3.trans h.last, key h1⟩
      dsimp only; rw [h2, h.rows]; rfl
    · rw [hf] at h1; simp at h1
  | push fd name type count size =>
    refine ⟨h.rows, h.last, ?_⟩
    intro k u hk hu
    rcases Nat.lt_or_ge k s.db.length with hl | hl
    · rw [List.getElem?_append_left hl] at hu; exact h.ptr k u hk hu
    · rw [List.getElem?_append_right hl] at hu
      have : k - s.db.length = 0 := by
        apply Classical.byContradiction; intro hc
        rw [List.getElem?_eq_none (by simp; omega)] at hu; simp at hu
      rw [this] at hu
      simp only [List.getElem?_cons_zero, Option.some.injEq] at hu
      subst hu
      have : TAGLIST_SIZE = 1024 := rfl
      simp only [newTag]; rw [if_pos (by omega)]
  | other h1 h2 h3 h4 h5 h6 h7 h8 =>
    rcases h8 with h8 | ⟨-, h8⟩
    · exact ⟨by rw [h8]; exact h.rows, by rw [h8]; exact h.last, by rw [h1]; exact h.ptr⟩
    · exact ⟨by rw [h8], by rw [h8], by rw [h1]; exact h.ptr⟩
  | _ => exact ⟨h.rows, h.last, h.ptr⟩

theorem init_ptrs (e : Env) :
    (initServer e >>= fun s => .ok (s.db.map (·.retPtr), s.ret.rows.length, s.ret.lastId, s.ret.isOpen)) =
    .ok (List.replicate 11 0, 0, 0, false) := by
  kernel_rfl

theorem init_noRows {e : Env} {s : Server} (h : initServer e = .ok s) : NoRows s ∧ s.ret.isOpen = false := by
  have := init_ptrs e
  rw [h] at this
  simp only [C.ok_bind, C.ok.injEq, Prod.mk.injEq] at this
  obtain ⟨h1, h2, h3, h4⟩ := this
  refine ⟨⟨List.length_eq_zero_iff.mp h2, h3, fun i t _ ht => ?_⟩, h4⟩
  have h5 := congrArg (fun l => l[i]?) h1
  simp only [List.getElem?_map, ht, Option.map_some, List.getElem?_replicate] at h5
  split at h5
  · simpa using h5
  · simp at h5

theorem start_noRows {e : Env} {f : Option Ret} {s : Server} (h : startServer e f = .ok s) :
    NoRows s ∧ (s.ret.isOpen = true ↔ f.isSome = true) := by
  obtain ⟨s0, h0, p⟩ := startServer_path (fl := fun k => k ≠ .retAdd) (by decide) (fun n => by simp) h
  refine ⟨p.inv (noRows_move (by decide)) (init_noRows h0).1, ?_⟩
  unfold startServer at h
  rw [h0, C.ok_bind] at h
  cases f with
  | none =>
    simp only [C.ok.injEq] at h; subst h
    rw [(init_noRows h0).2]; simp
  | some f =>
    dsimp only at h
    unfold retInit at h
    obtain ⟨tbl, h2, h⟩ := C.bind_eq_ok.mp h
    obtain ⟨s2, h3, h⟩ := C.bind_eq_ok.mp h
    simp only [C.ok.injEq] at h; subst h
    simp

/-! ## Histories -/

/-- All kinds except restoring. -/
def noRestore : Kind → Bool
  | .restore => false
  | _ => true

theorem step_path_noRestore {s s' : Server} {o : Op} (hk : ModsOK s) (h : step s o = .ok s') : Path noRestore s s' := by
  cases o with
  | req fd r =>
    simp only [step] at h
    obtain ⟨⟨s1, r1⟩, h1, h⟩ := C.bind_eq_ok.mp h
    simp only [C.ok.injEq] at h; subst h
    refine handle_path' (fun k hq => ?_) hk .refl _ h1
    cases k <;> first | rfl | (cases r <;> simp [Req.kinds, regOnly] at hq)
  | close fd => exact moduleUnregister_path (fun k hq => by cases k <;> first | rfl | simp [noAdd] at hq) .refl _ h
  | env e => simp only [step, C.ok.injEq] at h; subst h; exact Path.refl.snoc (.env e)

theorem run_path_noRestore {os : List Op} : ∀ {s s' : Server}, ModsOK s → run s os = .ok s' → Path noRestore s s' := by
  induction os with
  | nil => intro s s' _ h; simp only [run, C.ok.injEq] at h; subst h; exact .refl
  | cons o os ih =>
    intro s s' hk h
    simp only [run] at h
    obtain ⟨s1, h1, h⟩ := C.bind_eq_ok.mp h
    have p := step_path_noRestore hk h1
    exact p.trans (ih (p.modsOK hk) h)

theorem isOpen_move {fl : Kind → Bool} (hf : fl .restore = false) (s s' : Server) (m : Move fl s s') :
    s'.ret.isOpen = s.ret.isOpen := by
  cases m with
  | tag ht hm hr => exact hr.delta.1
  | other h1 h2 h3 h4 h5 h6 h7 h8 =>
    rcases h8 with h8 | ⟨h8, -⟩
    · rw [h8]
    · rw [hf] at h8; simp at h8
  | _ => rfl

theorem Reachable.retWF {s : Server} (h : Reachable s) : RetWF s := by
  obtain ⟨e, f, s1, os, h1, h2⟩ := h
  have hR : Reachable s1 := ⟨e, f, s1, [], h1, rfl⟩
  have hk : ModsOK s1 := hR.modsOK
  exact (run_path_noRestore hk h2).inv (retWF_move rfl) (start_noRows h1).1.wf

theorem TagMove.name {fl : Kind → Bool} {s : Server} {i : Nat} {t t' : Tag} (m : TagMove fl s i t t') :
    t'.type = t.type ∧ t.count ≤ t'.count ∧ (t'.name = t.name ∨ t'.name = none) ∧
    (t'.name = none ∨ (t.attr.retain = true → t'.attr.retain = true)) ∧
    (t'.data = .freed → t'.name = none ∨ t.data = .freed) := by
  cases m with
  | attr =>
    refine ⟨rfl, Nat.le_refl _, .inl rfl, .inr ?_, fun h => .inr h⟩
    intro h
    unfold attrAfter
    split
    · rfl
    · split
      · exact h
      · split <;> exact h
  | grow hd hc hf =>
    refine ⟨rfl, Nat.le_of_lt hc, .inl rfl, .inr id, fun h => .inr ?_⟩
    dsimp only at h; subst h
    revert hd
    cases t.data with
    | freed => intro; rfl
    | _ => simp only [reallocStore]; split <;> simp
  | kill => exact ⟨rfl, Nat.le_refl _, .inr rfl, .inl rfl, fun _ => .inl rfl⟩
  | write => exact ⟨rfl, Nat.le_refl _, .inl rfl, .inr id, fun h => by simp at h⟩
  | qwrite => exact ⟨rfl, Nat.le_refl _, .inl rfl, .inr id, fun h => by simp at h⟩
  | qread => exact ⟨rfl, Nat.le_refl _, .inl rfl, .inr id, fun h => by simp at h⟩
  | restore => exact ⟨rfl, Nat.le_refl _, .inl rfl, .inr id, fun h => by simp at h⟩
  | _ => exact ⟨rfl, Nat.le_refl _, .inl rfl, .inr id, fun h => .inr h⟩

/-- The row of a retained tag: it holds the value, or nothing while the value is still zero. -/
def KeptTag (name : Name) (ty cnt : Nat) (sz : Int) (p : Nat) (tn : Name) (r : Ret) (t : Tag) : Prop :=
  t.name = some name ∧ t.type = ty ∧ t.count = cnt ∧ t.attr.retain = true ∧ t.retPtr = p ∧ r.isOpen = true ∧
  ∃ b x, t.data = .mem b ∧ x ∈ r.rows ∧ x.id = p ∧ x.name = name ∧ x.type = tn ∧ x.count = i32 cnt ∧
    ((x.data = none ∧ ∃ k, b = List.replicate k 0) ∨ ∃ d, x.data = some d ∧ rd b 0 (i32 (sz * cnt)) = .ok d)

/-- Tag `i` is as described, unless it has been deleted or has grown. -/
def RetKept (i : Nat) (name : Name) (ty cnt : Nat) (sz : Int) (p : Nat) (tn : Name) (s : Server) : Prop :=
  s.db.length ≤ 1024 → ∃ t, s.db[i]? = some t ∧
    (t.name = none ∨ cnt < t.count ∨ KeptTag name ty cnt sz p tn s.ret t)

/-- A change of the tag itself. -/
theorem KeptTag.move {fl : Kind → Bool} (hf : fl .restore = false) {name tn : Name} {ty cnt p : Nat} {sz : Int}
    (hts : ∀ tbl, typeSize tbl ty = .ok sz) {s : Server} {i : Nat} {t t' : Tag} {rt : Ret}
    (h : KeptTag name ty cnt sz p tn s.ret t) (hm : TagMove fl s i t t') (hr : RetMove fl s t t' rt) :
    t'.name = none ∨ cnt < t'.count ∨ KeptTag name ty cnt sz p tn rt t' := by
  obtain ⟨hn, hty, hc, ha, hp, ho, b, x, hb, hx, hid, hxn, hxt, hxc, hd⟩ := h
  obtain ⟨m1, m2, m3, m4, m5⟩ := hm.name
  rcases m3.symm with m3 | m3
  · exact .inl m3
  rcases Nat.lt_or_ge cnt t'.count with hlt | hge
  · exact .inr (.inl hlt)
  refine .inr (.inr ?_)
  have m4 := m4.resolve_left (by rw [m3, hn]; simp) ha
  have hcc : t'.count = cnt := by omega
  cases hr with
  | same hp' ha' hd' =>
    have : t'.data = t.data := by
      rcases hd' with e | e | ⟨q, e⟩ | e | e
      · exact e
      · rcases m5 e with e2 | e2
        · rw [m3, hn] at e2; simp at e2
        · rw [e, e2]
      · rw [hb] at e; simp at e
      · omega
      · rw [hf] at e; simp at e
    exact ⟨m3.trans hn, m1.trans hty, hcc, m4, hp'.trans hp, ho, b, x, this.trans hb, hx, hid, hxn, hxt, hxc, hd⟩
  | @sync b' _ hp' ha' hd' h =>
    rcases h.cases with ⟨-, e⟩ | ⟨-, -, ts, d, e1, e2, rfl⟩
    · rw [ho] at e; exact absurd (e ha) (by simp)
    · rw [hty, hts] at e1
      simp only [C.ok.injEq] at e1; subst e1
      refine ⟨m3.trans hn, m1.trans hty, hcc, m4, hp'.trans hp, ho, b', { x with data := some d }, hd', ?_, hid, hxn, hxt, hxc,
        .inr ⟨d, rfl, by rw [← hc]; exact e2⟩⟩
      refine List.mem_map.mpr ⟨x, hx, ?_⟩
      rw [if_pos (hid.trans hp.symm)]
  | insert hd' hf' h =>
    obtain ⟨e, ⟨h1, h2, h3, -⟩ | ⟨-, tn', name', -, h2, h3, -⟩⟩ := h.cases
    · exact ⟨m3.trans hn, m1.trans hty, hcc, m4, h1.trans hp, e.trans ho, b, x, hd'.trans hb, by rw [h2]; exact hx, hid, hxn,
        hxt, hxc, hd⟩
    · rw [hn] at h2; simp only [Option.some.injEq] at h2; subst h2
      exact absurd hxn (h3 x hx)

theorem retKept_move {fl : Kind → Bool} (hf : fl .restore = false) {i : Nat} {name tn : Name} {ty cnt p : Nat} {sz : Int}
    (hts : ∀ tbl, typeSize tbl ty = .ok sz) (s s' : Server)
    (h : RetWF s ∧ RetKept i name ty cnt sz p tn s) (m : Move fl s s') : RetWF s' ∧ RetKept i name ty cnt sz p tn s' := by
  refine ⟨retWF_move hf s s' h.1 m, ?_⟩
  obtain ⟨hw, h⟩ := h
  cases m with
  | @tag j u u' rt hu hm hr =>
    intro hl
    have hl' : s.db.length ≤ 1024 := by simpa using hl
    have hlt := (List.getElem?_eq_some_iff.mp hu).1
    obtain ⟨t, ht, hk⟩ := h hl'
    by_cases hij : j = i
    · subst hij
      rw [ht] at hu; simp only [Option.some.injEq] at hu; subst hu
      refine ⟨u', by simp [hlt], ?_⟩
      rcases hk with hk | hk | hk
      · rcases hm.name.2.2.1 with e | e
        · exact .inl (e.trans hk)
        · exact .inl e
      · have := hm.name.2.1
        exact .inr (.inl (by omega))
      · exact hk.move hf hts hm hr
    · refine ⟨t, by simp [hij, ht], ?_⟩
      rcases hk with hk | hk | ⟨hn, hty, hc, ha, hp, ho, b, x, hb, hx, hid, hxn, hxt, hxc, hd⟩
      · exact .inl hk
      · exact .inr (.inl hk)
      refine .inr (.inr ⟨hn, hty, hc, ha, hp, hr.delta.1.trans ho, b, x, hb, ?_, hid, hxn, hxt, hxc, hd⟩)
      have hi := (List.getElem?_eq_some_iff.mp ht).1
      obtain ⟨-, ⟨h1, h2, h3⟩ | ⟨h1, h3, -, d, h2⟩ | ⟨h1, h3, -, tn, name, hn, hx', h2⟩⟩ := hr.delta
      · dsimp only; rw [h2]; exact hx
      · dsimp only; rw [h2]
        refine List.mem_map.mpr ⟨x, hx, ?_⟩
        rw [if_neg]
        intro e
        have e2 := hw.inj i j t u (by omega) (by omega) (fun e => hij e.symm) ht hu (by omega)
        have := (hw.rowId x hx).1
        omega
      · dsimp only; rw [h2]; exact List.mem_append_left _ hx
  | push fd nm' type count size =>
    intro hl
    have hl2 : s.db.length ≤ 1024 := by
      simp only [List.length_append] at hl; omega
    obtain ⟨t, ht, hk⟩ := h hl2
    exact ⟨t, by rw [List.getElem?_append_left (List.getElem?_eq_some_iff.mp ht).1]; exact ht, hk⟩
  | other h1 h2 h3 h4 h5 h6 h7 h8 =>
    rcases h8 with h8 | ⟨h8, -⟩
    · unfold RetKept; rw [h1, h8]; exact h
    · rw [hf] at h8; simp at h8
  | _ => exact h


/-! ## Which rows there are -/

theorem rowNames_move {fl : Kind → Bool} (hf : fl .restore = false) (ha : fl .retAdd = false) (s s' : Server) (m : Move fl s s') :
    s'.ret.rows.map (·.name) = s.ret.rows.map (·.name) := by
  cases m with
  | tag ht hm hr =>
    obtain ⟨-, ⟨h1, h2, h3⟩ | ⟨h1, h3, -, d, h2⟩ | ⟨-, -, h1, -⟩⟩ := hr.delta
    · dsimp only; rw [h2]
    · dsimp only; rw [h2, List.map_map]
      apply List.map_congr_left
      intro a _
      simp only [Function.comp]
      split <;> rfl
    · rw [ha] at h1; simp at h1
  | other h1 h2 h3 h4 h5 h6 h7 h8 =>
    rcases h8 with h8 | ⟨h8, -⟩
    · rw [h8]
    · rw [hf] at h8; simp at h8
  | _ => rfl

theorem Path.rowNames {fl : Kind → Bool} (hf : fl .restore = false) (ha : fl .retAdd = false) {s s' : Server} (p : Path fl s s') :
    s'.ret.rows.map (·.name) = s.ret.rows.map (·.name) :=
  p.inv (I := fun x => x.ret.rows.map (·.name) = s.ret.rows.map (·.name))
    (fun a b h m => (rowNames_move hf ha a b m).trans h) rfl

/-- The steps of the creation of a tag. -/
theorem tagAddNew_parts {s s' : Server} {fd : Int} {name : Name} {type count attr size : Nat} {r : Int}
    (hn : 11 ≤ s.db.length) (h : tagAddNew s fd name type count attr size = .ok (s', r)) :
    ∃ sb sc x d, Path (fun _ => false) s sb ∧ sb.db.length = s.db.length + 1 ∧
      sb.db[s.db.length]? = some (newTag sb.env s.db.length fd name type count size) ∧
      setAttribute sb s.db.length attr = .ok sc ∧ tagWrite sc (-1) INDEX_ADDED_TAG 0 d = .ok (s', x) := by
  unfold tagAddNew at h
  dsimp only at h
  split at h
  · simp at h
  obtain ⟨ix, -, h⟩ := C.bind_eq_ok.mp h
  obtain ⟨tbl, -, h⟩ := C.bind_eq_ok.mp h
  obtain ⟨s1, h1, h⟩ := C.bind_eq_ok.mp h
  obtain ⟨s2, h2, h⟩ := C.bind_eq_ok.mp h
  obtain ⟨s3, h3, h⟩ := C.bind_eq_ok.mp h
  obtain ⟨⟨s4, x⟩, h4, h⟩ := C.bind_eq_ok.mp h
  simp only [C.ok.injEq, Prod.mk.injEq] at h
  obtain ⟨rfl, -⟩ := h
  have p0 : Path (fun _ => false) s { s with index := ix, cdts := tbl } :=
    Path.refl.snoc (.other rfl rfl rfl rfl rfl rfl rfl (.inl rfl))
  have p1 := statusWrite_path p0 _ h1
  have q1 := statusWrite_quiet h1
  have hl1 : s1.db.length = s.db.length := q1.len
  have p2 : Path (fun _ => false) s { s1 with db := s1.db ++ [newTag s1.env s.db.length fd name type count size],
                                              tagcount := s1.tagcount + 1 } := by
    refine (p1.snoc (.push fd name type count size)).snoc (.other ?_ rfl rfl rfl rfl rfl rfl (.inl rfl))
    rw [hl1]
  have q2 := statusWrite_quiet h2
  refine ⟨s2, s3, x, _, statusWrite_path p2 _ h2, ?_, ?_, h3, h4⟩
  · rw [q2.len]; simp [hl1]
  · rw [q2.same (by show ¬ (s.db.length = 0); omega), q2.env]
    dsimp only
    rw [← hl1, List.getElem?_append_right (Nat.le_refl _)]
    simp

theorem setAttribute_rowNames {s s' : Server} {n a : Nat} {t : Tag} (ht : s.db[n]? = some t) (h : setAttribute s n a = .ok s') :
    s'.ret.rows.map (·.name) = s.ret.rows.map (·.name) ∨
    (wantRetain a = true ∧ ∃ name, t.name = some name ∧ s'.ret.rows.map (·.name) = s.ret.rows.map (·.name) ++ [name]) := by
  obtain ⟨t', p, rt, ht', rfl, ⟨-, -, rfl⟩ | ⟨h1, h2⟩⟩ := setAttribute_ret h
  · exact .inl rfl
  rw [ht] at ht'; simp only [Option.some.injEq] at ht'; subst ht'
  obtain ⟨-, ⟨-, e, -⟩ | ⟨-, tn, name, -, e1, -, -, -, e2⟩⟩ := h2.cases
  · exact .inl (by dsimp only; rw [e])
  · exact .inr ⟨h1, name, e1, by dsimp only; rw [e2]; simp⟩

/-- Rows are added by requests for retained tags, under the name given there. -/
theorem handle_rows {s s' : Server} {fd : Int} {q : Req} {r : Reply} (hw : WF s) (hk : ModsOK s) (h11 : 11 ≤ s.db.length)
    (h : handle s fd q = .ok (s', r)) : ∀ n, n ∈ s'.ret.rows.map (·.name) → n ∈ s.ret.rows.map (·.name) ∨
      (n.head? ≠ some underscore ∧ ∃ ty c a, q = .tagAdd ty c a n ∧ wantRetain a = true) := by
  have other : q.kinds fd .restore = false → q.kinds fd .retAdd = false → ∀ n, n ∈ s'.ret.rows.map (·.name) →
      n ∈ s.ret.rows.map (·.name) ∨
      (n.head? ≠ some underscore ∧ ∃ ty c a, q = .tagAdd ty c a n ∧ wantRetain a = true) := by
    intro h1 h2 n hn
    rw [(handle_path_kinds hk h).rowNames h1 h2] at hn
    exact .inl hn
  cases q with
  | tagAdd ty c a name =>
    intro n hn
    have hg : (growDb s).ret = s.ret := by unfold growDb; split <;> rfl
    rcases addReq_cases hw h with ⟨e, -, rfl | rfl⟩ | ⟨hu, m, -, -, -, -, -, -, size, -, ⟨hmem, ho⟩ | ⟨-, rfl, ho⟩⟩
    · exact .inl hn
    · rw [hg] at hn; exact .inl hn
    · obtain ⟨t, ht, htn⟩ := hw.ent _ hmem
      have ht' : (growDb s).db[m]? = some t := by rw [growDb_db]; exact ht
      dsimp only at htn
      have fin : ∀ {sa sb : Server} {u : Tag}, sa.ret = s.ret → sa.db[m]? = some u → u.name = some name →
          setAttribute sa m a = .ok sb → n ∈ sb.ret.rows.map (·.name) → n ∈ s.ret.rows.map (·.name) ∨
            (n.head? ≠ some underscore ∧ ∃ ty' c' a', Req.tagAdd ty c a name = .tagAdd ty' c' a' n ∧ wantRetain a' = true) := by
        intro sa sb u hr hu2 hun hs hn
        rcases setAttribute_rowNames hu2 hs with e | ⟨e1, nn, e2, e3⟩
        · rw [e, hr] at hn; exact .inl hn
        · rw [hun] at e2; simp only [Option.some.injEq] at e2; subst e2
          rw [e3, hr] at hn
          rcases List.mem_append.mp hn with hn | hn
          · exact .inl hn
          · simp only [List.mem_singleton] at hn; subst hn
            exact .inr ⟨hu, ty, c, a, rfl, e1⟩
      rcases tagAddOld_inv ht' ho with ⟨rfl, -⟩ | ⟨-, -, -, ⟨-, hs⟩ | ⟨-, d, s2, x, -, hs, hx⟩⟩
      · rw [hg] at hn; exact .inl hn
      · exact fin hg ht' htn hs hn
      · have := (tagWrite_path (fl := fun _ => false) .refl (.inl rfl) _ hx).rowNames rfl rfl
        rw [this] at hn
        refine fin (sa := { growDb s with db := (growDb s).db.set m { t with data := d, count := u32 c } })
          (u := { t with data := d, count := u32 c }) hg ?_ htn hs hn
        have hlt := (List.getElem?_eq_some_iff.mp ht').1
        simp [hlt]
    · obtain ⟨sb, sc, x, d, p, hl, hb, hs, hx⟩ := tagAddNew_parts (by rw [growDb_db]; exact h11) ho
      have e1 := (tagWrite_path (fl := fun _ => false) .refl (.inl rfl) _ hx).rowNames rfl rfl
      have e2 := p.rowNames rfl rfl
      rw [hg] at e2
      rw [e1] at hn
      rcases setAttribute_rowNames hb hs with e | ⟨e3, nn, e4, e5⟩
      · rw [e, e2] at hn; exact .inl hn
      · simp only [newTag, Option.some.injEq] at e4; subst e4
        rw [e5, e2] at hn
        rcases List.mem_append.mp hn with hn | hn
        · exact .inl hn
        · simp only [List.mem_singleton] at hn; subst hn
          exact .inr ⟨hu, ty, c, a, rfl, e3⟩
  | _ => exact other rfl rfl


theorem step_rows {s s' : Server} {o : Op} (hw : WF s) (hk : ModsOK s) (h11 : 11 ≤ s.db.length)
    (h : step s o = .ok s') : ∀ n, n ∈ s'.ret.rows.map (·.name) → n ∈ s.ret.rows.map (·.name) ∨
      (n.head? ≠ some underscore ∧ ∃ fd ty c a, o = .req fd (.tagAdd ty c a n) ∧ wantRetain a = true) := by
  intro n hn
  cases o with
  | req fd r =>
    simp only [step] at h
    obtain ⟨⟨s1, r1⟩, h1, h⟩ := C.bind_eq_ok.mp h
    simp only [C.ok.injEq] at h; subst h
    rcases handle_rows hw hk h11 h1 n hn with e | ⟨e1, ty, c, a, rfl, e2⟩
    · exact .inl e
    · exact .inr ⟨e1, fd, ty, c, a, rfl, e2⟩
  | close fd =>
    rw [(moduleUnregister_path (fl := noAdd) (fun _ h => h) .refl _ h).rowNames rfl rfl] at hn
    exact .inl hn
  | env e => simp only [step, C.ok.injEq] at h; subst h; exact .inl hn

theorem run_rows {os : List Op} : ∀ {s s' : Server}, Reachable s → run s os = .ok s' →
    ∀ n, n ∈ s'.ret.rows.map (·.name) → n ∈ s.ret.rows.map (·.name) ∨
      (n.head? ≠ some underscore ∧ ∃ fd ty c a, Op.req fd (.tagAdd ty c a n) ∈ os ∧ wantRetain a = true) := by
  induction os with
  | nil => intro s s' _ h n hn; simp only [run, C.ok.injEq] at h; subst h; exact .inl hn
  | cons o os ih =>
    intro s s' hR h n hn
    simp only [run] at h
    obtain ⟨s1, h1, h⟩ := C.bind_eq_ok.mp h
    rcases ih (hR.run (os := [o]) (by simp [run, h1])) h n hn with e | ⟨e, fd, ty, c, a, e1, e2⟩
    · rcases step_rows hR.wf hR.modsOK hR.len h1 n e with e | ⟨e, fd, ty, c, a, rfl, e2⟩
      · exact .inl e
      · exact .inr ⟨e, fd, ty, c, a, by simp, e2⟩
    · exact .inr ⟨e, fd, ty, c, a, List.mem_cons_of_mem _ e1, e2⟩


/-! ## A retained tag from its creation to the restart -/

theorem typeSize_base {ty w : Nat} (h : (ty, w) ∈ elemBytes) (tbl : List Cdt) : typeSize tbl ty = .ok (w : Int) := by
  simp only [elemBytes, List.mem_cons, List.not_mem_nil, or_false, Prod.mk.injEq] at h
  rcases h with h|h|h|h|h|h|h|h|h|h|h|h|h|h|h <;> obtain ⟨rfl, rfl⟩ := h <;> rfl

theorem elem_facts {ty w : Nat} (h : (ty, w) ∈ elemBytes) : ty ≠ DAX_BOOL ∧ isQueue ty = false ∧ isCustom ty = false ∧
    ∃ tn, (∀ tbl, cdtGetName tbl ty = some tn) ∧ ∀ tbl, cdtGetType tbl tn = ty := by
  simp only [elemBytes, List.mem_cons, List.not_mem_nil, or_false, Prod.mk.injEq] at h
  rcases h with h|h|h|h|h|h|h|h|h|h|h|h|h|h|h <;> obtain ⟨rfl, rfl⟩ := h <;>
    exact ⟨by decide, by decide, by decide, _, fun _ => rfl, fun _ => rfl⟩

/-- A new retained tag gets its row. -/
theorem retKept_new {s s' : Server} {fd : Int} {name tn : Name} {ty cnt attr w : Nat} {r : Reply} (hw : WF s) (hk : ModsOK s)
    (hwf : RetWF s) (h11 : 11 ≤ s.db.length) (ho : s.ret.isOpen = true)
    (hfresh : ∀ x ∈ s.ret.rows, x.name ≠ name) (hnew : ∀ e ∈ s.index, e.name ≠ name) (hty : (ty, w) ∈ elemBytes)
    (htn : ∀ tbl, cdtGetName tbl ty = some tn) (hc : cnt < 4294967296) (hr : wantRetain attr = true) (he : ∀ e, r ≠ .err e)
    (h : handle s fd (.tagAdd ty cnt attr name) = .ok (s', r)) :
    r = .resp (le4 s.db.length) ∧ ∃ p, RetKept s.db.length name ty cnt w p tn s' := by
  have hg : (growDb s).ret = s.ret := by unfold growDb; split <;> rfl
  obtain ⟨hb, hq, hcu, -⟩ := elem_facts hty
  rcases addReq_cases hw h with ⟨e, he', -⟩ | ⟨hu, m, hm, hr', -, -, -, -, size, ha, ⟨hmem, -⟩ | ⟨-, rfl, hn⟩⟩
  · exact absurd he' (he e)
  · exact absurd rfl (hnew _ hmem)
  refine ⟨hr', ?_⟩
  obtain ⟨sb, sc, x, d, p, hl, hbt, hs, hx⟩ := tagAddNew_parts (by rw [growDb_db]; exact h11) hn
  rw [growDb_db] at hl hbt hs
  have hwb : RetWF sb := p.inv (retWF_move rfl) (hwf.congr (growDb_db s) hg)
  have hob : sb.ret.isOpen = true := by
    have := p.inv (I := fun x => x.ret.isOpen = (growDb s).ret.isOpen) (fun a b h m => (isOpen_move rfl a b m).trans h) rfl
    rw [this, hg]; exact ho
  have hfb : ∀ x ∈ sb.ret.rows, x.name ≠ name := by
    intro x hx e
    have := p.rowNames rfl rfl
    rw [hg] at this
    have hm : name ∈ sb.ret.rows.map (·.name) := List.mem_map.mpr ⟨x, hx, e⟩
    rw [this] at hm
    obtain ⟨y, hy, e2⟩ := List.mem_map.mp hm
    exact hfresh y hy e2
  obtain ⟨t, q, rt, ht, rfl, ⟨h1, -⟩ | ⟨-, h2⟩⟩ := setAttribute_ret hs
  · rw [hr] at h1; simp at h1
  rw [hbt] at ht; simp only [Option.some.injEq] at ht; subst ht
  have hlt := (List.getElem?_eq_some_iff.mp hbt).1
  obtain ⟨eo, ⟨-, -, -, h3⟩ | ⟨-, tn', name', h3, h4, -, h6, h7, h8⟩⟩ := h2.cases
  · obtain ⟨x, hx, e⟩ := h3 hob name rfl
    exact absurd e (hfb x hx)
  simp only [newTag, Option.some.injEq] at h4; subst h4
  have h3 := (htn sb.cdts).symm.trans h3
  simp only [Option.some.injEq] at h3; subst h3
  refine ⟨q, ?_⟩
  have hwc : RetWF { sb with db := sb.db.set s.db.length { newTag sb.env s.db.length fd name ty (u32 cnt) size with
        attr := attrAfter (newTag sb.env s.db.length fd name ty (u32 cnt) size).attr attr, retPtr := q }, ret := rt } := by
    have : Path (fun k => decide (k = .retAdd)) sb _ := setAttribute_path (.inl rfl) .refl _ hs
    exact this.inv (retWF_move rfl) hwb
  have hkc : RetKept s.db.length name ty cnt w q tn { sb with db := sb.db.set s.db.length { newTag sb.env s.db.length fd name ty (u32 cnt) size with
        attr := attrAfter (newTag sb.env s.db.length fd name ty (u32 cnt) size).attr attr, retPtr := q }, ret := rt } := by
    intro _
    refine ⟨_, List.getElem?_set_self hlt, .inr (.inr ⟨rfl, rfl, ?_, ?_, rfl, eo.trans hob, List.replicate size 0,
      { id := sb.ret.lastId + 1, name := name, type := tn,
        count := i32 (newTag sb.env s.db.length fd name ty (u32 cnt) size).count, data := none }, ?_, ?_, ?_, rfl, rfl, ?_,
      .inl ⟨rfl, _, rfl⟩⟩)⟩
    · simp only [newTag]; unfold u32; omega
    · simp [attrAfter, hr]
    · simp [newTag, hq]
    · dsimp only; rw [h8]; exact List.mem_append_right _ (by simp)
    · exact h6.symm
    · simp only [newTag]; congr 1; unfold u32; omega
  have pw := tagWrite_path (fl := fun _ => false) .refl (.inl rfl) _ hx
  exact (pw.inv (retKept_move rfl (typeSize_base hty)) ⟨hwc, hkc⟩).2

/-! ## Restoring -/

theorem setAttribute_zero {s s' : Server} {n : Nat} (h : setAttribute s n 0 = .ok s') : s' = s := by
  obtain ⟨t, p, rt, ht, rfl, ⟨-, rfl, rfl⟩ | ⟨h1, -⟩⟩ := setAttribute_ret h
  · have : attrAfter t.attr 0 = t.attr := by
      unfold attrAfter
      rw [if_neg (by decide), if_neg (by decide), if_neg (by decide)]
    rw [this, set_same ht]
  · exact absurd h1 (by decide)

/-- What creating a tag does to the others. -/
theorem tagAdd_delta {s s' : Server} {fd : Int} {name : Name} {ty c : Nat} {r : Int} (hw : WF s) (h11 : 11 ≤ s.db.length)
    (h : tagAdd s fd name ty c 0 = .ok (s', r)) :
    (∀ (j : Nat) (t : Tag), 11 ≤ j → s.db[j]? = some t → t.name ≠ some name → s'.db[j]? = some t) ∧
    (∀ (j : Nat) (t' : Tag) (n : Name), s'.db[j]? = some t' → t'.name = some n → n ≠ name →
      ∃ t, s.db[j]? = some t ∧ t.name = some n) ∧
    (0 ≤ r → ∀ t, s'.db[r.toNat]? = some t → t.name = some name) := by
  have hadd : INDEX_ADDED_TAG.toNat = 2 := rfl
  have quiet_back : ∀ {k : Nat} {a b : Server}, Quiet (· = k) a b → ∀ (j : Nat) (t' : Tag), b.db[j]? = some t' →
      ∃ t, a.db[j]? = some t ∧ t'.name = t.name := by
    intro k a b q j t' ht'
    have hl : j < a.db.length := by
      rw [← q.len]; exact (List.getElem?_eq_some_iff.mp ht').1
    obtain ⟨t2, h2, hs, -⟩ := q.tag j _ (List.getElem?_eq_getElem hl)
    rw [ht'] at h2; simp only [Option.some.injEq] at h2; subst h2
    exact ⟨_, List.getElem?_eq_getElem hl, hs.name⟩
  rcases tagAdd_cases hw h with ⟨hr, rfl | rfl⟩ | ⟨-, -, -, size, -, ⟨n, hmem, hr, ho⟩ | ⟨hnew, hr, ho⟩⟩
  · exact ⟨fun j t _ ht _ => ht, fun j t' n ht hn _ => ⟨t', ht, hn⟩, fun h => by omega⟩
  · rw [growDb_db]
    exact ⟨fun j t _ ht _ => ht, fun j t' n ht hn _ => ⟨t', ht, hn⟩, fun h => by omega⟩
  · obtain ⟨u, hu, hun⟩ := hw.ent _ hmem
    dsimp only at hu hun
    have hu' : (growDb s).db[n]? = some u := by rw [growDb_db]; exact hu
    have hlt := (List.getElem?_eq_some_iff.mp hu).1
    have keep : ∀ t, s.db[r.toNat]? = some t → t.name = some name := by
      intro t ht
      rw [hr, Int.toNat_natCast, hu] at ht
      simp only [Option.some.injEq] at ht; subst ht; exact hun
    rcases tagAddOld_inv hu' ho with ⟨rfl, -⟩ | ⟨-, -, -, ⟨-, hs⟩ | ⟨-, d, s2, x, -, hs, hx⟩⟩
    · rw [growDb_db]
      exact ⟨fun j t _ ht _ => ht, fun j t' n ht hn _ => ⟨t', ht, hn⟩, fun _ t ht => keep t ht⟩
    · rw [setAttribute_zero hs, growDb_db]
      exact ⟨fun j t _ ht _ => ht, fun j t' n ht hn _ => ⟨t', ht, hn⟩, fun _ t ht => keep t ht⟩
    · have e := setAttribute_zero hs
      have q := tagWrite_quiet hx
      refine ⟨?_, ?_, ?_⟩
      · intro j t hj ht hn
        rw [q.same (by show ¬ (j = INDEX_ADDED_TAG.toNat); omega), e]
        dsimp only
        rw [growDb_db]
        by_cases hjn : n = j
        · subst hjn
          rw [hu] at ht; simp only [Option.some.injEq] at ht; subst ht
          exact absurd hun hn
        · rw [List.getElem?_set_ne hjn]; exact ht
      · intro j t' m ht' hn _
        obtain ⟨t, ht, hs⟩ := quiet_back q j t' ht'
        rw [e] at ht
        dsimp only at ht
        rw [growDb_db] at ht
        by_cases hjn : n = j
        · subst hjn
          rw [List.getElem?_set_self hlt] at ht
          simp only [Option.some.injEq] at ht; subst ht
          exact ⟨u, hu, by rw [← hn, hs]⟩
        · rw [List.getElem?_set_ne hjn] at ht
          exact ⟨t, ht, by rw [← hs]; exact hn⟩
      · intro _ t' ht'
        obtain ⟨t, ht, hs⟩ := quiet_back q _ t' ht'
        rw [e] at ht
        dsimp only at ht
        rw [growDb_db, hr, Int.toNat_natCast, List.getElem?_set_self hlt] at ht
        simp only [Option.some.injEq] at ht; subst ht
        rw [hs]; exact hun
  · unfold tagAddNew at ho
    dsimp only at ho
    split at ho
    · simp at ho
    obtain ⟨ix, -, ho⟩ := C.bind_eq_ok.mp ho
    obtain ⟨tbl, -, ho⟩ := C.bind_eq_ok.mp ho
    obtain ⟨s1, h1, ho⟩ := C.bind_eq_ok.mp ho
    obtain ⟨s2, h2, ho⟩ := C.bind_eq_ok.mp ho
    obtain ⟨s3, h3, ho⟩ := C.bind_eq_ok.mp ho
    obtain ⟨⟨s4, x⟩, h4, ho⟩ := C.bind_eq_ok.mp ho
    simp only [C.ok.injEq, Prod.mk.injEq] at ho
    obtain ⟨rfl, -⟩ := ho
    have e3 := setAttribute_zero h3
    subst e3
    have q1 := statusWrite_quiet h1
    have q2 := statusWrite_quiet h2
    have q4 := tagWrite_quiet h4
    have i1 : INDEX_LASTINDEX.toNat = 1 := rfl
    have i2 : INDEX_TAGCOUNT.toNat = 0 := rfl
    have hl1 : s1.db.length = s.db.length := by
      have := q1.len; dsimp only at this; rw [this, growDb_db]
    refine ⟨?_, ?_, ?_⟩
    · intro j t hj ht hn
      have hlt := (List.getElem?_eq_some_iff.mp ht).1
      rw [q4.same (by show ¬ (j = INDEX_ADDED_TAG.toNat); omega),
        q2.same (by show ¬ (j = INDEX_TAGCOUNT.toNat); omega)]
      dsimp only
      rw [List.getElem?_append_left (by omega), q1.same (by show ¬ (j = INDEX_LASTINDEX.toNat); omega)]
      dsimp only
      rw [growDb_db]; exact ht
    · intro j t' m ht' hn hne
      obtain ⟨t3, ht3, e3⟩ := quiet_back q4 j t' ht'
      obtain ⟨t2, ht2, e2⟩ := quiet_back q2 j t3 ht3
      dsimp only at ht2
      rcases Nat.lt_or_ge j s1.db.length with hl | hl
      · rw [List.getElem?_append_left hl] at ht2
        obtain ⟨t1, ht1, e1⟩ := quiet_back q1 j t2 ht2
        dsimp only at ht1
        rw [growDb_db] at ht1
        exact ⟨t1, ht1, by rw [← e1, ← e2, ← e3]; exact hn⟩
      · rw [List.getElem?_append_right hl] at ht2
        have : j - s1.db.length = 0 := by
          apply Classical.byContradiction; intro hc
          rw [List.getElem?_eq_none (by simp; omega)] at ht2; simp at ht2
        rw [this] at ht2
        simp only [List.getElem?_cons_zero, Option.some.injEq] at ht2
        subst ht2
        rw [e3, e2] at hn
        simp only [newTag, Option.some.injEq] at hn
        exact absurd hn.symm hne
    · intro _ t' ht'
      obtain ⟨t3, ht3, e3⟩ := quiet_back q4 _ t' ht'
      obtain ⟨t2, ht2, e2⟩ := quiet_back q2 _ t3 ht3
      dsimp only at ht2
      rw [hr, Int.toNat_natCast, ← hl1, List.getElem?_append_right (Nat.le_refl _), Nat.sub_self] at ht2
      simp only [List.getElem?_cons_zero, Option.some.injEq] at ht2
      subst ht2
      rw [e3, e2]; rfl

theorem restoreData_same {s s' : Server} {i : Int} {d : List Byte} (h : restoreData s i d = .ok s') {j : Nat} (hj : j ≠ i.toNat) :
    s'.db[j]? = s.db[j]? := (restoreData_quiet h).same hj

/-- Rows of other names leave a tag alone, and give its name to no tag. -/
theorem restoreTags_other {l : List RetRow} {name : Name} : ∀ {s s' : Server}, WF s → 11 ≤ s.db.length →
    (∀ x ∈ l, x.name ≠ name) → restoreTags s l = .ok s' →
    (∀ (j : Nat) (t : Tag), 11 ≤ j → s.db[j]? = some t → t.name = some name → s'.db[j]? = some t) ∧
    (∀ (j : Nat) (t' : Tag), s'.db[j]? = some t' → t'.name = some name → ∃ t, s.db[j]? = some t ∧ t.name = some name) := by
  induction l with
  | nil =>
    intro s s' _ _ _ h
    simp only [restoreTags, C.ok.injEq] at h; subst h
    exact ⟨fun j t _ ht _ => ht, fun j t' ht hn => ⟨t', ht, hn⟩⟩
  | cons x l ih =>
    intro s s' hw h11 hn h
    simp only [restoreTags] at h
    obtain ⟨⟨s1, r1⟩, h1, h⟩ := C.bind_eq_ok.mp h
    have st := tagAdd_step hw h1
    have hx := hn x (by simp)
    have hn' : ∀ y ∈ l, y.name ≠ name := fun y hy => hn y (List.mem_cons_of_mem _ hy)
    obtain ⟨d1, d2, d3⟩ := tagAdd_delta hw h11 h1
    have hl1 : 11 ≤ s1.db.length := by
      have := st.ev.tag 10 _ (List.getElem?_eq_getElem (l := s.db) (by omega))
      obtain ⟨t, ht, -⟩ := this
      have := (List.getElem?_eq_some_iff.mp ht).1
      omega
    dsimp only at h
    split at h
    · obtain ⟨a, b⟩ := ih st.wf hl1 hn' h
      refine ⟨fun j t hj ht htn => a j t hj (d1 j t hj ht (by rw [htn]; simpa using fun e => hx e.symm)) htn, fun j t' ht htn => ?_⟩
      obtain ⟨t, ht, htn⟩ := b j t' ht htn
      exact d2 j t name ht htn (fun e => hx e.symm)
    · rename_i hr
      obtain ⟨s2, h2, h⟩ := C.bind_eq_ok.mp h
      have q := restoreData_quiet h2
      have st2 := q.step st.wf
      obtain ⟨a, b⟩ := ih st2.wf (by rw [q.len]; exact hl1) hn' h
      refine ⟨fun j t hj ht htn => a j t hj ?_ htn, fun j t' ht htn => ?_⟩
      · have hs1 := d1 j t hj ht (by rw [htn]; simpa using fun e => hx e.symm)
        rw [restoreData_same h2 ?_]
        · exact hs1
        · intro e
          have := d3 (by omega) t (by rw [← e]; exact hs1)
          rw [htn] at this
          simp only [Option.some.injEq] at this
          exact hx this.symm
      · obtain ⟨t, ht, htn⟩ := b j t' ht htn
        have hl : j < s1.db.length := by rw [← q.len]; exact (List.getElem?_eq_some_iff.mp ht).1
        obtain ⟨t2, ht2, hs, -⟩ := q.tag j _ (List.getElem?_eq_getElem hl)
        rw [ht] at ht2; simp only [Option.some.injEq] at ht2; subst ht2
        exact d2 j _ name (List.getElem?_eq_getElem hl) (by rw [← hs.name]; exact htn) (fun e => hx e.symm)


theorem rd_all {b d : List Byte} {n : Int} (h : rd b 0 n = .ok d) (hn : n = b.length) : d = b := by
  obtain ⟨-, rfl⟩ := rd_ok.mp h
  subst hn; simp

theorem wr_zeros {k : Nat} {d b : List Byte} (h : wr (List.replicate k 0) 0 d = .ok b) :
    (d = [] → b = List.replicate k 0) ∧ (d.length = k → b = d) := by
  obtain ⟨-, rfl⟩ := wr_ok.mp h
  constructor
  · rintro rfl; simp
  · intro hd; subst hd; simp

theorem u32_i32 {n : Nat} (h : n < 4294967296) : u32 (i32 n) = n := by
  unfold u32 i32; omega

theorem i32_eq_u32 {x : Int} (h : 0 ≤ i32 x) : i32 x = (u32 x : Int) := by
  unfold u32; unfold i32 at h ⊢; omega

/-- The row itself: the tag is created anew, and its value set. -/
theorem restore_row {s s' : Server} {x : RetRow} {l : List RetRow} {ty cnt w : Nat} (hw : WF s) (h11 : 11 ≤ s.db.length)
    (hfree : ∀ (j : Nat) (t : Tag), s.db[j]? = some t → t.name ≠ some x.name) (hval : validateName x.name = 0)
    (hty : (ty, w) ∈ elemBytes) (htn : ∀ tbl, cdtGetType tbl x.type = ty) (hc : x.count = i32 cnt) (hc0 : 0 < cnt)
    (hc1 : cnt < 4294967296) (h : restoreTags s (x :: l) = .ok s') :
    ∃ s1 e b, restoreTags s1 l = .ok s' ∧ WF s1 ∧ 11 ≤ s1.db.length ∧
      s1.db[s.db.length]? = some { newTag e s.db.length (-1) x.name ty cnt b.length with data := .mem b } ∧
      b.length = u32 (w * cnt) ∧ i32 (w * cnt) = b.length ∧
      (x.data = none → b = List.replicate b.length 0) ∧ (∀ d, x.data = some d → d.length = b.length → b = d) := by
  obtain ⟨hb, hq, hcu, -⟩ := elem_facts hty
  simp only [restoreTags] at h
  rw [htn, hc, u32_i32 hc1] at h
  obtain ⟨⟨s1, r1⟩, h1, h⟩ := C.bind_eq_ok.mp h
  have st := tagAdd_step hw h1
  have hcc : u32 (cnt : Int) = cnt := by unfold u32; omega
  have hchk : checkType s.cdts ty = true := by
    simp only [elemBytes, List.mem_cons, List.not_mem_nil, or_false, Prod.mk.injEq] at hty
    rcases hty with h|h|h|h|h|h|h|h|h|h|h|h|h|h|h <;> obtain ⟨rfl, rfl⟩ := h <;> rfl
  rcases tagAdd_cases hw h1 with ⟨hr, h2⟩ | ⟨-, -, -, size, ha, ⟨n, hmem, hr, ho⟩ | ⟨hnew, hr, ho⟩⟩
  · exfalso
    unfold tagAdd tagAddC at h1
    rw [hcc, if_neg (by omega)] at h1
    dsimp only at h1
    rw [growDb_cdts, hchk, if_neg (by decide), if_neg (by omega)] at h1
    obtain ⟨size, ha, h1⟩ := C.bind_eq_ok.mp h1
    obtain ⟨o, ho, h1⟩ := C.bind_eq_ok.mp h1
    have sg := growDb_step hw
    cases o with
    | some n =>
      have hmem := getByName_some sg.wf.sorted ho
      obtain ⟨t, ht, hn⟩ := sg.wf.ent _ hmem
      dsimp only at ht hn
      rw [growDb_db] at ht
      exact hfree _ _ ht hn
    | none =>
      have := (tagAddNew_step sg.wf (growDb_room hw) (by rw [growDb_cdts]; exact hchk) hc0 hc1 hval
        (by rw [growDb_cdts]; exact ha) h1).2.1
      omega
  · obtain ⟨u, hu, hun⟩ := hw.ent _ hmem
    exact absurd hun (hfree _ _ hu)
  dsimp only at h
  rw [if_neg (by omega)] at h
  obtain ⟨s2, h2, h⟩ := C.bind_eq_ok.mp h
  have q := restoreData_quiet h2
  have st2 := q.step st.wf
  obtain ⟨sb, sc, y, d, p, hl, hbt, hs, hx⟩ := tagAddNew_parts (by rw [growDb_db]; exact h11) ho
  rw [growDb_db] at hl hbt hs
  have e := setAttribute_zero hs
  subst e
  have q4 := tagWrite_quiet hx
  have i1 : INDEX_ADDED_TAG.toNat = 2 := rfl
  have hs1 := hbt
  rw [← q4.same (by show ¬ (s.db.length = INDEX_ADDED_TAG.toNat); omega)] at hs1
  rw [hcc] at hs1 ha
  have hsz : size = u32 (w * cnt) := by
    unfold allocSize at ha
    rw [if_neg hb, typeSize_base hty] at ha
    simpa using ha.symm
  unfold restoreData at h2
  rw [hr, tag?_natCast, hs1] at h2
  dsimp only at h2
  unfold tagGetSize at h2
  rw [if_neg (by exact hb)] at h2
  have e1 : typeSize s1.cdts (newTag sc.env s.db.length (-1) x.name ty cnt size).type = .ok (w : Int) := typeSize_base hty _
  rw [e1, C.ok_bind, C.ok_bind] at h2
  have e2 : (newTag sc.env s.db.length (-1) x.name ty cnt size).data = .mem (List.replicate size 0) := by
    simp [newTag, hq]
  have e3 : (newTag sc.env s.db.length (-1) x.name ty cnt size).count = cnt := rfl
  rw [e2, e3] at h2
  split at h2
  · simp at h2
  rename_i hneg
  dsimp only at h2
  obtain ⟨b, hb', h2⟩ := C.bind_eq_ok.mp h2
  simp only [C.ok.injEq] at h2
  have hlen := wr_length hb'
  have hlen : b.length = size := by rw [hlen, List.length_replicate]
  have hi : i32 (w * cnt) = (b.length : Int) := by
    rw [hlen, hsz]
    exact i32_eq_u32 (Int.not_lt.mp hneg)
  have hlt : s.db.length < s1.db.length := (List.getElem?_eq_some_iff.mp hs1).1
  obtain ⟨w1, w2⟩ := wr_zeros hb'
  refine ⟨s2, sc.env, b, h, st2.wf, ?_, ?_, by rw [hlen, hsz], hi, ?_, ?_⟩
  · rw [q.len]; omega
  · rw [← h2, hlen]
    simp only [Server.setTag, Int.toNat_natCast]
    rw [List.getElem?_set_self hlt]
    rfl
  · intro e
    rw [hlen]
    exact w1 (by rw [e]; simp)
  · intro d hd hdl
    rw [hd] at hb' w1 w2
    rw [hi] at w2
    simp only [Option.getD_some, Int.toNat_natCast] at w2
    rw [List.take_of_length_le (by omega)] at w2
    exact w2 (by omega)


theorem restoreTags_append {a b : List RetRow} : ∀ {s s' : Server}, restoreTags s (a ++ b) = .ok s' →
    ∃ m, restoreTags s a = .ok m ∧ restoreTags m b = .ok s' := by
  induction a with
  | nil => intro s s' h; exact ⟨s, rfl, h⟩
  | cons x a ih =>
    intro s s' h
    simp only [List.cons_append, restoreTags] at h ⊢
    obtain ⟨⟨s1, r1⟩, h1, h⟩ := C.bind_eq_ok.mp h
    rw [h1, C.ok_bind]
    dsimp only at h ⊢
    split at h
    · rename_i hr
      rw [if_pos hr]; exact ih h
    · rename_i hr
      rw [if_neg hr]
      obtain ⟨s2, h2, h⟩ := C.bind_eq_ok.mp h
      rw [h2, C.ok_bind]; exact ih h

theorem tagGetSize_elem {ty w cnt : Nat} (h : (ty, w) ∈ elemBytes) {tbl : List Cdt} {t : Tag} (ht : t.type = ty)
    (hc : t.count = cnt) : tagGetSize tbl t = .ok (i32 (w * cnt)) := by
  unfold tagGetSize
  rw [ht, if_neg (elem_facts h).1, typeSize_base h, hc, C.ok_bind]

/-- A tag whose row is up to date comes back with its value. -/
theorem restart_kept {s s' : Server} {e : Env} {i ty cnt w p : Nat} {name tn : Name} {t : Tag} (hw : WF s) (hrw : RetWF s)
    (hu : name.head? ≠ some underscore) (hty : (ty, w) ∈ elemBytes) (htn : ∀ tbl, cdtGetType tbl tn = ty)
    (ht : s.db[i]? = some t) (hk : KeptTag name ty cnt w p tn s.ret t)
    (h : startServer e (some s.ret) = .ok s') (hfew : s'.db.length ≤ 1024) :
    ∃ j t' b, Plain s' j t' b ∧ t'.name = some name ∧ t'.type = ty ∧ t'.count = cnt ∧ t.data = .mem b ∧
      tagGetSize s.cdts t = .ok b.length ∧ tagGetSize s'.cdts t' = .ok b.length := by
  obtain ⟨hn, hty', hc, -, -, -, b, x, hb, hx, -, hxn, hxt, hxc, hd⟩ := hk
  obtain ⟨hbool, hq, -, -⟩ := elem_facts hty
  have ok := hw.tag i t ht
  have hRi : ∀ s0, initServer e = .ok s0 → Reachable s0 := fun s0 h0 => ⟨e, none, s0, [], by unfold startServer; rw [h0]; rfl, rfl⟩
  unfold startServer at h
  obtain ⟨s0, h0, h⟩ := C.bind_eq_ok.mp h
  dsimp only at h
  unfold retInit at h
  obtain ⟨tbl, h1, h⟩ := C.bind_eq_ok.mp h
  obtain ⟨s4, h2, h⟩ := C.bind_eq_ok.mp h
  simp only [C.ok.injEq] at h; subst h
  have w0 := initServer_wf h0
  obtain ⟨wt, xt⟩ := restoreTypes_wf w0.cdts h1
  have w1 := (w0.cdts_ext wt xt).wf
  have l0 := init_len h0
  obtain ⟨pre, post, hsplit⟩ := List.append_of_mem hx
  have hnames := hrw.names
  rw [hsplit] at h2 hnames
  obtain ⟨m, h3, h4⟩ := restoreTags_append h2
  have hpre : ∀ y ∈ pre, y.name ≠ name := by
    intro y hy
    rw [← hxn]
    exact (List.pairwise_append.mp hnames).2.2 y hy x (by simp)
  have hpost : ∀ y ∈ post, y.name ≠ name := by
    intro y hy
    rw [← hxn]
    exact fun e => (List.pairwise_cons.mp (List.pairwise_append.mp hnames).2.1).1 y hy e.symm
  have stm := restoreTags_step w1 h3
  have hlm : 11 ≤ m.db.length := by
    obtain ⟨t, ht, -⟩ := stm.ev.tag 10 _ (List.getElem?_eq_getElem (l := s0.db) (by omega))
    have := (List.getElem?_eq_some_iff.mp ht).1
    omega
  obtain ⟨-, f2⟩ := restoreTags_other w1 (by show 11 ≤ s0.db.length; omega) hpre h3
  have hfree : ∀ (j : Nat) (t : Tag), m.db[j]? = some t → t.name ≠ some x.name := by
    intro j t ht e
    rw [hxn] at e
    obtain ⟨u, hu', hun⟩ := f2 j t ht e
    dsimp only at hu'
    obtain ⟨u2, hu2, hs⟩ := (hRi s0 h0).sysName (i := j) (by
      have := (List.getElem?_eq_some_iff.mp hu').1; omega)
    rw [hu'] at hu2; simp only [Option.some.injEq] at hu2; subst hu2
    exact hu (hs _ hun)
  obtain ⟨s1, e1, b', r1, r2, r3, r4, r5, r6, r7, r8⟩ := restore_row stm.wf hlm hfree (by rw [hxn]; exact ok.valid _ hn) hty
    (by rw [hxt]; exact htn) hxc (by rw [← hc]; exact ok.chk.2) (by rw [← hc]; exact ok.cnt) h4
  rw [hxn] at r4
  have hfin := (restoreTags_other r2 r3 hpost r1).1 _ _ hlm r4 rfl
  have hlt := (List.getElem?_eq_some_iff.mp hfin).1
  dsimp only at hfew
  have hl1024 : m.db.length < TAGLIST_SIZE := by
    have : TAGLIST_SIZE = 1024 := rfl
    omega
  have hal := (ok.mem b hb).1
  have hbl : b.length = b'.length := by
    unfold allocSize at hal
    rw [hty', if_neg hbool, typeSize_base hty, hc] at hal
    simp only [C.ok_bind, C.ok.injEq] at hal
    rw [r5, ← hal]
  have hbb : b' = b := by
    rcases hd with ⟨hd, k, rfl⟩ | ⟨d, hd, hrd⟩
    · rw [r7 hd, ← hbl]; simp
    · have := rd_all hrd (by rw [r6, hbl])
      subst this
      exact r8 d hd hbl
  subst hbb
  refine ⟨m.db.length, _, b', ⟨hfin, by simp [newTag], ?_, ?_, rfl⟩, rfl, rfl, rfl, hb, ?_, ?_⟩
  · simp [newTag, hq, hl1024]
  · simp [newTag, hq, hl1024]
  · rw [tagGetSize_elem hty hty' hc, r6]
  · exact (tagGetSize_elem hty (cnt := cnt) rfl rfl).trans (by rw [r6])

end Dax
