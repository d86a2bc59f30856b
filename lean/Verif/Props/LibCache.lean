import Verif.Lemmas.LibCache
/-!
# C48: the tag cache of the client
-/
set_option autoImplicit false
namespace Dax
open Dax.TagCache

theorem tc_current_snoc {hist : List (TagCache.Op × Option Desc)} {d : Desc} (h : Current hist d) {o : TagCache.Op} {r : Option Desc}
    (hn : ¬ Supersedes o d.idx) : Current (hist ++ [(o, r)]) d := by
  obtain ⟨h1, o', r', h2, rfl, hl, hno⟩ := h
  refine ⟨h1, o', r', h2 ++ [(o, r)], by simp, hl, fun x hx => ?_⟩
  rcases List.mem_append.mp hx with hx | hx
  · exact hno x hx
  · simp only [List.mem_cons, List.not_mem_nil, or_false] at hx
    rw [hx]; exact hn

theorem tc_current_new {hist : List (TagCache.Op × Option Desc)} {d : Desc} {o : TagCache.Op} {r : Option Desc} (h : Learns o r d) :
    Current (hist ++ [(o, r)]) d := ⟨hist, o, r, [], rfl, h, by simp⟩

/-- What holds of the cache after a history. -/
structure TcInv (f : Int → Name) (lim : Int) (hist : List (TagCache.Op × Option Desc)) (s : TagCache.State) (l : List Desc) : Prop where
  cont : Contents s l
  limit : s.limit = lim
  cur : ∀ d ∈ l, Current hist d
  name : ∀ d ∈ l, d.name = f d.idx
  uniq : (l.map (·.idx)).Nodup
  len : (l.length : Int) ≤ max 1 lim

theorem tc_learn {f : Int → Name} {lim : Int} {hist : List (TagCache.Op × Option Desc)} {s : TagCache.State} {l : List Desc}
    {o : TagCache.Op} {r : Option Desc}
    (hc : Contents s l) (hlim : s.limit = lim) (hcur : ∀ d ∈ l, Current (hist ++ [(o, r)]) d) (hname : ∀ d ∈ l, d.name = f d.idx)
    (huniq : (l.map (·.idx)).Nodup) (hlen : (l.length : Int) ≤ max 1 lim)
    {d : Desc} (hd : d.name = f d.idx) (hdl : d.name.length ≤ 32) (hl : Learns o r d) (hnew : ∀ e ∈ l, e.idx ≠ d.idx) (a : Nat) :
    (∃ s' l', add s a d = .ok s' ∧ TcInv f lim (hist ++ [(o, r)]) s' l' ∧
      (l'.Perm (d :: l) ∨ (lim ≤ l.length ∧ ∃ e ∈ l, l'.Perm (d :: l.erase e)))) ∨ add s a d = .ub "not an input" := by
  rcases add_rep hc (a := a) hdl with ⟨s', h1, h2, h3⟩ | ⟨h1, -⟩
  · left
    by_cases hroom : l = [] ∨ (l.length : Int) < s.limit
    · rw [if_pos hroom] at h3
      have hmem : ∀ x ∈ l ++ [d], x ∈ l ∨ x = d := fun x hx => by simpa using hx
      refine ⟨s', _, h1, ⟨h3, by rw [h2, hlim], fun x hx => ?_, fun x hx => ?_, ?_, ?_⟩, .inl List.perm_append_comm⟩
      · rcases hmem x hx with h | rfl
        · exact hcur x h
        · exact tc_current_new hl
      · rcases hmem x hx with h | rfl
        · exact hname x h
        · exact hd
      · rw [List.map_append, List.nodup_append]
        refine ⟨huniq, by simp, fun x hx y hy => ?_⟩
        obtain ⟨e, he, rfl⟩ := List.mem_map.mp hx
        simp only [List.map_cons, List.map_nil, List.mem_cons, List.not_mem_nil, or_false] at hy
        rw [hy]; exact hnew e he
      · rw [List.length_append]
        rcases hroom with rfl | h
        · simp; omega
        · simp; omega
    · rw [if_neg hroom] at h3
      rw [not_or] at hroom
      obtain ⟨l0, e, rfl⟩ : ∃ l0 e, l = l0 ++ [e] := ⟨_, _, (List.dropLast_concat_getLast hroom.1).symm⟩
      rw [List.dropLast_concat] at h3
      have hmem : ∀ x ∈ l0 ++ [d], x ∈ l0 ∨ x = d := fun x hx => by simpa using hx
      have hnd : (l0.map (·.idx)).Nodup ∧ ∀ x ∈ l0, x.idx ≠ e.idx := by
        rw [List.map_append, List.nodup_append] at huniq
        exact ⟨huniq.1, fun x hx => huniq.2.2 _ (List.mem_map_of_mem hx) _ (by simp)⟩
      refine ⟨s', _, h1, ⟨h3, by rw [h2, hlim], fun x hx => ?_, fun x hx => ?_, ?_, ?_⟩, .inr ⟨by rw [hlim] at hroom; omega, e, by simp, ?_⟩⟩
      · rcases hmem x hx with h | rfl
        · exact hcur x (by simp [h])
        · exact tc_current_new hl
      · rcases hmem x hx with h | rfl
        · exact hname x (by simp [h])
        · exact hd
      · rw [List.map_append, List.nodup_append]
        refine ⟨hnd.1, by simp, fun x hx y hy => ?_⟩
        obtain ⟨e', he, rfl⟩ := List.mem_map.mp hx
        simp only [List.map_cons, List.map_nil, List.mem_cons, List.not_mem_nil, or_false] at hy
        rw [hy]; exact hnew e' (by simp [he])
      · simpa using hlen
      · have : (l0 ++ [e]).erase e = l0 := by
          rw [List.erase_append_right _ (fun h => hnd.2 e h rfl)]; simp
        rw [this]; exact List.perm_append_comm
  · exact .inr h1

theorem tc_del {f : Int → Name} {lim : Int} {hist : List (TagCache.Op × Option Desc)} {s : TagCache.State} {l : List Desc}
    (h : TcInv f lim hist s l) (i : Int) (o : TagCache.Op) (r : Option Desc) (ho : ∀ j, Supersedes o j → j = i) :
    ∃ s' l', del s i = .ok s' ∧ Contents s' l' ∧ s'.limit = lim ∧ (∀ d ∈ l', Current (hist ++ [(o, r)]) d) ∧
      (∀ d ∈ l', d.name = f d.idx) ∧ (l'.map (·.idx)).Nodup ∧ (l'.length : Int) ≤ max 1 lim ∧ ∀ d ∈ l', d.idx ≠ i := by
  obtain ⟨s', h1, h2, h3⟩ := del_rep h.cont i
  have hsub : (l.eraseP (fun d => d.idx == i)).Sublist l := List.eraseP_sublist
  have hne : ∀ d ∈ l.eraseP (fun d => d.idx == i), d.idx ≠ i := by
    intro d hd
    have hu := h.uniq
    clear h h1 h2 h3 hsub
    induction l with
    | nil => simp at hd
    | cons x l ih =>
      rw [List.map_cons, List.nodup_cons] at hu
      rw [List.eraseP_cons] at hd
      cases hx : x.idx == i
      rotate_left
      · rw [hx] at hd
        simp only [beq_iff_eq] at hx
        rintro he
        exact hu.1 (by rw [hx, ← he]; exact List.mem_map_of_mem hd)
      · rw [hx] at hd
        simp only [beq_eq_false_iff_ne] at hx
        rcases List.mem_cons.mp hd with rfl | hd
        · exact hx
        · exact ih hd hu.2
  refine ⟨s', _, h1, h3, by rw [h2, h.limit], fun d hd => ?_, fun d hd => h.name d (hsub.subset hd), h.uniq.sublist (hsub.map _), ?_, hne⟩
  · exact tc_current_snoc (h.cur d (hsub.subset hd)) (fun hc => hne d hd (ho _ hc))
  · have := hsub.length_le
    have := h.len
    omega

/-- A lookup with predicate `p`. -/
theorem tc_lookup {f : Int → Name} {lim : Int} {hist : List (TagCache.Op × Option Desc)} {s : TagCache.State} {l : List Desc}
    (h : TcInv f lim hist s l) (p : Desc → Bool) (srv : Option Desc) (a : Nat) (o : TagCache.Op) (hno : ∀ j, ¬ Supersedes o j)
    (hsrv : ∀ d, srv = some d → d.name = f d.idx ∧ d.name.length ≤ 32 ∧ p d = true ∧ Learns o (some d) d)
    (hp : ∀ d e, p d = true → d.name = f d.idx → e.name = f e.idx → e.idx = d.idx → p e = true) :
    (∃ s' r l', (check s p >>= fun x => match x with
          | (s, some d) => C.ok (s, some d)
          | (s, none) => learn s srv a) = .ok (s', r) ∧ TcInv f lim (hist ++ [(o, r)]) s' l' ∧
        (∀ d, r = some d → p d = true ∧ (srv = some d ∨ Current hist d)) ∧ (r = none → srv = none) ∧
        (l'.Perm l ∨ ∃ d, r = some d ∧ (l'.Perm (d :: l) ∨ (lim ≤ l.length ∧ ∃ e ∈ l, l'.Perm (d :: l.erase e))))) ∨
      (check s p >>= fun x => match x with
          | (s, some d) => C.ok (s, some d)
          | (s, none) => learn s srv a) = .ub "not an input" := by
  obtain ⟨s', l', h1, h2, h3, h4, h5⟩ := check_rep h.cont p
  have keep : ∀ r, TcInv f lim (hist ++ [(o, r)]) s' l' := fun r =>
    ⟨h2, by rw [h4, h.limit], fun d hd => tc_current_snoc (h.cur d (h3.mem_iff.mp hd)) (hno _), fun d hd => h.name d (h3.mem_iff.mp hd),
      (h3.map _).nodup_iff.mpr h.uniq, by rw [h3.length_eq]; exact h.len⟩
  cases hf : l.find? p with
  | some d =>
    left
    rw [hf] at h1
    refine ⟨s', some d, l', by simp [h1], keep _, fun e he => ?_, fun h => by simp at h, .inl h3⟩
    simp only [Option.some.injEq] at he
    subst he
    exact ⟨List.find?_some hf, .inr (h.cur d (List.mem_of_find?_eq_some hf))⟩
  | none =>
    have hs' := h5 hf
    subst hs'
    rw [hf] at h1
    cases srv with
    | none =>
      left
      exact ⟨s', none, l', by simp [h1, learn], keep _, fun d hd => by simp at hd, fun _ => rfl, .inl h3⟩
    | some d =>
      obtain ⟨k1, k2, k3, k4⟩ := hsrv d rfl
      have hnew : ∀ e ∈ l, e.idx ≠ d.idx := by
        intro e he hc
        have := List.find?_eq_none.mp hf e he
        exact this (hp d e k3 k1 (h.name e he) hc)
      rcases tc_learn (hist := hist) (o := o) (r := some d) h.cont h.limit (fun e he => tc_current_snoc (h.cur e he) (hno _)) h.name h.uniq h.len k1 k2 k4 hnew a with
        ⟨s2, l2, g1, g2, g3⟩ | g1
      · left
        refine ⟨s2, some d, l2, by simp [h1, learn, g1], g2, fun e he => ?_, fun h => by simp at h, .inr ⟨d, rfl, g3⟩⟩
        simp only [Option.some.injEq] at he
        subst he
        exact ⟨k3, .inl rfl⟩
      · right
        simp [h1, learn, g1]

theorem tc_step {f : Int → Name} {lim : Int} {hist : List (TagCache.Op × Option Desc)} {s : TagCache.State} {l : List Desc}
    (h : TcInv f lim hist s l) {o : TagCache.Op} (ho : o.Sound f) :
    (∃ s' r l', TagCache.step s o = .ok (s', r) ∧ TcInv f lim (hist ++ [(o, r)]) s' l' ∧ RightAnswer hist o r ∧
      (o.lookup → l'.Perm l ∨ ∃ d, r = some d ∧ (l'.Perm (d :: l) ∨ (lim ≤ l.length ∧ ∃ e ∈ l, l'.Perm (d :: l.erase e))))) ∨
    TagCache.step s o = .ub "not an input" := by
  cases o with
  | byName n srv a =>
    have e : TAGNAME_SIZE = 32 := rfl
    have hno : ∀ j, ¬ Supersedes (.byName n srv a) j := fun j hj => by rcases hj with ⟨d, a', h, -⟩ | h <;> cases h
    by_cases hn : n.length > TAGNAME_SIZE ∨ n = []
    · left
      refine ⟨s, none, l, by unfold TagCache.step; dsimp only; rw [if_pos hn], ⟨h.cont, h.limit, fun d hd => tc_current_snoc (h.cur d hd) (hno _), h.name, h.uniq, h.len⟩,
        ⟨fun d hd => by simp at hd, fun _ => ?_⟩, fun _ => .inl (List.Perm.refl _)⟩
      rw [e] at hn
      rcases hn with hn | hn
      · exact .inr (.inr hn)
      · exact .inr (.inl hn)
    · have := tc_lookup h (fun d => d.name == n) srv a (.byName n srv a) hno (fun d hd => by
          subst hd
          have h1 := ho.1 d (by simp [TagCache.Op.descs])
          exact ⟨h1.1, h1.2, by simp [ho.2.1 n d a rfl], .inr (.inl ⟨n, a, rfl, rfl⟩)⟩) (fun d e h1 h2 h3 h4 => by
          simp only [beq_iff_eq] at h1 ⊢
          rw [h3, h4, ← h2, h1])
      unfold TagCache.step
      dsimp only
      rw [if_neg hn]
      rcases this with ⟨s', r, l', g1, g2, g3, g4, g5⟩ | g1
      · exact .inl ⟨s', r, l', g1, g2, ⟨fun d hd => by have := g3 d hd; simpa using this, fun hr => .inl (g4 hr)⟩, fun _ => g5⟩
      · exact .inr g1
  | byIndex i srv a =>
    have hno : ∀ j, ¬ Supersedes (.byIndex i srv a) j := fun j hj => by rcases hj with ⟨d, a', h, -⟩ | h <;> cases h
    have := tc_lookup h (fun d => d.idx == i) srv a (.byIndex i srv a) hno (fun d hd => by
        subst hd
        have h1 := ho.1 d (by simp [TagCache.Op.descs])
        exact ⟨h1.1, h1.2, by simp [ho.2.2 i d a rfl], .inr (.inr ⟨i, a, rfl, rfl⟩)⟩) (fun d e h1 h2 h3 h4 => by
        simp only [beq_iff_eq] at h1 ⊢
        rw [h4, h1])
    unfold TagCache.step
    rcases this with ⟨s', r, l', g1, g2, g3, g4, g5⟩ | g1
    · exact .inl ⟨s', r, l', g1, g2, ⟨fun d hd => by have := g3 d hd; simpa using this, fun hr => g4 hr⟩, fun _ => g5⟩
    · exact .inr g1
  | tagAdd d a =>
    have h1 := ho.1 d (by simp [TagCache.Op.descs])
    obtain ⟨s1, l1, g1, g2, g3, g4, g5, g6, g7, g8⟩ := tc_del h d.idx (.tagAdd d a) none (fun j hj => by
      rcases hj with ⟨d', a', h, h'⟩ | h
      · cases h; exact h'.symm
      · cases h)
    rcases tc_learn (hist := hist) (o := .tagAdd d a) (r := none) g2 g3 g4 g5 g6 g7 h1.1 h1.2 (.inl ⟨a, rfl⟩) g8 a with
      ⟨s2, l2, k1, k2, -⟩ | k1
    · exact .inl ⟨s2, none, l2, by simp [TagCache.step, g1, k1], k2, trivial, fun h => h.elim⟩
    · exact .inr (by simp [TagCache.step, g1, k1])
  | deleted i =>
    obtain ⟨s1, l1, g1, g2, g3, g4, g5, g6, g7, g8⟩ := tc_del h i (.deleted i) none (fun j hj => by
      rcases hj with ⟨d', a', h, h'⟩ | h
      · cases h
      · cases h; rfl)
    exact .inl ⟨s1, none, l1, by simp [TagCache.step, g1], ⟨g2, g3, g4, g5, g6, g7⟩, trivial, fun h => h.elim⟩

theorem tc_run {f : Int → Name} {lim : Int} : ∀ (os : List TagCache.Op) (hist : List (TagCache.Op × Option Desc)) (s : TagCache.State) (l : List Desc),
    TcInv f lim hist s l → (∀ o ∈ os, o.Sound f) →
    (∃ s' rs l', TagCache.run s os = .ok (s', rs) ∧ rs.length = os.length ∧ TcInv f lim (hist ++ os.zip rs) s' l' ∧
      ∀ (k : Nat) (o : TagCache.Op) (r : Option Desc), os[k]? = some o → rs[k]? = some r → RightAnswer (hist ++ (os.zip rs).take k) o r) ∨
    TagCache.run s os = .ub "not an input" := by
  intro os
  induction os with
  | nil => intro hist s l h _; exact .inl ⟨s, [], l, rfl, rfl, by simpa using h, by simp⟩
  | cons o os ih =>
    intro hist s l h ho
    rcases tc_step h (ho o (by simp)) with ⟨s1, r, l1, h1, h2, h3, -⟩ | h1
    · rcases ih _ s1 l1 h2 (fun x hx => ho x (List.mem_cons_of_mem _ hx)) with ⟨s2, rs, l2, g1, g2, g3, g4⟩ | g1
      · left
        refine ⟨s2, r :: rs, l2, by simp [TagCache.run, h1, g1], by simp [g2], by simpa using g3, fun k o' r' hk hr => ?_⟩
        cases k with
        | zero =>
          simp only [List.getElem?_cons_zero, Option.some.injEq] at hk hr
          subst hk; subst hr
          simpa using h3
        | succ k =>
          simp only [List.getElem?_cons_succ] at hk hr
          have := g4 k o' r' hk hr
          simpa using this
      · exact .inr (by simp [TagCache.run, h1, g1])
    · exact .inr (by simp [TagCache.run, h1])

theorem tc_init (f : Int → Name) (lim : Int) : TcInv f lim [] { limit := lim } [] :=
  ⟨⟨[], rfl, by simp, rfl, trivial, rfl⟩, rfl, by simp, by simp, by simp, by simp; omega⟩

/-- **C48**, answers.  Whatever a module looks up, adds and finds deleted, in whatever order and with whatever size of cache: every
lookup gets an answer from the server now, or one that it got before for that very name (or index) and that was not superseded since; the list is
never corrupted.  (`"not an input"`: an address was proposed for a new node that is in use.)

Missing: superseding goes by index; a name that is given to another tag does not supersede the old answer
(`C48_stale_name`). -/
theorem C48_answers_partial (f : Int → Name) (lim : Int) (os : List TagCache.Op) (ho : ∀ o ∈ os, o.Sound f) :
    (∃ s rs, TagCache.run { limit := lim } os = .ok (s, rs) ∧ rs.length = os.length ∧
      ∀ (k : Nat) (o : TagCache.Op) (r : Option Desc), os[k]? = some o → rs[k]? = some r → RightAnswer ((os.zip rs).take k) o r) ∨
    TagCache.run { limit := lim } os = .ub "not an input" := by
  rcases tc_run os [] _ [] (tc_init f lim) ho with ⟨s, rs, l, h1, h2, -, h3⟩ | h
  · exact .inl ⟨s, rs, h1, h2, fun k o r hk hr => by simpa using h3 k o r hk hr⟩
  · exact .inr h

/-- **C48**, entries.  At any time the cache holds at most one entry for each tag, no more entries than its limit (or one), and only current
ones; a lookup keeps all the entries, or adds its answer, at the expense of one entry if the cache is full.

Missing: limits below 1 (`C48_limit_zero`). -/
theorem C48_entries_partial (f : Int → Name) (lim : Int) {os : List TagCache.Op} (ho : ∀ o ∈ os, o.Sound f) {s : TagCache.State} {rs : List (Option Desc)}
    (hr : TagCache.run { limit := lim } os = .ok (s, rs)) :
    ∃ l, Contents s l ∧ (l.map (·.idx)).Nodup ∧ (l.length : Int) ≤ max 1 lim ∧ (∀ d ∈ l, Current (os.zip rs) d) ∧
      ∀ (o : TagCache.Op) (s' : TagCache.State) (r : Option Desc), o.Sound f → o.lookup → TagCache.step s o = .ok (s', r) →
        ∃ l', Contents s' l' ∧ (l'.Perm l ∨ ∃ d, r = some d ∧ (l'.Perm (d :: l) ∨ (lim ≤ l.length ∧ ∃ e ∈ l, l'.Perm (d :: l.erase e)))) := by
  rcases tc_run os [] _ [] (tc_init f lim) ho with ⟨s1, rs1, l, h1, h2, h3, -⟩ | h
  · rw [hr] at h1
    simp only [C.ok.injEq, Prod.mk.injEq] at h1
    obtain ⟨rfl, rfl⟩ := h1
    refine ⟨l, h3.cont, h3.uniq, h3.len, h3.cur, fun o s' r ho hl hst => ?_⟩
    rcases tc_step h3 ho with ⟨s2, r2, l2, g1, g2, -, g4⟩ | g1
    · rw [hst] at g1
      simp only [C.ok.injEq, Prod.mk.injEq] at g1
      obtain ⟨rfl, rfl⟩ := g1
      exact ⟨l2, g2.cont, g4 hl⟩
    · rw [hst] at g1; simp at g1
  · rw [hr] at h; simp at h

/-- Three tags and a cache for two: the second lookup of "A" is answered from the cache, the one of "B" has to ask again. -/
def cacheDemo : List TagCache.Op :=
  [.byName (nm "A") (some ⟨11, 0x15, 1, 0, nm "A"⟩) 100, .byName (nm "B") (some ⟨12, 0x14, 4, 0, nm "B"⟩) 200,
   .byName (nm "A") none 0, .tagAdd ⟨13, 0x14, 1, 0, nm "C"⟩ 300, .byIndex 13 none 0, .byName (nm "B") none 0, .deleted 11, .byIndex 11 none 0]

/-- Instance. -/
example : (∀ o ∈ cacheDemo, o.Sound (fun i => if i = 11 then nm "A" else if i = 12 then nm "B" else nm "C")) ∧
    (TagCache.run { limit := 2 } cacheDemo >>= fun p => C.ok p.2) = .ok [some ⟨11, 0x15, 1, 0, nm "A"⟩, some ⟨12, 0x14, 4, 0, nm "B"⟩,
      some ⟨11, 0x15, 1, 0, nm "A"⟩, none, some ⟨13, 0x14, 1, 0, nm "C"⟩, none, none, none] := by
  refine ⟨fun o ho => ?_, by rfl⟩
  simp only [cacheDemo, List.mem_cons, List.not_mem_nil, or_false] at ho
  rcases ho with rfl | rfl | rfl | rfl | rfl | rfl | rfl | rfl <;>
  · refine ⟨by simp only [TagCache.Op.descs]; decide, fun n d a h => ?_, fun i d a h => ?_⟩ <;> cases h <;> rfl

/-- **C48 fails** for a cache of no entries: it holds one. -/
theorem C48_limit_zero : ∃ s, TagCache.run { limit := 0 } [.tagAdd ⟨11, 0x15, 1, 0, nm "A"⟩ 100] = .ok (s, [none]) ∧ s.count = 1 :=
  ⟨_, rfl, rfl⟩

/-- **C48 fails** for a name that is used again: a module creates the tag "A", deletes it (`dax_tag_del` leaves the cache alone), creates
it again and looks it up.  The answer is the index of the tag that is gone, though the module has been told the new one. -/
theorem C48_stale_name :
    (∀ o ∈ [TagCache.Op.tagAdd ⟨11, 0x15, 1, 0, nm "A"⟩ 100, .tagAdd ⟨12, 0x15, 1, 0, nm "A"⟩ 200, .byName (nm "A") (some ⟨12, 0x15, 1, 0, nm "A"⟩) 300],
      o.Sound (fun _ => nm "A")) ∧
    (TagCache.run { limit := 8 } [.tagAdd ⟨11, 0x15, 1, 0, nm "A"⟩ 100, .tagAdd ⟨12, 0x15, 1, 0, nm "A"⟩ 200,
      .byName (nm "A") (some ⟨12, 0x15, 1, 0, nm "A"⟩) 300] >>= fun p => C.ok p.2) = .ok [none, none, some ⟨11, 0x15, 1, 0, nm "A"⟩] := by
  refine ⟨fun o ho => ?_, by rfl⟩
  simp only [List.mem_cons, List.not_mem_nil, or_false] at ho
  rcases ho with rfl | rfl | rfl <;>
  · refine ⟨by simp only [TagCache.Op.descs]; decide, fun n d a h => ?_, fun i d a h => ?_⟩ <;> cases h <;> rfl

end Dax
