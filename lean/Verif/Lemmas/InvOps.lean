import Verif.Lemmas.Inv
/-!
# Every server action keeps the invariant
-/
set_option autoImplicit false
namespace Dax

/-! ## Compound types -/

theorem find_base {name : Name} {p : Name × Nat}
    (h : baseNames.find? (fun p => strcaseeq name p.1) = some p) : p.2 ∈ baseTypes := by
  have hm := List.mem_of_find?_eq_some h
  have : ∀ q ∈ baseNames, q.2 ∈ baseTypes := by decide
  exact this p hm

theorem cdtGetType_known {tbl : List Cdt} {name : Name} (h : cdtGetType tbl name ≠ 0) :
    cdtGetType tbl name ∈ baseTypes ∨ ∃ j, j < tbl.length ∧ cdtGetType tbl name = cdtToType j := by
  unfold cdtGetType at *
  split
  · rename_i p hp
    exact .inl (find_base hp)
  · rename_i hb
    rw [hb] at h
    dsimp only at h
    split
    · rename_i i hi
      have := (List.findIdx?_eq_some_iff_getElem.mp hi).1
      exact .inr ⟨i, this, rfl⟩
    · rename_i hn
      rw [hn] at h; exact absurd rfl h

structure MembersOK (tbl : List Cdt) (ms : List Member) : Prop where
  type : ∀ m ∈ ms, m.type ∈ baseTypes ∨ ∃ j, j < tbl.length ∧ m.type = cdtToType j
  valid : ∀ m ∈ ms, validateName m.name = 0 ∧ m.count < 4294967296
  uniq : ms.Pairwise (fun a b => strcaseeq b.name a.name = false)

theorem cdtAppend_ok {tbl : List Cdt} {ms ms' : List Member} {str : Name}
    (h : MembersOK tbl ms) (hh : cdtAppend tbl ms str = .ok ms') : MembersOK tbl ms' := by
  unfold cdtAppend at hh
  split at hh
  · rename_i name ts cs rest _
    split at hh
    · simp at hh
    · split at hh
      · simp at hh
      · split at hh
        · simp at hh
        · rename_i hv ht hd
          simp only [Except.ok.injEq] at hh
          subst hh
          refine ⟨?_, ?_, ?_⟩
          · intro m hm
            rcases List.mem_append.mp hm with hm | hm
            · exact h.type m hm
            · simp only [List.mem_singleton] at hm
              subst hm
              exact cdtGetType_known ht
          · intro m hm
            rcases List.mem_append.mp hm with hm | hm
            · exact h.valid m hm
            · simp only [List.mem_singleton] at hm
              subst hm
              exact ⟨by simpa using hv, u32_lt _⟩
          · rw [List.pairwise_append]
            refine ⟨h.uniq, List.pairwise_singleton _ _, ?_⟩
            intro a ha b hb
            simp only [List.mem_singleton] at hb
            subst hb
            simp only [List.any_eq_true, not_exists, not_and, Bool.not_eq_true] at hd
            exact hd a ha
  · simp at hh

theorem cdtAppendAll_ok {tbl : List Cdt} {strs : List Name} : ∀ {ms ms' : List Member},
    MembersOK tbl ms → cdtAppendAll tbl ms strs = .ok ms' → MembersOK tbl ms' := by
  induction strs with
  | nil =>
    intro ms ms' h hh
    simp only [cdtAppendAll, Except.ok.injEq] at hh; subst hh; exact h
  | cons a as ih =>
    intro ms ms' h hh
    simp only [cdtAppendAll] at hh
    split at hh
    · simp at hh
    · rename_i ms1 h1
      exact ih (cdtAppend_ok h h1) hh

theorem cdtGetType_zero {tbl : List Cdt} {name : Name} (h : cdtGetType tbl name = 0) :
    (∀ p ∈ baseNames, strcaseeq name p.1 = false) ∧ ∀ c ∈ tbl, strcaseeq name c.name = false := by
  unfold cdtGetType at h
  split at h
  · rename_i p hp
    have hm := List.mem_of_find?_eq_some hp
    have : ∀ q ∈ baseNames, q.2 ≠ 0 := by decide
    exact absurd h (this p hm)
  · rename_i hb
    split at h
    · simp [cdtToType, DAX_CUSTOM] at h
    · rename_i hn
      simp only [List.find?_eq_none, Bool.not_eq_true] at hb
      rw [List.findIdx?_eq_none_iff] at hn
      exact ⟨hb, hn⟩

/-- `cdt_create` either leaves the table alone or appends one well formed type. -/
theorem cdtCreate_inv {tbl tbl' : List Cdt} {str : Name} {r : CdtResult}
    (h : cdtCreate tbl str = .ok (tbl', r)) :
    tbl' = tbl ∨ ∃ c, tbl' = tbl ++ [c] ∧ r = ⟨cdtToType tbl.length, some 0⟩ ∧
      tbl.length < 1073741824 ∧ validateName c.name = 0 ∧ cdtGetType tbl c.name = 0 ∧
      MembersOK tbl c.members := by
  unfold cdtCreate at h
  split at h
  · simp at h
  · rename_i name members _
    split at h
    · simp only [C.ok.injEq, Prod.mk.injEq] at h; exact .inl h.1.symm
    · rename_i hv
      split at h
      · obtain ⟨o, ho, h⟩ := C.bind_eq_ok.mp h
        cases o with
        | none => simp at h
        | some serial =>
          dsimp only at h
          split at h
          · simp only [C.ok.injEq, Prod.mk.injEq] at h; exact .inl h.1.symm
          · simp only [C.ok.injEq, Prod.mk.injEq] at h; exact .inl h.1.symm
      · rename_i hg
        split at h
        · simp only [C.ok.injEq, Prod.mk.injEq] at h; exact .inl h.1.symm
        · rename_i ms hms
          split at h
          · simp at h
          · rename_i hl
            simp only [C.ok.injEq, Prod.mk.injEq] at h
            obtain ⟨rfl, rfl⟩ := h
            refine .inr ⟨_, rfl, rfl, by omega, by simpa using hv, by simpa using hg, ?_⟩
            exact cdtAppendAll_ok ⟨by simp, by simp, List.Pairwise.nil⟩ hms

theorem CdtWF.append {tbl : List Cdt} (h : CdtWF tbl) {c : Cdt} (hl : tbl.length < 1073741824)
    (hv : validateName c.name = 0) (hg : cdtGetType tbl c.name = 0)
    (hm : MembersOK tbl c.members) : CdtWF (tbl ++ [c]) := by
  obtain ⟨hb, hu⟩ := cdtGetType_zero hg
  refine ⟨by simp; omega, ?_, ?_, ?_, ?_, ?_, ?_⟩
  · intro i c' hc' m hmem
    rcases Nat.lt_or_ge i tbl.length with hi | hi
    · rw [List.getElem?_append_left hi] at hc'
      exact h.acyc i c' hc' m hmem
    · rw [List.getElem?_append_right hi] at hc'
      have hi0 : i - tbl.length = 0 := by
        have := (List.getElem?_eq_some_iff.mp hc').1
        simp at this; omega
      rw [hi0] at hc'
      simp at hc'
      subst hc'
      rcases hm.type m hmem with h1 | ⟨j, hj, h1⟩
      · exact .inl h1
      · exact .inr ⟨j, by omega, h1⟩
  · intro c' hc'
    rcases List.mem_append.mp hc' with hc' | hc'
    · exact h.valid c' hc'
    · simp only [List.mem_singleton] at hc'; subst hc'; exact hv
  · intro c' hc'
    rcases List.mem_append.mp hc' with hc' | hc'
    · exact h.nobase c' hc'
    · simp only [List.mem_singleton] at hc'; subst hc'; exact hb
  · rw [List.pairwise_append]
    refine ⟨h.uniq, List.pairwise_singleton _ _, ?_⟩
    intro a ha b hb'
    simp only [List.mem_singleton] at hb'
    subst hb'
    exact hu a ha
  · intro c' hc'
    rcases List.mem_append.mp hc' with hc' | hc'
    · exact h.mvalid c' hc'
    · simp only [List.mem_singleton] at hc'; subst hc'; exact hm.valid
  · intro c' hc'
    rcases List.mem_append.mp hc' with hc' | hc'
    · exact h.muniq c' hc'
    · simp only [List.mem_singleton] at hc'; subst hc'; exact hm.uniq

theorem cdtCreate_wf {tbl tbl' : List Cdt} {str : Name} {r : CdtResult} (hw : CdtWF tbl)
    (h : cdtCreate tbl str = .ok (tbl', r)) : CdtWF tbl' ∧ CdtExt tbl tbl' := by
  rcases cdtCreate_inv h with rfl | ⟨c, rfl, -, hl, hv, hg, hm⟩
  · exact ⟨hw, CdtExt.refl _⟩
  · exact ⟨hw.append hl hv hg hm, CdtExt.append _ _⟩

/-- Changing the type table to an extension. -/
theorem WF.cdts_ext {s : Server} (h : WF s) {tbl : List Cdt} (hw : CdtWF tbl)
    (he : CdtExt s.cdts tbl) : Step s { s with cdts := tbl } :=
  ⟨⟨h.sorted, h.ent, h.named, h.dbsz, h.dbpos, h.ixlen, h.dblt,
    fun i t ht => (h.tag i t ht).ext he, h.count, hw⟩, ⟨(Evolve.refl s).tag, he⟩⟩

/-- Changes to components the invariant does not mention. -/
theorem WF.other {s s' : Server} (h : WF s) (h1 : s'.index = s.index) (h2 : s'.dbsize = s.dbsize)
    (h3 : s'.tagcount = s.tagcount) (h4 : s'.cdts = s.cdts) (h5 : s'.db = s.db) : Step s s' := by
  refine ⟨⟨?_, ?_, ?_, ?_, ?_, ?_, ?_, ?_, ?_, ?_⟩, ?_, ?_⟩
  · rw [h1]; exact h.sorted
  · rw [h1, h5]; exact h.ent
  · rw [h1, h5]; exact h.named
  · rw [h2, h5]; exact h.dbsz
  · rw [h2]; exact h.dbpos
  · rw [h1, h5]; exact h.ixlen
  · rw [h5]; exact h.dblt
  · rw [h4, h5]; exact h.tag
  · rw [h3, h5]; exact h.count
  · rw [h4]; exact h.cdts
  · rw [h5]; exact (Evolve.refl s).tag
  · rw [h4]; exact CdtExt.refl _

/-! ## Modules -/

theorem delOwned_step {fd : Int} {k : Nat} : ∀ {n : Nat} {s s' : Server}, WF s →
    delOwned fd k n s = .ok s' → Step s s' := by
  induction k with
  | zero =>
    intro n s s' h hh
    simp only [delOwned, C.ok.injEq] at hh; subst hh; exact Step.refl h
  | succ k ih =>
    intro n s s' h hh
    simp only [delOwned] at hh
    split at hh
    · simp at hh
    · split at hh
      · obtain ⟨⟨s1, r1⟩, h1, hh⟩ := C.bind_eq_ok.mp hh
        have st := tagDel_step h h1
        exact st.trans (ih st.wf hh)
      · exact ih h hh

theorem moduleUnregister_step {s s' : Server} {fd : Int} (h : WF s)
    (hh : moduleUnregister s fd = .ok s') : Step s s' := by
  unfold moduleUnregister at hh
  split at hh
  · simp only [C.ok.injEq] at hh; subst hh; exact Step.refl h
  · obtain ⟨s1, h1, hh⟩ := C.bind_eq_ok.mp hh
    have st1 := (eventsCleanup_evOnly h1).quiet.step h
    split at hh
    · simp at hh
    · obtain ⟨s2, h2, hh⟩ := C.bind_eq_ok.mp hh
      have st2 := delOwned_step st1.wf h2
      obtain ⟨⟨s3, r3⟩, h3, hh⟩ := C.bind_eq_ok.mp hh
      have st3 := tagDel_step st2.wf h3
      simp only [C.ok.injEq] at hh
      subst hh
      exact st1.trans (st2.trans (st3.trans (st3.wf.other rfl rfl rfl rfl rfl)))

theorem moduleAdd_step {s : Server} (h : WF s) (name : Name) (fd : Int) :
    Step s (moduleAdd s name fd) := h.other rfl rfl rfl rfl rfl

theorem moduleTag_step {s s' : Server} {uid : Nat} {name : Name} {fd : Int} (h : WF s)
    (hh : moduleTag s uid name fd = .ok s') : Step s s' := by
  unfold moduleTag at hh
  obtain ⟨⟨tn, uuid⟩, h1, hh⟩ := C.bind_eq_ok.mp hh
  obtain ⟨⟨s2, r⟩, h2, hh⟩ := C.bind_eq_ok.mp hh
  have st1 : Step s { s with modUuid := uuid } := h.other rfl rfl rfl rfl rfl
  have st2 := tagAdd_step st1.wf h2
  dsimp only at hh
  split at hh
  · simp at hh
  · obtain ⟨⟨s3, r3⟩, h3, hh⟩ := C.bind_eq_ok.mp hh
    have stm := (updMod_quiet (fun _ => True) s2 uid (fun m => { m with tagindex := r })).step st2.wf
    have st3 := (tagWrite_quiet h3).step stm.wf
    obtain ⟨⟨s4, r4⟩, h4, hh⟩ := C.bind_eq_ok.mp hh
    have st4 := (tagWrite_quiet h4).step st3.wf
    dsimp only at hh
    split at hh
    · simp at hh
    · rename_i t ht
      obtain ⟨⟨s5, r5⟩, h5, hh⟩ := C.bind_eq_ok.mp hh
      simp only [C.ok.injEq] at hh
      subst hh
      have sq := (setTag_quiet (t' := { t with attr := { t.attr with special := true } }) ht
        (sameShape_attr rfl)).step st4.wf
      have st5 := (tagWrite_quiet h5).step sq.wf
      exact st1.trans (st2.trans (stm.trans (st3.trans (st4.trans (sq.trans st5)))))

theorem moduleRegister_step {s s' : Server} {name : Name} {fd : Int} (h : WF s)
    (hh : moduleRegister s name fd = .ok s') : Step s s' := by
  unfold moduleRegister at hh
  have key : ∀ s1, Step s s1 →
      (if (moduleAdd s1 name fd).env.exclude.contains name then C.ok (moduleAdd s1 name fd)
        else moduleTag (moduleAdd s1 name fd) s1.nextUid name fd) = .ok s' → Step s s' := by
    intro s1 st1 hh
    have st2 := moduleAdd_step st1.wf name fd
    split at hh
    · simp only [C.ok.injEq] at hh; subst hh; exact st1.trans st2
    · exact st1.trans (st2.trans (moduleTag_step st2.wf hh))
  dsimp only at hh
  split at hh
  · obtain ⟨s1, h1, hh⟩ := C.bind_eq_ok.mp hh
    exact key s1 (moduleUnregister_step h h1) hh
  · exact key s (Step.refl h) hh

/-! ## Requests -/

theorem mapCheck_step {s s' : Server} {idx off size : Int} (h : WF s)
    (hh : mapCheck s idx off size = .ok s') : Step s s' := (mapCheck_quiet hh).step h

theorem handle_step {s s' : Server} {fd : Int} {q : Req} {r : Reply} (h : WF s)
    (hh : handle s fd q = .ok (s', r)) : Step s s' := by
  cases q with
  | modReg flags name =>
    simp only [handle, hModReg] at hh
    split at hh
    · obtain ⟨s1, h1, hh⟩ := C.bind_eq_ok.mp hh
      obtain ⟨⟨s2, r2⟩, h2, hh⟩ := C.bind_eq_ok.mp hh
      have st1 := moduleRegister_step h h1
      have st2 := (tagRead_quiet h2).step st1.wf
      cases r2 <;>
      · simp only [C.ok.injEq, Prod.mk.injEq] at hh
        rw [← hh.1]; exact st1.trans st2
    · simp only [C.ok.injEq, Prod.mk.injEq] at hh; rw [← hh.1]; exact Step.refl h
  | modUnreg => simp only [handle, C.ok.injEq, Prod.mk.injEq] at hh; rw [← hh.1]; exact Step.refl h
  | tagAdd type count attr name =>
    simp only [handle, hTagAdd] at hh
    split at hh
    · simp only [C.ok.injEq, Prod.mk.injEq] at hh; rw [← hh.1]; exact Step.refl h
    · obtain ⟨⟨s1, r1⟩, h1, hh⟩ := C.bind_eq_ok.mp hh
      simp only [C.ok.injEq, Prod.mk.injEq] at hh; rw [← hh.1]; exact tagAdd_step h h1
  | tagDel idx =>
    simp only [handle, hTagDel] at hh
    obtain ⟨o, ho, hh⟩ := C.bind_eq_ok.mp hh
    cases o with
    | error e => simp only [C.ok.injEq, Prod.mk.injEq] at hh; rw [← hh.1]; exact Step.refl h
    | ok t =>
      dsimp only at hh
      split at hh
      · simp only [C.ok.injEq, Prod.mk.injEq] at hh; rw [← hh.1]; exact Step.refl h
      · obtain ⟨⟨s1, r1⟩, h1, hh⟩ := C.bind_eq_ok.mp hh
        simp only [C.ok.injEq, Prod.mk.injEq] at hh; rw [← hh.1]; exact tagDel_step h h1
  | tagGetIdx idx =>
    simp only [handle, hTagGet] at hh
    obtain ⟨o, ho, hh⟩ := C.bind_eq_ok.mp hh
    cases o <;> (simp only [C.ok.injEq, Prod.mk.injEq] at hh; rw [← hh.1]; exact Step.refl h)
  | tagGetName name =>
    simp only [handle, hTagGet] at hh
    obtain ⟨o, ho, hh⟩ := C.bind_eq_ok.mp hh
    cases o <;> (simp only [C.ok.injEq, Prod.mk.injEq] at hh; rw [← hh.1]; exact Step.refl h)
  | tagList => simp only [handle, C.ok.injEq, Prod.mk.injEq] at hh; rw [← hh.1]; exact Step.refl h
  | tagRead idx off size =>
    simp only [handle, hTagRead] at hh
    obtain ⟨⟨s1, r1⟩, h1, hh⟩ := C.bind_eq_ok.mp hh
    have st1 := (tagRead_quiet h1).step h
    cases r1 with
    | error e => simp only [C.ok.injEq, Prod.mk.injEq] at hh; rw [← hh.1]; exact st1
    | ok d =>
      dsimp only at hh
      split at hh
      · simp at hh
      · split at hh
        · simp only [C.ok.injEq, Prod.mk.injEq] at hh; rw [← hh.1]; exact st1
        · simp only [C.ok.injEq, Prod.mk.injEq] at hh; rw [← hh.1]; exact st1
  | tagWrite idx off d =>
    simp only [handle, hTagWrite] at hh
    obtain ⟨b, hb, hh⟩ := C.bind_eq_ok.mp hh
    split at hh
    · simp only [C.ok.injEq, Prod.mk.injEq] at hh; rw [← hh.1]; exact Step.refl h
    · obtain ⟨⟨s1, r1⟩, h1, hh⟩ := C.bind_eq_ok.mp hh
      have st1 := (tagWrite_quiet h1).step h
      dsimp only at hh
      split at hh
      · simp only [C.ok.injEq, Prod.mk.injEq] at hh; rw [← hh.1]; exact st1
      · obtain ⟨s2, h2, hh⟩ := C.bind_eq_ok.mp hh
        simp only [C.ok.injEq, Prod.mk.injEq] at hh; rw [← hh.1]
        exact st1.trans (mapCheck_step st1.wf h2)
  | tagMWrite idx off d m =>
    simp only [handle, hTagMWrite] at hh
    obtain ⟨⟨a, b⟩, hb, hh⟩ := C.bind_eq_ok.mp hh
    dsimp only at hh
    split at hh
    · simp only [C.ok.injEq, Prod.mk.injEq] at hh; rw [← hh.1]; exact Step.refl h
    · obtain ⟨⟨s1, r1⟩, h1, hh⟩ := C.bind_eq_ok.mp hh
      have st1 := (tagMaskWrite_quiet h1).step h
      dsimp only at hh
      split at hh
      · simp only [C.ok.injEq, Prod.mk.injEq] at hh; rw [← hh.1]; exact st1
      · obtain ⟨s2, h2, hh⟩ := C.bind_eq_ok.mp hh
        simp only [C.ok.injEq, Prod.mk.injEq] at hh; rw [← hh.1]
        exact st1.trans (mapCheck_step st1.wf h2)
  | evAdd hd et arg =>
    simp only [handle, hEvAdd] at hh
    split at hh
    · simp only [C.ok.injEq, Prod.mk.injEq] at hh; rw [← hh.1]; exact Step.refl h
    · obtain ⟨⟨s1, r1⟩, h1, hh⟩ := C.bind_eq_ok.mp hh
      simp only [C.ok.injEq, Prod.mk.injEq] at hh; rw [← hh.1]; exact (eventAdd_quiet h1).step h
  | evDel idx id =>
    simp only [handle, hEvDel] at hh
    obtain ⟨⟨s1, r1⟩, h1, hh⟩ := C.bind_eq_ok.mp hh
    simp only [C.ok.injEq, Prod.mk.injEq] at hh; rw [← hh.1]; exact (eventDel_evOnly h1).quiet.step h
  | evGet => simp only [handle, C.ok.injEq, Prod.mk.injEq] at hh; rw [← hh.1]; exact Step.refl h
  | evOpt idx id opts =>
    simp only [handle, hEvOpt] at hh
    obtain ⟨⟨s1, r1⟩, h1, hh⟩ := C.bind_eq_ok.mp hh
    simp only [C.ok.injEq, Prod.mk.injEq] at hh; rw [← hh.1]; exact (eventOpt_evOnly h1).quiet.step h
  | cdtCreate str =>
    simp only [handle, hCdtCreate] at hh
    obtain ⟨⟨tbl, r1⟩, h1, hh⟩ := C.bind_eq_ok.mp hh
    simp only [C.ok.injEq, Prod.mk.injEq] at hh; rw [← hh.1]
    obtain ⟨hw, he⟩ := cdtCreate_wf h.cdts h1
    exact h.cdts_ext hw he
  | cdtGetType t =>
    simp only [handle, hCdtGet] at hh
    obtain ⟨o, ho, hh⟩ := C.bind_eq_ok.mp hh
    cases o with
    | none => simp only [C.ok.injEq, Prod.mk.injEq] at hh; rw [← hh.1]; exact Step.refl h
    | some str =>
      dsimp only at hh
      split at hh <;>
        (simp only [C.ok.injEq, Prod.mk.injEq] at hh; rw [← hh.1]; exact Step.refl h)
  | cdtGetName n =>
    simp only [handle, hCdtGet] at hh
    obtain ⟨o, ho, hh⟩ := C.bind_eq_ok.mp hh
    cases o with
    | none => simp only [C.ok.injEq, Prod.mk.injEq] at hh; rw [← hh.1]; exact Step.refl h
    | some str =>
      dsimp only at hh
      split at hh <;>
        (simp only [C.ok.injEq, Prod.mk.injEq] at hh; rw [← hh.1]; exact Step.refl h)
  | mapAdd a b =>
    simp only [handle] at hh
    obtain ⟨⟨s1, r1⟩, h1, hh⟩ := C.bind_eq_ok.mp hh
    simp only [C.ok.injEq, Prod.mk.injEq] at hh; rw [← hh.1]; exact (mapAdd_quiet h1).step h
  | mapDel idx id =>
    simp only [handle] at hh
    obtain ⟨⟨s1, r1⟩, h1, hh⟩ := C.bind_eq_ok.mp hh
    simp only [C.ok.injEq, Prod.mk.injEq] at hh; rw [← hh.1]; exact (mapDel_quiet h1).step h
  | mapGet idx id =>
    simp only [handle, hMapGet] at hh
    obtain ⟨o, ho, hh⟩ := C.bind_eq_ok.mp hh
    cases o with
    | error e => simp only [C.ok.injEq, Prod.mk.injEq] at hh; rw [← hh.1]; exact Step.refl h
    | ok p => simp only [C.ok.injEq, Prod.mk.injEq] at hh; rw [← hh.1]; exact Step.refl h
  | grpAdd hs =>
    simp only [handle, hGrpAdd] at hh
    split at hh
    · simp at hh
    · obtain ⟨⟨m1, r1⟩, h1, hh⟩ := C.bind_eq_ok.mp hh
      simp only [C.ok.injEq, Prod.mk.injEq] at hh; rw [← hh.1]
      exact (updMod_quiet (fun _ => True) _ _ _).step h
  | grpDel i =>
    simp only [handle, hGrpDel] at hh
    split at hh
    · simp at hh
    · obtain ⟨⟨m1, r1⟩, h1, hh⟩ := C.bind_eq_ok.mp hh
      simp only [C.ok.injEq, Prod.mk.injEq] at hh; rw [← hh.1]
      exact (updMod_quiet (fun _ => True) _ _ _).step h
  | grpRead i =>
    simp only [handle, hGrpRead] at hh
    split at hh
    · simp at hh
    · obtain ⟨⟨s1, r1⟩, h1, hh⟩ := C.bind_eq_ok.mp hh
      have st := (groupRead_quiet h1).step h
      cases r1 <;> (simp only [C.ok.injEq, Prod.mk.injEq] at hh; rw [← hh.1]; exact st)
  | grpWrite i buf =>
    simp only [handle, hGrpWrite] at hh
    split at hh
    · simp at hh
    · obtain ⟨⟨s1, r1⟩, h1, hh⟩ := C.bind_eq_ok.mp hh
      simp only [C.ok.injEq, Prod.mk.injEq] at hh; rw [← hh.1]
      exact (groupWrite_quiet h1).step h
  | grpMWrite => simp only [handle, C.ok.injEq, Prod.mk.injEq] at hh; rw [← hh.1]; exact Step.refl h
  | atomic hd op buf =>
    simp only [handle, hAtomic] at hh
    obtain ⟨b, hb, hh⟩ := C.bind_eq_ok.mp hh
    split at hh
    · simp only [C.ok.injEq, Prod.mk.injEq] at hh; rw [← hh.1]; exact Step.refl h
    · obtain ⟨⟨s1, r1⟩, h1, hh⟩ := C.bind_eq_ok.mp hh
      have st1 := (atomicOp_quiet h1).step h
      dsimp only at hh
      split at hh
      · simp only [C.ok.injEq, Prod.mk.injEq] at hh; rw [← hh.1]; exact st1
      · obtain ⟨s2, h2, hh⟩ := C.bind_eq_ok.mp hh
        simp only [C.ok.injEq, Prod.mk.injEq] at hh; rw [← hh.1]
        exact st1.trans (mapCheck_step st1.wf h2)
  | ovrAdd idx off d m =>
    simp only [handle] at hh
    obtain ⟨⟨s1, r1⟩, h1, hh⟩ := C.bind_eq_ok.mp hh
    simp only [C.ok.injEq, Prod.mk.injEq] at hh; rw [← hh.1]; exact (overrideAdd_quiet h1).step h
  | ovrDel idx off m =>
    simp only [handle] at hh
    obtain ⟨⟨s1, r1⟩, h1, hh⟩ := C.bind_eq_ok.mp hh
    simp only [C.ok.injEq, Prod.mk.injEq] at hh; rw [← hh.1]; exact (overrideDel_quiet h1).step h
  | ovrGet idx off size =>
    simp only [handle] at hh
    obtain ⟨o, ho, hh⟩ := C.bind_eq_ok.mp hh
    cases o with
    | error e => simp only [C.ok.injEq, Prod.mk.injEq] at hh; rw [← hh.1]; exact Step.refl h
    | ok p => simp only [C.ok.injEq, Prod.mk.injEq] at hh; rw [← hh.1]; exact Step.refl h
  | ovrSet idx flag =>
    simp only [handle] at hh
    obtain ⟨⟨s1, r1⟩, h1, hh⟩ := C.bind_eq_ok.mp hh
    simp only [C.ok.injEq, Prod.mk.injEq] at hh; rw [← hh.1]; exact (overrideSet_quiet h1).step h

theorem step_step {s s' : Server} {o : Op} (h : WF s) (hh : step s o = .ok s') : Step s s' := by
  cases o with
  | req fd r =>
    simp only [step] at hh
    obtain ⟨⟨s1, r1⟩, h1, hh⟩ := C.bind_eq_ok.mp hh
    simp only [C.ok.injEq] at hh; subst hh
    exact handle_step h h1
  | close fd => exact moduleUnregister_step h hh
  | env e =>
    simp only [step, C.ok.injEq] at hh; subst hh
    exact h.other rfl rfl rfl rfl rfl

theorem run_step {os : List Op} : ∀ {s s' : Server}, WF s → run s os = .ok s' → Step s s' := by
  induction os with
  | nil => intro s s' h hh; simp only [run, C.ok.injEq] at hh; subst hh; exact Step.refl h
  | cons o os ih =>
    intro s s' h hh
    simp only [run] at hh
    obtain ⟨s1, h1, hh⟩ := C.bind_eq_ok.mp hh
    have st := step_step h h1
    exact st.trans (ih st.wf hh)

theorem run_append {a b : List Op} : ∀ {s s' : Server}, run s (a ++ b) = .ok s' ↔
    ∃ s1, run s a = .ok s1 ∧ run s1 b = .ok s' := by
  induction a with
  | nil => intro s s'; simp [run]
  | cons o os ih =>
    intro s s'
    simp only [List.cons_append, run]
    constructor
    · intro h
      obtain ⟨s1, h1, h⟩ := C.bind_eq_ok.mp h
      obtain ⟨s2, h2, h⟩ := ih.mp h
      exact ⟨s2, C.bind_eq_ok.mpr ⟨s1, h1, h2⟩, h⟩
    · rintro ⟨s2, h, h2⟩
      obtain ⟨s1, h1, h⟩ := C.bind_eq_ok.mp h
      exact C.bind_eq_ok.mpr ⟨s1, h1, ih.mpr ⟨s2, h, h2⟩⟩

end Dax
