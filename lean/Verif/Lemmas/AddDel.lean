import Verif.Lemmas.Access
/-!
# Exact effect of tag creation, and what a read depends on
-/
set_option autoImplicit false
namespace Dax

/-- Replies to reads of an ordinary tag depend on nothing but the entry and the types. -/
theorem read_same {s s' : Server} {j : Nat} {t t' : Tag} (ht : s.db[j]? = some t)
    (ht' : s'.db[j]? = some t') (h : SameRead t t') (hv : t.attr.virt = false)
    (hc : checkType s.cdts t.type = true) (hcd : CdtExt s.cdts s'.cdts)
    (he : s'.env = s.env) {fd off n : Int} {r : Reply}
    (hh : Answers s fd (.tagRead j off n) r) : Answers s' fd (.tagRead j off n) r := by
  obtain ⟨s1, hh⟩ := hh
  have key : ∀ x r', tagRead s fd j off n = .ok (x, r') → tagRead s' fd j off n = .ok (s', r') := by
    intro x r' hr
    unfold tagRead at hr ⊢
    rw [tag?_natCast, ht] at hr
    rw [tag?_natCast, ht']
    simp only [hv, h.virt, Bool.false_eq_true, if_false] at hr ⊢
    obtain ⟨e, h1, hr⟩ := C.bind_eq_ok.mp hr
    obtain ⟨sz, h2, hr⟩ := C.bind_eq_ok.mp hr
    have h2' : tagGetSize s'.cdts t' = .ok sz := by
      unfold tagGetSize at h2 ⊢
      rw [h.type, h.count]
      split at h2
      · rename_i hb; rw [if_pos hb]; exact h2
      · rename_i hb; rw [if_neg hb]
        obtain ⟨ts, hts, h2⟩ := C.bind_eq_ok.mp h2
        rw [typeSize_ext hcd hts hc]; exact h2
    rw [h1, h2']
    simp only [C.ok_bind]
    split at hr
    · rename_i hb
      rw [if_pos hb]
      simp only [C.ok.injEq, Prod.mk.injEq] at hr
      rw [hr.2]
    · rename_i hb
      rw [if_neg hb]
      rw [h.data, h.ovrSet]
      split at hr
      · simp only [C.ok.injEq, Prod.mk.injEq] at hr
        rw [← hr.2]
      · obtain ⟨d, hd, hr⟩ := C.bind_eq_ok.mp hr
        rw [hd]
        simp only [C.ok_bind]
        split at hr
        · rename_i hs
          rw [if_pos hs]
          obtain ⟨d', hd', hr⟩ := C.bind_eq_ok.mp hr
          have : ovrBlend t' d off n = .ok d' := by
            unfold ovrBlend at hd' ⊢; rw [h.ovr]; exact hd'
          rw [this]
          simp only [C.ok.injEq, Prod.mk.injEq] at hr
          rw [← hr.2]; rfl
        · rename_i hs
          rw [if_neg hs]
          simp only [C.ok.injEq, Prod.mk.injEq] at hr
          rw [← hr.2]
      · simp at hr
  simp only [handle, hTagRead] at hh
  obtain ⟨⟨x, r'⟩, h1, hh⟩ := C.bind_eq_ok.mp hh
  refine ⟨s', ?_⟩
  simp only [handle, hTagRead]
  rw [key _ _ h1]
  simp only [C.ok_bind]
  cases r' with
  | error e => simp only [C.ok.injEq, Prod.mk.injEq] at hh ⊢; exact ⟨trivial, hh.2⟩
  | ok d =>
    dsimp only at hh ⊢
    split at hh
    · simp at hh
    · rename_i hb
      rw [if_neg hb]
      split at hh
      · rename_i hb2
        rw [if_pos hb2]
        simp only [C.ok.injEq, Prod.mk.injEq] at hh ⊢; exact ⟨trivial, hh.2⟩
      · rename_i hb2
        rw [if_neg hb2, he]
        simp only [C.ok.injEq, Prod.mk.injEq] at hh ⊢; exact ⟨trivial, hh.2⟩

/-! ## Creation -/

theorem tagAddOld_inv {s s' : Server} {fd : Int} {n : Nat} {type count attr size : Nat} {r : Int}
    {t : Tag} (ht : s.db[n]? = some t)
    (hh : tagAddOld s fd n type count attr size = .ok (s', r)) :
    (s' = s ∧ r = ERR_TAG_DUPL ∧ ((t.attr.owned = true ∧ t.fd ≠ fd) ∨ t.type ≠ type)) ∨
    (r = n ∧ ¬ (t.attr.owned = true ∧ t.fd ≠ fd) ∧ t.type = type ∧
      ((count ≤ t.count ∧ setAttribute s n attr = .ok s') ∨
       (t.count < count ∧ ∃ d s2 x, reallocStore s.env t.data size = .ok d ∧
          setAttribute { s with db := s.db.set n { t with data := d, count := count } } n attr = .ok s2 ∧
          tagWrite s2 (-1) INDEX_ADDED_TAG 0 (toLE 4 n) = .ok (s', x)))) := by
  unfold tagAddOld at hh
  rw [ht] at hh
  dsimp only at hh
  split at hh
  · rename_i ho
    simp only [C.ok.injEq, Prod.mk.injEq] at hh
    exact .inl ⟨hh.1.symm, hh.2.symm, .inl ho⟩
  · rename_i ho
    split at hh
    · rename_i hty
      split at hh
      · rename_i hc
        obtain ⟨s1, h1, hh⟩ := C.bind_eq_ok.mp hh
        simp only [C.ok.injEq, Prod.mk.injEq] at hh
        obtain ⟨rfl, rfl⟩ := hh
        exact .inr ⟨rfl, ho, hty, .inl ⟨hc, h1⟩⟩
      · rename_i hc
        obtain ⟨d, hd, hh⟩ := C.bind_eq_ok.mp hh
        obtain ⟨s2, h2, hh⟩ := C.bind_eq_ok.mp hh
        obtain ⟨⟨s3, r3⟩, h3, hh⟩ := C.bind_eq_ok.mp hh
        simp only [C.ok.injEq, Prod.mk.injEq] at hh
        obtain ⟨rfl, rfl⟩ := hh
        exact .inr ⟨rfl, ho, hty, .inr ⟨by omega, d, s2, r3, hd, h2, h3⟩⟩
    · rename_i hty
      simp only [C.ok.injEq, Prod.mk.injEq] at hh
      exact .inl ⟨hh.1.symm, hh.2.symm, .inr hty⟩

/-- What `tag_add` does, case by case. -/
theorem tagAdd_cases {s s' : Server} {fd : Int} {name : Name} {type count attr : Nat} {r : Int}
    (h : WF s) (hh : tagAdd s fd name type count attr = .ok (s', r)) :
    (r < 0 ∧ (s' = s ∨ s' = growDb s)) ∨
    (0 < u32 count ∧ checkType s.cdts type = true ∧ validateName name = 0 ∧
      ∃ size, allocSize s.cdts type (u32 count) = .ok size ∧
      ((∃ n : Nat, ⟨name, n⟩ ∈ s.index ∧ r = n ∧
          tagAddOld (growDb s) fd n type (u32 count) attr size = .ok (s', r)) ∨
       ((∀ e ∈ s.index, e.name ≠ name) ∧ r = s.db.length ∧
          tagAddNew (growDb s) fd name type (u32 count) attr size = .ok (s', r)))) := by
  have sg := growDb_step h
  unfold tagAdd tagAddC at hh
  split at hh
  · simp only [C.ok.injEq, Prod.mk.injEq] at hh
    obtain ⟨rfl, rfl⟩ := hh
    exact .inl ⟨by decide, .inl rfl⟩
  rename_i hz
  dsimp only at hh
  split at hh
  · simp only [C.ok.injEq, Prod.mk.injEq] at hh
    obtain ⟨rfl, rfl⟩ := hh
    exact .inl ⟨by decide, .inr rfl⟩
  rename_i hchk
  split at hh
  · simp only [C.ok.injEq, Prod.mk.injEq] at hh
    obtain ⟨rfl, rfl⟩ := hh
    exact .inl ⟨by decide, .inr rfl⟩
  rename_i hval
  obtain ⟨size, ha, hh⟩ := C.bind_eq_ok.mp hh
  obtain ⟨o, ho, hh⟩ := C.bind_eq_ok.mp hh
  rw [growDb_cdts] at hchk ha
  cases o with
  | some n =>
    have hmem := getByName_some sg.wf.sorted ho
    obtain ⟨t, ht, hn⟩ := sg.wf.ent _ hmem
    rw [growDb_index] at hmem
    dsimp only at hh
    rcases tagAddOld_inv ht hh with ⟨h1, h2, -⟩ | ⟨h1, -⟩
    · subst h1; subst h2
      exact .inl ⟨by decide, .inr rfl⟩
    · refine .inr ⟨by omega, by simpa using hchk, by omega, size, ha, .inl ⟨n, hmem, h1, hh⟩⟩
  | none =>
    have hnew := getByName_none sg.wf.sorted ho
    rw [growDb_index] at hnew
    dsimp only at hh
    have hr : r = s.db.length := by
      have hroom := growDb_room h
      have := (tagAddNew_step sg.wf hroom (by rw [growDb_cdts]; simpa using hchk) (by omega)
        (u32_lt' _) (by omega) (by rw [growDb_cdts]; exact ha) hh).2.1
      rw [growDb_db] at this; exact this
    exact .inr ⟨by omega, by simpa using hchk, by omega, size, ha, .inr ⟨hnew, hr, hh⟩⟩

/-! ## Client tags -/

/-- The names of the first eleven tags start with an underscore as long as they exist. -/
theorem Reachable.sysName {s : Server} (h : Reachable s) {i : Nat} (hi : i < 11) :
    ∃ t, s.db[i]? = some t ∧ ∀ n, t.name = some n → n.head? = some underscore := by
  obtain ⟨e, s0, h0, st⟩ := h.from_init
  have hf := init_face e
  rw [h0] at hf
  simp only [C.ok_bind, C.ok.injEq, Prod.mk.injEq] at hf
  have hlen := init_len h0
  have ht0 := List.getElem?_eq_getElem (l := s0.db) (i := i) (by omega)
  obtain ⟨t', ht', -, -, hn, -⟩ := st.ev.tag i _ ht0
  refine ⟨t', ht', fun n hn' => ?_⟩
  rcases hn with hn | hn
  · have h1 := congrArg (fun l => l[i]?) hf.1
    simp only [List.getElem?_map, ht0, Option.map_some] at h1
    have h2 : ∀ j, j < 11 → ∀ x, ([(some (nm "_tagcount"), DAX_DINT, 1, -1, { readonly := true }, false),
          (some (nm "_lastindex"), DAX_DINT, 1, -1, { readonly := true }, false),
          (some (nm "_tag_added"), cdtToType 1, 1, -1, { readonly := true }, false),
          (some (nm "_tag_deleted"), cdtToType 1, 1, -1, { readonly := true }, false),
          (some (nm "_dbsize"), DAX_DINT, 1, -1, { readonly := true }, false),
          (some (nm "_starttime"), DAX_TIME, 1, -1, { readonly := true }, false),
          (some (nm "_lastmodule"), DAX_CHAR, 33, -1, { readonly := true }, false),
          (some (nm "_overrides_installed"), DAX_DINT, 1, -1, { readonly := true }, false),
          (some (nm "_overrides_set"), DAX_DINT, 1, -1, { readonly := true }, false),
          (some (nm "_time"), DAX_TIME, 1, -1, { readonly := true, virt := true }, false),
          (some (nm "_my_tagname"), DAX_CHAR, 33, -1, { readonly := true, virt := true }, false)] :
            List (Option Name × Nat × Nat × Int × Attr × Bool))[j]? = some x →
          x.1.bind List.head? = some underscore := by decide +kernel
    have := h2 i hi _ h1.symm
    rw [hn'] at hn
    simp only [Tag.face, ← hn, Option.bind_some] at this
    exact this
  · rw [hn'] at hn; simp at hn

/-- Tags that clients may create come after the system tags. -/
theorem Reachable.clientIdx {s : Server} (h : Reachable s) {i : Nat} {t : Tag} {n : Name}
    (ht : s.db[i]? = some t) (hn : t.name = some n) (hu : n.head? ≠ some underscore) : 11 ≤ i := by
  rcases Nat.lt_or_ge i 11 with hi | hi
  · obtain ⟨t', ht', h1⟩ := h.sysName hi
    rw [ht] at ht'; cases ht'
    exact absurd (h1 n hn) hu
  · exact hi

/-- What a tag-add request does. -/
theorem addReq_cases {s s' : Server} {fd : Int} {type count attr : Nat} {name : Name} {r : Reply}
    (h : WF s) (hh : handle s fd (.tagAdd type count attr name) = .ok (s', r)) :
    (∃ e, r = .err e ∧ (s' = s ∨ s' = growDb s)) ∨
    (name.head? ≠ some underscore ∧ ∃ n : Nat, n < 2147483648 ∧ r = .resp (le4 n) ∧
      tagAdd s fd name type count attr = .ok (s', n) ∧
      0 < u32 count ∧ checkType s.cdts type = true ∧ validateName name = 0 ∧
      ∃ size, allocSize s.cdts type (u32 count) = .ok size ∧
      ((⟨name, n⟩ ∈ s.index ∧
          tagAddOld (growDb s) fd n type (u32 count) attr size = .ok (s', n)) ∨
       ((∀ e ∈ s.index, e.name ≠ name) ∧ n = s.db.length ∧
          tagAddNew (growDb s) fd name type (u32 count) attr size = .ok (s', n)))) := by
  simp only [handle, hTagAdd] at hh
  split at hh
  · simp only [C.ok.injEq, Prod.mk.injEq] at hh
    exact .inl ⟨_, hh.2.symm, .inl hh.1.symm⟩
  rename_i hu
  obtain ⟨⟨s1, r1⟩, h1, hh⟩ := C.bind_eq_ok.mp hh
  simp only [C.ok.injEq, Prod.mk.injEq] at hh
  obtain ⟨rfl, rfl⟩ := hh
  rcases tagAdd_cases h h1 with ⟨hr, hs⟩ | ⟨hz, hck, hv, size, ha, hc⟩
  · exact .inl ⟨r1, by simp [idOrErr, hr], hs⟩
  · refine .inr ⟨hu, ?_⟩
    rcases hc with ⟨n, hm, rfl, hc⟩ | ⟨hm, rfl, hc⟩
    · obtain ⟨t, ht, -⟩ := h.ent _ hm
      have hl := (List.getElem?_eq_some_iff.mp ht).1
      have := h.dblt
      dsimp only at hl
      refine ⟨n, by omega, ?_, h1, hz, hck, hv, size, ha, .inl ⟨hm, hc⟩⟩
      simp only [idOrErr]; rw [if_neg (by omega)]
    · have := h.dblt
      refine ⟨_, by omega, ?_, h1, hz, hck, hv, size, ha, .inr ⟨hm, rfl, hc⟩⟩
      simp only [idOrErr]; rw [if_neg (by omega)]

theorem index_le4 {n : Nat} (h : n < 2147483648) : (Reply.resp (le4 n)).index? = some n := by
  simp only [Reply.index?, Option.some.injEq]
  rw [List.take_of_length_le (by rw [le4_length]; exact Nat.le_refl _)]
  unfold le4
  rw [leNat_toLE]
  unfold u32; omega

theorem growDb_eq (s : Server) : growDb s = s ∨
    (s.db.length ≥ s.dbsize ∧ growDb s = { s with dbsize := s.dbsize * 2 }) := by
  unfold growDb; split
  · rename_i h; exact .inr ⟨h, rfl⟩
  · exact .inl rfl

end Dax
