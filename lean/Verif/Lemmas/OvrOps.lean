import Verif.Props.Data
import Verif.Lemmas.Frame
import Verif.Lemmas.Moves
/-!
# What the override requests do
-/
set_option autoImplicit false
namespace Dax

/-- A status counter is written, then a tag changed; the two are different tags or the change
applies on top. -/
structure AddDone (s : Server) (idx off : Int) (d m : List Byte) (t : Tag) (s' : Server) : Prop where
  mk' ::
  ex : ∃ n od om od' om' s3 t3, ovrSize s.cdts t = .ok n ∧
    ovrAlloc s.env t n d.length = .ok (od, om) ∧ off + d.length ≤ n ∧
    wr od off d = .ok od' ∧ wr om off m = .ok om' ∧
    ((t.attr.override = true ∧ s3 = s.setTag idx { t with ovr := some (od', om') }) ∨
     (t.attr.override = false ∧
      statusWrite { s.setTag idx { t with ovr := some (od', om') } with
                    ovrInstalled := s.ovrInstalled + 1 } 7 (s.ovrInstalled + 1) = .ok s3)) ∧
    s3.tag? idx = some t3 ∧ s' = s3.setTag idx { t3 with attr := { t3.attr with override := true } }

theorem overrideAdd_inv {s s' : Server} {idx off r : Int} {d m : List Byte}
    (h : overrideAdd s idx off d m = .ok (s', r)) :
    (s' = s ∧ r < 0) ∨ ∃ t, s.tag? idx = some t ∧ t.data ≠ .freed ∧
      ((r = 0 ∧ AddDone s idx off d m t s') ∨
       (r < 0 ∧ ∃ n od om, ovrSize s.cdts t = .ok n ∧ ovrAlloc s.env t n d.length = .ok (od, om) ∧
          n < off + d.length ∧ s' = s.setTag idx { t with ovr := some (od, om) })) := by
  unfold overrideAdd at h
  split at h
  · simp only [C.ok.injEq, Prod.mk.injEq] at h; exact .inl ⟨h.1.symm, by rw [← h.2]; decide⟩
  · rename_i t ht
    split at h
    · simp only [C.ok.injEq, Prod.mk.injEq] at h; exact .inl ⟨h.1.symm, by rw [← h.2]; decide⟩
    · rename_i hf
      obtain ⟨n, hn, h⟩ := C.bind_eq_ok.mp h
      split at h
      · simp only [C.ok.injEq, Prod.mk.injEq] at h; exact .inl ⟨h.1.symm, by rw [← h.2]; decide⟩
      · obtain ⟨⟨od, om⟩, ho, h⟩ := C.bind_eq_ok.mp h
        obtain ⟨e, he, h⟩ := C.bind_eq_ok.mp h
        obtain ⟨-, rfl⟩ := addI32_ok.mp he
        dsimp only at h
        refine .inr ⟨t, ht, hf, ?_⟩
        split at h
        · rename_i hgt
          simp only [C.ok.injEq, Prod.mk.injEq] at h
          exact .inr ⟨by rw [← h.2]; decide, n, od, om, hn, ho, by omega, h.1.symm⟩
        · rename_i hle
          obtain ⟨od', hod, h⟩ := C.bind_eq_ok.mp h
          obtain ⟨om', hom, h⟩ := C.bind_eq_ok.mp h
          left
          have hss : (s.setTag idx { t with ovr := some (od, om) }).setTag idx { t with ovr := some (od', om') }
              = s.setTag idx { t with ovr := some (od', om') } := by simp [Server.setTag]
          rw [hss] at h
          have key : ∀ s3 : Server, ((t.attr.override = true ∧ s3 = s.setTag idx { t with ovr := some (od', om') }) ∨
              (t.attr.override = false ∧
                statusWrite { s.setTag idx { t with ovr := some (od', om') } with
                    ovrInstalled := s.ovrInstalled + 1 } 7 (s.ovrInstalled + 1) = .ok s3)) →
              (match s3.tag? idx with
                | none => C.ub "database index"
                | some t =>
                  .ok (s3.setTag idx { t with attr := { t.attr with override := true } }, (0 : Int)))
              = .ok (s', r) → r = 0 ∧ AddDone s idx off d m t s' := by
            intro s3 h3 h
            split at h
            · simp at h
            · rename_i t3 ht3
              simp only [C.ok.injEq, Prod.mk.injEq] at h
              exact ⟨h.2.symm, ⟨n, od, om, od', om', s3, t3, hn, ho, by omega, hod, hom, h3, ht3, h.1.symm⟩⟩
          split at h
          · rename_i hov
            exact key _ (.inl ⟨hov, rfl⟩) h
          · rename_i hov
            obtain ⟨s3, h3, h⟩ := C.bind_eq_ok.mp h
            exact key s3 (.inr ⟨by simpa using hov, h3⟩) h

theorem overrideSet_inv {s s' : Server} {idx r : Int} {f : Bool}
    (h : overrideSet s idx f = .ok (s', r)) :
    (s' = s ∧ (r < 0 ∨ (r = 0 ∧ ∃ t, s.tag? idx = some t ∧ t.data ≠ .freed ∧ t.attr.ovrSet = f))) ∨
    ∃ t s3 t3, r = 0 ∧ s.tag? idx = some t ∧ t.data ≠ .freed ∧ t.attr.ovrSet = !f ∧
      (f = true → t.ovr ≠ none) ∧
      statusWrite { s with ovrSet := s.ovrSet + (if f then 1 else -1) } 8
        (s.ovrSet + (if f then 1 else -1)) = .ok s3 ∧
      s3.tag? idx = some t3 ∧ s' = s3.setTag idx { t3 with attr := { t3.attr with ovrSet := f } } := by
  unfold overrideSet at h
  split at h
  · simp only [C.ok.injEq, Prod.mk.injEq] at h; exact .inl ⟨h.1.symm, .inl (by rw [← h.2]; decide)⟩
  rename_i t ht
  split at h
  · simp only [C.ok.injEq, Prod.mk.injEq] at h; exact .inl ⟨h.1.symm, .inl (by rw [← h.2]; decide)⟩
  rename_i hf
  split at h
  · rename_i hflag
    subst hflag
    split at h
    · simp only [C.ok.injEq, Prod.mk.injEq] at h; exact .inl ⟨h.1.symm, .inl (by rw [← h.2]; decide)⟩
    rename_i hov
    split at h
    · rename_i hs
      simp only [C.ok.injEq, Prod.mk.injEq] at h
      exact .inl ⟨h.1.symm, .inr ⟨h.2.symm, t, ht, hf, hs⟩⟩
    rename_i hs
    obtain ⟨s3, h3, h⟩ := C.bind_eq_ok.mp h
    split at h
    · simp at h
    rename_i t3 ht3
    simp only [C.ok.injEq, Prod.mk.injEq] at h
    exact .inr ⟨t, s3, t3, h.2.symm, ht, hf, by simpa using hs, fun _ => hov, h3, ht3, h.1.symm⟩
  · rename_i hflag
    have hflag : f = false := by simpa using hflag
    subst hflag
    split at h
    · rename_i hs
      obtain ⟨s3, h3, h⟩ := C.bind_eq_ok.mp h
      split at h
      · simp at h
      rename_i t3 ht3
      simp only [C.ok.injEq, Prod.mk.injEq] at h
      exact .inr ⟨t, s3, t3, h.2.symm, ht, hf, hs, by simp, h3, ht3, h.1.symm⟩
    · rename_i hs
      simp only [C.ok.injEq, Prod.mk.injEq] at h
      exact .inl ⟨h.1.symm, .inr ⟨h.2.symm, t, ht, hf, by simpa using hs⟩⟩

theorem setTag_get {s : Server} {idx : Int} {t t' : Tag} (h : s.tag? idx = some t) :
    (s.setTag idx t').db[idx.toNat]? = some t' :=
  List.getElem?_set_self (List.getElem?_eq_some_iff.mp (tag?_eq.mp h).2).1

/-- The entry after an install. -/
theorem AddDone.entry {s s' : Server} {idx off : Int} {d m : List Byte} {t : Tag}
    (h : AddDone s idx off d m t s') (ht : s.tag? idx = some t) (h7 : idx.toNat ≠ 7) :
    ∃ n od om od' om', ovrSize s.cdts t = .ok n ∧ ovrAlloc s.env t n d.length = .ok (od, om) ∧
      off + d.length ≤ n ∧ wr od off d = .ok od' ∧ wr om off m = .ok om' ∧
      s'.db[idx.toNat]? = some { t with ovr := some (od', om'), attr := { t.attr with override := true } } := by
  obtain ⟨n, od, om, od', om', s3, t3, h1, h2, h3, h4, h5, h6, h8, rfl⟩ := h.ex
  refine ⟨n, od, om, od', om', h1, h2, h3, h4, h5, ?_⟩
  rw [setTag_get h8]
  have : t3 = { t with ovr := some (od', om') } := by
    have e3 := (tag?_eq.mp h8).2
    rcases h6 with ⟨-, rfl⟩ | ⟨-, h6⟩
    · rw [setTag_get ht] at e3; cases e3; rfl
    · rw [(statusWrite_quiet h6).same h7] at e3
      have : (s.setTag idx { t with ovr := some (od', om') }).db[idx.toNat]? = some t3 := e3
      rw [setTag_get ht] at this; cases this; rfl
  rw [this]

theorem AddDone.maps {s s' : Server} {idx off : Int} {d m : List Byte} {t : Tag}
    (h : AddDone s idx off d m t s') (ht : s.tag? idx = some t) : SameMaps s s' := by
  obtain ⟨n, od, om, od', om', s3, t3, h1, h2, h3, h4, h5, h6, h8, rfl⟩ := h.ex
  have a : SameMaps s (s.setTag idx { t with ovr := some (od', om') }) :=
    sameMaps_set ht (t' := { t with ovr := some (od', om') }) rfl rfl rfl
  have b : SameMaps s s3 := by
    rcases h6 with ⟨-, rfl⟩ | ⟨-, h6⟩
    · exact a
    · refine SameMaps.trans (b := { s.setTag idx { t with ovr := some (od', om') } with
                    ovrInstalled := s.ovrInstalled + 1 }) a (statusWrite_maps h6)
  exact b.trans (sameMaps_set h8 (t' := { t3 with attr := { t3.attr with override := true } }) rfl rfl rfl)

/-- What a removal does to the override blocks. -/
def Removed (off : Int) (m b b' : List Byte) : Prop :=
  0 ≤ off ∧ off + m.length ≤ b.length ∧ ∀ p, b'[p]? = if off.toNat ≤ p ∧ p < off.toNat + m.length then
    (match b[p]?, m[p - off.toNat]? with | some x, some y => some (x &&& ~~~ y) | _, _ => none) else b[p]?

theorem removed_of {off : Int} {m b b0 b' : List Byte} (h0 : rd b off m.length = .ok b0)
    (h1 : wr b off (maskMerge (List.replicate m.length 0) m b0) = .ok b') : Removed off m b b' := by
  have hl0 := rd_length h0
  have hr := (rd_ok.mp h0).1
  have hlm : (maskMerge (List.replicate m.length 0) m b0).length = m.length := by
    rw [maskMerge_length]; simp; omega
  refine ⟨hr.1, by omega, fun p => ?_⟩
  rw [wr_get h1, hlm]
  split
  · rename_i hp
    have hm : p - off.toNat < m.length := by omega
    have hb : b0[p - off.toNat]? = b[p]? := by
      rw [rd_get h0, if_pos (by omega)]; congr 1; omega
    have hb1 : p < b.length := by omega
    rw [List.getElem?_eq_getElem hb1] at hb
    rw [maskMerge_get _ _ _ _ 0 _ _ (by simp [hm]) (List.getElem?_eq_getElem hm) hb,
      List.getElem?_eq_getElem hb1, List.getElem?_eq_getElem hm]
    simp
  · rfl

theorem overrideDel_inv {s s' : Server} {idx off r : Int} {m : List Byte}
    (h : overrideDel s idx off m = .ok (s', r)) :
    (s' = s ∧ r < 0) ∨ (r = 0 ∧ ∃ t n od om od' om', s.tag? idx = some t ∧ t.data ≠ .freed ∧
      ovrSize s.cdts t = .ok n ∧ t.ovr = some (od, om) ∧ Removed off m od od' ∧ Removed off m om om' ∧
      (((∃ x ∈ om'.take n.toNat, x ≠ 0) ∧ s' = s.setTag idx { t with ovr := some (od', om') }) ∨
       ((∀ x ∈ om'.take n.toNat, x = 0) ∧ ∃ s3 t3,
          statusWrite { s.setTag idx { t with ovr := some (od', om'),
                                              attr := { t.attr with override := false, ovrSet := false } } with
                        ovrInstalled := s.ovrInstalled - 1 } 7 (s.ovrInstalled - 1) = .ok s3 ∧
          s3.tag? idx = some t3 ∧ s' = s3.setTag idx { t3 with ovr := none }))) := by
  unfold overrideDel at h
  split at h
  · simp only [C.ok.injEq, Prod.mk.injEq] at h; exact .inl ⟨h.1.symm, by rw [← h.2]; decide⟩
  rename_i t ht
  split at h
  · simp only [C.ok.injEq, Prod.mk.injEq] at h; exact .inl ⟨h.1.symm, by rw [← h.2]; decide⟩
  rename_i hf
  obtain ⟨n, hn, h⟩ := C.bind_eq_ok.mp h
  split at h
  · simp only [C.ok.injEq, Prod.mk.injEq] at h; exact .inl ⟨h.1.symm, by rw [← h.2]; decide⟩
  rename_i od om ho
  obtain ⟨om0, h1, h⟩ := C.bind_eq_ok.mp h
  obtain ⟨om1, h2, h⟩ := C.bind_eq_ok.mp h
  obtain ⟨od0, h3, h⟩ := C.bind_eq_ok.mp h
  obtain ⟨od1, h4, h⟩ := C.bind_eq_ok.mp h
  dsimp only at h
  right
  split at h
  · rename_i hany
    simp only [C.ok.injEq, Prod.mk.injEq] at h
    refine ⟨h.2.symm, t, n, od, om, od1, om1, ht, hf, hn, ho, removed_of h3 h4, removed_of h1 h2, .inl ⟨?_, h.1.symm⟩⟩
    simpa [List.any_eq_true] using hany
  · rename_i hany
    split at h
    · simp at h
    obtain ⟨s3, h5, h⟩ := C.bind_eq_ok.mp h
    split at h
    · simp at h
    rename_i t3 ht3
    simp only [C.ok.injEq, Prod.mk.injEq] at h
    refine ⟨h.2.symm, t, n, od, om, od1, om1, ht, hf, hn, ho, removed_of h3 h4, removed_of h1 h2,
      .inr ⟨?_, s3, t3, ?_, ht3, h.1.symm⟩⟩
    · intro x hx
      apply Classical.byContradiction
      intro hx0
      exact hany (List.any_eq_true.mpr ⟨x, hx, by simpa using hx0⟩)
    · rw [← h5]
      simp [Server.setTag, INDEX_OVRD_INSTALLED]

/-- The entry after a complete removal. -/
theorem removal_entry {s s3 : Server} {idx a b : Int} {t t1 t3 : Tag} (ht : s.tag? idx = some t)
    (h : statusWrite { s.setTag idx t1 with ovrInstalled := a } 7 b = .ok s3) (h3 : s3.tag? idx = some t3)
    (h7 : idx.toNat ≠ 7) : (s3.setTag idx { t3 with ovr := none }).db[idx.toNat]? = some { t1 with ovr := none } := by
  rw [setTag_get h3]
  have e3 := (tag?_eq.mp h3).2
  rw [(statusWrite_quiet h).same h7] at e3
  have : (s.setTag idx t1).db[idx.toNat]? = some t3 := e3
  rw [setTag_get ht] at this; cases this; rfl

theorem removal_maps {s s3 : Server} {idx a b : Int} {t t1 t3 : Tag} (ht : s.tag? idx = some t)
    (e1 : t1.maps = t.maps) (e2 : t1.wildMaps = t.wildMaps)
    (h : statusWrite { s.setTag idx t1 with ovrInstalled := a } 7 b = .ok s3) (h3 : s3.tag? idx = some t3) :
    SameMaps s (s3.setTag idx { t3 with ovr := none }) := by
  have a : SameMaps s { s.setTag idx t1 with ovrInstalled := a } := sameMaps_set ht rfl e1 e2
  exact (a.trans (statusWrite_maps h)).trans (sameMaps_set h3 rfl rfl rfl)

end Dax
