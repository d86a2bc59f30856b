import Verif.Model.Types
import Verif.Lemmas.Basic
/-!
# Type sizes do not change when the type table is extended
-/
namespace Dax

/-- `tbl'` contains every type of `tbl` at the same index with the same name and members. -/
def CdtExt (tbl tbl' : List Cdt) : Prop :=
  ∀ (i : Nat) (c : Cdt), tbl[i]? = some c →
    ∃ c', tbl'[i]? = some c' ∧ c'.name = c.name ∧ c'.members = c.members

theorem CdtExt.refl (tbl : List Cdt) : CdtExt tbl tbl := fun _ c h => ⟨c, h, rfl, rfl⟩

theorem CdtExt.trans {a b c : List Cdt} (h1 : CdtExt a b) (h2 : CdtExt b c) : CdtExt a c := by
  intro i x hx
  obtain ⟨y, hy, hn, hm⟩ := h1 i x hx
  obtain ⟨z, hz, hn', hm'⟩ := h2 i y hy
  exact ⟨z, hz, hn'.trans hn, hm'.trans hm⟩

theorem CdtExt.append (tbl tbl' : List Cdt) : CdtExt tbl (tbl ++ tbl') := by
  intro i c h
  refine ⟨c, ?_, rfl, rfl⟩
  rw [List.getElem?_append_left (List.getElem?_eq_some_iff.mp h).1, h]

theorem CdtExt.length_le {tbl tbl' : List Cdt} (h : CdtExt tbl tbl') : tbl.length ≤ tbl'.length := by
  rcases Nat.lt_or_ge tbl'.length tbl.length with hlt | hge
  · obtain ⟨c', hc', -⟩ := h tbl'.length _ (List.getElem?_eq_getElem hlt)
    simp at hc'
  · exact hge

theorem CdtExt.set {tbl : List Cdt} {i : Nat} {c c' : Cdt} (hc : tbl[i]? = some c)
    (hn : c'.name = c.name) (hm : c'.members = c.members) : CdtExt tbl (tbl.set i c') := by
  intro j x hx
  by_cases hij : i = j
  · subst hij
    rw [hc] at hx; cases hx
    exact ⟨c', by simp [(List.getElem?_eq_some_iff.mp hc).1], hn, hm⟩
  · exact ⟨x, by simp [List.getElem?_set_ne hij, hx], rfl, rfl⟩

theorem checkType_ext {tbl tbl' : List Cdt} (h : CdtExt tbl tbl') {t : Nat}
    (hc : checkType tbl t = true) : checkType tbl' t = true := by
  have := h.length_le
  simp only [checkType, Bool.or_eq_true, Bool.and_eq_true, decide_eq_true_eq] at hc ⊢
  rcases hc with hc | ⟨h1, h2⟩
  · exact .inl hc
  · exact .inr ⟨h1, by omega⟩

theorem sizeLoop_mono {sub sub' : Nat → C Int}
    (h : ∀ t r, sub t = .ok r → r > 0 → sub' t = .ok r) (ms : List Member) (pos : Nat) {r : Nat}
    (hr : sizeLoop sub ms pos = .ok r) : sizeLoop sub' ms pos = .ok r := by
  induction ms generalizing pos with
  | nil => simpa [sizeLoop] using hr
  | cons m ms ih =>
    simp only [sizeLoop] at hr ⊢
    split at hr
    · rename_i hb; rw [if_pos hb]; exact ih _ hr
    · rename_i hb
      rw [if_neg hb]
      split at hr
      · rename_i hcu
        rw [if_pos hcu]
        obtain ⟨v, hv, hr⟩ := C.bind_eq_ok.mp hr
        split at hr
        · rename_i hpos
          rw [h _ _ hv hpos]
          simp only [C.ok_bind, if_pos hpos]
          exact ih _ hr
        · simp at hr
      · rename_i hcu
        rw [if_neg hcu]
        exact ih _ hr

theorem typeSizeF_mono {tbl tbl' : List Cdt} (hext : CdtExt tbl tbl') :
    ∀ f f' t v, typeSizeF tbl f t = .ok v → checkType tbl t = true → f ≤ f' →
      typeSizeF tbl' f' t = .ok v := by
  intro f
  induction f with
  | zero => intro f' t v h; simp [typeSizeF] at h
  | succ f ih =>
    intro f' t v h hc hle
    obtain ⟨g, rfl⟩ : ∃ g, f' = g + 1 := ⟨f' - 1, by omega⟩
    simp only [typeSizeF, hc, checkType_ext hext hc] at h ⊢
    simp only [Bool.true_eq_false, if_false] at h ⊢
    split at h
    · rename_i hcu
      rw [if_pos hcu]
      split at h
      · simp at h
      · rename_i c hcc
        obtain ⟨c', hc', -, hm⟩ := hext _ _ hcc
        simp only [hc']
        obtain ⟨p, hp, h⟩ := C.bind_eq_ok.mp h
        rw [hm, sizeLoop_mono (sub := typeSizeF tbl f) (sub' := typeSizeF tbl' g) ?_ _ _ hp]
        · simpa using h
        · intro t' r hr hpos
          by_cases hct : checkType tbl t' = true
          · exact ih g t' r hr hct (by omega)
          · cases f with
            | zero => simp [typeSizeF] at hr
            | succ f =>
              simp only [typeSizeF, hct, if_true] at hr
              simp only [C.ok.injEq] at hr
              subst hr
              simp [ERR_NOTFOUND] at hpos
    · rename_i hcu
      rw [if_neg hcu]; exact h

theorem typeSize_ext {tbl tbl' : List Cdt} (hext : CdtExt tbl tbl') {t : Nat} {v : Int}
    (h : typeSize tbl t = .ok v) (hc : checkType tbl t = true) : typeSize tbl' t = .ok v :=
  typeSizeF_mono hext _ _ t v h hc (by have := hext.length_le; omega)

/-- Sizes are never negative for known types. -/
theorem typeSize_nonneg {tbl : List Cdt} {t : Nat} {v : Int}
    (h : typeSize tbl t = .ok v) (hc : checkType tbl t = true) : 0 ≤ v := by
  simp only [typeSize, typeSizeF, hc, Bool.true_eq_false, if_false] at h
  split at h
  · split at h
    · simp at h
    · obtain ⟨p, hp, h⟩ := C.bind_eq_ok.mp h
      simp only [C.ok.injEq] at h
      split at h <;> omega
  · simp only [C.ok.injEq] at h; omega

end Dax
