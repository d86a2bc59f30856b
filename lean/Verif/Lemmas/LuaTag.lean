import Verif.Model.LuaTag
import Verif.Lemmas.LibLua
import Verif.Spec.LuaTag
/-!
# The conversions of `_read_format` and `_write_format` keep the cache
-/
set_option autoImplicit false
namespace Dax.Lua
open LibPath LibData

theorem cdtPointer_known {cap : Nat} {s : Server} (hr : Reachable s) {t : Nat} {d : Cdt} {q : Nat} (K : Known' cap s t d q) {fd : Int} {c : TypeCache} (hc : Faithful s c) :
    ∃ c', cdtPointer s fd c t = .ok (c', some d.members) ∧ Faithful s c' := by
  obtain ⟨h1, h2, h3⟩ := compound_index K.comp
  unfold cdtPointer
  rw [if_pos h1, h2]
  by_cases hk : Known c t
  · obtain ⟨n, ms, hn⟩ := hk
    rw [hn]
    refine ⟨c, ?_, hc⟩
    rcases hc _ _ hn with h | ⟨d', hd', he, -⟩
    · simp at h
    · rw [K.ent] at hd'; cases hd'
      simp only [CType.mk.injEq] at he
      dsimp only
      rw [he.2]
  · obtain ⟨c', h4, h5, h6, -⟩ := fetch_type hr.wf K.fetch hc hk K.ent (fd := fd) (q := .cdtGetType t) (.inl rfl)
    have hx : ∀ n ms, c[t - 2147483648]? ≠ some ⟨some n, ms⟩ := fun n ms h => hk ⟨n, ms, h⟩
    refine ⟨c', ?_, h5⟩
    split
    · rename_i h; exact absurd h (hx _ _)
    · rw [h4]
      simp only [C.ok_bind, if_true]
      rw [h6]

theorem formatF_base {s : Server} {fd : Int} {dbl : Bool} {len fuel : Nat} {c c' : TypeCache} {t n base off e : Nat} {r : Int} (hb : ¬ Compound t) (he : ElemBits s.cdts t e)
    (h : formatF s fd dbl len (fuel + 1) c t n base off = .ok (c', r)) : c' = c ∧ r = 0 := by
  have hbase : baseTypes.contains (stripQueue t) = true := by
    rcases he with ⟨rfl, -⟩ | ⟨w, hw, -⟩ | ⟨hc, -⟩
    · decide
    · simp only [elemBytes, List.mem_cons, List.not_mem_nil, or_false, Prod.mk.injEq] at hw
      rcases hw with h|h|h|h|h|h|h|h|h|h|h|h|h|h|h <;> obtain ⟨rfl, rfl⟩ := h <;> decide
    · exact absurd hc hb
  have hcust : isCustom (stripQueue t) = false := by
    rcases he with ⟨rfl, -⟩ | ⟨w, hw, -⟩ | ⟨hc, -⟩
    · decide
    · simp only [elemBytes, List.mem_cons, List.not_mem_nil, or_false, Prod.mk.injEq] at hw
      rcases hw with h|h|h|h|h|h|h|h|h|h|h|h|h|h|h <;> obtain ⟨rfl, rfl⟩ := h <;> decide
    · exact absurd hc hb
  unfold formatF at h
  simp only [hcust, hbase, Bool.false_eq_true, if_false, if_true] at h
  repeat' split at h
  all_goals first | (simp only [C.ok.injEq, Prod.mk.injEq] at h; exact ⟨h.1.symm, h.2.symm⟩) | cases h

theorem strip_compound {t : Nat} (hc : Compound t) (hq : t < 3221225472) : stripQueue t = t := by
  unfold stripQueue isQueue
  have : t.testBit 30 = false := by
    rw [Nat.testBit_eq_decide_div_mod_eq, decide_eq_false_iff_not]
    have := hc.1
    omega
  rw [this]; rfl

theorem formatMembers_faithful {cap : Nat} {s : Server} (hr : Reachable s) {fd : Int} {sub : TypeCache → Nat → Nat → Nat → C (TypeCache × Int)} {ms : List Member}
    (he : ∀ m ∈ ms, ∃ e, ElemBits s.cdts m.type e) (hf : ∀ m ∈ ms, Compound m.type → Fits cap s m.type)
    (hs : ∀ m ∈ ms, ∀ c c' pos r, Faithful s c → sub c m.type m.count pos = .ok (c', r) → Faithful s c' ∧ r = 0) :
    ∀ {c c' : TypeCache} {pos : Nat} {r : Int}, Faithful s c → formatMembers s fd sub ms c pos = .ok (c', r) → Faithful s c' ∧ r = 0 := by
  induction ms with
  | nil => intro c c' pos r hc h; simp only [formatMembers, C.ok.injEq, Prod.mk.injEq] at h; exact ⟨h.1 ▸ hc, h.2.symm⟩
  | cons m ms ih =>
    intro c c' pos r hc h
    unfold formatMembers at h
    obtain ⟨⟨c1, r1⟩, h1, h⟩ := C.bind_eq_ok.mp h
    obtain ⟨hc1, hr1⟩ := hs m (by simp) _ _ _ _ hc h1
    have ih := @ih (fun x hx => he x (List.mem_cons_of_mem _ hx)) (fun x hx => hf x (List.mem_cons_of_mem _ hx)) (fun x hx => hs x (List.mem_cons_of_mem _ hx))
    dsimp only at h
    split at h
    · rename_i hne; exact absurd hr1 hne
    · split at h
      · rename_i hcu
        obtain ⟨⟨c2, sz⟩, h2, h⟩ := C.bind_eq_ok.mp h
        obtain ⟨e, he⟩ := he m (by simp)
        have hcm : Compound m.type := by
          rcases he with ⟨hx, -⟩ | ⟨w, hw, -⟩ | ⟨hc, -⟩
          · rw [hx] at hcu; exact absurd hcu (by decide)
          · simp only [elemBytes, List.mem_cons, List.not_mem_nil, or_false, Prod.mk.injEq] at hw
            exfalso
            rcases hw with h|h|h|h|h|h|h|h|h|h|h|h|h|h|h <;> rw [h.1] at hcu <;> exact absurd hcu (by decide)
          · exact hc
        obtain ⟨c3, k, g1, g2, -⟩ := (hf m (by simp) hcm).csize hr he hc1 (fd := fd)
        rw [g1] at h2
        simp only [C.ok.injEq, Prod.mk.injEq] at h2
        exact ih (h2.1 ▸ g2) h
      · exact ih hc1 h

theorem formatF_faithful {cap : Nat} {s : Server} (hr : Reachable s) {fd : Int} {dbl : Bool} {len fuel : Nat} : ∀ {c c' : TypeCache} {t n base off e : Nat} {r : Int},
    (Compound t → Fits cap s t) → ElemBits s.cdts t e → t < 3221225472 → Faithful s c → formatF s fd dbl len fuel c t n base off = .ok (c', r) → Faithful s c' ∧ r = 0 := by
  induction fuel with
  | zero => intro c c' t n base off e r _ _ _ _ h; cases h
  | succ fuel ih =>
    intro c c' t n base off e r hf he hq hc h
    by_cases hct : Compound t
    · obtain ⟨d, q, K⟩ := (hf hct).known hr.wf
      obtain ⟨c1, h1, h2⟩ := cdtPointer_known hr K hc (fd := fd)
      unfold formatF at h
      simp only [strip_compound hct hq, custom_iff t hct, if_true, h1, C.ok_bind] at h
      refine formatMembers_faithful hr (fun m hm => ?_) K.sub (fun m hm ca cb pos r' hca hsub => ?_) h2 h
      · obtain ⟨e, a, -⟩ := K.ends.elem m hm; exact ⟨e, a⟩
      · obtain ⟨e', a, -⟩ := K.ends.elem m hm
        have hlt := member_type_lt hr K.comp K.ent hm
        exact ih (K.sub m hm) a (Nat.lt_trans hlt hq) hca hsub
    · obtain ⟨rfl, hr0⟩ := formatF_base hct he h; exact ⟨hc, hr0⟩

theorem format_faithful {cap : Nat} {s : Server} (hr : Reachable s) {fd : Int} {dbl : Bool} {len : Nat} {c c' : TypeCache} {t n e : Nat} {r : Int}
    (hf : Compound t → Fits cap s t) (he : ElemBits s.cdts t e) (hq : t < 3221225472) (hc : Faithful s c) (h : format s fd dbl len c t n = .ok (c', r)) : Faithful s c' ∧ r = 0 :=
  formatF_faithful hr hf he hq hc h

end Dax.Lua
