import Verif.Spec.Layout
import Verif.Props.Types
import Verif.Props.Data
/-!
# C18: the layout behind the sizes of compound types
-/
set_option autoImplicit false

namespace Dax

theorem Places.le {p e : Nat} {ps : List Piece} {ss : List Nat} (h : Places p ps ss e) : p ≤ e := by
  induction h with
  | nil h => exact h
  | cons h _ _ ih => omega

/-- Pieces of a placement lie in order and do not overlap. -/
theorem Places.disjoint {p e : Nat} {ps : List Piece} {ss : List Nat} (h : Places p ps ss e) :
    ss.length = ps.length ∧ ∀ (i : Nat) (x : Piece) (a : Nat), ps[i]? = some x → ss[i]? = some a →
      p ≤ a ∧ a + x.len ≤ e ∧ (x.aligned = true → a % 8 = 0) ∧
      ∀ (j b : Nat), i < j → ss[j]? = some b → a + x.len ≤ b := by
  induction h with
  | nil h => exact ⟨rfl, fun i x a hx => by simp at hx⟩
  | @cons p s e x ps ss h1 h2 h3 ih =>
    refine ⟨by simp [ih.1], fun i y a hx ha => ?_⟩
    cases i with
    | zero =>
      simp only [List.getElem?_cons_zero, Option.some.injEq] at hx ha
      subst hx; subst ha
      refine ⟨h1, h3.le, h2, fun j b hj hb => ?_⟩
      obtain ⟨j, rfl⟩ : ∃ k, j = k + 1 := ⟨j - 1, by omega⟩
      rw [List.getElem?_cons_succ] at hb
      have hl := (List.getElem?_eq_some_iff.mp hb).1
      have hl' : j < ps.length := by rw [← ih.1]; exact hl
      exact (ih.2 j ps[j] b (List.getElem?_eq_getElem hl') hb).1
    | succ i =>
      rw [List.getElem?_cons_succ] at hx ha
      obtain ⟨q1, q2, q3, q4⟩ := ih.2 i y a hx ha
      refine ⟨by omega, q2, q3, fun j b hj hb => ?_⟩
      obtain ⟨j, rfl⟩ : ∃ k, j = k + 1 := ⟨j - 1, by omega⟩
      rw [List.getElem?_cons_succ] at hb
      exact q4 j b (by omega) hb

theorem alignPos_le {p s : Nat} (h : p ≤ s) (h8 : s % 8 = 0) (hs : s < 4294967296) :
    p ≤ alignPos p ∧ alignPos p ≤ s ∧ alignPos p % 8 = 0 := by
  unfold alignPos
  split
  · rw [Nat.mod_eq_of_lt (by omega)]; omega
  · omega

theorem typeBits_elem {t w : Nat} (h : (t, w) ∈ elemBytes) :
    t ≠ DAX_BOOL ∧ isCustom t = false ∧ typeBits t = 8 * w := by
  simp only [elemBytes, List.mem_cons, List.not_mem_nil, or_false, Prod.mk.injEq] at h
  rcases h with h|h|h|h|h|h|h|h|h|h|h|h|h|h|h <;> obtain ⟨rfl, rfl⟩ := h <;>
    exact ⟨by decide, by decide, by decide⟩

/-- The position computed by the size loop is the end of a placement, and no placement ends before it. -/
theorem sizeLoop_layout {tbl : List Cdt} {sub : Nat → C Int}
    (hsub : ∀ t r, sub t = .ok r → 0 < r → typeSize tbl t = .ok r) :
    ∀ (ms : List Member) (ps : List Piece) (pos p E pos' : Nat) (ss : List Nat),
      Pieces tbl ms ps → Places p ps ss E → pos ≤ p → E < 4294967296 →
      sizeLoop sub ms pos = .ok pos' →
      pos' ≤ E ∧ ∃ ss', Places pos ps ss' pos' := by
  intro ms
  induction ms with
  | nil =>
    intro ps pos p E pos' ss hf hp hle hE h
    cases hf
    cases hp
    simp only [sizeLoop, C.ok.injEq] at h
    subst h
    exact ⟨by omega, [], .nil (Nat.le_refl _)⟩
  | cons m ms ih =>
    intro ps pos p E pos' ss hf hp hle hE h
    cases hf with
    | @cons _ x _ ps hx hf =>
    cases hp with
    | @cons _ s _ _ _ ss h1 h2 h3 =>
    have hend := h3.le
    rcases hx with ⟨hb, rfl⟩ | ⟨w, hw, rfl⟩ | ⟨hc, k, hk, rfl⟩
    · simp only [sizeLoop, if_pos hb] at h
      dsimp only at hend h3
      rw [Nat.mod_eq_of_lt (by omega)] at h
      obtain ⟨q1, ss', q2⟩ := ih ps (pos + m.count) (s + m.count) E pos' ss hf h3 (by omega) hE h
      exact ⟨q1, pos :: ss', .cons (Nat.le_refl _) (fun e => by simp at e) q2⟩
    · obtain ⟨e1, e2, e3⟩ := typeBits_elem hw
      dsimp only at hend h3 h2
      obtain ⟨a1, a2, a3⟩ := alignPos_le (p := pos) (s := s) (by omega) (h2 rfl) (by omega)
      simp only [sizeLoop, if_neg e1, e2, Bool.false_eq_true, if_false, e3] at h
      have em : 8 * w * m.count = 8 * (w * m.count) := Nat.mul_assoc _ _ _
      rw [em, Nat.mod_eq_of_lt (by omega)] at h
      obtain ⟨q1, ss', q2⟩ := ih ps _ (s + 8 * (w * m.count)) E pos' ss hf h3 (by omega) hE h
      exact ⟨q1, alignPos pos :: ss', .cons a1 (fun _ => a3) q2⟩
    · dsimp only at hend h3 h2
      obtain ⟨a1, a2, a3⟩ := alignPos_le (p := pos) (s := s) (by omega) (h2 rfl) (by omega)
      have e1 : m.type ≠ DAX_BOOL := by
        have := hc.1; simp only [DAX_BOOL]; omega
      simp only [sizeLoop, if_neg e1, compound_custom hc, if_true] at h
      obtain ⟨r, hr, h⟩ := C.bind_eq_ok.mp h
      split at h
      · rename_i hpos
        have := hsub _ _ hr hpos
        rw [hk] at this
        simp only [C.ok.injEq] at this
        subst this
        by_cases hm0 : m.count = 0
        · rw [hm0] at h h3 ⊢
          simp only [Nat.mul_zero, Nat.zero_mul, Nat.add_zero] at h h3 ⊢
          rw [Nat.mod_eq_of_lt (by omega)] at h
          obtain ⟨q1, ss', q2⟩ := ih ps _ s E pos' ss hf h3 (by omega) hE h
          exact ⟨q1, alignPos pos :: ss', .cons a1 (fun _ => a3) q2⟩
        · have hkk : k ≤ k * m.count := Nat.le_mul_of_pos_right _ (by omega)
          have hu : u32 (k : Int) = k := by unfold u32; omega
          have em : k * m.count * 8 = 8 * (k * m.count) := by omega
          rw [hu, em, Nat.mod_eq_of_lt (by omega)] at h
          obtain ⟨q1, ss', q2⟩ := ih ps _ (s + 8 * (k * m.count)) E pos' ss hf h3 (by omega) hE h
          exact ⟨q1, alignPos pos :: ss', .cons a1 (fun _ => a3) q2⟩
      · simp at h

theorem sub_typeSize {tbl : List Cdt} {t : Nat} {r : Int}
    (hr : typeSizeF tbl tbl.length t = .ok r) (h0 : 0 < r) : typeSize tbl t = .ok r := by
  by_cases hck : checkType tbl t = true
  · exact typeSizeF_mono (.refl _) _ _ _ _ hr hck (by omega)
  · exfalso
    cases hl : tbl.length with
    | zero => rw [hl] at hr; simp [typeSizeF] at hr
    | succ f =>
      rw [hl] at hr
      simp only [typeSizeF, hck, if_true, C.ok.injEq] at hr
      subst hr
      simp [ERR_NOTFOUND] at h0

theorem base_elem {t : Nat} (h : t ∈ baseTypes) : t = DAX_BOOL ∨ ∃ w, (t, w) ∈ elemBytes := by
  have : ∀ t ∈ baseTypes, t = DAX_BOOL ∨ ∃ p ∈ elemBytes, p.1 = t := by decide
  rcases this t h with h | ⟨⟨a, w⟩, h', rfl⟩
  · exact .inl h
  · exact .inr ⟨w, h'⟩

theorem sizeLoop_pieces {tbl : List Cdt} (hsm : tbl.length ≤ 1073741824) :
    ∀ (ms : List Member) (pos pos' : Nat),
      (∀ m ∈ ms, m.type ∈ baseTypes ∨ ∃ j, j < tbl.length ∧ m.type = cdtToType j) →
      sizeLoop (typeSizeF tbl tbl.length) ms pos = .ok pos' → ∃ ps, Pieces tbl ms ps := by
  intro ms
  induction ms with
  | nil => intro _ _ _ _; exact ⟨[], .nil⟩
  | cons m ms ih =>
    intro pos pos' hm h
    have hm' := hm m (List.mem_cons_self ..)
    have ih' := fun q h => ih q pos' (fun x hx => hm x (List.mem_cons_of_mem _ hx)) h
    rcases hm' with hb | ⟨j, hj, hc⟩
    · rcases base_elem hb with hb | ⟨w, hw⟩
      · simp only [sizeLoop, if_pos hb] at h
        obtain ⟨ps, hps⟩ := ih' _ h
        exact ⟨_, .cons (.inl ⟨hb, rfl⟩) hps⟩
      · obtain ⟨e1, e2, e3⟩ := typeBits_elem hw
        simp only [sizeLoop, if_neg e1, e2, Bool.false_eq_true, if_false] at h
        obtain ⟨ps, hps⟩ := ih' _ h
        exact ⟨_, .cons (.inr (.inl ⟨w, hw, rfl⟩)) hps⟩
    · have hcc : Compound m.type := by rw [hc]; unfold Compound cdtToType DAX_CUSTOM; omega
      have e1 : m.type ≠ DAX_BOOL := by
        have := hcc.1; simp only [DAX_BOOL]; omega
      simp only [sizeLoop, if_neg e1, compound_custom hcc, if_true] at h
      obtain ⟨r, hr, h⟩ := C.bind_eq_ok.mp h
      split at h
      · rename_i h0
        obtain ⟨ps, hps⟩ := ih' _ h
        refine ⟨_, .cons (.inr (.inr ⟨hcc, r.toNat, ?_, rfl⟩)) hps⟩
        rw [sub_typeSize hr h0]; congr 1; omega
      · simp at h

/-- **C18**: the members of a compound type can be placed in order, without overlap and with everything but
BOOLs on byte boundaries, within the number of bytes the server reports for the type, and in no
smaller number of bytes.  (`Places.disjoint` spells out what a placement is.)

Missing: the server computes with 32-bit bit counts, so this needs `hE`, that the members can be
placed below bit 2³²; `C18_wrap` shows a type whose reported size is wrong. -/
theorem C18_layout_partial {s : Server} {t : Nat} {c : Cdt} {n : Int} (h : Reachable s)
    (ht : Compound t) (hc : s.cdts[cdtToIndex t]? = some c) (hn : typeSize s.cdts t = .ok n) :
    ∃ ps, Pieces s.cdts c.members ps ∧
      ((∃ ss E, Places 0 ps ss E ∧ E < 4294967296) →
        ∃ k : Nat, n = k ∧ (∃ ss, Places 0 ps ss (8 * k)) ∧
          ∀ (m : Nat) (ss : List Nat), Places 0 ps ss (8 * m) → k ≤ m) := by
  have hcu := compound_custom ht
  have hw := h.wf.cdts
  have hil := (List.getElem?_eq_some_iff.mp hc).1
  have hck : checkType s.cdts t = true := by
    have := hw.small
    have hq : stripQueue t = t := by
      have := ht.1
      have := ht.2
      unfold cdtToIndex at hil
      rw [if_pos hcu] at hil
      simp only [DAX_CUSTOM] at hil
      unfold stripQueue isQueue
      rw [Nat.testBit_eq_decide_div_mod_eq]
      split
      · rename_i hq
        simp only [decide_eq_true_eq] at hq
        omega
      · rfl
    simp only [checkType, hq, hcu, Bool.true_and, Bool.or_eq_true, decide_eq_true_eq]
    exact .inr hil
  unfold typeSize at hn
  simp only [typeSizeF, hck, hcu, Bool.true_eq_false, if_false, if_true] at hn
  rw [hc] at hn
  dsimp only at hn
  obtain ⟨pos, hpos, hn⟩ := C.bind_eq_ok.mp hn
  simp only [C.ok.injEq] at hn
  obtain ⟨ps, hps⟩ := sizeLoop_pieces hw.small _ _ _ (fun m hm => by
    rcases hw.acyc _ _ hc m hm with h | ⟨j, hj, h⟩
    · exact .inl h
    · exact .inr ⟨j, by omega, h⟩) hpos
  refine ⟨ps, hps, ?_⟩
  rintro ⟨ss, E, hp, hE⟩
  have hsub : ∀ t r, typeSizeF s.cdts s.cdts.length t = .ok r → 0 < r → typeSize s.cdts t = .ok r :=
    fun _ _ => sub_typeSize
  obtain ⟨hle, ss', hpl⟩ := sizeLoop_layout hsub _ _ 0 0 E pos ss hps hp (Nat.le_refl _) hE hpos
  have hmin : ∀ (m : Nat) (ss' : List Nat), Places 0 ps ss' (8 * m) → pos ≤ 8 * m := by
    intro m ss2 h2
    by_cases hm : 8 * m < 4294967296
    · exact (sizeLoop_layout hsub _ _ 0 0 _ pos ss2 hps h2 (Nat.le_refl _) hm hpos).1
    · omega
  have hwid : ∀ {p e e' ps ss}, Places p ps ss e → e ≤ e' → Places p ps ss e' := by
    intro p e e' ps ss h hle
    induction h with
    | nil h => exact .nil (by omega)
    | cons a b _ ih => exact .cons a b (ih hle)
  split at hn
  · refine ⟨(pos - 1) / 8 + 1, hn.symm, ⟨ss', hwid hpl (by omega)⟩, fun m ss2 h2 => ?_⟩
    have := hmin m ss2 h2; omega
  · exact ⟨0, hn.symm, ⟨ss', hwid hpl (by omega)⟩, fun m ss2 h2 => Nat.zero_le _⟩

/-- Instance: `Line` holds two `Pt` of 12 bytes each and three bits, and takes 25 bytes. -/
example : Reachable (demo typeDemo) ∧ Compound 0x80000003 ∧
    (∃ c, (demo typeDemo).cdts[cdtToIndex 0x80000003]? = some c ∧
      Pieces (demo typeDemo).cdts c.members [⟨8 * (12 * 2), true⟩, ⟨3, false⟩]) ∧
    typeSize (demo typeDemo).cdts 0x80000003 = .ok 25 ∧
    Places 0 [⟨8 * (12 * 2), true⟩, ⟨3, false⟩] [0, 192] 195 := by
  refine ⟨demo_reachable (by decide +kernel), ⟨by decide, by decide⟩,
    ⟨⟨nm "Line", [⟨nm "a", 0x80000002, 2⟩, ⟨nm "f", DAX_BOOL, 3⟩], 0⟩, by kernel_rfl, ?_⟩, by kernel_rfl, ?_⟩
  · refine .cons (.inr (.inr ⟨⟨by decide, by decide⟩, 12, by kernel_rfl, rfl⟩)) (.cons (.inl ⟨rfl, rfl⟩) .nil)
  · exact .cons (by decide) (fun _ => rfl) (.cons (by decide) (fun h => by simp at h) (.nil (by decide)))

/-- **C18 fails** for large members: the bit count wraps, and a type with 512 megabytes of data is
given the size 0. -/
theorem C18_wrap : ∃ s : Server, ∃ c : Cdt, Reachable s ∧ s.cdts[cdtToIndex 0x80000002]? = some c ∧
    typeSize s.cdts 0x80000002 = .ok 0 ∧ Pieces s.cdts c.members [⟨8 * (8 * 67108864), true⟩] ∧
    ∀ ss, ¬ Places 0 [⟨8 * (8 * 67108864), true⟩] ss 0 := by
  refine ⟨demo (demoOps ++ [.req 5 (.cdtCreate (nm "Big:a,LREAL,67108864"))]),
    ⟨nm "Big", [⟨nm "a", DAX_LREAL, 67108864⟩], 0⟩, demo_reachable (by decide +kernel), by kernel_rfl,
    by kernel_rfl, .cons (.inr (.inl ⟨8, by decide, rfl⟩)) .nil, fun ss h => ?_⟩
  cases h with
  | cons h1 h2 h3 => have := h3.le; dsimp only at this; omega

end Dax
