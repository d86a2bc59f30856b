import Verif.Spec.LibPath
import Verif.Props.LibTypes
/-!
# Paths into compound tags
-/
set_option autoImplicit false
namespace Dax.LibPath

theorem align8_ge (p : Nat) : p ≤ align8 p ∧ align8 p < p + 8 ∧ align8 p % 8 = 0 := by unfold align8; omega

theorem align8_of {p : Nat} (h : p % 8 = 0) : align8 p = p := by unfold align8; omega

theorem place_ge (m : Member) (p : Nat) : p ≤ place m p ∧ place m p < p + 8 := by
  unfold place
  have := align8_ge p
  split <;> omega

theorem elem_pos {t w : Nat} (h : (t, w) ∈ elemBytes) : 0 < w ∧ w ≤ 8 := by
  have : ∀ p ∈ elemBytes, 0 < p.2 ∧ p.2 ≤ 8 := by decide
  exact this (t, w) h

theorem elem_notBool {t w : Nat} (h : (t, w) ∈ elemBytes) : t ≠ DAX_BOOL := by
  have : ∀ p ∈ elemBytes, p.1 ≠ DAX_BOOL := by decide
  exact this (t, w) h

theorem elem_notCompound {t w : Nat} (h : (t, w) ∈ elemBytes) : ¬ Compound t := by
  have : ∀ p ∈ elemBytes, p.1 < 2147483648 := by decide
  have := this (t, w) h
  rintro ⟨h1, -⟩
  dsimp only at this; omega

theorem compound_notBool {t : Nat} (h : Compound t) : t ≠ DAX_BOOL := by
  intro e; have := h.1; rw [e] at this; simp [DAX_BOOL] at this

theorem elem_det {t w w' : Nat} (h : (t, w) ∈ elemBytes) (h' : (t, w') ∈ elemBytes) : w = w' := by
  have : ∀ p ∈ elemBytes, ∀ q ∈ elemBytes, p.1 = q.1 → p.2 = q.2 := by decide
  exact this (t, w) h (t, w') h' rfl

theorem ElemBits.det {tbl : List Cdt} {t e e' : Nat} (h : ElemBits tbl t e) (h' : ElemBits tbl t e') : e = e' := by
  rcases h with ⟨a, rfl⟩ | ⟨w, a, rfl⟩ | ⟨a, k, ha, rfl⟩ <;> rcases h' with ⟨b, rfl⟩ | ⟨w', b, rfl⟩ | ⟨b, k', hb, rfl⟩
  · rfl
  · exact absurd a (elem_notBool b)
  · exact absurd a (compound_notBool b)
  · exact absurd b (elem_notBool a)
  · rw [elem_det a b]
  · exact absurd b (elem_notCompound a)
  · exact absurd b (compound_notBool a)
  · exact absurd a (elem_notCompound b)
  · rw [ha] at hb
    simp only [C.ok.injEq] at hb
    omega

theorem ElemBits.bool {tbl : List Cdt} {t e : Nat} (h : ElemBits tbl t e) (hb : t = DAX_BOOL) : e = 1 := h.det (.inl ⟨hb, rfl⟩)

theorem ElemBits.bytes {tbl : List Cdt} {t e : Nat} (h : ElemBits tbl t e) (hb : t ≠ DAX_BOOL) : e % 8 = 0 := by
  rcases h with ⟨a, rfl⟩ | ⟨w, a, rfl⟩ | ⟨a, k, ha, rfl⟩
  · exact absurd a hb
  · omega
  · omega

theorem Before.det {tbl : List Cdt} {ms : List Member} {p : Nat} {n : Name} {m m' : Member} {r r' : Nat} (h : Before tbl ms p n m r)
    (h' : Before tbl ms p n m' r') : m = m' ∧ r = r' := by
  induction h with
  | here m ms p =>
    cases h' with
    | here => exact ⟨rfl, rfl⟩
    | later _ _ _ _ _ _ _ hn => exact absurd rfl hn
  | later m ms p e n m1 r hn he _ ih =>
    cases h' with
    | here => exact absurd rfl hn
    | later _ _ _ e' _ _ _ _ he' hb =>
      rw [he.det he'] at ih
      exact ih hb

theorem Before.mem {tbl : List Cdt} {ms : List Member} {p : Nat} {n : Name} {m : Member} {r : Nat} (h : Before tbl ms p n m r) : m ∈ ms := by
  induction h with
  | here => simp
  | later _ _ _ _ _ _ _ _ _ _ ih => exact List.mem_cons_of_mem _ ih

theorem Before.name {tbl : List Cdt} {ms : List Member} {p : Nat} {n : Name} {m : Member} {r : Nat} (h : Before tbl ms p n m r) : n = m.name := by
  induction h with
  | here => rfl
  | later _ _ _ _ _ _ _ _ _ _ ih => exact ih

theorem Ends.ge {tbl : List Cdt} {ms : List Member} {p q : Nat} (h : Ends tbl ms p q) : p ≤ q := by
  induction h with
  | nil => exact Nat.le_refl _
  | cons m ms p e q _ _ ih => have := place_ge m p; omega

theorem Ends.elem {tbl : List Cdt} {ms : List Member} {p q : Nat} (h : Ends tbl ms p q) : ∀ m ∈ ms, ∃ e, ElemBits tbl m.type e ∧ e * m.count ≤ q := by
  induction h with
  | nil => intro m hm; simp at hm
  | cons m ms p e q he ht ih =>
    intro m' hm'
    rcases List.mem_cons.mp hm' with rfl | hm'
    · exact ⟨e, he, by have := ht.ge; omega⟩
    · exact ih m' hm'

/-- A member and what belongs to it is before the end. -/
theorem Before.le {tbl : List Cdt} {ms : List Member} {p : Nat} {n : Name} {m : Member} {r : Nat} (h : Before tbl ms p n m r) :
    ∀ {q e}, Ends tbl ms p q → ElemBits tbl m.type e → p ≤ r ∧ place m r + e * m.count ≤ q := by
  induction h with
  | here m ms p =>
    intro q e hq he
    cases hq with
    | cons _ _ _ e' _ he' ht => rw [he.det he']; exact ⟨Nat.le_refl _, ht.ge⟩
  | later m ms p e1 n m1 r hn he1 _ ih =>
    intro q e hq he
    cases hq with
    | cons _ _ _ e' _ he' ht =>
      rw [he'.det he1] at ht
      obtain ⟨a, b⟩ := ih ht he
      have := place_ge m p
      exact ⟨by omega, b⟩

theorem alignPos_align8 {p : Nat} (h : p ≤ 2147483648) : alignPos p = align8 p := by
  unfold alignPos align8
  split <;> omega

theorem sizeLoop_ends {tbl : List Cdt} {f : Nat} {ms : List Member} {p q : Nat} (h : Ends tbl ms p q) (hq : q ≤ 2147483648)
    (hs : ∀ m ∈ ms, 0 < m.count ∧ (Compound m.type → ∃ k : Nat, typeSizeF tbl f m.type = .ok (k : Int) ∧ typeSize tbl m.type = .ok (k : Int) ∧ 0 < k)) :
    sizeLoop (typeSizeF tbl f) ms p = .ok q := by
  induction h with
  | nil => rfl
  | cons m ms p e q he ht ih =>
    have hge := ht.ge
    have hpl := place_ge m p
    have ih := ih hq (fun x hx => hs x (List.mem_cons_of_mem _ hx))
    obtain ⟨hc, hk⟩ := hs m (by simp)
    rcases he with ⟨a, rfl⟩ | ⟨w, a, rfl⟩ | ⟨a, k, ha, rfl⟩
    · unfold sizeLoop
      unfold place at ih hge hpl
      rw [if_pos a] at ih hge hpl ⊢
      rw [Nat.one_mul] at ih hge
      rw [Nat.mod_eq_of_lt (by omega)]
      exact ih
    · obtain ⟨e1, e2, e3⟩ := typeBits_elem a
      unfold place at ih hge hpl
      rw [if_neg e1] at ih hge hpl
      simp only [sizeLoop, if_neg e1, e2, Bool.false_eq_true, if_false, e3]
      rw [alignPos_align8 (by omega), Nat.mod_eq_of_lt (by omega)]
      exact ih
    · have e1 := compound_notBool a
      unfold place at ih hge hpl
      rw [if_neg e1] at ih hge hpl
      obtain ⟨k', h1, h2, h3⟩ := hk a
      rw [ha] at h2
      simp only [C.ok.injEq] at h2
      have h2 : k = k' := by omega
      subst h2
      have hkk : k ≤ k * m.count := Nat.le_mul_of_pos_right _ hc
      have hu : u32 (k : Int) = k := by unfold u32; rw [Nat.mul_assoc] at hge; omega
      simp only [sizeLoop, if_neg e1, compound_custom a, if_true, h1, C.ok_bind]
      rw [if_pos (by omega), hu, alignPos_align8 (by omega)]
      have em : k * m.count * 8 = 8 * k * m.count := by rw [Nat.mul_comm, Nat.mul_assoc]
      rw [em, Nat.mod_eq_of_lt (by omega)]
      exact ih

theorem check_compound {s : Server} (hw : WF s) {t : Nat} (ht : Compound t) {d : Cdt} (hd : s.cdts[t - 2147483648]? = some d) : checkType s.cdts t = true := by
  have hl := (List.getElem?_eq_some_iff.mp hd).1
  obtain ⟨h1, h2, h3⟩ := compound_index ht
  have hsm := hw.cdts.small
  have hq : stripQueue t = t := by
    have := ht.1
    unfold stripQueue isQueue
    rw [Nat.testBit_eq_decide_div_mod_eq]
    split
    · rename_i hq
      simp only [decide_eq_true_eq] at hq
      omega
    · rfl
  simp only [checkType, hq, h1, h2, Bool.true_and, Bool.or_eq_true, decide_eq_true_eq]
  exact .inr hl

theorem Fetchable.compound {s : Server} (hw : WF s) {t : Nat} (h : Fetchable s t) : Compound t := (h.ok hw).1

theorem Fits.size {cap : Nat} {s : Server} (hw : WF s) {t : Nat} (h : Fits cap s t) :
    ∃ d q, Fetchable s t ∧ s.cdts[t - 2147483648]? = some d ∧ Ends s.cdts d.members 0 q ∧ 0 < q ∧ q ≤ 2147483640 ∧
      (∀ m ∈ d.members, 0 < m.count ∧ (m.type = DAX_BOOL → m.count ≤ cap)) ∧ (∀ m ∈ d.members, Compound m.type → Fits cap s m.type) ∧
      SmallParts s.cdts t ∧ ∀ f, t - 2147483648 < f → typeSizeF s.cdts f t = .ok (((q + 7) / 8 : Nat) : Int) := by
  induction h with
  | mk t d q hf hd he h0 hq hm hn ih =>
    have hc := Fetchable.compound hw hf
    have hsm := hw.cdts.small
    have hl := (List.getElem?_eq_some_iff.mp hd).1
    refine ⟨d, q, hf, hd, he, h0, hq, hm, hn, ?_, ?_⟩
    · refine .mk t (fun d' hd' m hmm x hx ha => ?_) (fun d' hd' m hmm hcm => ?_)
      · rw [hd] at hd'; cases hd'
        obtain ⟨e, he', hle⟩ := he.elem m hmm
        rcases hx with ⟨a, rfl⟩ | ⟨w, a, rfl⟩ | ⟨a, k, hak, rfl⟩
        · simp at ha
        · rw [he'.det (.inr (.inl ⟨w, a, rfl⟩)), Nat.mul_assoc] at hle
          dsimp only; omega
        · rw [he'.det (.inr (.inr ⟨a, k, hak, rfl⟩)), Nat.mul_assoc] at hle
          dsimp only; omega
      · rw [hd] at hd'; cases hd'
        obtain ⟨_, _, _, _, _, _, _, _, _, h9, _⟩ := ih m hmm hcm
        exact h9
    · intro f hlf
      obtain ⟨g, rfl⟩ : ∃ g, f = g + 1 := ⟨f - 1, by omega⟩
      obtain ⟨h1, h2, h3⟩ := compound_index hc
      have hs := sizeLoop_ends (f := g) he (by omega) (fun m hmm => ⟨(hm m hmm).1, fun hcm => by
        obtain ⟨d', q', -, hd', he', h0', hq', -, -, -, hk⟩ := ih m hmm hcm
        have hl' := (List.getElem?_eq_some_iff.mp hd').1
        rcases hw.cdts.acyc _ _ hd m hmm with hb | ⟨j, hj, hjt⟩
        · have := compound_index hcm
          have hb' : ∀ t ∈ baseTypes, isCustom t = false := by decide
          rw [hb' _ hb] at this; simp at this
        · have : m.type - 2147483648 = j := by rw [hjt]; unfold cdtToType DAX_CUSTOM; omega
          rw [this] at hk hl'
          have a1 := hk g (Nat.lt_of_lt_of_le hj (Nat.le_of_lt_succ hlf))
          have a2 := hk (s.cdts.length + 1) (Nat.lt_succ_of_lt hl')
          have a3 : 0 < (q' + 7) / 8 := by omega
          exact ⟨_, a1, a2, a3⟩⟩)
      unfold typeSizeF
      rw [if_neg (by rw [check_compound hw hc hd]; simp), if_pos h1, h2, hd]
      dsimp only
      rw [hs]
      simp only [C.ok_bind]
      rw [if_pos (by omega)]
      have e : (q - 1) / 8 + 1 = (q + 7) / 8 := by omega
      rw [e]

/-- What the path functions need to know of a type. -/
structure Known' (cap : Nat) (s : Server) (t : Nat) (d : Cdt) (q : Nat) : Prop where
  comp : Compound t
  fetch : Fetchable s t
  ent : s.cdts[t - 2147483648]? = some d
  ends : Ends s.cdts d.members 0 q
  pos : 0 < q
  small : q ≤ 2147483640
  counts : ∀ m ∈ d.members, 0 < m.count ∧ (m.type = DAX_BOOL → m.count ≤ cap)
  sub : ∀ m ∈ d.members, Compound m.type → Fits cap s m.type
  size : typeSize s.cdts t = .ok (((q + 7) / 8 : Nat) : Int)
  parts : SmallParts s.cdts t

theorem Fits.known {cap : Nat} {s : Server} (hw : WF s) {t : Nat} (h : Fits cap s t) : ∃ d q, Known' cap s t d q := by
  obtain ⟨d, q, h1, h2, h3, h4, h5, h6, h7, h8, h9⟩ := h.size hw
  have hl := (List.getElem?_eq_some_iff.mp h2).1
  exact ⟨d, q, Fetchable.compound hw h1, h1, h2, h3, h4, h5, h6, h7, h9 _ (by omega), h8⟩

theorem Fits.csize {cap : Nat} {s : Server} (hr : Reachable s) {t e : Nat} (h : Fits cap s t) (he : ElemBits s.cdts t e) {fd : Int} {c : TypeCache} (hc : Faithful s c) :
    ∃ c' k, ctypeSize s fd c t = .ok (c', ((k : Nat) : Int)) ∧ Faithful s c' ∧ e = 8 * k ∧ 0 < k := by
  obtain ⟨d, q, K⟩ := h.known hr.wf
  have := K.pos
  obtain ⟨c', h1, h2⟩ := C19_compound_partial hr K.fetch K.parts hc K.size (by omega) (fd := fd)
  exact ⟨c', _, h1, h2, he.det (.inr (.inr ⟨K.comp, _, K.size, rfl⟩)), by omega⟩

/-- Size of a member's elements, as the library computes it. -/
theorem member_size {cap : Nat} {s : Server} (hr : Reachable s) {t e : Nat} (hf : Compound t → Fits cap s t) (he : ElemBits s.cdts t e) (hb : t ≠ DAX_BOOL)
    {fd : Int} {c : TypeCache} (hc : Faithful s c) :
    ∃ c' k, ctypeSize s fd c t = .ok (c', ((k : Nat) : Int)) ∧ Faithful s c' ∧ e = 8 * k ∧ 0 < k := by
  rcases id he with ⟨a, rfl⟩ | ⟨w, a, rfl⟩ | ⟨a, k, ha, rfl⟩
  · exact absurd a hb
  · exact ⟨c, w, (C19_base s fd c t w a).1, hc, rfl, (elem_pos a).1⟩
  · exact (hf a).csize hr he hc

theorem typeToString_known {cap : Nat} {s : Server} (hr : Reachable s) {t : Nat} {d : Cdt} {q : Nat} (K : Known' cap s t d q) {fd : Int} {c : TypeCache} (hc : Faithful s c) :
    ∃ c' n, typeToString s fd c t = .ok (c', some n) ∧ Faithful s c' ∧ ∃ nn, c'[cdtToIndex t]? = some ⟨nn, d.members⟩ := by
  obtain ⟨h1, h2, h3⟩ := compound_index K.comp
  unfold typeToString
  rw [if_pos h1, h2]
  by_cases hk : Known c t
  · obtain ⟨n, ms, hn⟩ := hk
    rw [hn]
    refine ⟨c, n, rfl, hc, some n, ?_⟩
    rw [hn]
    rcases hc _ _ hn with h | ⟨d', hd', he, -⟩
    · simp at h
    · rw [K.ent] at hd'; cases hd'
      simp only [CType.mk.injEq] at he
      rw [he.2]
  · obtain ⟨c', h4, h5, h6, -⟩ := fetch_type hr.wf K.fetch hc hk K.ent (fd := fd) (q := .cdtGetType t) (.inl rfl)
    have hx : ∀ n ms, c[t - 2147483648]? ≠ some ⟨some n, ms⟩ := fun n ms h => hk ⟨n, ms, h⟩
    refine ⟨c', d.name, ?_, h5, some d.name, h6⟩
    split
    · rename_i h; exact absurd h (hx _ _)
    · rw [h4]
      simp only [C.ok_bind, if_true]
      rw [h6]


theorem addI32_nat {a b : Nat} (h : a + b < 2147483648) : addI32 (a : Int) (b : Int) = .ok ((a + b : Nat) : Int) := by
  unfold addI32; rw [if_pos (by omega)]; congr 1

theorem mulI32_nat {a b : Nat} (h : a * b < 2147483648) : mulI32 (a : Int) (b : Int) = .ok ((a * b : Nat) : Int) := by
  have e : ((a * b : Nat) : Int) = (a : Int) * (b : Int) := by push_cast; rfl
  unfold mulI32; rw [← e, if_pos (by omega)]

theorem u32_nat {a : Nat} (h : a < 4294967296) : u32 (a : Int) = a := by unfold u32; omega

theorem u32_add {a b : Nat} (h : a + b < 4294967296) : u32 ((a : Int) + (b : Int)) = a + b := by unfold u32; omega

/-- What the library has in the handle while it looks for a member: a position within a byte only behind BOOLs. -/
def Loc (h : Handle) : Prop := h.bit < 8 ∧ (h.bit ≠ 0 → h.type = DAX_BOOL)

theorem find_bool {s : Server} {fd : Int} {n : Name} {m : Member} {ms : List Member} {c : TypeCache} {h : Handle} {x : Int} (hn : n ≠ m.name)
    (hb : m.type = DAX_BOOL) (hx : addI32 h.bit m.count = .ok x) :
    findMember s fd n (m :: ms) c h =
      findMember s fd n ms c { h with byte := u32 (h.byte + (u32 x % 256 / 8 : Nat)), bit := u32 x % 256 % 8, type := m.type } := by
  rw [findMember, if_neg hn, if_pos hb, hx]; rfl

theorem find_skip {s : Server} {fd : Int} {n : Name} {m : Member} {ms : List Member} {c c' : TypeCache} {h : Handle} {size y : Int} (hn : n ≠ m.name)
    (hb : m.type ≠ DAX_BOOL) (hs : ctypeSize s fd c m.type = .ok (c', size)) (hy : mulI32 size m.count = .ok y) :
    findMember s fd n (m :: ms) c h = findMember s fd n ms c'
      { h with byte := u32 ((if h.type = DAX_BOOL ∧ h.bit > 0 then u32 (h.byte + 1) else h.byte : Nat) + y), bit := 0, type := m.type } := by
  rw [findMember, if_neg hn, if_neg hb, hs]
  show (mulI32 size m.count >>= _) = _
  rw [hy]; rfl

theorem skip_byte {h : Handle} (hl : Loc h) (hs : h.byte < 4294967295) :
    (if h.type = DAX_BOOL ∧ h.bit > 0 then u32 ((h.byte : Int) + 1) else h.byte) = align8 (8 * h.byte + h.bit) / 8 := by
  obtain ⟨hl1, hl2⟩ := hl
  by_cases hz : h.bit = 0
  · rw [if_neg (by omega)]; unfold align8; omega
  · rw [if_pos ⟨hl2 hz, by omega⟩]
    unfold align8 u32; omega

/-- Looking for a member: from position `P` of the handle, where the type should begin at the multiple `B` of eight. -/
theorem find_ok {s : Server} (hr : Reachable s) {fd : Int} {X : Prop} {B : Nat} (hB : B % 8 = 0) {ms : List Member} {p : Nat} {n : Name} {m : Member} {r : Nat}
    (hb : Before s.cdts ms p n m r) :
    ∀ {q : Nat} {c : TypeCache} {h : Handle}, Ends s.cdts ms p q → B + q ≤ 2147483640 →
      (∀ m ∈ ms, 0 < m.count ∧ (m.type = DAX_BOOL → m.count ≤ 248)) → (∀ m ∈ ms, Compound m.type → Fits 248 s m.type) →
      Faithful s c → Loc h → (8 * h.byte + h.bit = B + p ∨ (X ∧ p = 0 ∧ align8 (8 * h.byte + h.bit) = B ∧ ∀ m, ms.head? = some m → m.type ≠ DAX_BOOL)) →
      ∃ c' h', findMember s fd n ms c h = .ok (c', h', some m) ∧ Faithful s c' ∧ Loc h' ∧ h'.index = h.index ∧
        (8 * h'.byte + h'.bit = B + r ∨ (X ∧ r = 0 ∧ p = 0 ∧ align8 (8 * h'.byte + h'.bit) = B ∧ m.type ≠ DAX_BOOL)) := by
  induction hb with
  | here m ms p =>
    intro q c h he hq hc hf hfc hl hpos
    refine ⟨c, h, by unfold findMember; rw [if_pos rfl], hfc, hl, rfl, ?_⟩
    rcases hpos with h1 | ⟨h0, h1, h2, h3⟩
    · exact .inl h1
    · exact .inr ⟨h0, h1, h1, h2, h3 m rfl⟩
  | later m ms p e n m1 r hn he1 _ ih =>
    intro q c h he hq hc hf hfc hl hpos
    cases he with
    | cons _ _ _ e' _ he' ht =>
    have := he'.det he1; subst this
    have hge := ht.ge
    have hpl := place_ge m p
    obtain ⟨hc1, hc2⟩ := hc m (by simp)
    obtain ⟨hl1, hl2⟩ := hl
    have hP : 8 * h.byte + h.bit ≤ 2147483640 := by
      rcases hpos with h1 | ⟨-, h1, h2, h3⟩
      · omega
      · have := align8_ge (8 * h.byte + h.bit); omega
    have step : ∀ {c' h1}, Faithful s c' → Loc h1 → h1.index = h.index → 8 * h1.byte + h1.bit = B + (place m p + e' * m.count) →
        ∃ c'' h', findMember s fd n ms c' h1 = .ok (c'', h', some m1) ∧ Faithful s c'' ∧ Loc h' ∧ h'.index = h.index ∧
        (8 * h'.byte + h'.bit = B + r ∨ (X ∧ r = 0 ∧ p = 0 ∧ align8 (8 * h'.byte + h'.bit) = B ∧ m1.type ≠ DAX_BOOL)) := by
      intro c' h1 g1 g2 g3 g4
      obtain ⟨c'', h', k1, k2, k3, k4, k5⟩ := ih ht hq (fun x hx => hc x (List.mem_cons_of_mem _ hx)) (fun x hx => hf x (List.mem_cons_of_mem _ hx)) g1 g2 (.inl g4)
      refine ⟨c'', h', k1, k2, k3, by rw [k4, g3], ?_⟩
      rcases k5 with k5 | ⟨-, a1, a2, a3, a4⟩
      · exact .inl k5
      · have : 0 < e' * m.count := Nat.mul_pos (by
          rcases he1 with ⟨a, rfl⟩ | ⟨w, a, rfl⟩ | ⟨a, k, ha, rfl⟩
          · omega
          · have := elem_pos a; omega
          · obtain ⟨d, q', K⟩ := (hf m (by simp) a).known hr.wf
            have h1 := K.size
            have h2 := K.pos
            rw [ha] at h1
            simp only [C.ok.injEq] at h1
            omega) hc1
        omega
    by_cases hbool : m.type = DAX_BOOL
    · have hc2 := hc2 hbool
      rw [find_bool hn hbool (addI32_nat (by omega))]
      rw [u32_nat (by omega), Nat.mod_eq_of_lt (by omega : h.bit + m.count < 256)]
      have hp : 8 * h.byte + h.bit = B + p := by
        rcases hpos with h1 | ⟨-, h1, h2, h3⟩
        · exact h1
        · exact absurd hbool (h3 m rfl)
      have he1' := he1.bool hbool; subst he1'
      rw [u32_add (by omega)]
      refine step hfc ⟨by dsimp only; omega, fun _ => hbool⟩ rfl ?_
      dsimp only
      unfold place
      rw [if_pos hbool]; omega
    · obtain ⟨c', k, g1, g2, g3, g4⟩ := member_size hr (hf m (by simp)) he1 hbool hfc (fd := fd)
      have hm8 : 8 * (k * m.count) = e' * m.count := by rw [g3, Nat.mul_assoc]
      rw [find_skip hn hbool g1 (mulI32_nat (by omega)), skip_byte ⟨hl1, hl2⟩ (by omega)]
      have hal : align8 (8 * h.byte + h.bit) = B + place m p := by
        unfold place
        rw [if_neg hbool]
        rcases hpos with h1 | ⟨-, h1, h2, h3⟩
        · rw [h1]; unfold align8; omega
        · rw [h2, h1]; unfold align8; omega
      have ha8 := align8_ge (8 * h.byte + h.bit)
      rw [u32_add (by omega)]
      refine step g2 ⟨by dsimp only; omega, fun hh => absurd rfl hh⟩ rfl ?_
      dsimp only
      omega


/-! ## The last step of a path -/

/-- The handle the library makes: `want` items of type `ty` from bit `pos` of the tag on. -/
structure Made (tbl : List Cdt) (h h' : Handle) (ty want pos : Nat) : Prop where
  index : h'.index = h.index
  type : h'.type = ty
  at' : 8 * h'.byte + h'.bit = pos
  bit : h'.bit < 16
  count : h'.count = want
  bool : ty = DAX_BOOL → h'.size = (h'.bit + want - 1) / 8 - h'.bit / 8 + 1
  other : ty ≠ DAX_BOOL → h'.bit = 0 ∧ ∀ e, ElemBits tbl ty e → 8 * h'.size = e * want

theorem bitSize_nat {b w : Nat} (hw : 0 < w) (hs : b + w < 2147483648) : bitSize b (w : Int) = .ok ((b + w - 1) / 8 - b / 8 + 1) := by
  unfold bitSize
  rw [addI32_nat hs]
  simp only [C.ok_bind]
  have : addI32 ((b + w : Nat) : Int) (-1) = .ok ((b + w - 1 : Nat) : Int) := by
    unfold addI32
    rw [if_pos (by omega)]
    congr 1; omega
  rw [this]
  simp only [C.ok_bind]
  have e : ((b + w - 1 : Nat) : Int).tdiv 8 = (((b + w - 1) / 8 : Nat) : Int) := by
    rw [Int.tdiv_eq_ediv_of_nonneg (by omega)]; omega
  rw [e]
  congr 1
  unfold u32
  have : b / 8 ≤ (b + w - 1) / 8 := Nat.div_le_div_right (by omega)
  omega


/-- The index as the library has it. -/
def idxOf : Option Nat → Int
  | some i => i
  | none => ERR_NOTFOUND

theorem last_align {h : Handle} (hl : Loc h) (hs : h.byte < 4294967295) (m : Member) :
    ∃ h1 : Handle, (if h.type = DAX_BOOL ∧ m.type ≠ DAX_BOOL ∧ h.bit > 0 then { h with byte := u32 (h.byte + 1), bit := 0 } else h) = h1 ∧
      h1.index = h.index ∧ h1.bit < 8 ∧ (m.type ≠ DAX_BOOL → h1.bit = 0) ∧ 8 * h1.byte + h1.bit = place m (8 * h.byte + h.bit) := by
  obtain ⟨hl1, hl2⟩ := hl
  refine ⟨_, rfl, ?_⟩
  unfold place align8
  by_cases hb : m.type = DAX_BOOL
  · rw [if_neg (by rintro ⟨-, h, -⟩; exact h hb), if_pos hb]
    exact ⟨rfl, hl1, fun h => absurd hb h, rfl⟩
  · rw [if_neg hb]
    by_cases hz : h.bit = 0
    · rw [if_neg (by omega)]
      exact ⟨rfl, hl1, fun _ => hz, by omega⟩
    · rw [if_pos ⟨hl2 hz, hb, by omega⟩]
      refine ⟨rfl, by dsimp only; omega, fun _ => rfl, ?_⟩
      dsimp only
      unfold u32; omega

theorem last_some_big {s : Server} {fd : Int} {c : TypeCache} {h h1 : Handle} {m : Member} {index count w x : Int}
    (e1 : (if h.type = DAX_BOOL ∧ m.type ≠ DAX_BOOL ∧ h.bit > 0 then { h with byte := u32 (h.byte + 1), bit := 0 } else h) = h1)
    (hne : index ≠ ERR_NOTFOUND) (hw : (if count = 0 then 1 else count) = w) (hx : addI32 index w = .ok x) (hb : x > m.count) :
    ∃ h', lastMember s fd c h m index count = .ok (c, h', ERR_2BIG) := by
  unfold lastMember
  simp only [e1]
  rw [if_pos hne, hw, hx]
  simp only [C.ok_bind]
  rw [if_pos hb]
  exact ⟨_, rfl⟩

theorem last_some_bool {s : Server} {fd : Int} {c : TypeCache} {h h1 : Handle} {m : Member} {index count w x : Int} {b y sz : Nat}
    (e1 : (if h.type = DAX_BOOL ∧ m.type ≠ DAX_BOOL ∧ h.bit > 0 then { h with byte := u32 (h.byte + 1), bit := 0 } else h) = h1)
    (hne : index ≠ ERR_NOTFOUND) (hw : (if count = 0 then 1 else count) = w) (hx : addI32 index w = .ok x) (hb : ¬ x > m.count)
    (ht : m.type = DAX_BOOL) (hbit : u32 (h1.bit + index.tmod 8) % 256 = b) (hy : u32 (h1.byte + index.tdiv 8) = y) (hs : bitSize b w = .ok sz) :
    lastMember s fd c h m index count = .ok (c, { index := h1.index, byte := y, bit := b, count := u32 w, size := sz, type := m.type }, 0) := by
  unfold lastMember
  simp only [e1]
  rw [if_pos hne, hw, hx]
  simp only [C.ok_bind]
  rw [if_neg hb, if_pos ht, hbit, hs, hy]
  rfl

theorem last_some_other {s : Server} {fd : Int} {c c' : TypeCache} {h h1 : Handle} {m : Member} {index count w x size y z : Int}
    (e1 : (if h.type = DAX_BOOL ∧ m.type ≠ DAX_BOOL ∧ h.bit > 0 then { h with byte := u32 (h.byte + 1), bit := 0 } else h) = h1)
    (hne : index ≠ ERR_NOTFOUND) (hw : (if count = 0 then 1 else count) = w) (hx : addI32 index w = .ok x) (hb : ¬ x > m.count)
    (ht : m.type ≠ DAX_BOOL) (hs : ctypeSize s fd c m.type = .ok (c', size)) (hy : mulI32 size w = .ok y) (hz : mulI32 size index = .ok z) :
    lastMember s fd c h m index count = .ok (c', { index := h1.index, byte := u32 (h1.byte + z), bit := 0, count := u32 w, size := u32 y, type := m.type }, 0) := by
  unfold lastMember
  simp only [e1]
  rw [if_pos hne, hw, hx]
  simp only [C.ok_bind]
  rw [if_neg hb, if_neg ht, hs]
  simp only [C.ok_bind]
  rw [hy]
  simp only [C.ok_bind]
  rw [hz]
  rfl

theorem last_none_big {s : Server} {fd : Int} {c : TypeCache} {h h1 : Handle} {m : Member} {index count : Int}
    (e1 : (if h.type = DAX_BOOL ∧ m.type ≠ DAX_BOOL ∧ h.bit > 0 then { h with byte := u32 (h.byte + 1), bit := 0 } else h) = h1)
    (hne : ¬ index ≠ ERR_NOTFOUND) (hb : count > m.count) :
    ∃ h', lastMember s fd c h m index count = .ok (c, h', ERR_2BIG) := by
  unfold lastMember
  simp only [e1]
  rw [if_neg hne, if_pos hb]
  exact ⟨_, rfl⟩

theorem last_none_bool {s : Server} {fd : Int} {c : TypeCache} {h h1 : Handle} {m : Member} {index count w : Int} {sz : Nat}
    (e1 : (if h.type = DAX_BOOL ∧ m.type ≠ DAX_BOOL ∧ h.bit > 0 then { h with byte := u32 (h.byte + 1), bit := 0 } else h) = h1)
    (hne : ¬ index ≠ ERR_NOTFOUND) (hb : ¬ count > m.count) (hw : (if count = 0 then (m.count : Int) else count) = w)
    (ht : m.type = DAX_BOOL) (hs : bitSize h1.bit w = .ok sz) :
    lastMember s fd c h m index count = .ok (c, { index := h1.index, byte := h1.byte, bit := h1.bit, count := u32 w, size := sz, type := m.type }, 0) := by
  unfold lastMember
  simp only [e1]
  rw [if_neg hne, if_neg hb, hw, if_pos ht, hs]
  rfl

theorem last_none_other {s : Server} {fd : Int} {c c' : TypeCache} {h h1 : Handle} {m : Member} {index count w size y : Int}
    (e1 : (if h.type = DAX_BOOL ∧ m.type ≠ DAX_BOOL ∧ h.bit > 0 then { h with byte := u32 (h.byte + 1), bit := 0 } else h) = h1)
    (hne : ¬ index ≠ ERR_NOTFOUND) (hb : ¬ count > m.count) (hw : (if count = 0 then (m.count : Int) else count) = w)
    (ht : m.type ≠ DAX_BOOL) (hs : ctypeSize s fd c m.type = .ok (c', size)) (hy : mulI32 size w = .ok y) :
    lastMember s fd c h m index count = .ok (c', { index := h1.index, byte := h1.byte, bit := 0, count := u32 w, size := u32 y, type := m.type }, 0) := by
  unfold lastMember
  simp only [e1]
  rw [if_neg hne, if_neg hb, hw, if_neg ht, hs]
  simp only [C.ok_bind]
  rw [hy]
  rfl

theorem last_ok {s : Server} (hr : Reachable s) {fd : Int} {c : TypeCache} (hc : Faithful s c) {h : Handle} (hl : Loc h) {m : Member} {e cnt : Nat} {index : Option Nat}
    (he : ElemBits s.cdts m.type e) (h0 : 0 < m.count ∧ (m.type = DAX_BOOL → m.count ≤ 248)) (hf : Compound m.type → Fits 248 s m.type)
    (hb : place m (8 * h.byte + h.bit) + e * m.count ≤ 2147483640) (hcnt : cnt < 1073741824) (hi : index.getD 0 < m.count) :
    ∃ c' h' r, lastMember s fd c h m (idxOf index) cnt = .ok (c', h', r) ∧ Faithful s c' ∧
      (r = 0 ∧ wanted index.isSome cnt (m.count - index.getD 0) ≤ m.count - index.getD 0 ∧
          Made s.cdts h h' m.type (wanted index.isSome cnt (m.count - index.getD 0)) (place m (8 * h.byte + h.bit) + e * index.getD 0) ∨
        r = ERR_2BIG ∧ ¬ wanted index.isSome cnt (m.count - index.getD 0) ≤ m.count - index.getD 0) := by
  have hp := place_ge m (8 * h.byte + h.bit)
  obtain ⟨hl1, hl2⟩ := hl
  obtain ⟨h1, e1, k1, k2, k3, k4⟩ := last_align ⟨hl1, hl2⟩ (by omega) m
  have hcc : m.count < 1073741824 := by
    by_cases hbool : m.type = DAX_BOOL
    · have := h0.2 hbool; omega
    · obtain ⟨-, k, -, -, g3, g4⟩ := member_size hr hf he hbool hc (fd := fd)
      have : 8 * m.count ≤ e * m.count := Nat.mul_le_mul_right _ (by omega)
      omega
  obtain ⟨h01, h02⟩ := h0
  have hei : e * index.getD 0 ≤ e * m.count := Nat.mul_le_mul_left _ (by omega)
  have hbounds : 8 * h1.byte + h1.bit + e * index.getD 0 ≤ 2147483640 := by omega
  cases index with
  | some i =>
    simp only [Option.getD_some] at hi hei hbounds ⊢
    have hne : idxOf (some i) ≠ ERR_NOTFOUND := by unfold idxOf ERR_NOTFOUND; dsimp only; omega
    have hio : idxOf (some i) = (i : Int) := rfl
    rw [hio] at hne ⊢
    simp only [Option.isSome_some]
    have ew : (if (cnt : Int) = 0 then (1 : Int) else cnt) = ((wanted true cnt (m.count - i) : Nat) : Int) := by
      unfold wanted
      by_cases hz : cnt = 0
      · rw [if_pos (by omega), if_pos hz]; rfl
      · rw [if_neg (by omega), if_neg hz]
    have hw : 0 < wanted true cnt (m.count - i) ∧ wanted true cnt (m.count - i) < 1073741824 := by
      unfold wanted; split
      · simp
      · omega
    generalize wanted true cnt (m.count - i) = w at hw ew ⊢
    have hx : addI32 (i : Int) (w : Int) = .ok ((i + w : Nat) : Int) := addI32_nat (by omega)
    by_cases hgt : i + w > m.count
    · obtain ⟨h', hh⟩ := last_some_big (s := s) (fd := fd) (c := c) (m := m) e1 hne ew hx (by omega)
      exact ⟨c, h', _, hh, hc, .inr ⟨rfl, by omega⟩⟩
    · have hle : ¬ (((i + w : Nat) : Int) > (m.count : Int)) := by omega
      by_cases hbool : m.type = DAX_BOOL
      · have he1 := he.bool hbool; subst he1
        have t1 : (i : Int).tmod 8 = ((i % 8 : Nat) : Int) := by rw [Int.tmod_eq_emod_of_nonneg (by omega)]; omega
        have t2 : (i : Int).tdiv 8 = ((i / 8 : Nat) : Int) := by rw [Int.tdiv_eq_ediv_of_nonneg (by omega)]; omega
        have hbit : u32 (h1.bit + (i : Int).tmod 8) % 256 = h1.bit + i % 8 := by
          rw [t1, u32_add (by omega)]; exact Nat.mod_eq_of_lt (by omega)
        have hy : u32 (h1.byte + (i : Int).tdiv 8) = h1.byte + i / 8 := by rw [t2, u32_add (by omega)]
        have hh := last_some_bool (s := s) (fd := fd) (c := c) (m := m) e1 hne ew hx hle hbool hbit hy (bitSize_nat hw.1 (by omega))
        refine ⟨c, _, _, hh, hc, .inl ⟨rfl, by omega, k1, rfl, ?_, ?_, u32_nat (by omega), fun _ => rfl, fun h => absurd hbool h⟩⟩
        · dsimp only; omega
        · dsimp only; omega
      · obtain ⟨c', k, g1, g2, g3, g4⟩ := member_size hr hf he hbool hc (fd := fd)
        have q1 : 8 * (k * m.count) = e * m.count := by rw [g3, Nat.mul_assoc]
        have q2 : 8 * (k * i) = e * i := by rw [g3, Nat.mul_assoc]
        have q3 : 8 * (k * w) = e * w := by rw [g3, Nat.mul_assoc]
        have q4 : k * w ≤ k * m.count := Nat.mul_le_mul_left _ (by omega)
        have k3 := k3 hbool
        have hh := last_some_other e1 hne ew hx hle hbool g1 (mulI32_nat (by omega)) (mulI32_nat (by omega))
        rw [u32_add (by omega), u32_nat (by omega : k * w < _)] at hh
        refine ⟨c', _, _, hh, g2, .inl ⟨rfl, by omega, k1, rfl, ?_, ?_, u32_nat (by omega), fun h => absurd h hbool, fun _ => ⟨rfl, fun e' he' => ?_⟩⟩⟩
        · dsimp only; omega
        · dsimp only; omega
        · rw [he'.det he]; exact q3
  | none =>
    simp only [Option.getD_none] at hi hei hbounds ⊢
    have hne : ¬ idxOf none ≠ ERR_NOTFOUND := by unfold idxOf; simp
    simp only [Option.isSome_none, Nat.sub_zero, Nat.mul_zero, Nat.add_zero]
    by_cases hgt : cnt > m.count
    · obtain ⟨h', hh⟩ := last_none_big (s := s) (fd := fd) (c := c) (m := m) (count := cnt) e1 hne (by omega)
      refine ⟨c, h', _, hh, hc, .inr ⟨rfl, ?_⟩⟩
      unfold wanted; rw [if_neg (by omega)]; omega
    · have hle : ¬ ((cnt : Int) > (m.count : Int)) := by omega
      have ew : (if (cnt : Int) = 0 then (m.count : Int) else cnt) = ((wanted false cnt m.count : Nat) : Int) := by
        unfold wanted
        by_cases hz : cnt = 0
        · rw [if_pos (by omega), if_pos hz]; rfl
        · rw [if_neg (by omega), if_neg hz]
      have hw : 0 < wanted false cnt m.count ∧ wanted false cnt m.count ≤ m.count := by
        unfold wanted; split
        · simp; omega
        · omega
      generalize wanted false cnt m.count = w at hw ew ⊢
      by_cases hbool : m.type = DAX_BOOL
      · have he1 := he.bool hbool; subst he1
        have hh := last_none_bool (s := s) (fd := fd) (c := c) (m := m) e1 hne hle ew hbool (bitSize_nat hw.1 (by omega))
        refine ⟨c, _, _, hh, hc, .inl ⟨rfl, by omega, k1, rfl, ?_, ?_, u32_nat (by omega), fun _ => rfl, fun h => absurd hbool h⟩⟩
        · dsimp only; omega
        · dsimp only; omega
      · obtain ⟨c', k, g1, g2, g3, g4⟩ := member_size hr hf he hbool hc (fd := fd)
        have q1 : 8 * (k * m.count) = e * m.count := by rw [g3, Nat.mul_assoc]
        have q3 : 8 * (k * w) = e * w := by rw [g3, Nat.mul_assoc]
        have q4 : k * w ≤ k * m.count := Nat.mul_le_mul_left _ (by omega)
        have k3 := k3 hbool
        have hh := last_none_other e1 hne hle ew hbool g1 (mulI32_nat (by omega))
        rw [u32_nat (by omega : k * w < _)] at hh
        refine ⟨c', _, _, hh, g2, .inl ⟨rfl, by omega, k1, rfl, ?_, ?_, u32_nat (by omega), fun h => absurd h hbool, fun _ => ⟨rfl, fun e' he' => ?_⟩⟩⟩
        · dsimp only; omega
        · dsimp only; omega
        · rw [he'.det he]; exact q3


theorem mul_small {e n N : Nat} (he : 0 < e) (h : e * n ≤ N) : n ≤ N :=
  Nat.le_trans (Nat.le_mul_of_pos_left n he) h

theorem int_elem {t w : Nat} {sg : Bool} (h : (t, w, sg) ∈ intTypes) : (t, w) ∈ elemBytes ∧ 0 < w ∧ w ≤ 8 ∧
    ([DAX_BOOL, DAX_TIME, DAX_REAL, DAX_LREAL].contains t || isCustom t) = false := by
  have : ∀ p ∈ intTypes, (p.1, p.2.1) ∈ elemBytes ∧ 0 < p.2.1 ∧ p.2.1 ≤ 8 ∧
      ([DAX_BOOL, DAX_TIME, DAX_REAL, DAX_LREAL].contains p.1 || isCustom p.1) = false := by decide
  exact this (t, w, sg) h

theorem isDigit_of {b : Byte} (h : DigitByte b) : isDigit b = true := by
  obtain ⟨k, hk, rfl⟩ := h
  unfold isDigit
  rw [BitVec.toNat_ofNat, Nat.mod_eq_of_lt (by omega)]
  simp; omega

theorem bit_big {s : Server} {fd : Int} {c c' : TypeCache} {type : Nat} {h : Handle} {digit : Name} {index count i w x size : Int} {b : Nat}
    (ht : ([DAX_BOOL, DAX_TIME, DAX_REAL, DAX_LREAL].contains type || isCustom type) = false) (_hi : (if index < 0 then 0 else index) = i)
    (hb : (clampLong (digitsVal 10 0 digit) % 256).toNat = b) (hd : digit.all isDigit = true) (hs : ctypeSize s fd c type = .ok (c', size))
    (h1 : ¬ (b : Int) > size * 8) (hw : (if count = 0 then 1 else count) = w) (hx : addI32 b w = .ok x) (h2 : x > size * 8) :
    ∃ h', parseBitIndex s fd c type h digit index count = .ok (c', h', ERR_2BIG) := by
  unfold parseBitIndex
  rw [ht, if_neg (by simp)]
  dsimp only
  rw [hd, hb, if_neg (by simp), hs]
  simp only [C.ok_bind]
  rw [if_neg h1, hw, hx]
  simp only [C.ok_bind]
  rw [if_pos h2]
  exact ⟨_, rfl⟩

theorem bit_good {s : Server} {fd : Int} {c c' : TypeCache} {type : Nat} {h : Handle} {digit : Name} {index count i w x size y z : Int} {b sz : Nat}
    (ht : ([DAX_BOOL, DAX_TIME, DAX_REAL, DAX_LREAL].contains type || isCustom type) = false) (hi : (if index < 0 then 0 else index) = i)
    (hb : (clampLong (digitsVal 10 0 digit) % 256).toNat = b) (hd : digit.all isDigit = true) (hs : ctypeSize s fd c type = .ok (c', size))
    (h1 : ¬ (b : Int) > size * 8) (hw : (if count = 0 then 1 else count) = w) (hx : addI32 b w = .ok x) (h2 : ¬ x > size * 8)
    (hy : mulI32 size i = .ok y) (hz : addI32 y (b / 8 : Nat) = .ok z) (hsz : bitSize (b % 8) w = .ok sz) :
    parseBitIndex s fd c type h digit index count =
      .ok (c', { index := h.index, byte := u32 (h.byte + z), bit := b % 8, count := u32 w, size := sz, type := DAX_BOOL }, 0) := by
  unfold parseBitIndex
  rw [ht, if_neg (by simp)]
  dsimp only
  rw [hd, hb, if_neg (by simp), hs]
  simp only [C.ok_bind]
  rw [if_neg h1, hw, hx]
  simp only [C.ok_bind]
  rw [if_neg h2, hi, hy]
  simp only [C.ok_bind]
  rw [hz]
  simp only [C.ok_bind]
  rw [hsz]
  rfl

theorem bit_digits {b : Nat} (hb : b < 64) : (clampLong (digitsVal 10 0 (decNat b)) % 256).toNat = b ∧ (decNat b).all isDigit = true := by
  refine ⟨?_, ?_⟩
  · rw [digitsVal_decNat]
    unfold clampLong
    rw [if_neg (by omega), if_neg (by omega)]
    omega
  · rw [List.all_eq_true]
    exact fun x hx => isDigit_of (decNat_digits b x hx)

/-- A bit number at the end, from a whole byte. -/
theorem bit_ok {s : Server} {fd : Int} {c : TypeCache} {h : Handle} {t w b cnt : Nat} {sg : Bool} {index : Option Nat} (hc : Faithful s c)
    (hit : (t, w, sg) ∈ intTypes) (hb : b < 8 * w) (h0 : h.bit = 0) (hcnt : cnt < 1073741824)
    (hp : 8 * h.byte + 8 * w * (index.getD 0) ≤ 2147483600) :
    ∃ c' h' r, parseBitIndex s fd c t h (decNat b) (idxOf index) cnt = .ok (c', h', r) ∧ Faithful s c' ∧
      (r = 0 ∧ wanted true cnt (8 * w - b) ≤ 8 * w - b ∧
          Made s.cdts h h' DAX_BOOL (wanted true cnt (8 * w - b)) (8 * h.byte + 8 * w * index.getD 0 + b) ∨
        r = ERR_2BIG ∧ ¬ wanted true cnt (8 * w - b) ≤ 8 * w - b) := by
  obtain ⟨g1, g2, g3, g4⟩ := int_elem hit
  obtain ⟨d1, d2⟩ := bit_digits (b := b) (by omega)
  have hs := (C19_base s fd c t w g1).1
  have hi : (if idxOf index < 0 then 0 else idxOf index) = ((index.getD 0 : Nat) : Int) := by
    cases index with
    | none => unfold idxOf ERR_NOTFOUND; rfl
    | some i => unfold idxOf; simp; omega
  have ew : (if (cnt : Int) = 0 then (1 : Int) else cnt) = ((wanted true cnt (8 * w - b) : Nat) : Int) := by
    unfold wanted
    by_cases hz : cnt = 0
    · rw [if_pos (by omega), if_pos hz]; rfl
    · rw [if_neg (by omega), if_neg hz]
  have hw : 0 < wanted true cnt (8 * w - b) ∧ wanted true cnt (8 * w - b) < 1073741824 := by
    unfold wanted; split
    · simp
    · omega
  generalize wanted true cnt (8 * w - b) = k at hw ew ⊢
  have hx : addI32 (b : Int) (k : Int) = .ok ((b + k : Nat) : Int) := addI32_nat (by omega)
  by_cases hgt : b + k > 8 * w
  · obtain ⟨h', hh⟩ := bit_big (h := h) (count := cnt) g4 hi d1 d2 hs (by omega) ew hx (by omega)
    exact ⟨c, h', _, hh, hc, .inr ⟨rfl, by omega⟩⟩
  · have q1 : 8 * (w * index.getD 0) = 8 * w * index.getD 0 := (Nat.mul_assoc _ _ _).symm
    have hh := bit_good (h := h) (count := cnt) g4 hi d1 d2 hs (by omega) ew hx (by omega) (mulI32_nat (by omega))
      (addI32_nat (by omega)) (bitSize_nat hw.1 (by omega))
    rw [u32_add (by omega)] at hh
    refine ⟨c, _, _, hh, hc, .inl ⟨rfl, by omega, rfl, rfl, ?_, ?_, u32_nat (by omega), fun _ => rfl, fun h => absurd rfl h⟩⟩
    · dsimp only; omega
    · dsimp only; omega

/-! ## The text of a path -/

theorem takeWhile_stop {α : Type} {p : α → Bool} : ∀ {a b : List α}, (∀ x ∈ a, p x = true) → (∀ x, b.head? = some x → p x = false) → (a ++ b).takeWhile p = a
  | [], b, _, hb => by
    cases b with
    | nil => rfl
    | cons x xs => rw [List.nil_append, List.takeWhile_cons_of_neg]; rw [hb x rfl]; simp
  | x :: a, b, ha, hb => by
    rw [List.cons_append, List.takeWhile_cons_of_pos (ha x (by simp)), takeWhile_stop (fun y hy => ha y (List.mem_cons_of_mem _ hy)) hb]

theorem digit_ne {x : Byte} (h : DigitByte x) : x ≠ 46#8 ∧ x ≠ 91#8 ∧ x ≠ 93#8 := by
  obtain ⟨k, hk, rfl⟩ := h
  have : ∀ k < 10, (BitVec.ofNat 8 (48 + k) ≠ 46#8) ∧ (BitVec.ofNat 8 (48 + k) ≠ 91#8) ∧ (BitVec.ofNat 8 (48 + k) ≠ 93#8) := by decide
  exact this k hk

theorem seg_nodot {g : Seg} (h : PlainName g.name) : ∀ x ∈ segText g, decide (x ≠ 46#8) = true := by
  intro x hx
  unfold segText at hx
  rw [decide_eq_true_iff]
  rcases List.mem_append.mp hx with hx | hx
  · intro e; subst e; exact h.1 hx
  · cases hi : g.index with
    | none => simp [hi] at hx
    | some i =>
      simp only [hi, List.cons_append, List.mem_cons, List.mem_append, List.not_mem_nil, or_false] at hx
      rcases hx with rfl | hx | rfl
      · decide
      · exact (digit_ne (decNat_digits i x hx)).1
      · decide

/-- What is behind the first dot. -/
def restText (gs : List Seg) (b : Option Nat) : Option Name :=
  match pathText gs b with
  | [] => none
  | _ :: r => some r

theorem pathText_dot (gs : List Seg) (b : Option Nat) : pathText gs b = [] ∨ ∃ r, pathText gs b = 46#8 :: r := by
  cases gs with
  | nil => cases b with
    | none => exact .inl rfl
    | some b => exact .inr ⟨_, rfl⟩
  | cons g gs => exact .inr ⟨_, rfl⟩

theorem split_seg {g : Seg} (h : PlainName g.name) (gs : List Seg) (b : Option Nat) :
    splitTagname (segText g ++ pathText gs b) = (segText g, restText gs b) := by
  have ht : (segText g ++ pathText gs b).takeWhile (fun x => decide (x ≠ 46#8)) = segText g := by
    refine takeWhile_stop (seg_nodot h) ?_
    rcases pathText_dot gs b with e | ⟨r, e⟩ <;> rw [e]
    · simp
    · simp
  unfold splitTagname
  dsimp only
  rw [ht]
  unfold restText
  rcases pathText_dot gs b with e | ⟨r, e⟩ <;> rw [e]
  · simp
  · rw [if_pos (by simp)]
    simp only [Prod.mk.injEq, Option.some.injEq, true_and]
    rw [List.drop_append]
    simp

theorem atoi_index {i : Nat} (h : i < 2147483648) : atoi (decNat i ++ [93#8]) = i := by
  have hd := decNat_digits i
  have hne := decNat_ne_nil i
  have hs : (decNat i ++ [93#8]).dropWhile isSpace = decNat i ++ [93#8] ∧ takeSign (decNat i ++ [93#8]) = (false, decNat i ++ [93#8]) := by
    revert hd hne
    generalize decNat i = d
    intro hd hne
    cases d with
    | nil => exact absurd rfl hne
    | cons x d =>
      obtain ⟨k, hk, rfl⟩ := hd x (by simp)
      have hb := digit_byte k hk
      refine ⟨?_, ?_⟩
      · rw [List.cons_append, List.dropWhile_cons_of_neg]; simp [hb.2.2.2.2.1]
      · unfold takeSign
        split
        · rename_i heq; simp only [List.cons_append, List.cons.injEq] at heq; exact absurd heq.1 hb.2.2.2.2.2.1
        · rename_i heq; simp only [List.cons_append, List.cons.injEq] at heq; exact absurd heq.1 hb.2.2.2.2.2.2.1
        · rfl
  have hv : digitsVal 10 0 (decNat i ++ [93#8]) = i := by
    rw [digitsVal_append _ _ _ hd, digitsVal_decNat]
    rfl
  unfold atoi
  simp only [hs.1, hs.2, hv]
  have hc : clampLong ((i : Nat) : Int) = i := by
    unfold clampLong
    rw [if_neg (by omega), if_neg (by omega)]
  simp only [Bool.false_eq_true, if_false, hc]
  exact i32_of_range ⟨by omega, by omega⟩

theorem getIndex_seg {g : Seg} (h : PlainName g.name) (hi : ∀ i, g.index = some i → i < 2147483648) : getIndex (segText g) = (g.name, idxOf g.index) := by
  have hn : ∀ x ∈ g.name, decide (x ≠ 91#8) = true := by
    intro x hx; rw [decide_eq_true_iff]; intro e; subst e; exact h.2.1 hx
  unfold getIndex segText
  cases hg : g.index with
  | none =>
    have ht : (g.name ++ ([] : Name)).takeWhile (fun x => decide (x ≠ 91#8)) = g.name := takeWhile_stop hn (by simp)
    dsimp only
    rw [ht, if_neg (by simp)]
    rfl
  | some i =>
    have ht : (g.name ++ (91#8 :: decNat i ++ [93#8])).takeWhile (fun x => decide (x ≠ 91#8)) = g.name := takeWhile_stop hn (by simp)
    dsimp only
    rw [ht, if_pos (by simp)]
    have hd : (g.name ++ (91#8 :: decNat i ++ [93#8])).drop (g.name.length + 1) = decNat i ++ [93#8] := by
      rw [List.drop_append]; simp
    rw [hd]
    have ht2 : (decNat i ++ [93#8]).takeWhile (fun x => decide (x ≠ 93#8)) = decNat i := by
      refine takeWhile_stop ?_ (by simp)
      intro x hx; rw [decide_eq_true_iff]; exact (digit_ne (decNat_digits i x hx)).2.2
    rw [ht2, if_pos (by rw [List.all_eq_true]; exact fun x hx => isDigit_of (decNat_digits i x hx)), atoi_index (hi i hg)]
    rfl

theorem head_bit (b : Nat) : ((decNat b).head?.map isDigit).getD false = true := by
  have hd := decNat_digits b
  have hne := decNat_ne_nil b
  revert hd hne
  generalize decNat b = d
  intro hd hne
  cases d with
  | nil => exact absurd rfl hne
  | cons x d => exact isDigit_of (hd x (by simp))

theorem head_seg {g : Seg} (h : PlainName g.name) (gs : List Seg) (b : Option Nat) :
    ((segText g ++ pathText gs b).head?.map isDigit).getD false = false := by
  unfold segText
  cases hn : g.name with
  | cons x n =>
    have := h.2.2 x (by rw [hn]; rfl)
    simp only [List.cons_append, List.head?_cons, Option.map_some, Option.getD_some]
    unfold isDigit
    simp only [Bool.and_eq_false_imp, decide_eq_true_eq, decide_eq_false_iff_not]
    exact fun h1 h2 => this ⟨h1, h2⟩
  | nil =>
    cases hi : g.index with
    | some i => rfl
    | none =>
      rcases pathText_dot gs b with e | ⟨r, e⟩ <;> simp only [e] <;> rfl


/-! ## Whole paths -/

/-- What is common to all steps: the member is found. -/
structure Found (s : Server) (fd : Int) (c c2 : TypeCache) (t : Nat) (h h2 : Handle) (str name : Name) (index : Int) (m : Member) (next : Option Name) : Prop where
  ex : ∃ n' c1 tn e, splitTagname str = (n', next) ∧ getIndex n' = (name, index) ∧ typeToString s fd c t = .ok (c1, some tn) ∧
    c1[cdtToIndex t]? = some e ∧ findMember s fd name e.members c1 h = .ok (c2, h2, some m)
  idx : ¬ (index < 0 ∧ index ≠ ERR_NOTFOUND)

theorem Found.last {s : Server} {fd : Int} {c c2 : TypeCache} {t : Nat} {h h2 : Handle} {str name : Name} {index : Int} {m : Member} {count : Int}
    (f : Found s fd c c2 t h h2 str name index m none) (fuel : Nat) :
    parseNextMember s fd (fuel + 1) c t h str count = lastMember s fd c2 h2 m index count := by
  obtain ⟨⟨n', c1, tn, e, h1, h2, h3, h4, h5⟩, h6⟩ := f
  rw [parseNextMember, h1]
  dsimp only
  rw [h2]
  dsimp only
  rw [if_neg h6, h3]
  simp only [C.ok_bind, h4, h5]

theorem Found.bit {s : Server} {fd : Int} {c c2 : TypeCache} {t : Nat} {h h2 : Handle} {str name next : Name} {index : Int} {m : Member} {count : Int}
    (f : Found s fd c c2 t h h2 str name index m (some next)) (hd : (next.head?.map isDigit).getD false = true) (hm : ¬ (m.count > 1 ∧ index < 0)) (fuel : Nat) :
    parseNextMember s fd (fuel + 1) c t h str count = parseBitIndex s fd c2 m.type h2 next index count := by
  obtain ⟨⟨n', c1, tn, e, h1, h2, h3, h4, h5⟩, h6⟩ := f
  rw [parseNextMember, h1]
  dsimp only
  rw [h2]
  dsimp only
  rw [if_neg h6, h3]
  simp only [C.ok_bind, h4, h5]
  rw [if_pos hd, if_neg hm]

theorem Found.fail {s : Server} {fd : Int} {c c2 c3 : TypeCache} {t : Nat} {h h2 h3 : Handle} {str name next : Name} {index r : Int} {m : Member} {count : Int}
    (f : Found s fd c c2 t h h2 str name index m (some next)) (hd : (next.head?.map isDigit).getD false = false) {fuel : Nat}
    (hn : parseNextMember s fd fuel c2 m.type h2 next count = .ok (c3, h3, r)) (hz : r ≠ 0) :
    parseNextMember s fd (fuel + 1) c t h str count = .ok (c3, h3, r) := by
  obtain ⟨⟨n', c1, tn, e, h1, h2, h3, h4, h5⟩, h6⟩ := f
  rw [parseNextMember, h1]
  dsimp only
  rw [h2]
  dsimp only
  rw [if_neg h6, h3]
  simp only [C.ok_bind, h4, h5]
  rw [if_neg (by rw [hd]; simp), hn]
  simp only [C.ok_bind]
  rw [if_pos hz]

theorem Found.plain {s : Server} {fd : Int} {c c2 c3 : TypeCache} {t : Nat} {h h2 h3 : Handle} {str name next : Name} {index : Int} {m : Member} {count : Int}
    (f : Found s fd c c2 t h h2 str name index m (some next)) (hd : (next.head?.map isDigit).getD false = false) {fuel : Nat}
    (hn : parseNextMember s fd fuel c2 m.type h2 next count = .ok (c3, h3, 0)) (hi : index = ERR_NOTFOUND) :
    parseNextMember s fd (fuel + 1) c t h str count = .ok (c3, h3, 0) := by
  obtain ⟨⟨n', c1, tn, e, h1, h2, h3, h4, h5⟩, h6⟩ := f
  rw [parseNextMember, h1]
  dsimp only
  rw [h2]
  dsimp only
  rw [if_neg h6, h3]
  simp only [C.ok_bind, h4, h5]
  rw [if_neg (by rw [hd]; simp), hn]
  simp only [C.ok_bind]
  rw [if_neg (by simp), if_neg (by rw [hi]; simp)]

theorem Found.big {s : Server} {fd : Int} {c c2 c3 : TypeCache} {t : Nat} {h h2 h3 : Handle} {str name next : Name} {index x k : Int} {m : Member} {count : Int}
    (f : Found s fd c c2 t h h2 str name index m (some next)) (hd : (next.head?.map isDigit).getD false = false) {fuel : Nat}
    (hn : parseNextMember s fd fuel c2 m.type h2 next count = .ok (c3, h3, 0)) (hi : index ≠ ERR_NOTFOUND)
    (hk : (if count = 0 then 1 else count) = k) (hx : addI32 index k = .ok x) (hb : x > m.count) :
    parseNextMember s fd (fuel + 1) c t h str count = .ok (c3, h3, ERR_2BIG) := by
  obtain ⟨⟨n', c1, tn, e, h1, h2, h3, h4, h5⟩, h6⟩ := f
  rw [parseNextMember, h1]
  dsimp only
  rw [h2]
  dsimp only
  rw [if_neg h6, h3]
  simp only [C.ok_bind, h4, h5]
  rw [if_neg (by rw [hd]; simp), hn]
  simp only [C.ok_bind]
  rw [if_neg (by simp), if_pos hi, hk, hx]
  simp only [C.ok_bind]
  rw [if_pos hb]

theorem Found.index {s : Server} {fd : Int} {c c2 c3 c4 : TypeCache} {t : Nat} {h h2 h3 : Handle} {str name next : Name} {index x k size y : Int} {m : Member} {count : Int}
    (f : Found s fd c c2 t h h2 str name index m (some next)) (hd : (next.head?.map isDigit).getD false = false) {fuel : Nat}
    (hn : parseNextMember s fd fuel c2 m.type h2 next count = .ok (c3, h3, 0)) (hi : index ≠ ERR_NOTFOUND)
    (hk : (if count = 0 then 1 else count) = k) (hx : addI32 index k = .ok x) (hb : ¬ x > m.count) (hs : ctypeSize s fd c3 m.type = .ok (c4, size))
    (hy : mulI32 size index = .ok y) :
    parseNextMember s fd (fuel + 1) c t h str count = .ok (c4, { h3 with byte := u32 (h3.byte + y) }, 0) := by
  obtain ⟨⟨n', c1, tn, e, h1, h2, h3, h4, h5⟩, h6⟩ := f
  rw [parseNextMember, h1]
  dsimp only
  rw [h2]
  dsimp only
  rw [if_neg h6, h3]
  simp only [C.ok_bind, h4, h5]
  rw [if_neg (by rw [hd]; simp), hn]
  simp only [C.ok_bind]
  rw [if_neg (by simp), if_pos hi, hk, hx]
  simp only [C.ok_bind]
  rw [if_neg hb, hs]
  simp only [C.ok_bind]
  rw [hy]
  rfl

/-- Bits from one element of a known type to the next. -/
theorem Known'.elem {cap : Nat} {s : Server} {t : Nat} {d : Cdt} {q : Nat} (K : Known' cap s t d q) : ElemBits s.cdts t (8 * ((q + 7) / 8)) :=
  .inr (.inr ⟨K.comp, _, K.size, rfl⟩)

theorem Known'.before {cap : Nat} {s : Server} (hr : Reachable s) {t : Nat} {d : Cdt} {q : Nat} (K : Known' cap s t d q) {n : Name} {m : Member} {r : Nat}
    (hb : Before s.cdts d.members 0 n m r) :
    ∃ e, ElemBits s.cdts m.type e ∧ 0 < e ∧ place m r + e * m.count ≤ q ∧ m.count ≤ q := by
  obtain ⟨e, h1, h2⟩ := K.ends.elem m hb.mem
  have h3 := (hb.le K.ends h1).2
  have h0 : 0 < e := by
    rcases h1 with ⟨a, rfl⟩ | ⟨w, a, rfl⟩ | ⟨a, k, ha, rfl⟩
    · omega
    · have := elem_pos a; omega
    · obtain ⟨d, q', K'⟩ := (K.sub m hb.mem a).known hr.wf
      have h1 := K'.size
      have h2 := K'.pos
      rw [ha] at h1
      simp only [C.ok.injEq] at h1
      omega
  exact ⟨e, h1, h0, h3, mul_small h0 h2⟩

theorem Known'.det {cap : Nat} {s : Server} {t : Nat} {d d' : Cdt} {q : Nat} (K : Known' cap s t d q) (h : s.cdts[t - 2147483648]? = some d') : d' = d := by
  rw [K.ent] at h; exact (Option.some.inj h).symm

/-- A path stays inside its element. -/
theorem Place.within {cap : Nat} {s : Server} (hr : Reachable s) {t : Nat} {gs : List Seg} {b : Option Nat} {ty n off : Nat} (hp : Place s.cdts t gs b ty n off) :
    ∀ {d q}, Known' cap s t d q → ∃ e, ElemBits s.cdts ty e ∧ 0 < n ∧ off + e * n ≤ q := by
  induction hp with
  | last t d' g m r e hc hd hb he hi =>
    intro d q K
    have := K.det hd; subst this
    have h1 := (hb.le K.ends he).2
    have h2 : e * (m.count - g.index.getD 0) + e * g.index.getD 0 = e * m.count := by rw [← Nat.mul_add]; congr 1; omega
    exact ⟨e, he, by omega, by omega⟩
  | bit t d' g m r w b sg hc hd hb hit hi hone hbw =>
    intro d q K
    have := K.det hd; subst this
    have he : ElemBits s.cdts m.type (8 * w) := .inr (.inl ⟨w, (int_elem hit).1, rfl⟩)
    have h1 := (hb.le K.ends he).2
    have h2 : 8 * w * (g.index.getD 0 + 1) ≤ 8 * w * m.count := Nat.mul_le_mul_left _ (by omega)
    rw [Nat.mul_add] at h2
    exact ⟨1, .inl ⟨rfl, rfl⟩, by omega, by omega⟩
  | step t d' g gs b m r e ty n off hc hd hb hcm he hi hp ih =>
    intro d q K
    have := K.det hd; subst this
    obtain ⟨d2, q2, K2⟩ := (K.sub m hb.mem hcm).known hr.wf
    obtain ⟨e2, h3, h4, h5⟩ := ih K2
    have h6 := he.det K2.elem
    have h1 := (hb.le K.ends he).2
    have h2 : e * (g.index.getD 0 + 1) ≤ e * m.count := Nat.mul_le_mul_left _ (by omega)
    rw [Nat.mul_add] at h2
    exact ⟨e2, h3, h4, by omega⟩

theorem Place.ne {tbl : List Cdt} {t : Nat} {gs : List Seg} {b : Option Nat} {ty n off : Nat} (hp : Place tbl t gs b ty n off) : gs ≠ [] := by
  cases hp <;> simp

theorem lastIdx_cons {g : Seg} {gs : List Seg} (h : gs ≠ []) (b : Option Nat) : lastIdx (g :: gs) b = lastIdx gs b := by
  unfold lastIdx
  cases gs with
  | nil => exact absurd rfl h
  | cons g' gs => rw [List.getLast?_cons_cons]

theorem align_place {B r P : Nat} {m : Member} (hB : B % 8 = 0) (h : P = B + r ∨ (r = 0 ∧ align8 P = B ∧ m.type ≠ DAX_BOOL)) : place m P = B + place m r := by
  unfold place
  by_cases hb : m.type = DAX_BOOL
  · rw [if_pos hb, if_pos hb]
    rcases h with h | ⟨-, -, h⟩
    · exact h
    · exact absurd hb h
  · rw [if_neg hb, if_neg hb]
    rcases h with h | ⟨h1, h2, -⟩
    · rw [h]; unfold align8; omega
    · rw [h2, h1]; unfold align8; omega


/-- The type is known or can be fetched, and the member is found in it. -/
theorem found_ok {s : Server} (hr : Reachable s) {fd : Int} {t : Nat} {d : Cdt} {q : Nat} (K : Known' 248 s t d q) {c : TypeCache} (hc : Faithful s c) {X : Prop} {B : Nat}
    (hB : B % 8 = 0) (hq : B + q ≤ 2147483640) {g : Seg} {gs : List Seg} {b : Option Nat} {m : Member} {r : Nat} (hb : Before s.cdts d.members 0 g.name m r)
    (hg : PlainName g.name) (hi : g.index.getD 0 < m.count) {h : Handle} (hl : Loc h)
    (hpos : 8 * h.byte + h.bit = B ∨ (X ∧ align8 (8 * h.byte + h.bit) = B ∧ ∀ m, d.members.head? = some m → m.type ≠ DAX_BOOL)) :
    ∃ c' h', Found s fd c c' t h h' (segText g ++ pathText gs b) g.name (idxOf g.index) m (restText gs b) ∧ Faithful s c' ∧ Loc h' ∧ h'.index = h.index ∧
      (8 * h'.byte + h'.bit = B + r ∨ (X ∧ r = 0 ∧ align8 (8 * h'.byte + h'.bit) = B ∧ m.type ≠ DAX_BOOL)) := by
  obtain ⟨e, -, -, -, h5⟩ := K.before hr hb
  obtain ⟨c1, tn, k1, k2, nn, k3⟩ := typeToString_known hr K hc (fd := fd)
  have hp' : 8 * h.byte + h.bit = B + 0 ∨ (X ∧ 0 = 0 ∧ align8 (8 * h.byte + h.bit) = B ∧ ∀ m, d.members.head? = some m → m.type ≠ DAX_BOOL) := by
    rcases hpos with h | ⟨h1, h2, h3⟩
    · exact .inl h
    · exact .inr ⟨h1, rfl, h2, h3⟩
  obtain ⟨c2, h2, f1, f2, f3, f4, f5⟩ := find_ok hr hB hb K.ends hq K.counts K.sub k2 hl hp' (fd := fd)
  refine ⟨c2, h2, ⟨⟨segText g, c1, tn, _, split_seg hg gs b, getIndex_seg hg ?_, k1, k3, f1⟩, ?_⟩, f2, f3, f4, ?_⟩
  · intro i hgi
    rw [hgi] at hi
    have hi : i < m.count := hi
    have := K.small
    omega
  · cases g.index with
    | none => exact fun h => h.2 rfl
    | some i => unfold idxOf; intro h; dsimp only at h; omega
  · rcases f5 with h | ⟨h0, h1, -, h2, h3⟩
    · exact .inl h
    · exact .inr ⟨h0, h1, h2, h3⟩

theorem Made.shift {tbl : List Cdt} {h h1 h2 : Handle} {ty w pos k : Nat} (hm : Made tbl h1 h2 ty w pos) (hi : h1.index = h.index) (hk : h2.byte + k < 4294967296) :
    Made tbl h { h2 with byte := u32 ((h2.byte : Int) + (k : Int)) } ty w (pos + 8 * k) := by
  obtain ⟨a1, a2, a3, a4, a5, a6, a7⟩ := hm
  rw [u32_add hk]
  refine ⟨by rw [← hi]; exact a1, a2, ?_, a4, a5, a6, a7⟩
  dsimp only; omega

theorem Made.same {tbl : List Cdt} {h h1 h2 : Handle} {ty w pos : Nat} (hm : Made tbl h1 h2 ty w pos) (hi : h1.index = h.index) : Made tbl h h2 ty w pos := by
  obtain ⟨a1, a2, a3, a4, a5, a6, a7⟩ := hm
  exact ⟨by rw [← hi]; exact a1, a2, a3, a4, a5, a6, a7⟩

theorem room_iff {tbl : List Cdt} {k t : Nat} {d : Cdt} {g : Seg} {gs : List Seg} {m : Member} {r : Nat} (hd : tbl[t - 2147483648]? = some d)
    (hb : Before tbl d.members 0 g.name m r) (hne : gs ≠ []) : Room tbl k t (g :: gs) ↔ (∀ i, g.index = some i → i + k ≤ m.count) ∧ Room tbl k m.type gs := by
  constructor
  · intro h
    cases h with
    | last => exact absurd rfl hne
    | step _ d' _ _ m' r' h1 h2 h3 h4 =>
      rw [hd] at h1
      obtain rfl := Option.some.inj h1
      obtain ⟨rfl, rfl⟩ := hb.det h2
      exact ⟨h3, h4⟩
  · exact fun h => .step t d g gs m r hd hb h.1 h.2

theorem clear_step {tbl : List Cdt} {loose : Bool} {t : Nat} {d : Cdt} {g : Seg} {gs : List Seg} {b : Option Nat} {m : Member} {r : Nat} (hd : tbl[t - 2147483648]? = some d)
    (hb : Before tbl d.members 0 g.name m r) (hne : gs ≠ []) (h : Clear tbl loose t (g :: gs) b) :
    (loose = true → ∀ m, d.members.head? = some m → m.type ≠ DAX_BOOL) ∧ Clear tbl (decide (r % 8 ≠ 0) || (loose && decide (r = 0))) m.type gs b := by
  cases h with
  | last => exact absurd rfl hne
  | bit => exact absurd rfl hne
  | step _ _ d' _ _ _ m' r' h1 h2 h3 h4 =>
    rw [hd] at h1
    obtain rfl := Option.some.inj h1
    obtain ⟨rfl, rfl⟩ := hb.det h3
    exact ⟨h2, h4⟩

theorem restText_cons (g : Seg) (gs : List Seg) (b : Option Nat) : restText (g :: gs) b = some (segText g ++ pathText gs b) := rfl

/-- The whole path. -/
theorem parse_ok {s : Server} (hr : Reachable s) {fd : Int} {cnt : Nat} (hcnt : cnt < 1073741824) {t : Nat} {gs : List Seg} {b : Option Nat} {ty n off : Nat}
    (hp : Place s.cdts t gs b ty n off) :
    ∀ {loose : Bool} {d : Cdt} {q B fuel : Nat} {c : TypeCache} {h : Handle}, Clear s.cdts loose t gs b → Known' 248 s t d q → B % 8 = 0 → B + q ≤ 2147483600 →
      Faithful s c → Loc h → (8 * h.byte + h.bit = B ∨ (loose = true ∧ align8 (8 * h.byte + h.bit) = B)) → gs.length ≤ fuel →
      (∀ g ∈ gs, PlainName g.name) → ∀ {str}, restText gs b = some str →
      ∃ c' h' r, parseNextMember s fd fuel c t h str cnt = .ok (c', h', r) ∧ Faithful s c' ∧
        (r = 0 ∧ (wanted (lastIdx gs b) cnt n ≤ n ∧ Room s.cdts (if cnt = 0 then 1 else cnt) t gs) ∧
            Made s.cdts h h' ty (wanted (lastIdx gs b) cnt n) (B + off) ∨
          r = ERR_2BIG ∧ ¬ (wanted (lastIdx gs b) cnt n ≤ n ∧ Room s.cdts (if cnt = 0 then 1 else cnt) t gs)) := by
  induction hp with
  | last t d' g m r e hc hd hb he hi =>
    intro loose d q B fuel c h hcl K hB hq hf hl hpos hfu hpn str hstr
    have := K.det hd; subst this
    obtain ⟨fuel, rfl⟩ : ∃ f, fuel = f + 1 := ⟨fuel - 1, by simp at hfu; omega⟩
    rw [restText_cons] at hstr
    obtain rfl := Option.some.inj hstr
    have hloose : loose = true → ∀ m, d'.members.head? = some m → m.type ≠ DAX_BOOL := by
      cases hcl with
      | last _ _ d2 _ h1 h2 => rw [hd] at h1; obtain rfl := Option.some.inj h1; exact h2
      | step _ _ d2 _ _ _ _ _ h1 h2 => rw [hd] at h1; obtain rfl := Option.some.inj h1; exact h2
    obtain ⟨c2, h2, f1, f2, f3, f4, f5⟩ := found_ok hr K hf hB (by omega) hb (hpn g (by simp)) hi hl (X := True) (gs := []) (b := none) (fd := fd) (by
      rcases hpos with h | ⟨h1, h2⟩
      · exact .inl h
      · exact .inr ⟨trivial, h2, hloose h1⟩)
    have hpl : place m (8 * h2.byte + h2.bit) = B + place m r := align_place hB (by
      rcases f5 with h | ⟨-, h1, h2, h3⟩
      · exact .inl h
      · exact .inr ⟨h1, h2, h3⟩)
    have hle := (hb.le K.ends he).2
    obtain ⟨c3, h3, r3, l1, l2, l3⟩ := last_ok hr f2 f3 he (K.counts m hb.mem) (K.sub m hb.mem) (by omega) hcnt hi (fd := fd)
    refine ⟨c3, h3, r3, by rw [f1.last]; exact l1, l2, ?_⟩
    have hli : lastIdx [g] none = g.index.isSome := rfl
    rw [hli]
    rcases l3 with ⟨a1, a2, a3⟩ | ⟨a1, a2⟩
    · refine .inl ⟨a1, ⟨a2, .last t g⟩, ?_⟩
      rw [hpl, Nat.add_assoc] at a3
      exact a3.same f4
    · exact .inr ⟨a1, fun hh => a2 hh.1⟩
  | bit t d' g m r w b sg hc hd hb hit hi hone hbw =>
    intro loose d q B fuel c h hcl K hB hq hf hl hpos hfu hpn str hstr
    have := K.det hd; subst this
    obtain ⟨fuel, rfl⟩ : ∃ f, fuel = f + 1 := ⟨fuel - 1, by simp at hfu; omega⟩
    rw [restText_cons] at hstr
    obtain rfl := Option.some.inj hstr
    obtain ⟨hloose, hr8, hr0⟩ : (loose = true → ∀ m, d'.members.head? = some m → m.type ≠ DAX_BOOL) ∧ r % 8 = 0 ∧ (loose = true → r ≠ 0) := by
      cases hcl with
      | bit _ _ d2 _ _ m' r' h1 h2 h3 h4 h5 =>
        rw [hd] at h1; obtain rfl := Option.some.inj h1
        obtain ⟨rfl, rfl⟩ := hb.det h3
        exact ⟨h2, h4, h5⟩
      | step _ _ d2 _ _ _ m' r' h1 h2 h3 h4 => cases h4
    obtain ⟨c2, h2, f1, f2, f3, f4, f5⟩ := found_ok hr K hf hB (by omega) hb (hpn g (by simp)) hi hl (X := loose = true) (gs := []) (b := some b) (fd := fd) (by
      rcases hpos with h | ⟨h1, h2⟩
      · exact .inl h
      · exact .inr ⟨h1, h2, hloose h1⟩)
    have hP : 8 * h2.byte + h2.bit = B + r := by
      rcases f5 with h | ⟨h0, h1, -⟩
      · exact h
      · exact absurd h1 (hr0 h0)
    have he : ElemBits s.cdts m.type (8 * w) := .inr (.inl ⟨w, (int_elem hit).1, rfl⟩)
    have hle := (hb.le K.ends he).2
    have hmi : 8 * w * g.index.getD 0 ≤ 8 * w * m.count := Nat.mul_le_mul_left _ (by omega)
    have hpg := place_ge m r
    have hnb : m.type ≠ DAX_BOOL := elem_notBool (int_elem hit).1
    have hpr : place m r = r := by unfold place; rw [if_neg hnb]; unfold align8; omega
    have h20 : h2.bit = 0 := by have := f3.1; omega
    obtain ⟨c3, h3, r3, l1, l2, l3⟩ := bit_ok (h := h2) (index := g.index) f2 hit hbw h20 hcnt (by omega) (fd := fd)
    have hone' : ¬ (m.count > 1 ∧ idxOf g.index < 0) := by
      rintro ⟨h1, h2⟩
      cases hgi : g.index with
      | none => have := hone hgi; omega
      | some i => rw [hgi] at h2; unfold idxOf at h2; dsimp only at h2; omega
    refine ⟨c3, h3, r3, by rw [f1.bit (head_bit b) hone']; exact l1, l2, ?_⟩
    have hli : lastIdx [g] (some b) = true := rfl
    rw [hli]
    rcases l3 with ⟨a1, a2, a3⟩ | ⟨a1, a2⟩
    · refine .inl ⟨a1, ⟨a2, .last t g⟩, ?_⟩
      have e1 : B + (place m r + 8 * w * g.index.getD 0 + b) = 8 * h2.byte + 8 * w * g.index.getD 0 + b := by omega
      rw [e1]
      exact a3.same f4
    · exact .inr ⟨a1, fun hh => a2 hh.1⟩
  | step t d' g gs b m r e ty n off hc hd hb hcm he hi hp ih =>
    intro loose d q B fuel c h hcl K hB hq hf hl hpos hfu hpn str hstr
    have := K.det hd; subst this
    obtain ⟨fuel, rfl⟩ : ∃ f, fuel = f + 1 := ⟨fuel - 1, by simp at hfu; omega⟩
    rw [restText_cons] at hstr
    obtain rfl := Option.some.inj hstr
    obtain ⟨hloose, hcl'⟩ := clear_step hd hb hp.ne hcl
    obtain ⟨c2, h2, f1, f2, f3, f4, f5⟩ := found_ok hr K hf hB (by omega) hb (hpn g (by simp)) hi hl (X := loose = true) (gs := gs) (b := b) (fd := fd) (by
      rcases hpos with h | ⟨h1, h2⟩
      · exact .inl h
      · exact .inr ⟨h1, h2, hloose h1⟩)
    have hnb : m.type ≠ DAX_BOOL := compound_notBool hcm
    have hpl : place m (8 * h2.byte + h2.bit) = B + place m r := align_place hB (by
      rcases f5 with h | ⟨-, h1, h2, h3⟩
      · exact .inl h
      · exact .inr ⟨h1, h2, h3⟩)
    have hle := (hb.le K.ends he).2
    obtain ⟨d2, q2, K2⟩ := (K.sub m hb.mem hcm).known hr.wf
    have h6 := he.det K2.elem
    have hei : e * (g.index.getD 0 + 1) ≤ e * m.count := Nat.mul_le_mul_left _ (by omega)
    rw [Nat.mul_add] at hei
    have hpm : place m r % 8 = 0 := by unfold place; rw [if_neg hnb]; unfold align8; omega
    have hpos2 : 8 * h2.byte + h2.bit = B + place m r ∨
        ((decide (r % 8 ≠ 0) || (loose && decide (r = 0))) = true ∧ align8 (8 * h2.byte + h2.bit) = B + place m r) := by
      have hal : align8 (8 * h2.byte + h2.bit) = B + place m r := by
        rw [← hpl]; unfold place; rw [if_neg hnb]
      by_cases hlo : (decide (r % 8 ≠ 0) || (loose && decide (r = 0))) = true
      · exact .inr ⟨hlo, hal⟩
      · simp only [Bool.or_eq_true, Bool.and_eq_true, decide_eq_true_eq, not_or, not_and, Decidable.not_not] at hlo
        refine .inl ?_
        rcases f5 with h | ⟨h0, h1, -⟩
        · rw [h]; unfold place; rw [if_neg hnb]; unfold align8; omega
        · exact absurd h1 (hlo.2 h0)
    obtain ⟨g', gs', rfl⟩ : ∃ g' gs', gs = g' :: gs' := by
      cases gs with
      | nil => exact absurd rfl hp.ne
      | cons g' gs' => exact ⟨g', gs', rfl⟩
    obtain ⟨c3, h3, r3, l1, l2, l3⟩ := ih hcl' K2 (B := B + place m r) (by omega) (by omega) f2 f3 hpos2 (fuel := fuel) (by simp at hfu ⊢; omega)
      (fun x hx => hpn x (List.mem_cons_of_mem _ hx)) (restText_cons g' gs' b)
    rw [restText_cons] at f1
    have hd' := head_seg (hpn g' (by simp)) gs' b
    have hroom := room_iff (k := if cnt = 0 then 1 else cnt) hd hb hp.ne
    rw [lastIdx_cons hp.ne]
    have ek : (if (cnt : Int) = 0 then (1 : Int) else cnt) = (((if cnt = 0 then 1 else cnt) : Nat) : Int) := by
      by_cases hz : cnt = 0
      · rw [if_pos (by omega), if_pos hz]; rfl
      · rw [if_neg (by omega), if_neg hz]
    have hk : (if cnt = 0 then 1 else cnt) < 1073741825 := by split <;> omega
    generalize (if cnt = 0 then 1 else cnt) = k at ek hk hroom l3 ⊢
    obtain ⟨em, hem, he0, -, hmq⟩ := K.before hr hb
    have hwithin := hp.within hr K2
    rcases l3 with ⟨rfl, ⟨a2, a2'⟩, a3⟩ | ⟨a1, a2⟩
    · cases hgi : g.index with
      | none =>
        rw [hgi] at f1
        refine ⟨c3, h3, 0, f1.plain hd' l1 rfl, l2, .inl ⟨rfl, ⟨a2, hroom.mpr ⟨by rw [hgi]; simp, a2'⟩⟩, ?_⟩⟩
        rw [Option.getD_none, Nat.mul_zero, Nat.add_zero, ← Nat.add_assoc]
        exact a3.same f4
      | some i =>
        rw [hgi] at f1 hi hei
        rw [Option.getD_some] at hi hei
        have hne : idxOf (some i) ≠ ERR_NOTFOUND := by unfold idxOf ERR_NOTFOUND; dsimp only; omega
        have h8 : 8 * m.count ≤ e * m.count := Nat.mul_le_mul_right _ (by have := K2.pos; omega)
        have hx : addI32 (idxOf (some i)) (k : Int) = .ok ((i + k : Nat) : Int) := addI32_nat (by have := K.small; omega)
        by_cases hgt : i + k > m.count
        · refine ⟨c3, h3, ERR_2BIG, f1.big hd' l1 hne ek hx (by omega), l2, .inr ⟨rfl, fun hh => ?_⟩⟩
          have := (hroom.mp hh.2).1 i hgi
          omega
        · obtain ⟨c4, kk, z1, z2, z3, z4⟩ := member_size hr (K.sub m hb.mem) he hnb l2 (fd := fd)
          have q2 : 8 * (kk * i) = e * i := by rw [z3, Nat.mul_assoc]
          have hf4 := f1.index hd' l1 hne ek hx (by omega) z1 (mulI32_nat (by omega))
          obtain ⟨ex, -, -, w3⟩ := hwithin
          have hby : h3.byte + kk * i < 4294967296 := by
            have := a3.at'
            omega
          refine ⟨c4, _, 0, hf4, z2, .inl ⟨rfl, ⟨a2, hroom.mpr ⟨fun j hj => by rw [hgi] at hj; cases hj; omega, a2'⟩⟩, ?_⟩⟩
          have hms := a3.shift f4 hby
          rw [Option.getD_some]
          have e2 : B + place m r + off + 8 * (kk * i) = B + (place m r + e * i + off) := by omega
          rw [e2] at hms
          exact hms
    · refine ⟨c3, h3, r3, f1.fail hd' l1 (by rw [a1]; decide), l2, .inr ⟨a1, fun hh => a2 ⟨hh.1, (hroom.mp hh.2).2⟩⟩⟩


/-! ## Iteration -/

theorem addI32_nat' {a b : Nat} {x : Int} (hx : x = ((a + b : Nat) : Int)) (h : a + b < 2147483648) : addI32 (a : Int) (b : Int) = .ok x := by
  rw [hx]; exact addI32_nat h

theorem iter_bool_gen {s : Server} {fd : Int} {m m' : Member} {ms : List Member} {c c' : TypeCache} {byte bit b1 b2 x b3 y : Int} {l : List Iter} (hb : m.type = DAX_BOOL)
    (h1 : addI32 byte (m.count / 8 : Nat) = .ok b1)
    (h2 : bit + (m.count % 8 : Nat) > 7 ∧ addI32 b1 1 = .ok b2 ∧ (bit + (m.count % 8 : Nat)).tmod 8 = x ∨ ¬ bit + (m.count % 8 : Nat) > 7 ∧ b1 = b2 ∧ bit + (m.count % 8 : Nat) = x)
    (h3 : (m'.type ≠ DAX_BOOL ∧ x ≠ 0) ∧ addI32 b2 1 = .ok b3 ∧ 0 = y ∨ ¬ (m'.type ≠ DAX_BOOL ∧ x ≠ 0) ∧ b2 = b3 ∧ x = y)
    (hr : iterLoop s fd (m' :: ms) c b3 y = .ok (c', l)) :
    iterLoop s fd (m :: m' :: ms) c byte bit = .ok (c', ⟨m.name, m.type, m.count, byte, bit⟩ :: l) := by
  rw [iterLoop, if_pos hb]
  dsimp only
  rw [h1]
  simp only [C.ok_bind]
  rcases h2 with ⟨h2, h2', rfl⟩ | ⟨h2, rfl, rfl⟩
  · rw [if_pos h2, h2']
    simp only [C.ok_bind]
    rcases h3 with ⟨h3, h3', rfl⟩ | ⟨h3, rfl, rfl⟩
    · rw [if_pos h3, h3']
      simp only [C.ok_bind]
      rw [hr]
      rfl
    · rw [if_neg h3, hr]
      rfl
  · rw [if_neg h2]
    try simp only [C.ok_bind]
    rcases h3 with ⟨h3, h3', rfl⟩ | ⟨h3, rfl, rfl⟩
    · rw [if_pos h3, h3']
      simp only [C.ok_bind]
      rw [hr]
      rfl
    · rw [if_neg h3, hr]
      rfl

theorem iter_norm {byte bit n : Nat} (hbit : bit < 8) (hbyte : byte + n < 2147483640) :
    (bit : Int) + ((n % 8 : Nat) : Int) > 7 ∧ addI32 ((byte + n / 8 : Nat) : Int) 1 = .ok (((8 * byte + bit + n) / 8 : Nat) : Int) ∧ ((bit : Int) + ((n % 8 : Nat) : Int)).tmod 8 = (((8 * byte + bit + n) % 8 : Nat) : Int) ∨
    ¬ (bit : Int) + ((n % 8 : Nat) : Int) > 7 ∧ ((byte + n / 8 : Nat) : Int) = (((8 * byte + bit + n) / 8 : Nat) : Int) ∧ (bit : Int) + ((n % 8 : Nat) : Int) = (((8 * byte + bit + n) % 8 : Nat) : Int) := by
  by_cases h7 : bit + n % 8 > 7
  · refine .inl ⟨by omega, addI32_nat' (b := 1) (by omega) (by omega), ?_⟩
    rw [Int.tmod_eq_emod_of_nonneg (by omega)]
    omega
  · exact .inr ⟨by omega, by omega, by omega⟩

theorem iter_align {m' : Member} {P byte2 bit2 : Nat} (hP : P < 17179869120) (h2 : 8 * byte2 + bit2 = place m' P) (h3 : bit2 < 8) :
    (m'.type ≠ DAX_BOOL ∧ ((P % 8 : Nat) : Int) ≠ 0) ∧ addI32 ((P / 8 : Nat) : Int) 1 = .ok (byte2 : Int) ∧ (0 : Int) = (bit2 : Int) ∨
    ¬ (m'.type ≠ DAX_BOOL ∧ ((P % 8 : Nat) : Int) ≠ 0) ∧ ((P / 8 : Nat) : Int) = (byte2 : Int) ∧ ((P % 8 : Nat) : Int) = (bit2 : Int) := by
  unfold place align8 at h2
  by_cases ht : m'.type = DAX_BOOL
  · rw [if_pos ht] at h2
    exact .inr ⟨fun h => h.1 ht, by omega, by omega⟩
  · rw [if_neg ht] at h2
    by_cases hz : P % 8 = 0
    · exact .inr ⟨fun h => h.2 (by omega), by omega, by omega⟩
    · exact .inl ⟨⟨ht, by omega⟩, addI32_nat' (b := 1) (by omega) (by omega), by omega⟩

theorem iter_bool {s : Server} {fd : Int} {m m' : Member} {ms : List Member} {c c' : TypeCache} {byte byte2 bit2 : Nat} {bit : Nat} {l : List Iter} (hb : m.type = DAX_BOOL)
    (hbit : bit < 8) (hbyte : byte + m.count < 2147483640) (h2 : 8 * byte2 + bit2 = place m' (8 * byte + bit + m.count)) (h3 : bit2 < 8)
    (hr : iterLoop s fd (m' :: ms) c byte2 bit2 = .ok (c', l)) :
    iterLoop s fd (m :: m' :: ms) c byte bit = .ok (c', ⟨m.name, m.type, m.count, byte, bit⟩ :: l) :=
  iter_bool_gen hb (addI32_nat (by omega)) (iter_norm hbit hbyte) (iter_align (by omega) h2 h3) hr

theorem iter_other_gen {s : Server} {fd : Int} {m m' : Member} {ms : List Member} {c c1 c' : TypeCache} {byte bit k y b : Int} {l : List Iter} (hb : m.type ≠ DAX_BOOL)
    (hs : ctypeSize s fd c m.type = .ok (c1, k)) (h2 : mulI32 k m.count = .ok y) (h3 : addI32 byte y = .ok b)
    (hr : iterLoop s fd (m' :: ms) c1 b 0 = .ok (c', l)) :
    iterLoop s fd (m :: m' :: ms) c byte bit = .ok (c', ⟨m.name, m.type, m.count, byte, bit⟩ :: l) := by
  rw [iterLoop, if_neg hb, hs]
  simp only [C.ok_bind]
  rw [h2]
  simp only [C.ok_bind]
  rw [h3]
  simp only [C.ok_bind]
  rw [hr]
  rfl

theorem iter_other {s : Server} {fd : Int} {m m' : Member} {ms : List Member} {c c1 c' : TypeCache} {byte bit k byte2 : Nat} {l : List Iter} (hb : m.type ≠ DAX_BOOL)
    (hs : ctypeSize s fd c m.type = .ok (c1, (k : Int))) (h2 : byte2 = byte + k * m.count) (h3 : byte2 < 2147483648)
    (hr : iterLoop s fd (m' :: ms) c1 byte2 0 = .ok (c', l)) :
    iterLoop s fd (m :: m' :: ms) c byte bit = .ok (c', ⟨m.name, m.type, m.count, byte, bit⟩ :: l) :=
  iter_other_gen hb hs (mulI32_nat (by omega)) (by rw [addI32_nat (by omega), ← h2]) hr

theorem place_of8 (m : Member) {p : Nat} (h : p % 8 = 0) : place m p = p := by
  unfold place; split
  · rfl
  · unfold align8; omega

theorem iter_ok {cap : Nat} {s : Server} (hr : Reachable s) {fd : Int} : ∀ {ms : List Member} {p q byte bit : Nat} {c : TypeCache}, Ends s.cdts ms p q → q ≤ 2147483600 →
    (∀ m ∈ ms, Compound m.type → Fits cap s m.type) → Faithful s c → bit < 8 → (∀ m, ms.head? = some m → 8 * byte + bit = place m p) →
    ∃ c' l, iterLoop s fd ms c byte bit = .ok (c', l) ∧ Faithful s c' ∧ Listed s.cdts ms p l
  | [], p, _, _, _, c, _, _, _, hc, _, _ => ⟨c, [], rfl, hc, .nil p⟩
  | [m], p, q, byte, bit, c, he, hq, hf, hc, hb, hpos => by
    cases he with
    | cons _ _ _ e _ he ht =>
    exact ⟨c, _, rfl, hc, .cons m [] p e byte bit [] he hb (hpos m rfl) (.nil _)⟩
  | m :: m' :: ms, p, q, byte, bit, c, he, hq, hf, hc, hb, hpos => by
    cases he with
    | cons _ _ _ e _ he ht =>
    have hP := hpos m rfl
    have hge := ht.ge
    by_cases hbool : m.type = DAX_BOOL
    · have he1 := he.bool hbool; subst he1
      have hpl := place_ge m' (place m p + 1 * m.count)
      obtain ⟨c', l, h1, h2, h3⟩ := iter_ok hr ht hq (fun x hx => hf x (List.mem_cons_of_mem _ hx)) hc
        (byte := place m' (place m p + 1 * m.count) / 8) (bit := place m' (place m p + 1 * m.count) % 8) (fd := fd) (by omega)
        (fun x hx => by cases hx; omega)
      refine ⟨c', _, iter_bool hbool hb (by omega) ?_ (by omega) h1, h2, .cons m _ p 1 byte bit l he hb hP h3⟩
      rw [hP]
      have : place m p + m.count = place m p + 1 * m.count := by omega
      rw [this]; omega
    · obtain ⟨c1, k, g1, g2, g3, g4⟩ := member_size hr (hf m (by simp)) he hbool hc (fd := fd)
      have hm8 : 8 * (k * m.count) = e * m.count := by rw [g3, Nat.mul_assoc]
      have hp8 : place m p % 8 = 0 := by unfold place; rw [if_neg hbool]; unfold align8; omega
      obtain ⟨c', l, h1, h2, h3⟩ := iter_ok hr ht hq (fun x hx => hf x (List.mem_cons_of_mem _ hx)) g2
        (byte := byte + k * m.count) (bit := 0) (fd := fd) (by omega)
        (fun x hx => by rw [place_of8 x (by omega)]; omega)
      exact ⟨c', _, iter_other hbool g1 rfl (by omega) h1, h2, .cons m _ p e byte bit l he hb hP h3⟩

theorem cdtMembers_known {cap : Nat} {s : Server} (hr : Reachable s) {t : Nat} {d : Cdt} {q : Nat} (K : Known' cap s t d q) {fd : Int} {c : TypeCache} (hc : Faithful s c) :
    ∃ c', cdtMembers s fd c t = .ok (c', .ok d.members) ∧ Faithful s c' := by
  obtain ⟨h1, h2, h3⟩ := compound_index K.comp
  unfold cdtMembers
  rw [if_pos h1, h2]
  by_cases hk : Known c t
  · obtain ⟨n, ms, hn⟩ := hk
    rw [hn]
    refine ⟨c, ?_, hc⟩
    rcases hc _ _ hn with h | ⟨d', hd', he, -⟩
    · simp at h
    · rw [K.ent] at hd'; cases hd'
      simp only [CType.mk.injEq] at he
      dsimp only
      rw [he.2]
  · obtain ⟨c', h4, h5, h6, -⟩ := fetch_type hr.wf K.fetch hc hk K.ent (fd := fd) (q := .cdtGetType t) (.inl rfl)
    have hx : ∀ n ms, c[t - 2147483648]? ≠ some ⟨some n, ms⟩ := fun n ms h => hk ⟨n, ms, h⟩
    refine ⟨c', ?_, h5⟩
    split
    · rename_i h; exact absurd h (hx _ _)
    · rw [h4]
      simp only [C.ok_bind, if_true]
      rw [h6]

theorem Listed.before {tbl : List Cdt} {ms : List Member} {p : Nat} {l : List Iter} (h : Listed tbl ms p l) : ∀ {n : Name} {m : Member} {r : Nat},
    Before tbl ms p n m r → ∃ byte bit : Nat, (⟨n, m.type, m.count, byte, bit⟩ : Iter) ∈ l ∧ bit < 8 ∧ 8 * byte + bit = place m r := by
  induction h with
  | nil p => intro n m r hb; cases hb
  | cons m ms p e byte bit l he hb hp _ ih =>
    intro n m' r hbf
    cases hbf with
    | here => exact ⟨byte, bit, by simp, hb, hp⟩
    | later _ _ _ e' _ _ _ hn he' hbf =>
      rw [he'.det he] at hbf
      obtain ⟨y, i, h1, h2, h3⟩ := ih hbf
      exact ⟨y, i, List.mem_cons_of_mem _ h1, h2, h3⟩

theorem Listed.members {tbl : List Cdt} {ms : List Member} {p : Nat} {l : List Iter} (h : Listed tbl ms p l) :
    l.map (fun i => (i.name, i.type, i.count)) = ms.map (fun m => (m.name, m.type, m.count)) := by
  induction h with
  | nil => rfl
  | cons m ms p e byte bit l _ _ _ _ ih => simp only [List.map_cons, ih]

theorem Listed.places {tbl : List Cdt} {ms : List Member} {p : Nat} {l : List Iter} (h : Listed tbl ms p l) : ∀ {q : Nat} {ps : List Piece}, Ends tbl ms p q → Pieces tbl ms ps →
    Places p ps (l.map Iter.pos) q := by
  induction h with
  | nil p => intro q ps he hps; cases he; cases hps; exact .nil (Nat.le_refl _)
  | cons m ms p e byte bit l he hb hp _ ih =>
    intro q ps hE hps
    cases hE with
    | cons _ _ _ e' _ he' hE =>
    rw [he'.det he] at hE
    cases hps with
    | cons hx hps =>
    have h1 := ih hE hps
    have hpos : Iter.pos ⟨m.name, m.type, m.count, byte, bit⟩ = place m p := by
      unfold Iter.pos; dsimp only; rw [← hp]; omega
    rw [List.map_cons, hpos]
    have hg := place_ge m p
    rcases hx with ⟨a, rfl⟩ | ⟨w, a, rfl⟩ | ⟨a, k, ha, rfl⟩
    · rw [he.det (.inl ⟨a, rfl⟩), Nat.one_mul] at h1
      exact .cons hg.1 (by simp) h1
    · rw [he.det (.inr (.inl ⟨w, a, rfl⟩)), Nat.mul_assoc] at h1
      refine .cons hg.1 (fun _ => ?_) h1
      unfold place; rw [if_neg (elem_notBool a)]; unfold align8; omega
    · rw [he.det (.inr (.inr ⟨a, k, ha, rfl⟩)), Nat.mul_assoc] at h1
      refine .cons hg.1 (fun _ => ?_) h1
      unfold place; rw [if_neg (compound_notBool a)]; unfold align8; omega


/-! ## The tag -/

/-- The tag is found; `str` is the text of the whole path. -/
structure Tagged (byname : Name → Option TagFound) (str : Name) (index : Int) (tag : TagFound) (next : Option Name) : Prop where
  ex : ∃ n' name, splitTagname str = (n', next) ∧ getIndex n' = (name, index) ∧ byname name = some tag
  idx : ¬ (index < 0 ∧ index ≠ ERR_NOTFOUND)

theorem tagged_ok {byname : Name → Option TagFound} {g : Seg} {gs : List Seg} {b : Option Nat} {tag : TagFound} (hg : PlainName g.name)
    (hi : g.index.getD 0 < 2147483648) (ht : byname g.name = some tag) : Tagged byname (segText g ++ pathText gs b) (idxOf g.index) tag (restText gs b) := by
  refine ⟨⟨segText g, g.name, split_seg hg gs b, getIndex_seg hg ?_, ht⟩, ?_⟩
  · intro i hgi; rw [hgi] at hi; exact hi
  · cases g.index with
    | none => exact fun h => h.2 rfl
    | some i => unfold idxOf; intro h; dsimp only at h; omega

def withIdx (tag : TagFound) : Handle := { noHandle with index := tag.idx }

theorem Tagged.fail {s : Server} {fd : Int} {byname : Name → Option TagFound} {str next : Name} {index : Int} {tag : TagFound} {c c1 : TypeCache} {h : Handle} {count r : Int}
    (T : Tagged byname str index tag (some next)) (hd : (next.head?.map isDigit).getD false = false) (hc : isCustom tag.type = true)
    (ho : ¬ (tag.count > 1 ∧ index = ERR_NOTFOUND)) (hp : parseNextMember s fd (str.length + 1) c tag.type (withIdx tag) next count = .ok (c1, h, r)) (hr : r ≠ 0) :
    tagHandle s fd byname c str count = .ok (c1, noHandle, r) := by
  obtain ⟨⟨n', nm, h1, h2, h3⟩, h4⟩ := T
  unfold tagHandle tagHandleAux
  rw [h1]
  dsimp only
  rw [h2]
  dsimp only
  rw [if_neg h4, h3]
  dsimp only
  rw [if_neg (by rw [hd]; simp), if_neg (by rw [hc]; simp), if_neg ho]
  unfold withIdx at hp
  rw [hp]
  simp only [C.ok_bind]
  rw [if_pos hr]
  simp only [C.ok_bind]
  rw [if_pos hr]

theorem Tagged.plain {s : Server} {fd : Int} {byname : Name → Option TagFound} {str next : Name} {index : Int} {tag : TagFound} {c c1 : TypeCache} {h : Handle} {count : Int}
    (T : Tagged byname str index tag (some next)) (hd : (next.head?.map isDigit).getD false = false) (hc : isCustom tag.type = true)
    (ho : ¬ (tag.count > 1 ∧ index = ERR_NOTFOUND)) (hp : parseNextMember s fd (str.length + 1) c tag.type (withIdx tag) next count = .ok (c1, h, 0)) (hi : index = ERR_NOTFOUND) :
    tagHandle s fd byname c str count = .ok (c1, h, 0) := by
  obtain ⟨⟨n', nm, h1, h2, h3⟩, h4⟩ := T
  unfold tagHandle tagHandleAux
  rw [h1]
  dsimp only
  rw [h2]
  dsimp only
  rw [if_neg h4, h3]
  dsimp only
  rw [if_neg (by rw [hd]; simp), if_neg (by rw [hc]; simp), if_neg ho]
  unfold withIdx at hp
  rw [hp]
  simp only [C.ok_bind]
  rw [if_neg (by simp), if_neg (by rw [hi]; simp)]
  rfl

theorem Tagged.index {s : Server} {fd : Int} {byname : Name → Option TagFound} {str next : Name} {index : Int} {tag : TagFound} {c c1 c2 : TypeCache} {h : Handle} {count size y : Int}
    (T : Tagged byname str index tag (some next)) (hd : (next.head?.map isDigit).getD false = false) (hc : isCustom tag.type = true)
    (ho : ¬ (tag.count > 1 ∧ index = ERR_NOTFOUND)) (hp : parseNextMember s fd (str.length + 1) c tag.type (withIdx tag) next count = .ok (c1, h, 0)) (hi : index ≠ ERR_NOTFOUND)
    (hs : ctypeSize s fd c1 tag.type = .ok (c2, size)) (hy : mulI32 size index = .ok y) :
    tagHandle s fd byname c str count = .ok (c2, { h with byte := u32 (h.byte + y) }, 0) := by
  obtain ⟨⟨n', nm, h1, h2, h3⟩, h4⟩ := T
  unfold tagHandle tagHandleAux
  rw [h1]
  dsimp only
  rw [h2]
  dsimp only
  rw [if_neg h4, h3]
  dsimp only
  rw [if_neg (by rw [hd]; simp), if_neg (by rw [hc]; simp), if_neg ho]
  unfold withIdx at hp
  rw [hp]
  simp only [C.ok_bind]
  rw [if_neg (by simp), if_pos hi, hs]
  simp only [C.ok_bind]
  rw [hy]
  rfl

theorem Tagged.bit {s : Server} {fd : Int} {byname : Name → Option TagFound} {str next : Name} {index : Int} {tag : TagFound} {c c1 : TypeCache} {h : Handle} {count r : Int}
    (T : Tagged byname str index tag (some next)) (hd : (next.head?.map isDigit).getD false = true) (ho : ¬ (tag.count > 1 ∧ index < 0))
    (hp : parseBitIndex s fd c tag.type (withIdx tag) next index count = .ok (c1, h, r)) :
    tagHandle s fd byname c str count = .ok (c1, if r ≠ 0 then noHandle else h, r) := by
  obtain ⟨⟨n', nm, h1, h2, h3⟩, h4⟩ := T
  unfold tagHandle tagHandleAux
  rw [h1]
  dsimp only
  rw [h2]
  dsimp only
  rw [if_neg h4, h3]
  dsimp only
  rw [if_pos hd, if_neg ho]
  unfold withIdx at hp
  rw [hp]
  rfl

theorem pathText_length (gs : List Seg) (b : Option Nat) : gs.length ≤ (pathText gs b).length := by
  induction gs with
  | nil => simp
  | cons g gs ih =>
    unfold pathText
    simp only [List.length_cons, List.cons_append, List.length_append]
    omega

/-- A path with members, from the tag on. -/
theorem handle_ok {s : Server} (hr : Reachable s) {fd : Int} {byname : Name → Option TagFound} {c : TypeCache} {g : Seg} {gs : List Seg} {b : Option Nat} {tag : TagFound}
    {e ty n off cnt : Nat} (hf : Fits 248 s tag.type) (hfc : Faithful s c) (ht : byname g.name = some tag) (hpn : ∀ x ∈ g :: gs, PlainName x.name)
    (hp : Place s.cdts tag.type gs b ty n off) (hcl : Clear s.cdts false tag.type gs b) (he : ElemBits s.cdts tag.type e) (hone : g.index = none → tag.count ≤ 1)
    (hcnt : cnt < 1073741824) (hsm : e * (g.index.getD 0 + 1) ≤ 2147483600) :
    ∃ c' h r, tagHandle s fd byname c (segText g ++ pathText gs b) cnt = .ok (c', h, r) ∧ Faithful s c' ∧
      (r = 0 ∧ (wanted (lastIdx gs b) cnt n ≤ n ∧ Room s.cdts (if cnt = 0 then 1 else cnt) tag.type gs) ∧
          Made s.cdts (withIdx tag) h ty (wanted (lastIdx gs b) cnt n) (e * g.index.getD 0 + off) ∨
        r = ERR_2BIG ∧ h = noHandle ∧ ¬ (wanted (lastIdx gs b) cnt n ≤ n ∧ Room s.cdts (if cnt = 0 then 1 else cnt) tag.type gs)) := by
  obtain ⟨d, q, K⟩ := hf.known hr.wf
  have h6 := he.det K.elem
  have hq0 := K.pos
  have hiq : g.index.getD 0 + 1 ≤ 2147483600 := mul_small (by omega) hsm
  rw [Nat.mul_add] at hsm
  have T := tagged_ok (gs := gs) (b := b) (hpn g (by simp)) (by omega) ht
  obtain ⟨g', gs', rfl⟩ : ∃ g' gs', gs = g' :: gs' := by
    cases gs with
    | nil => exact absurd rfl hp.ne
    | cons g' gs' => exact ⟨g', gs', rfl⟩
  rw [restText_cons] at T
  have hlen := pathText_length (g' :: gs') b
  have hd' := head_seg (hpn g' (by simp)) gs' b
  have ho : ¬ (tag.count > 1 ∧ idxOf g.index = ERR_NOTFOUND) := by
    rintro ⟨h1, h2⟩
    cases hgi : g.index with
    | none => have := hone hgi; omega
    | some i => rw [hgi] at h2; unfold idxOf ERR_NOTFOUND at h2; dsimp only at h2; omega
  have hcu := (compound_index K.comp).1
  obtain ⟨c1, h1, r, k1, k2, k3⟩ := parse_ok hr hcnt hp (B := 0) (h := withIdx tag) (fd := fd) (fuel := (segText g ++ pathText (g' :: gs') b).length + 1) hcl K rfl
    (by omega) hfc ⟨Nat.zero_lt_succ 7, fun h => absurd rfl h⟩ (.inl rfl) (by rw [List.length_append]; omega) (fun x hx => hpn x (List.mem_cons_of_mem _ hx))
    (restText_cons g' gs' b)
  obtain ⟨ex, -, -, w3⟩ := hp.within hr K
  rcases k3 with ⟨rfl, a2, a3⟩ | ⟨a1, a2⟩
  · cases hgi : g.index with
    | none =>
      have hh := T.plain hd' hcu ho k1 (by rw [hgi]; rfl)
      refine ⟨c1, h1, 0, hh, k2, .inl ⟨rfl, a2, ?_⟩⟩
      rw [Option.getD_none, Nat.mul_zero]
      exact a3
    | some i =>
      rw [hgi, Option.getD_some] at hsm
      have hne : idxOf g.index ≠ ERR_NOTFOUND := by rw [hgi]; unfold idxOf ERR_NOTFOUND; dsimp only; omega
      have hio : idxOf g.index = (i : Int) := by rw [hgi]; rfl
      obtain ⟨c2, kk, z1, z2, z3, z4⟩ := member_size hr (fun _ => hf) he (compound_notBool K.comp) k2 (fd := fd)
      have q2 : 8 * (kk * i) = e * i := by rw [z3, Nat.mul_assoc]
      have hh := T.index hd' hcu ho k1 hne z1 (by rw [hio]; exact mulI32_nat (by omega))
      refine ⟨c2, _, 0, hh, z2, .inl ⟨rfl, a2, ?_⟩⟩
      have hat := a3.at'
      have hms := a3.shift (h := withIdx tag) (k := kk * i) rfl (by omega)
      rw [Option.getD_some]
      have e2 : 0 + off + 8 * (kk * i) = e * i + off := by omega
      rw [e2] at hms
      exact hms
  · exact ⟨c1, noHandle, r, T.fail hd' hcu ho k1 (by rw [a1]; decide), k2, .inr ⟨a1, rfl, a2⟩⟩


theorem Tagged.some_big {s : Server} {fd : Int} {byname : Name → Option TagFound} {str : Name} {index : Int} {tag : TagFound} {c : TypeCache} {count w x : Int}
    (T : Tagged byname str index tag none) (hi : index ≠ ERR_NOTFOUND) (hw : (if count = 0 then 1 else count) = w) (hx : addI32 index w = .ok x) (hb : u32 x > tag.count) :
    tagHandle s fd byname c str count = .ok (c, noHandle, ERR_2BIG) := by
  obtain ⟨⟨n', nm, h1, h2, h3⟩, h4⟩ := T
  unfold tagHandle tagHandleAux
  rw [h1]
  dsimp only
  rw [h2]
  dsimp only
  rw [if_neg h4, h3]
  dsimp only
  rw [if_pos hi, hw, hx]
  simp only [C.ok_bind]
  rw [if_pos hb]
  rfl

theorem Tagged.some_bool {s : Server} {fd : Int} {byname : Name → Option TagFound} {str : Name} {index : Int} {tag : TagFound} {c : TypeCache} {count w x : Int} {b sz : Nat}
    (T : Tagged byname str index tag none) (hi : index ≠ ERR_NOTFOUND) (hw : (if count = 0 then 1 else count) = w) (hx : addI32 index w = .ok x) (hb : ¬ u32 x > tag.count)
    (ht : tag.type = DAX_BOOL) (hbit : u32 (index.tmod 8) % 256 = b) (hs : bitSize b w = .ok sz) :
    tagHandle s fd byname c str count = .ok (c, { index := tag.idx, byte := u32 (index.tdiv 8), bit := b, count := u32 w, size := sz, type := tag.type }, 0) := by
  obtain ⟨⟨n', nm, h1, h2, h3⟩, h4⟩ := T
  unfold tagHandle tagHandleAux
  rw [h1]
  dsimp only
  rw [h2]
  dsimp only
  rw [if_neg h4, h3]
  dsimp only
  rw [if_pos hi, hw, hx]
  simp only [C.ok_bind]
  rw [if_neg hb, if_pos ht, hbit, hs]
  rfl

theorem Tagged.some_other {s : Server} {fd : Int} {byname : Name → Option TagFound} {str : Name} {index : Int} {tag : TagFound} {c c1 : TypeCache} {count w x size y z : Int}
    (T : Tagged byname str index tag none) (hi : index ≠ ERR_NOTFOUND) (hw : (if count = 0 then 1 else count) = w) (hx : addI32 index w = .ok x) (hb : ¬ u32 x > tag.count)
    (ht : tag.type ≠ DAX_BOOL) (hs : ctypeSize s fd c tag.type = .ok (c1, size)) (hy : mulI32 size w = .ok y) (hz : mulI32 size index = .ok z) :
    tagHandle s fd byname c str count = .ok (c1, { index := tag.idx, byte := u32 z, bit := 0, count := u32 w, size := u32 y, type := tag.type }, 0) := by
  obtain ⟨⟨n', nm, h1, h2, h3⟩, h4⟩ := T
  unfold tagHandle tagHandleAux
  rw [h1]
  dsimp only
  rw [h2]
  dsimp only
  rw [if_neg h4, h3]
  dsimp only
  rw [if_pos hi, hw, hx]
  simp only [C.ok_bind]
  rw [if_neg hb, if_neg ht, hs]
  simp only [C.ok_bind]
  rw [hy]
  simp only [C.ok_bind]
  rw [hz]
  rfl

theorem Tagged.none_big {s : Server} {fd : Int} {byname : Name → Option TagFound} {str : Name} {index : Int} {tag : TagFound} {c : TypeCache} {count : Int}
    (T : Tagged byname str index tag none) (hi : ¬ index ≠ ERR_NOTFOUND) (hb : u32 count > tag.count) :
    tagHandle s fd byname c str count = .ok (c, noHandle, ERR_2BIG) := by
  obtain ⟨⟨n', nm, h1, h2, h3⟩, h4⟩ := T
  unfold tagHandle tagHandleAux
  rw [h1]
  dsimp only
  rw [h2]
  dsimp only
  rw [if_neg h4, h3]
  dsimp only
  rw [if_neg hi, if_pos hb]
  rfl

theorem Tagged.none_bool {s : Server} {fd : Int} {byname : Name → Option TagFound} {str : Name} {index : Int} {tag : TagFound} {c : TypeCache} {count w : Int} {sz : Nat}
    (T : Tagged byname str index tag none) (hi : ¬ index ≠ ERR_NOTFOUND) (hb : ¬ u32 count > tag.count) (hw : (if count = 0 then i32 tag.count else count) = w)
    (ht : tag.type = DAX_BOOL) (hs : bitSize 0 w = .ok sz) :
    tagHandle s fd byname c str count = .ok (c, { index := tag.idx, byte := 0, bit := 0, count := u32 w, size := sz, type := tag.type }, 0) := by
  obtain ⟨⟨n', nm, h1, h2, h3⟩, h4⟩ := T
  unfold tagHandle tagHandleAux
  rw [h1]
  dsimp only
  rw [h2]
  dsimp only
  rw [if_neg h4, h3]
  dsimp only
  rw [if_neg hi, if_neg hb, hw, if_pos ht, hs]
  rfl

theorem Tagged.none_other {s : Server} {fd : Int} {byname : Name → Option TagFound} {str : Name} {index : Int} {tag : TagFound} {c c1 : TypeCache} {count w size y : Int}
    (T : Tagged byname str index tag none) (hi : ¬ index ≠ ERR_NOTFOUND) (hb : ¬ u32 count > tag.count) (hw : (if count = 0 then i32 tag.count else count) = w)
    (ht : tag.type ≠ DAX_BOOL) (hs : ctypeSize s fd c tag.type = .ok (c1, size)) (hy : mulI32 size w = .ok y) :
    tagHandle s fd byname c str count = .ok (c1, { index := tag.idx, byte := 0, bit := 0, count := u32 w, size := u32 y, type := tag.type }, 0) := by
  obtain ⟨⟨n', nm, h1, h2, h3⟩, h4⟩ := T
  unfold tagHandle tagHandleAux
  rw [h1]
  dsimp only
  rw [h2]
  dsimp only
  rw [if_neg h4, h3]
  dsimp only
  rw [if_neg hi, if_neg hb, hw, if_neg ht, hs]
  simp only [C.ok_bind]
  rw [hy]
  rfl

/-- The tag itself, or elements of it. -/
theorem tag_ok {s : Server} (hr : Reachable s) {fd : Int} {byname : Name → Option TagFound} {c : TypeCache} {g : Seg} {tag : TagFound} {e cnt : Nat} {cap : Nat}
    (hf : Compound tag.type → Fits cap s tag.type) (hfc : Faithful s c) (ht : byname g.name = some tag) (hpn : PlainName g.name)
    (he : ElemBits s.cdts tag.type e) (h0 : 0 < tag.count) (hcnt : cnt < 1073741824) (hi : g.index.getD 0 < 1073741824) (hsm : e * tag.count ≤ 2147483600) :
    ∃ c' h r, tagHandle s fd byname c (segText g) cnt = .ok (c', h, r) ∧ Faithful s c' ∧
      (r = 0 ∧ h.bit < 8 ∧ g.index.getD 0 + wanted g.index.isSome cnt tag.count ≤ tag.count ∧
          Made s.cdts (withIdx tag) h tag.type (wanted g.index.isSome cnt tag.count) (e * g.index.getD 0) ∨
        r = ERR_2BIG ∧ h = noHandle ∧ ¬ g.index.getD 0 + wanted g.index.isSome cnt tag.count ≤ tag.count) := by
  have T := tagged_ok (gs := []) (b := none) hpn (by omega) ht
  have et : segText g ++ pathText [] none = segText g := List.append_nil _
  rw [et] at T
  have T : Tagged byname (segText g) (idxOf g.index) tag none := T
  have he0 : 0 < e := by
    by_cases hb : tag.type = DAX_BOOL
    · rw [he.bool hb]; omega
    · obtain ⟨-, k, -, -, g3, g4⟩ := member_size hr hf he hb hfc (fd := fd)
      omega
  have hn := mul_small he0 hsm
  cases hgi : g.index with
  | some i =>
    rw [hgi, Option.getD_some] at hi
    rw [hgi] at T
    simp only [Option.getD_some, Option.isSome_some]
    have hne : idxOf (some i) ≠ ERR_NOTFOUND := by unfold idxOf ERR_NOTFOUND; dsimp only; omega
    have ew : (if (cnt : Int) = 0 then (1 : Int) else cnt) = ((wanted true cnt tag.count : Nat) : Int) := by
      unfold wanted
      by_cases hz : cnt = 0
      · rw [if_pos (by omega), if_pos hz]; rfl
      · rw [if_neg (by omega), if_neg hz]
    have hw : 0 < wanted true cnt tag.count ∧ wanted true cnt tag.count < 1073741824 := by
      unfold wanted; split
      · simp
      · omega
    generalize wanted true cnt tag.count = w at hw ew ⊢
    have hx : addI32 (idxOf (some i)) (w : Int) = .ok ((i + w : Nat) : Int) := addI32_nat (by omega)
    have hu : u32 ((i + w : Nat) : Int) = i + w := u32_nat (by omega)
    by_cases hgt : i + w > tag.count
    · exact ⟨c, noHandle, _, T.some_big hne ew hx (by omega), hfc, .inr ⟨rfl, rfl, by omega⟩⟩
    · have hei : e * (i + w) ≤ e * tag.count := Nat.mul_le_mul_left _ (by omega)
      rw [Nat.mul_add] at hei
      by_cases hbool : tag.type = DAX_BOOL
      · have he1 := he.bool hbool; subst he1
        have t1 : (idxOf (some i)).tmod 8 = ((i % 8 : Nat) : Int) := by
          unfold idxOf; dsimp only; rw [Int.tmod_eq_emod_of_nonneg (by omega)]; omega
        have t2 : (idxOf (some i)).tdiv 8 = ((i / 8 : Nat) : Int) := by
          unfold idxOf; dsimp only; rw [Int.tdiv_eq_ediv_of_nonneg (by omega)]; omega
        have hbit : u32 ((idxOf (some i)).tmod 8) % 256 = i % 8 := by rw [t1, u32_nat (by omega)]; omega
        have hh := T.some_bool (s := s) (fd := fd) (c := c) hne ew hx (by omega) hbool hbit (bitSize_nat hw.1 (by omega))
        rw [t2, u32_nat (by omega)] at hh
        refine ⟨c, _, _, hh, hfc, .inl ⟨rfl, Nat.mod_lt i (Nat.zero_lt_succ 7), by omega, rfl, rfl, ?_, ?_, u32_nat (by omega), fun _ => rfl, fun h => absurd hbool h⟩⟩
        · dsimp only; omega
        · dsimp only; omega
      · obtain ⟨c', k, g1, g2, g3, g4⟩ := member_size hr hf he hbool hfc (fd := fd)
        have q2 : 8 * (k * i) = e * i := by rw [g3, Nat.mul_assoc]
        have q3 : 8 * (k * w) = e * w := by rw [g3, Nat.mul_assoc]
        have hh := T.some_other hne ew hx (by omega) hbool g1 (mulI32_nat (by omega)) (mulI32_nat (b := i) (by omega))
        rw [u32_nat (by omega : k * i < _), u32_nat (by omega : k * w < _)] at hh
        refine ⟨c', _, _, hh, g2, .inl ⟨rfl, Nat.zero_lt_succ 7, by omega, rfl, rfl, ?_, Nat.zero_lt_succ 15, u32_nat (by omega), fun h => absurd h hbool, fun _ => ⟨rfl, fun e' he' => ?_⟩⟩⟩
        · dsimp only; omega
        · rw [he'.det he]; exact q3
  | none =>
    rw [hgi] at T
    simp only [Option.getD_none, Option.isSome_none, Nat.mul_zero]
    have hne : ¬ idxOf none ≠ ERR_NOTFOUND := by unfold idxOf; simp
    have hu : u32 (cnt : Int) = cnt := u32_nat (by omega)
    by_cases hgt : cnt > tag.count
    · refine ⟨c, noHandle, _, T.none_big hne (by omega), hfc, .inr ⟨rfl, rfl, ?_⟩⟩
      unfold wanted; rw [if_neg (by omega)]; omega
    · have ew : (if (cnt : Int) = 0 then i32 tag.count else cnt) = ((wanted false cnt tag.count : Nat) : Int) := by
        unfold wanted
        by_cases hz : cnt = 0
        · rw [if_pos (by omega), if_pos hz]; exact i32_of_range ⟨by omega, by omega⟩
        · rw [if_neg (by omega), if_neg hz]
      have hw : 0 < wanted false cnt tag.count ∧ wanted false cnt tag.count ≤ tag.count := by
        unfold wanted; split
        · simp; omega
        · omega
      generalize wanted false cnt tag.count = w at hw ew ⊢
      have hei : e * w ≤ e * tag.count := Nat.mul_le_mul_left _ hw.2
      by_cases hbool : tag.type = DAX_BOOL
      · have hbs : bitSize 0 (w : Int) = .ok _ := bitSize_nat hw.1 (by omega)
        have hh := T.none_bool (s := s) (fd := fd) (c := c) hne (by omega) ew hbool hbs
        exact ⟨c, _, _, hh, hfc, .inl ⟨rfl, Nat.zero_lt_succ 7, by omega, rfl, rfl, rfl, Nat.zero_lt_succ 15, u32_nat (by omega), fun _ => rfl, fun h => absurd hbool h⟩⟩
      · obtain ⟨c', k, g1, g2, g3, g4⟩ := member_size hr hf he hbool hfc (fd := fd)
        have q3 : 8 * (k * w) = e * w := by rw [g3, Nat.mul_assoc]
        have hh := T.none_other hne (by omega) ew hbool g1 (mulI32_nat (by omega))
        rw [u32_nat (by omega : k * w < _)] at hh
        exact ⟨c', _, _, hh, g2, .inl ⟨rfl, Nat.zero_lt_succ 7, by omega, rfl, rfl, rfl, Nat.zero_lt_succ 15, u32_nat (by omega), fun h => absurd h hbool, fun _ => ⟨rfl, fun e' he' => by
          rw [he'.det he]; exact q3⟩⟩⟩

/-- Bits of an integer tag. -/
theorem tag_bit_ok {s : Server} {fd : Int} {byname : Name → Option TagFound} {c : TypeCache} {g : Seg} {tag : TagFound} {w b cnt : Nat} {sg : Bool}
    (hfc : Faithful s c) (ht : byname g.name = some tag) (hpn : PlainName g.name) (hit : (tag.type, w, sg) ∈ intTypes) (hb : b < 8 * w)
    (hone : g.index = none → tag.count ≤ 1) (hcnt : cnt < 1073741824) (hsm : 8 * w * g.index.getD 0 ≤ 2147483600) :
    ∃ c' h r, tagHandle s fd byname c (segText g ++ pathText [] (some b)) cnt = .ok (c', h, r) ∧ Faithful s c' ∧
      (r = 0 ∧ wanted true cnt (8 * w - b) ≤ 8 * w - b ∧ Made s.cdts (withIdx tag) h DAX_BOOL (wanted true cnt (8 * w - b)) (8 * w * g.index.getD 0 + b) ∨
        r = ERR_2BIG ∧ h = noHandle ∧ ¬ wanted true cnt (8 * w - b) ≤ 8 * w - b) := by
  obtain ⟨g1, g2, g3, g4⟩ := int_elem hit
  have hi := mul_small (by omega) hsm
  have T := tagged_ok (gs := []) (b := some b) hpn (by omega) ht
  have T : Tagged byname (segText g ++ pathText [] (some b)) (idxOf g.index) tag (some (decNat b)) := T
  have hone' : ¬ (tag.count > 1 ∧ idxOf g.index < 0) := by
    rintro ⟨h1, h2⟩
    cases hgi : g.index with
    | none => have := hone hgi; omega
    | some i => rw [hgi] at h2; unfold idxOf at h2; dsimp only at h2; omega
  have hz : 8 * (withIdx tag).byte = 0 := rfl
  obtain ⟨c1, h1, r, k1, k2, k3⟩ := bit_ok (h := withIdx tag) (index := g.index) hfc hit hb rfl hcnt (by omega) (fd := fd)
  have hh := T.bit (head_bit b) hone' k1
  refine ⟨c1, _, r, hh, k2, ?_⟩
  rcases k3 with ⟨rfl, a2, a3⟩ | ⟨a1, a2⟩
  · rw [if_neg (by simp)]
    have e1 : 8 * (withIdx tag).byte + 8 * w * g.index.getD 0 + b = 8 * w * g.index.getD 0 + b := by rw [hz, Nat.zero_add]
    rw [e1] at a3
    exact .inl ⟨rfl, a2, a3⟩
  · rw [if_pos (by rw [a1]; decide)]
    exact .inr ⟨a1, rfl, a2⟩

/-- Where the bytes of a handle end. -/
theorem Made.bytes {tbl : List Cdt} {h h' : Handle} {ty want pos e N : Nat} (m : Made tbl h h' ty want pos) (hw : 0 < want) (he : ElemBits tbl ty e)
    (hN : pos + e * want ≤ 8 * N) : h'.byte + h'.size ≤ N := by
  have h1 := m.at'
  by_cases hb : ty = DAX_BOOL
  · have h2 := m.bool hb
    have he1 := he.bool hb; subst he1
    omega
  · obtain ⟨h2, h3⟩ := m.other hb
    have h3 := h3 e he
    omega

theorem Made.points {tbl : List Cdt} {tag : TagFound} {h' : Handle} {ty want pos : Nat} (m : Made tbl (withIdx tag) h' ty want pos) : Points tbl h' tag.idx ty want pos :=
  ⟨m.index, m.type, m.at', m.count, m.bool, m.other⟩

theorem places_mono {p q q' : Nat} {ps : List Piece} {ss : List Nat} (h : Places p ps ss q) (hq : q ≤ q') : Places p ps ss q' := by
  induction h with
  | nil h => exact .nil (Nat.le_trans h hq)
  | cons h1 h2 _ ih => exact .cons h1 h2 (ih hq)

theorem wanted_pos {one : Bool} {cnt n : Nat} (h : 0 < n) : 0 < wanted one cnt n := by
  unfold wanted; split
  · split <;> omega
  · omega

end Dax.LibPath
