import Verif.Model.LibCdt
import Verif.Lemmas.Text
import Verif.Props.Types
/-!
# The type cache of the client library
-/
set_option autoImplicit false
namespace Dax

/-! ## Tokens of a definition text -/

theorem tokens_colon (n : Name) (hn : n ≠ []) (hc : COLON ∉ n) : ∀ (fs : List Name),
    (∀ f ∈ fs, f ≠ [] ∧ COLON ∉ f) → tokens COLON (n ++ (fs.map (COLON :: ·)).flatten) = n :: fs := by
  have hne : ∀ x : Name, x ≠ [] → (!x.isEmpty) = true := by intro x hx; cases x <;> simp at hx ⊢
  intro fs
  induction fs generalizing n with
  | nil =>
    intro _
    simp only [List.map_nil, List.flatten_nil, List.append_nil, tokens, splitOn_none _ _ hc]
    rw [List.filter_cons, if_pos (hne n hn)]; rfl
  | cons f fs ih =>
    intro h
    have h1 := h f (by simp)
    have h2 := ih f h1.1 h1.2 (fun g hg => h g (by simp [hg]))
    rw [List.map_cons, List.flatten_cons]
    unfold tokens at h2 ⊢
    rw [List.cons_append, splitOn_head _ _ _ hc, List.filter_cons, if_pos (hne n hn), h2]

theorem tokens_comma (a b c : Name) (ha : a ≠ [] ∧ COMMA ∉ a) (hb : b ≠ [] ∧ COMMA ∉ b) (hc : c ≠ [] ∧ COMMA ∉ c) :
    tokens COMMA (a ++ COMMA :: b ++ COMMA :: c) = [a, b, c] := by
  have hne : ∀ x : Name, x ≠ [] → (!x.isEmpty) = true := by intro x hx; cases x <;> simp at hx ⊢
  unfold tokens
  rw [List.append_assoc, List.cons_append, splitOn_head _ _ _ ha.2, splitOn_head _ _ _ hb.2, splitOn_none _ _ hc.2]
  simp only [List.filter_cons, hne a ha.1, hne b hb.1, hne c hc.1, if_true, List.filter_nil]

theorem validate_nul {n : Name} (h : validateName n = 0) : (0 : Byte) ∉ n ∧ n.length ≤ 32 := by
  have key : ∀ b : Byte, isAlpha b = true ∨ b = underscore ∨ isDigit b = true → b ≠ 0 := by
    rintro b hb rfl; revert hb; decide
  unfold validateName at h
  split at h
  · exact absurd h (by decide)
  rename_i hl
  have hl' : n.length ≤ 32 := by have : TAGNAME_SIZE = 32 := rfl; omega
  refine ⟨?_, hl'⟩
  split at h
  · exact absurd h (by decide)
  rename_i c cs
  split at h
  · exact absurd h (by decide)
  rename_i h1
  split at h
  · rename_i h2
    intro hm
    simp only [List.mem_cons] at hm
    rcases hm with hm | hm
    · subst hm; exact h1 (by decide)
    · have := List.all_eq_true.mp h2 0 hm
      exact absurd this (by decide)
  · exact absurd h (by decide)

/-- A type name as it appears in the table or among the base types. -/
theorem cdtGetName_plain {tbl : List Cdt} (hw : CdtWF tbl) {t : Nat} {n : Name} (h : cdtGetName tbl t = some n) :
    n ≠ [] ∧ COLON ∉ n ∧ COMMA ∉ n ∧ (0 : Byte) ∉ n ∧ n.length ≤ 32 := by
  unfold cdtGetName at h
  split at h
  · cases hx : tbl[cdtToIndex t]? with
    | none => rw [hx] at h; simp at h
    | some c =>
      rw [hx] at h
      simp only [Option.map_some, Option.some.injEq] at h
      subst h
      have hv := hw.valid c (List.mem_of_getElem? hx)
      have h1 := validate_plain hv
      have h2 := validate_nul hv
      exact ⟨h1.1, h1.2.1, h1.2.2, h2.1, h2.2⟩
  · simp only [Option.map_eq_some_iff] at h
    obtain ⟨p, hp, rfl⟩ := h
    have hm := List.mem_of_find?_eq_some hp
    have : ∀ q ∈ baseNames, q.1 ≠ [] ∧ COLON ∉ q.1 ∧ COMMA ∉ q.1 ∧ (0 : Byte) ∉ q.1 ∧ q.1.length ≤ 32 := by decide
    exact this p hm

theorem decInt_plain (n : Nat) : decInt (n : Int) ≠ [] ∧ COLON ∉ decInt (n : Int) ∧ COMMA ∉ decInt (n : Int) ∧
    (0 : Byte) ∉ decInt (n : Int) := by
  rw [decInt_nonneg]
  refine ⟨decNat_ne_nil n, ?_, ?_, ?_⟩ <;>
  · intro hm
    obtain ⟨k, hk, he⟩ := decNat_digits n _ hm
    have := digit_byte k hk
    rw [← he] at this
    simp at this

/-! ## The member as the client reads it -/

/-- The text of one member without the leading colon. -/
def fieldOf (m : Member) (tn : Name) : Name := m.name ++ COMMA :: tn ++ COMMA :: decInt (i32 m.count)

theorem membersText_list {tbl : List Cdt} {ms : List Member} : ∀ {x : Name}, membersText tbl ms = .ok x →
    ∃ fs : List Name, x = (fs.map (COLON :: ·)).flatten ∧ fs.length = ms.length ∧
      ∀ (k : Nat) (f : Name) (m : Member), fs[k]? = some f → ms[k]? = some m → ∃ tn, cdtGetName tbl m.type = some tn ∧ f = fieldOf m tn := by
  induction ms with
  | nil =>
    intro x h
    simp only [membersText, C.ok.injEq] at h
    subst h
    exact ⟨[], rfl, rfl, fun k f m h => by simp at h⟩
  | cons m ms ih =>
    intro x h
    simp only [membersText] at h
    obtain ⟨a, ha, h⟩ := C.bind_eq_ok.mp h
    obtain ⟨b, hb, h⟩ := C.bind_eq_ok.mp h
    simp only [C.ok.injEq] at h
    subst h
    obtain ⟨fs, rfl, h2, h3⟩ := ih hb
    unfold memberText at ha
    cases hn : cdtGetName tbl m.type with
    | none => rw [hn] at ha; simp at ha
    | some n =>
      rw [hn] at ha
      simp only [C.ok.injEq] at ha
      subst ha
      refine ⟨fieldOf m n :: fs, ?_, by simp [h2], ?_⟩
      · rw [List.map_cons, List.flatten_cons]; rfl
      · intro k f m' hf hm
        cases k with
        | zero => simp at hf hm; subst hf hm; exact ⟨n, hn, rfl⟩
        | succ k => simp at hf hm; exact h3 k f m' hf hm

/-! ## The cache as a function -/

/-- Entry `k` of the cache; unused entries and entries past the end are empty. -/
def entAt (c : TypeCache) (k : Nat) : CType := c.getD k ⟨none, []⟩

theorem entAt_lt {c : TypeCache} {k : Nat} (h : k < c.length) : c[k]? = some (entAt c k) := by
  unfold entAt
  rw [List.getD_eq_getElem?_getD, List.getElem?_eq_getElem h]; rfl

theorem entAt_grow (c : TypeCache) (i k : Nat) : entAt (growTypes c i) k = entAt c k := by
  unfold entAt growTypes
  rw [List.getD_eq_getElem?_getD, List.getD_eq_getElem?_getD]
  by_cases hk : k < c.length
  · rw [List.getElem?_append_left hk]
  · rw [List.getElem?_append_right (by omega), List.getElem?_eq_none (l := c) (by omega)]
    rw [List.getElem?_replicate]
    split <;> rfl

theorem growTypes_length (c : TypeCache) (i : Nat) : c.length ≤ (growTypes c i).length ∧ i < (growTypes c i).length := by
  unfold growTypes
  rw [List.length_append, List.length_replicate]
  omega

theorem entAt_modify (c : TypeCache) (i k : Nat) (f : CType → CType) (h : i < c.length) :
    entAt (c.modify i f) k = if k = i then f (entAt c k) else entAt c k := by
  unfold entAt
  rw [List.getD_eq_getElem?_getD, List.getD_eq_getElem?_getD, List.getElem?_modify]
  by_cases hk : i = k
  · subst hk
    rw [List.getElem?_eq_getElem h]; simp
  · rw [if_neg (fun e => hk e.symm)]
    simp [hk]

/-- What the cache entries below `lim` say agrees with the server's table, and every named entry
carries the server's name. -/
structure Faith (tbl : List Cdt) (lim : Nat) (c : TypeCache) : Prop where
  ent : ∀ k, k < lim → entAt c k = ⟨none, []⟩ ∨ ∃ d, tbl[k]? = some d ∧ entAt c k = ⟨some d.name, d.members⟩ ∧
    ∀ m ∈ d.members, isCustom m.type = true → (entAt c (cdtToIndex m.type)).name ≠ none
  named : ∀ k n, (entAt c k).name = some n → ∃ d, tbl[k]? = some d ∧ d.name = n

/-- How fetching type `i` changes the cache. -/
structure CExt (i : Nat) (c c' : TypeCache) : Prop where
  len : c.length ≤ c'.length
  above : ∀ k, i < k → entAt c' k = entAt c k
  keep : ∀ k, (entAt c k).name ≠ none → entAt c' k = entAt c k

theorem findType_named {tbl : List Cdt} (hw : CdtWF tbl) {c : TypeCache}
    (hn : ∀ k n, (entAt c k).name = some n → ∃ d, tbl[k]? = some d ∧ d.name = n) {j : Nat} {d : Cdt}
    (hj : tbl[j]? = some d) :
    findType c d.name = if (entAt c j).name = none then none else some j := by
  have pw := List.pairwise_iff_getElem.mp hw.uniq
  have uq : ∀ k d', tbl[k]? = some d' → strcaseeq d.name d'.name = true → k = j := by
    intro k d' hk he
    obtain ⟨h1, g1⟩ := List.getElem?_eq_some_iff.mp hk
    obtain ⟨h2, g2⟩ := List.getElem?_eq_some_iff.mp hj
    apply Classical.byContradiction; intro hne
    rcases Nat.lt_or_gt_of_ne hne with h | h
    · have := pw k j h1 h2 h
      rw [g1, g2, he] at this; simp at this
    · have := pw j k h2 h1 h
      rw [g1, g2] at this
      have hs : strcaseeq d.name d'.name = strcaseeq d'.name d.name := by
        unfold strcaseeq; rw [Bool.eq_iff_iff, beq_iff_eq, beq_iff_eq]; exact ⟨Eq.symm, Eq.symm⟩
      rw [hs, this] at he; simp at he
  unfold findType
  split
  · rename_i h0
    rw [List.findIdx?_eq_none_iff]
    intro e he
    obtain ⟨k, hk⟩ := List.mem_iff_getElem?.mp he
    have hlt := (List.getElem?_eq_some_iff.mp hk).1
    have hk' := entAt_lt hlt
    rw [hk, Option.some.injEq] at hk'
    cases hen : e.name with
    | none => rfl
    | some n =>
      dsimp only
      obtain ⟨d', hd', rfl⟩ := hn k n (by rw [← hk', hen])
      apply Classical.byContradiction; intro hc
      have := uq k d' hd' (by simpa using hc)
      subst this
      rw [← hk', hen] at h0
      simp at h0
  · rename_i h0
    cases hen : (entAt c j).name with
    | none => exact absurd hen h0
    | some n =>
      obtain ⟨d', hd', rfl⟩ := hn j n hen
      rw [hj, Option.some.injEq] at hd'
      subst hd'
      have hlt : j < c.length := by
        apply Classical.byContradiction; intro hc
        unfold entAt at hen
        rw [List.getD_eq_getElem?_getD, List.getElem?_eq_none (by omega)] at hen
        simp at hen
      have hg := entAt_lt hlt
      rw [List.findIdx?_eq_some_iff_getElem]
      refine ⟨hlt, ?_, ?_⟩
      · rw [List.getElem?_eq_getElem hlt, Option.some.injEq] at hg
        rw [hg, hen]; simp [strcaseeq]
      · intro k hk
        have hkl : k < c.length := by omega
        have hg := entAt_lt hkl
        rw [List.getElem?_eq_getElem hkl, Option.some.injEq] at hg
        rw [hg]
        cases hen' : (entAt c k).name with
        | none => simp
        | some n' =>
          obtain ⟨d'', hd'', rfl⟩ := hn k _ hen'
          dsimp only
          intro hc
          have := uq k d'' hd'' (by simpa using hc)
          omega

theorem cdtGetType_self {tbl : List Cdt} (hw : CdtWF tbl) {j : Nat} {d : Cdt} (hj : tbl[j]? = some d) :
    cdtGetType tbl d.name = cdtToType j ∧ baseNames.find? (fun p => strcaseeq d.name p.1) = none := by
  have hb : baseNames.find? (fun p => strcaseeq d.name p.1) = none := by
    rw [List.find?_eq_none]
    intro p hp
    rw [hw.nobase d (List.mem_of_getElem? hj) p hp]; simp
  refine ⟨?_, hb⟩
  unfold cdtGetType
  rw [hb]
  dsimp only
  have hf : tbl.findIdx? (fun c' => strcaseeq d.name c'.name) = some j := by
    rw [List.findIdx?_eq_some_iff_getElem]
    obtain ⟨hlt, hg⟩ := List.getElem?_eq_some_iff.mp hj
    refine ⟨hlt, by rw [hg]; simp [strcaseeq], fun k hk => ?_⟩
    have := List.pairwise_iff_getElem.mp hw.uniq k j (by omega) hlt hk
    rw [hg] at this
    simp [this]
  rw [hf]

theorem base_find {t : Nat} (h : t ∈ baseTypes) : ∃ p, baseNames.find? (fun p => p.2 == t) = some p ∧
    p.2 = t ∧ baseNames.find? (fun q => strcaseeq p.1 q.1) = some p ∧ isCustom t = false := by
  have : ∀ t ∈ baseTypes, ∃ p ∈ baseNames, baseNames.find? (fun p => p.2 == t) = some p ∧
    p.2 = t ∧ baseNames.find? (fun q => strcaseeq p.1 q.1) = some p ∧ isCustom t = false := by decide +kernel
  obtain ⟨p, -, hp⟩ := this t h
  exact ⟨p, hp⟩

/-! ## Fetching a type -/

/-- The type `i` and the types inside it can be sent by the server and read by the client. -/
inductive FetchOK (tbl : List Cdt) : Nat → Prop
  | mk (i : Nat) (d : Cdt) (x : Name) : tbl[i]? = some d → membersText tbl d.members = .ok x →
      (d.name ++ x).length < 4084 → (∀ m ∈ d.members, 1 ≤ m.count ∧ m.count < 2147483648) →
      (∀ m ∈ d.members, isCustom m.type = true → FetchOK tbl (cdtToIndex m.type)) → FetchOK tbl i

theorem cdtTo_index {j : Nat} (hj : j < 1073741824) : isCustom (cdtToType j) = true ∧ cdtToIndex (cdtToType j) = j ∧
    cdtToType j < 4294967296 := by
  have h1 : Compound (cdtToType j) := by unfold Compound cdtToType DAX_CUSTOM; omega
  have h2 := compound_custom h1
  refine ⟨h2, ?_, h1.2⟩
  unfold cdtToIndex
  rw [if_pos h2]; unfold cdtToType; omega

/-- What the nested fetch does. -/
def GetOK (tbl : List Cdt) (j : Nat) (get : TypeCache → Name → C (TypeCache × Int)) : Prop :=
  ∀ d c, tbl[j]? = some d → Faith tbl (j + 1) c → entAt c j = ⟨none, []⟩ →
    ∃ c', get c d.name = .ok (c', 0) ∧ Faith tbl (j + 1) c' ∧ CExt j c c' ∧ entAt c' j = ⟨some d.name, d.members⟩

theorem faith_lift {tbl : List Cdt} {j lim : Nat} {c c' : TypeCache} (h : Faith tbl lim c) (h' : Faith tbl (j + 1) c')
    (he : CExt j c c') : Faith tbl lim c' := by
  refine ⟨fun k hk => ?_, h'.named⟩
  by_cases hkj : k ≤ j
  · exact h'.ent k (by omega)
  · rw [he.above k (by omega)]
    rcases h.ent k hk with h1 | ⟨d, h1, h2, h3⟩
    · exact .inl h1
    · refine .inr ⟨d, h1, h2, fun m hm hc => ?_⟩
      have := h3 m hm hc
      rw [he.keep _ this]; exact this

theorem stringToType_member {tbl : List Cdt} (hw : CdtWF tbl) {i : Nat} {d : Cdt} (hi : tbl[i]? = some d)
    {get : TypeCache → Name → C (TypeCache × Int)} {m : Member} (hm : m ∈ d.members)
    (hg : ∀ j, j < i → m.type = cdtToType j → GetOK tbl j get) {tn : Name} (ht : cdtGetName tbl m.type = some tn)
    {c : TypeCache} (hf : Faith tbl i c) :
    ∃ c', stringToType get c tn = .ok (c', m.type) ∧ Faith tbl i c' ∧ c.length ≤ c'.length ∧
      (∀ k, i ≤ k → entAt c' k = entAt c k) ∧ (∀ k, (entAt c k).name ≠ none → entAt c' k = entAt c k) ∧
      (isCustom m.type = true → (entAt c' (cdtToIndex m.type)).name ≠ none) := by
  rcases hw.acyc i d hi m hm with hb | ⟨j, hj, hmt⟩
  · obtain ⟨p, h1, h2, h3, h4⟩ := base_find hb
    unfold cdtGetName at ht
    rw [h4] at ht
    simp only [Bool.false_eq_true, if_false, h1, Option.map_some, Option.some.injEq] at ht
    subst ht
    refine ⟨c, ?_, hf, Nat.le_refl _, fun k _ => rfl, fun k _ => rfl, fun h => by rw [h4] at h; simp at h⟩
    unfold stringToType
    rw [h3]; dsimp only; rw [h2]
  · have hil := (List.getElem?_eq_some_iff.mp hi).1
    have hsm := hw.small
    obtain ⟨hc1, hc2, -⟩ := cdtTo_index (j := j) (by omega)
    unfold cdtGetName at ht
    rw [hmt, if_pos hc1, hc2] at ht
    cases hd : tbl[j]? with
    | none => rw [hd] at ht; simp at ht
    | some e =>
      rw [hd, Option.map_some, Option.some.injEq] at ht
      subst ht
      obtain ⟨-, hb⟩ := cdtGetType_self hw hd
      rw [hmt, hc2]
      unfold stringToType
      rw [hb]
      dsimp only
      rw [findType_named hw hf.named hd]
      rcases hf.ent j hj with h1 | ⟨e', h1, h2, h3⟩
      · have hn : (entAt c j).name = none := by rw [h1]
        rw [if_pos hn]
        dsimp only
        obtain ⟨c', g1, g2, g3, g4⟩ := hg j hj hmt e c hd ⟨fun k hk => hf.ent k (by omega), hf.named⟩ h1
        rw [g1]
        simp only [C.ok_bind, ne_eq, not_true_eq_false, if_false]
        have hl := faith_lift hf g2 g3
        rw [findType_named hw hl.named hd]
        have hn' : (entAt c' j).name ≠ none := by rw [g4]; simp
        rw [if_neg hn']
        exact ⟨c', rfl, hl, g3.len, fun k hk => g3.above k (by omega), g3.keep, fun _ => hn'⟩
      · have hn : (entAt c j).name ≠ none := by rw [h2]; simp
        rw [if_neg hn]
        exact ⟨c, rfl, hf, Nat.le_refl _, fun k _ => rfl, fun k _ => rfl, fun _ => hn⟩

theorem i32_nat31 {n : Nat} (h : n < 2147483648) : i32 (n : Int) = n := by
  unfold i32
  rw [if_pos (by omega)]; omega

theorem addMember_ok {tbl : List Cdt} (hw : CdtWF tbl) {i : Nat} {d : Cdt} (hi : tbl[i]? = some d)
    {get : TypeCache → Name → C (TypeCache × Int)} {m : Member} (hm : m ∈ d.members)
    (hg : ∀ j, j < i → m.type = cdtToType j → GetOK tbl j get) {tn : Name} (ht : cdtGetName tbl m.type = some tn)
    (h1 : 1 ≤ m.count) (h2 : m.count < 2147483648) {c : TypeCache} (hf : Faith tbl i c) (hl : i < c.length)
    {n : Name} (hn : n = d.name) {ds : List Member} (he : entAt c i = ⟨some n, ds⟩) :
    ∃ c', addMember get c i (fieldOf m tn) = .ok (c', 0) ∧ Faith tbl i c' ∧ c.length ≤ c'.length ∧
      (∀ k, i < k → entAt c' k = entAt c k) ∧ (∀ k, k ≠ i → (entAt c k).name ≠ none → entAt c' k = entAt c k) ∧
      entAt c' i = ⟨some n, ds ++ [m]⟩ ∧
      (isCustom m.type = true → (entAt c' (cdtToIndex m.type)).name ≠ none) := by
  have hv := hw.mvalid d (List.mem_of_getElem? hi) m hm
  have hp := validate_plain hv.1
  have ht' := cdtGetName_plain hw ht
  have hd := decInt_plain m.count
  obtain ⟨c1, g1, g2, g3, g4, g5, g6⟩ := stringToType_member hw hi hm hg ht hf
  have htok : tokens COMMA (fieldOf m tn) = [m.name, tn, decInt (m.count : Int)] := by
    unfold fieldOf
    rw [i32_nat31 h2]
    exact tokens_comma _ _ _ ⟨hp.1, hp.2.2⟩ ⟨ht'.1, ht'.2.2.1⟩ ⟨hd.1, hd.2.2.1⟩
  unfold addMember
  rw [htok]
  dsimp only
  have hat : atoi (decInt (m.count : Int)) = m.count := by rw [decInt_nonneg, atoi_decNat h2]
  simp only [hat]
  rw [if_pos (by omega), g1]
  simp only [C.ok_bind, Int.toNat_natCast]
  have hl1 : i < c1.length := by omega
  have hmod := fun k => entAt_modify c1 i k (fun e => { e with members := e.members ++ [⟨m.name, m.type, m.count⟩] }) hl1
  have hnm : ∀ k, (entAt (c1.modify i (fun e => { e with members := e.members ++ [⟨m.name, m.type, m.count⟩] })) k).name = (entAt c1 k).name := by
    intro k; rw [hmod k]; split <;> rfl
  refine ⟨_, rfl, ⟨fun k hk => ?_, fun k n' hn' => g2.named k n' (by rw [← hnm k]; exact hn')⟩, by rw [List.length_modify]; exact g3, fun k hk => ?_, fun k hk hn' => ?_, ?_, fun hc => ?_⟩
  · rw [hmod k, if_neg (by omega)]
    rcases g2.ent k hk with h | ⟨e, e1, e2, e3⟩
    · exact .inl h
    · exact .inr ⟨e, e1, e2, fun m' hm' hc => by rw [hnm]; exact e3 m' hm' hc⟩
  · rw [hmod k, if_neg (by omega)]; exact g4 k (by omega)
  · rw [hmod k, if_neg hk]; exact g5 k hn'
  · rw [hmod i, if_pos rfl, g4 i (Nat.le_refl _), he]
  · rw [hnm]; exact g6 hc

theorem addMembers_ok {tbl : List Cdt} (hw : CdtWF tbl) {i : Nat} {d : Cdt} (hi : tbl[i]? = some d)
    {get : TypeCache → Name → C (TypeCache × Int)}
    (hg : ∀ j, j < i → (∃ m ∈ d.members, m.type = cdtToType j) → GetOK tbl j get) :
    ∀ (ms : List Member) (fs : List Name), (∀ m ∈ ms, m ∈ d.members) → fs.length = ms.length →
    (∀ (k : Nat) (f : Name) (m : Member), fs[k]? = some f → ms[k]? = some m → ∃ tn, cdtGetName tbl m.type = some tn ∧ f = fieldOf m tn) →
    (∀ m ∈ ms, 1 ≤ m.count ∧ m.count < 2147483648) → ∀ (c : TypeCache) (ds : List Member),
    Faith tbl i c → i < c.length → entAt c i = ⟨some d.name, ds⟩ →
    ∃ c', addMembers get i fs c = .ok (c', 0) ∧ Faith tbl i c' ∧ c.length ≤ c'.length ∧
      (∀ k, i < k → entAt c' k = entAt c k) ∧ (∀ k, k ≠ i → (entAt c k).name ≠ none → entAt c' k = entAt c k) ∧
      entAt c' i = ⟨some d.name, ds ++ ms⟩ ∧
      (∀ m ∈ ms, isCustom m.type = true → (entAt c' (cdtToIndex m.type)).name ≠ none) := by
  intro ms
  induction ms with
  | nil =>
    intro fs _ hlen _ _ c ds hf hl he
    have : fs = [] := List.length_eq_zero_iff.mp hlen
    subst this
    exact ⟨c, rfl, hf, Nat.le_refl _, fun _ _ => rfl, fun _ _ _ => rfl, by rw [he, List.append_nil], fun m hm => by simp at hm⟩
  | cons m ms ih =>
    intro fs hsub hlen hfs hcnt c ds hf hl he
    cases fs with
    | nil => simp at hlen
    | cons f fs =>
      obtain ⟨tn, ht, rfl⟩ := hfs 0 f m rfl rfl
      have hm := hsub m (by simp)
      have hc := hcnt m (by simp)
      obtain ⟨c1, a1, a2, a3, a4, a5, a6, a7⟩ := addMember_ok hw hi hm (fun j hj hmt => hg j hj ⟨m, hm, hmt⟩) ht hc.1 hc.2 hf hl rfl he
      obtain ⟨c2, b1, b2, b3, b4, b5, b6, b7⟩ := ih fs (fun m' hm' => hsub m' (by simp [hm'])) (by simpa using hlen)
        (fun k f' m' h1 h2 => hfs (k + 1) f' m' (by simpa using h1) (by simpa using h2))
        (fun m' hm' => hcnt m' (by simp [hm'])) c1 (ds ++ [m]) a2 (by omega) a6
      refine ⟨c2, ?_, b2, by omega, fun k hk => by rw [b4 k hk, a4 k hk], fun k hk hn => ?_, by rw [b6]; simp, ?_⟩
      · simp only [addMembers]
        rw [a1]
        simp only [C.ok_bind, ne_eq, not_true_eq_false, if_false]
        exact b1
      · rw [b5 k hk (by rw [a5 k hk hn]; exact hn), a5 k hk hn]
      · intro m' hm' hcu
        simp only [List.mem_cons] at hm'
        rcases hm' with rfl | hm'
        · have := a7 hcu
          by_cases hki : cdtToIndex m'.type = i
          · rw [hki, b6]; simp
          · rw [b5 _ hki this]; exact this
        · exact b7 m' hm' hcu

theorem cstr_text {x : Name} (h : (0 : Byte) ∉ x) (rest : List Byte) : cstr (x ++ 0 :: rest) = x := by
  unfold cstr
  induction x with
  | nil => simp
  | cons b x ih =>
    simp only [List.mem_cons, not_or] at h
    rw [List.cons_append, List.takeWhile_cons, if_pos (by simp; exact fun e => h.1 e.symm), ih h.2]

theorem field_plain {tbl : List Cdt} (hw : CdtWF tbl) {d : Cdt} (hd : d ∈ tbl) {m : Member} (hm : m ∈ d.members)
    (h2 : m.count < 2147483648) {tn : Name} (ht : cdtGetName tbl m.type = some tn) :
    fieldOf m tn ≠ [] ∧ COLON ∉ fieldOf m tn ∧ (0 : Byte) ∉ fieldOf m tn := by
  have hv := hw.mvalid d hd m hm
  have hp := validate_plain hv.1
  have hz := (validate_nul hv.1).1
  have ht' := cdtGetName_plain hw ht
  have hdi := decInt_plain m.count
  unfold fieldOf
  rw [i32_nat31 h2]
  refine ⟨by simp, ?_, ?_⟩
  · simp only [List.mem_append, List.mem_cons, not_or]
    exact ⟨⟨hp.2.1, by decide, ht'.2.1⟩, by decide, hdi.2.1⟩
  · simp only [List.mem_append, List.mem_cons, not_or]
    exact ⟨⟨hz, by decide, ht'.2.2.2.1⟩, by decide, hdi.2.2.2⟩

/-- The server's text, cut into tokens by the client. -/
theorem text_tokens {tbl : List Cdt} (hw : CdtWF tbl) {i : Nat} {d : Cdt} (hi : tbl[i]? = some d) {x : Name}
    (hx : membersText tbl d.members = .ok x) (hc : ∀ m ∈ d.members, m.count < 2147483648) :
    ∃ fs : List Name, tokens COLON (d.name ++ x) = d.name :: fs ∧ fs.length = d.members.length ∧ (0 : Byte) ∉ d.name ++ x ∧
      ∀ (k : Nat) (f : Name) (m : Member), fs[k]? = some f → d.members[k]? = some m → ∃ tn, cdtGetName tbl m.type = some tn ∧ f = fieldOf m tn := by
  have hd := List.mem_of_getElem? hi
  obtain ⟨fs, rfl, h2, h3⟩ := membersText_list hx
  have hv := hw.valid d hd
  have hp := validate_plain hv
  have hall : ∀ f ∈ fs, f ≠ [] ∧ COLON ∉ f ∧ (0 : Byte) ∉ f := by
    intro f hf
    obtain ⟨k, hk⟩ := List.mem_iff_getElem?.mp hf
    have hlt := (List.getElem?_eq_some_iff.mp hk).1
    have hlt' : k < d.members.length := by omega
    obtain ⟨tn, h5, rfl⟩ := h3 k f _ hk (List.getElem?_eq_getElem hlt')
    have hm := List.getElem_mem hlt'
    exact field_plain hw hd hm (hc _ hm) h5
  refine ⟨fs, tokens_colon _ hp.1 hp.2.1 fs (fun f hf => ⟨(hall f hf).1, (hall f hf).2.1⟩), h2, ?_, h3⟩
  rw [List.mem_append, not_or]
  refine ⟨(validate_nul hv).1, ?_⟩
  intro hm
  rw [List.mem_flatten] at hm
  obtain ⟨l, hl, h0⟩ := hm
  obtain ⟨f, hf, rfl⟩ := List.mem_map.mp hl
  rw [List.mem_cons] at h0
  rcases h0 with h0 | h0
  · exact absurd h0 (by decide)
  · exact (hall f hf).2.2 h0

theorem addCdt_ok {tbl : List Cdt} (hw : CdtWF tbl) {i : Nat} {d : Cdt} (hi : tbl[i]? = some d) {x : Name}
    (hx : membersText tbl d.members = .ok x) (hc : ∀ m ∈ d.members, 1 ≤ m.count ∧ m.count < 2147483648)
    {get : TypeCache → Name → C (TypeCache × Int)}
    (hg : ∀ j, j < i → (∃ m ∈ d.members, m.type = cdtToType j) → GetOK tbl j get) {c : TypeCache}
    (hf : Faith tbl (i + 1) c) (he : entAt c i = ⟨none, []⟩) :
    ∃ c', addCdt get c (cdtToType i) (d.name ++ x) = .ok (c', 0) ∧ Faith tbl (i + 1) c' ∧ CExt i c c' ∧
      entAt c' i = ⟨some d.name, d.members⟩ := by
  obtain ⟨fs, h1, h2, -, h3⟩ := text_tokens hw hi hx (fun m hm => (hc m hm).2)
  have hil := (List.getElem?_eq_some_iff.mp hi).1
  have hsm := hw.small
  obtain ⟨hc1, hc2, -⟩ := cdtTo_index (j := i) (by omega)
  unfold addCdt
  rw [hc2, h1]
  dsimp only
  have hgl := growTypes_length c i
  have hn : d.name.length ≤ TAGNAME_SIZE := (validate_nul (hw.valid d (List.mem_of_getElem? hi))).2
  unfold insertType
  rw [if_pos hn]
  have hmod : ∀ k, entAt ((growTypes c i).modify i (fun e => { e with name := some d.name })) k =
      if k = i then { entAt c k with name := some d.name } else entAt c k := by
    intro k; rw [entAt_modify _ _ _ _ hgl.2, entAt_grow]
  have hmono : ∀ k, (entAt c k).name ≠ none → (entAt ((growTypes c i).modify i (fun e => { e with name := some d.name })) k).name ≠ none := by
    intro k hk; rw [hmod k]; split
    · simp
    · exact hk
  obtain ⟨c', g1, g2, g3, g4, g5, g6, g7⟩ := addMembers_ok hw hi hg d.members fs (fun _ h => h) h2 h3 hc
    ((growTypes c i).modify i (fun e => { e with name := some d.name })) []
    ⟨fun k hk => by
        rw [hmod k, if_neg (by omega)]
        rcases hf.ent k (by omega) with h | ⟨e, e1, e2, e3⟩
        · exact .inl h
        · exact .inr ⟨e, e1, e2, fun m hm hcu => hmono _ (e3 m hm hcu)⟩,
      fun k n hk => by
        rw [hmod k] at hk
        split at hk
        · rename_i hki; subst hki
          simp only [Option.some.injEq] at hk
          exact ⟨d, hi, hk⟩
        · exact hf.named k n hk⟩
    (by rw [List.length_modify]; exact hgl.2) (by rw [hmod i, if_pos rfl, he])
  rw [List.length_modify] at g3
  refine ⟨c', g1, ⟨fun k hk => ?_, g2.named⟩, ⟨by omega, fun k hk => ?_, fun k hk => ?_⟩, by rw [g6, List.nil_append]⟩
  · by_cases hki : k = i
    · subst hki
      exact .inr ⟨d, hi, by rw [g6, List.nil_append], g7⟩
    · exact g2.ent k (by omega)
  · rw [g4 k hk, hmod k, if_neg (by omega)]
  · have hki : k ≠ i := by rintro rfl; rw [he] at hk; simp at hk
    rw [g5 k hki (hmono k hk), hmod k, if_neg hki]

theorem ask_get {s : Server} {fd : Int} (hw : CdtWF s.cdts) {i : Nat} {d : Cdt} (hi : s.cdts[i]? = some d) {x : Name}
    (hx : membersText s.cdts d.members = .ok x) (hl : (d.name ++ x).length < 4084) {q : Req}
    (hq : q = .cdtGetType (cdtToType i) ∨ q = .cdtGetName d.name) :
    ask s fd q = .ok (.ok (toLE 4 (cdtToType i) ++ (d.name ++ x) ++ [0])) := by
  have hil := (List.getElem?_eq_some_iff.mp hi).1
  have hsm := hw.small
  obtain ⟨hc1, hc2, hc3⟩ := cdtTo_index (j := i) (by omega)
  have hh : handle s fd q = .ok (s, .resp (toLE 4 (cdtToType i) ++ (d.name ++ x) ++ [0])) := by
    have hs : serialize s.cdts (cdtToType i) = .ok (some (d.name ++ x)) := by
      unfold serialize
      rw [hc2, hi]; dsimp only; rw [hx]; rfl
    have := (hCdtGet_iff hc3 hc3).mpr ⟨rfl, hs, hl⟩
    rcases hq with rfl | rfl
    · exact this
    · show hCdtGet s (cdtGetType s.cdts d.name) = _
      rw [(cdtGetType_self hw hi).1]; exact this
  unfold ask
  rw [hh]; rfl

theorem fetch_ok {s : Server} {fd : Int} (hw : CdtWF s.cdts) {i : Nat} (hf : FetchOK s.cdts i) : ∀ (fuel : Nat), i < fuel →
    ∀ (d : Cdt) (c : TypeCache) (q : Req), s.cdts[i]? = some d → (q = .cdtGetType (cdtToType i) ∨ q = .cdtGetName d.name) →
    Faith s.cdts (i + 1) c → entAt c i = ⟨none, []⟩ →
    ∃ c', cdtGetF s fd fuel c q = .ok (c', 0) ∧ Faith s.cdts (i + 1) c' ∧ CExt i c c' ∧ entAt c' i = ⟨some d.name, d.members⟩ := by
  induction hf with
  | mk i d x hi hx hl hc hn ih =>
    intro fuel hfuel d' c q hd' hq hfa he
    rw [hi, Option.some.injEq] at hd'
    subst hd'
    cases fuel with
    | zero => omega
    | succ fuel =>
      have hil := (List.getElem?_eq_some_iff.mp hi).1
      have hsm := hw.small
      obtain ⟨hc1, hc2, hc3⟩ := cdtTo_index (j := i) (by omega)
      simp only [cdtGetF]
      rw [ask_get hw hi hx hl hq]
      simp only [C.ok_bind]
      obtain ⟨fs, h1, h2, h0, h3⟩ := text_tokens hw hi hx (fun m hm => (hc m hm).2)
      have e1 : leNat ((toLE 4 (cdtToType i) ++ (d.name ++ x) ++ [0]).take 4) = cdtToType i := by
        rw [List.append_assoc, List.take_left' (by rw [toLE_length]), leNat_toLE]; omega
      have e2 : cstr ((toLE 4 (cdtToType i) ++ (d.name ++ x) ++ [0]).drop 4) = d.name ++ x := by
        rw [List.append_assoc, List.drop_left' (by rw [toLE_length])]; exact cstr_text h0 []
      rw [e1, e2]
      refine addCdt_ok hw hi hx hc (fun j hj hm => ?_) hfa he
      obtain ⟨m, hm, hmt⟩ := hm
      obtain ⟨k1, k2, -⟩ := cdtTo_index (j := j) (by omega)
      intro e c hje hf1 hf2
      have hlen := (validate_nul (hw.valid e (List.mem_of_getElem? hje))).2
      have := ih m hm (by rw [hmt]; exact k1) fuel (by rw [hmt, k2]; omega) e c (.cdtGetName e.name)
        (by rw [hmt, k2]; exact hje) (.inr rfl) (by rw [hmt, k2]; exact hf1) (by rw [hmt, k2]; exact hf2)
      rw [hmt, k2] at this
      obtain ⟨c', r1, r2, r3, r4⟩ := this
      refine ⟨c', ?_, r2, r3, r4⟩
      have hms : MSG_DATA_SIZE = 4088 := rfl
      dsimp only
      rw [if_neg (by omega), List.take_of_length_le (by have : TAGNAME_SIZE = 32 := rfl; omega)]
      exact r1

end Dax
