import Verif.Lemmas.Init
/-!
# Tag queries in terms of the tag table
-/
set_option autoImplicit false
namespace Dax

theorem tagInfo_live {tbl : List Cdt} {i : Nat} {t : Tag} {n : Name} (h : TagOK tbl t)
    (hn : t.name = some n) :
    tagInfo i t = .ok (.ok { idx := i, name := n, type := t.type, count := t.count, attr := t.attr }) := by
  unfold tagInfo
  have : ¬ t.data = .freed := by rw [← h.name, hn]; simp
  rw [if_neg this, hn]

theorem tagInfo_dead {tbl : List Cdt} {i : Nat} {t : Tag} (h : TagOK tbl t) (hn : t.name = none) :
    tagInfo i t = .ok (.error ERR_DELETED) := by
  unfold tagInfo
  rw [if_pos (h.name.mp hn)]

theorem getIdx_live {s : Server} (h : WF s) {i : Nat} {t : Tag} {n : Name}
    (ht : s.db[i]? = some t) (hn : t.name = some n) (fd : Int) :
    handle s fd (.tagGetIdx i) =
      .ok (s, .resp (tagReply i t.type t.count t.attr.bits n)) := by
  simp only [handle, hTagGet, tagGetIndex, tag?_natCast, ht, Int.toNat_natCast]
  rw [tagInfo_live (h.tag i t ht) hn]
  rfl

theorem getIdx_dead {s : Server} (h : WF s) {i : Nat} {t : Tag}
    (ht : s.db[i]? = some t) (hn : t.name = none) (fd : Int) :
    handle s fd (.tagGetIdx i) = .ok (s, .err ERR_DELETED) := by
  simp only [handle, hTagGet, tagGetIndex, tag?_natCast, ht, Int.toNat_natCast]
  rw [tagInfo_dead (h.tag i t ht) hn]
  rfl

theorem getIdx_none {s : Server} {i : Nat} (ht : s.db[i]? = none) (fd : Int) :
    handle s fd (.tagGetIdx i) = .ok (s, .err ERR_ARG) := by
  simp only [handle, hTagGet, tagGetIndex, tag?_natCast, ht]
  rfl

theorem tagReply_name {i i' ty ty' c c' a a' : Nat} {n n' : Name}
    (h : tagReply i ty c a n = tagReply i' ty' c' a' n') : n = n' := by
  unfold tagReply at h
  simp only [List.append_assoc] at h
  have e := fun (x y : Nat) => (toLE_length 4 x).trans (toLE_length 4 y).symm
  have e2 := fun (x y : Nat) => (toLE_length 2 x).trans (toLE_length 2 y).symm
  have h := (List.append_inj h (e _ _)).2
  have h := (List.append_inj h (e _ _)).2
  have h := (List.append_inj h (e _ _)).2
  have h := (List.append_inj h (e2 _ _)).2
  simpa using h

theorem liveAt_iff {s : Server} (h : WF s) {i : Nat} {n : Name} :
    LiveAt s i n ↔ ∃ t, s.db[i]? = some t ∧ t.name = some n := by
  constructor
  · rintro ⟨ty, c, a, hh⟩
    have hh := hh 0
    cases ht : s.db[i]? with
    | none => rw [getIdx_none ht] at hh; simp at hh
    | some t =>
      cases hn : t.name with
      | none => rw [getIdx_dead h ht hn] at hh; simp at hh
      | some m =>
        rw [getIdx_live h ht hn] at hh
        simp only [C.ok.injEq, Prod.mk.injEq, Reply.resp.injEq, true_and] at hh
        exact ⟨t, rfl, by rw [tagReply_name hh] at hn; exact hn⟩
  · rintro ⟨t, ht, hn⟩
    exact ⟨t.type, t.count, t.attr.bits, fun fd => getIdx_live h ht hn fd⟩

theorem WF.inj {s : Server} (h : WF s) {i j : Nat} {t u : Tag} {n : Name}
    (ht : s.db[i]? = some t) (hn : t.name = some n) (hu : s.db[j]? = some u)
    (hm : u.name = some n) : i = j := by
  have a := h.named i t n ht hn
  have b := h.named j u n hu hm
  have := h.sorted.inj a b rfl
  simpa using this

/-- Lookup by name on a well-formed server. -/
theorem getName_live {s : Server} (h : WF s) {i : Nat} {t : Tag} {n : Name}
    (ht : s.db[i]? = some t) (hn : t.name = some n) (fd : Int) :
    handle s fd (.tagGetName n) = .ok (s, .resp (tagReply i t.type t.count t.attr.bits n)) := by
  simp only [handle, hTagGet, tagGetName]
  rw [getByName_of_mem h.sorted (h.named i t n ht hn)]
  simp only [C.ok_bind, ht]
  rw [tagInfo_live (h.tag i t ht) hn]
  rfl

theorem getName_none {s : Server} (h : WF s) {n : Name}
    (hn : ∀ (i : Nat) (t : Tag), s.db[i]? = some t → t.name ≠ some n) (fd : Int) :
    handle s fd (.tagGetName n) = .ok (s, .err ERR_NOTFOUND) := by
  simp only [handle, hTagGet, tagGetName]
  rcases getByName_spec h.sorted n with ⟨e, he, rfl, hg⟩ | ⟨-, hg⟩
  · obtain ⟨t, ht, hn'⟩ := h.ent e he
    exact absurd hn' (hn _ t ht)
  · rw [hg]; rfl

theorem lookup_some {s : Server} (h : WF s) {n : Name} {i : Nat} :
    lookup s n = some i ↔ ∃ t, s.db[i]? = some t ∧ t.name = some n := by
  have key : ∀ (j : Nat) (t : Tag), s.db[j]? = some t → t.name = some n → lookup s n = some j := by
    intro j t ht hn
    unfold lookup
    rw [getName_live h ht hn]
    simp only [Reply.index?, tagReply, List.append_assoc]
    rw [List.take_left' (toLE_length 4 j), leNat_toLE]
    have h1 := (List.getElem?_eq_some_iff.mp ht).1
    have h2 := h.dblt
    rw [Nat.mod_eq_of_lt (by omega)]
  constructor
  · intro hl
    by_cases hex : ∃ (j : Nat) (t : Tag), s.db[j]? = some t ∧ t.name = some n
    · obtain ⟨j, t, ht, hn⟩ := hex
      rw [key j t ht hn] at hl; cases hl
      exact ⟨t, ht, hn⟩
    · unfold lookup at hl
      rw [getName_none h (fun j t ht hn => hex ⟨j, t, ht, hn⟩)] at hl
      simp [Reply.index?] at hl
  · rintro ⟨t, ht, hn⟩
    exact key i t ht hn

theorem toLE_inj {n v w : Nat} (h : toLE n v = toLE n w) (hv : v < 256 ^ n) (hw : w < 256 ^ n) :
    v = w := by
  have := congrArg leNat h
  rw [leNat_toLE, leNat_toLE, Nat.mod_eq_of_lt hv, Nat.mod_eq_of_lt hw] at this
  exact this

theorem tagReply_types {i i' ty ty' c c' a a' : Nat} {n n' : Name}
    (h : tagReply i ty c a n = tagReply i' ty' c' a' n') (ht : ty < 4294967296)
    (ht' : ty' < 4294967296) (hc : c < 4294967296) (hc' : c' < 4294967296) :
    ty = ty' ∧ c = c' := by
  unfold tagReply at h
  simp only [List.append_assoc] at h
  have e := fun (x y : Nat) => (toLE_length 4 x).trans (toLE_length 4 y).symm
  have h := (List.append_inj h (e _ _)).2
  have h1 := (List.append_inj h (e _ _)).1
  have h := (List.append_inj h (e _ _)).2
  exact ⟨toLE_inj h1 ht ht', toLE_inj (List.append_inj h (e _ _)).1 hc hc'⟩

theorem checkType_lt {tbl : List Cdt} {t : Nat} (hl : tbl.length ≤ 1073741824)
    (h : checkType tbl t = true) : t < 4294967296 := by
  simp only [checkType, Bool.or_eq_true, Bool.and_eq_true, decide_eq_true_eq] at h
  have hs : t ≤ stripQueue t + 1073741824 := by
    unfold stripQueue DAX_QUEUE; split <;> omega
  rcases h with h | ⟨h1, h2⟩
  · have : stripQueue t < 256 := by
      simp only [baseTypes, List.contains_eq_mem, decide_eq_true_eq, List.mem_cons,
        List.not_mem_nil, or_false] at h
      rcases h with h|h|h|h|h|h|h|h|h|h|h|h|h|h|h|h <;> rw [h] <;> decide
    omega
  · unfold cdtToIndex at h2
    rw [if_pos h1] at h2
    simp only [DAX_CUSTOM] at h2
    omega

theorem liveTag_iff {s : Server} (h : WF s) {i : Nat} {n : Name} {ty c : Nat} :
    LiveTag s i n ty c ↔ ∃ t, s.db[i]? = some t ∧ t.name = some n ∧ t.type = ty ∧ t.count = c := by
  constructor
  · rintro ⟨l1, l2, a, hh⟩
    obtain ⟨t, ht, hn⟩ := (liveAt_iff h).mp ⟨ty, c, a, hh⟩
    have ok := h.tag i t ht
    have h0 := hh 0
    rw [getIdx_live h ht hn] at h0
    simp only [C.ok.injEq, Prod.mk.injEq, Reply.resp.injEq, true_and] at h0
    obtain ⟨h1, h2⟩ := tagReply_types h0 (checkType_lt h.cdts.small ok.chk.1) l1 ok.cnt l2
    exact ⟨t, ht, hn, h1, h2⟩
  · rintro ⟨t, ht, hn, rfl, rfl⟩
    have ok := h.tag i t ht
    exact ⟨checkType_lt h.cdts.small ok.chk.1, ok.cnt, t.attr.bits,
      fun fd => getIdx_live h ht hn fd⟩

end Dax
