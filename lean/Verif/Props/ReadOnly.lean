import Verif.Lemmas.Frame
import Verif.Lemmas.Demo
import Verif.Spec.Data
import Verif.Props.Names
/-!
# C13: read-only tags
-/
set_option autoImplicit false
namespace Dax

/-! ## Mappings never lead to a read-only tag -/

/-- All mapping destinations lie below `n`. -/
def MapsBelow (s : Server) (n : Nat) : Prop := ∀ (i : Nat) (t : Tag), s.db[i]? = some t →
  t.wildMaps = false → ∀ m ∈ t.maps, m.dst.index.toNat < n

theorem SameMaps.below {s s' : Server} (h : SameMaps s s') {n : Nat} (hb : MapsBelow s n) :
    MapsBelow s' n := by
  intro i t' ht' hw m hm
  obtain ⟨t, ht, e1, e2⟩ := h i t' ht'
  exact hb i t ht (by rw [← e2]; exact hw) m (by rw [← e1]; exact hm)

theorem setAttribute_maps {s s' : Server} {i a : Nat} (h : setAttribute s i a = .ok s') :
    SameMaps s s' := by
  obtain ⟨t, p, rt, ht, rfl⟩ := setAttribute_inv h
  refine sameMaps_set (idx := i) (t := t)
    (t' := { t with attr := attrAfter t.attr a, retPtr := p }) ?_ ?_ rfl rfl
  · rw [tag?_natCast]; exact ht
  · rfl

theorem tagAddNew_below {s s' : Server} {fd : Int} {name : Name} {type count attr size n : Nat}
    {r : Int} (hb : MapsBelow s n) (h : tagAddNew s fd name type count attr size = .ok (s', r)) :
    MapsBelow s' n := by
  unfold tagAddNew at h
  dsimp only at h
  split at h
  · simp at h
  obtain ⟨ix, -, h⟩ := C.bind_eq_ok.mp h
  obtain ⟨tbl, -, h⟩ := C.bind_eq_ok.mp h
  obtain ⟨s1, h1, h⟩ := C.bind_eq_ok.mp h
  have b1 : MapsBelow s1 n :=
    (statusWrite_maps h1).below (s := { s with index := ix, cdts := tbl }) hb
  obtain ⟨s2, h2, h⟩ := C.bind_eq_ok.mp h
  have b2 : MapsBelow s2 n := by
    refine (statusWrite_maps h2).below ?_
    intro i t ht hw m hm
    have ht : (s1.db ++ [newTag s1.env s.db.length fd name type count size])[i]? = some t := ht
    rw [List.getElem?_append] at ht
    split at ht
    · exact b1 i t ht hw m hm
    · rw [List.getElem?_singleton] at ht
      split at ht
      · cases ht; simp [newTag] at hm
      · simp at ht
  obtain ⟨s3, h3, h⟩ := C.bind_eq_ok.mp h
  have b3 := (setAttribute_maps h3).below b2
  obtain ⟨⟨s4, r4⟩, h4, h⟩ := C.bind_eq_ok.mp h
  simp only [C.ok.injEq, Prod.mk.injEq] at h
  rw [← h.1]
  exact (tagWrite_maps h4).below b3

/-- What a change of one tag does to the mapping list. -/
theorem TagMove.maps_mem {s : Server} {i : Nat} {t t' : Tag} {fl : Kind → Bool} (h : TagMove fl s i t t')
    (hw : t'.wildMaps = false) : t.wildMaps = false ∧ ∀ m ∈ t'.maps, m ∈ t.maps ∨
      ∃ u, s.tag? m.dst.index = some u ∧ u.attr.readonly = false := by
  cases h
  case mapAdd m u hid hi hw' hv hd hu hs _ _ _ _ =>
    refine ⟨hw', fun x hx => ?_⟩
    rcases List.mem_cons.mp hx with rfl | hx
    · exact .inr ⟨u, hd, hu.2⟩
    · exact .inl hx
  case mapDel ms h _ => exact ⟨hw, fun m hm => .inl (h.subset hm)⟩
  case clear => exact ⟨hw, fun m hm => by simp at hm⟩
  all_goals exact ⟨hw, fun m hm => .inl hm⟩

/-- Mapping destinations exist, and those that are read-only without an owner have no mapping
leading to them. -/
def MapsOK (s : Server) : Prop := MapsBelow s s.db.length ∧
  ∀ (k : Nat) (t : Tag), s.db[k]? = some t → t.attr.readonly = true → t.attr.owned = false →
    NoneInto s k

theorem TagMove.readonly {s : Server} {i : Nat} {t t' : Tag} {fl : Kind → Bool} (h : TagMove fl s i t t')
    (hr : t'.attr.readonly = true) (ho : t'.attr.owned = false) :
    t.attr.readonly = true ∧ t.attr.owned = false := by
  cases h
  case attr a p =>
    dsimp only at hr ho
    unfold attrAfter at hr ho
    revert hr ho
    split
    · exact fun h1 h2 => ⟨h1, h2⟩
    split
    · intro _ h; simp at h
    split
    · intro _ h; simp at h
    · exact fun h1 h2 => ⟨h1, h2⟩
  case kill => simp at hr
  all_goals exact ⟨hr, ho⟩

theorem mapsOK_move {fl : Kind → Bool} (s s' : Server) (h : MapsOK s) (m : Move fl s s') : MapsOK s' := by
  cases m with
  | @tag i t t' rt ht hm _ =>
    have hi := (List.getElem?_eq_some_iff.mp ht).1
    have key : ∀ (P : Nat → Prop), (∀ u (n : Int), s.tag? n = some u → u.attr.readonly = false → P n.toNat) →
        (∀ (i : Nat) (t : Tag), s.db[i]? = some t → t.wildMaps = false → ∀ m ∈ t.maps, P m.dst.index.toNat) →
        ∀ (j : Nat) (u : Tag), (s.db.set i t')[j]? = some u → u.wildMaps = false →
          ∀ m ∈ u.maps, P m.dst.index.toNat := by
      intro P hP hold j u hu hw m hmem
      by_cases hij : i = j
      · subst hij
        rw [List.getElem?_set_self hi] at hu
        cases hu
        obtain ⟨hw', hx⟩ := hm.maps_mem hw
        rcases hx m hmem with h1 | ⟨u, h1, h2⟩
        · exact hold i t ht hw' m h1
        · exact hP u _ h1 h2
      · rw [List.getElem?_set_ne hij] at hu
        exact hold j u hu hw m hmem
    refine ⟨?_, ?_⟩
    · have := key (fun x => x < s.db.length)
        (fun u n hn _ => (List.getElem?_eq_some_iff.mp (tag?_eq.mp hn).2).1) h.1
      intro j u hu hw m hmem
      simp only [List.length_set]
      exact this j u hu hw m hmem
    · intro k u hu hr ho
      have hk : ∃ u0, s.db[k]? = some u0 ∧ u0.attr.readonly = true ∧ u0.attr.owned = false := by
        by_cases hij : i = k
        · subst hij
          have hu : (s.db.set i t')[i]? = some u := hu
          rw [List.getElem?_set_self hi] at hu
          cases hu
          exact ⟨t, ht, hm.readonly hr ho⟩
        · have hu : (s.db.set i t')[k]? = some u := hu
          rw [List.getElem?_set_ne hij] at hu
          exact ⟨u, hu, hr, ho⟩
      obtain ⟨u0, hu0, hr0, ho0⟩ := hk
      refine key (fun x => x ≠ k) ?_ (h.2 k u0 hu0 hr0 ho0)
      intro v n hn hv he
      have := (tag?_eq.mp hn).2
      rw [he, hu0] at this
      cases this
      rw [hr0] at hv; simp at hv
  | push fd name type count size =>
    have hsplit : ∀ (j : Nat) (u : Tag),
        (s.db ++ [newTag s.env s.db.length fd name type count size])[j]? = some u →
        s.db[j]? = some u ∨ (j = s.db.length ∧ u.maps = []) := by
      intro j u hu
      rw [List.getElem?_append] at hu
      split at hu
      · exact .inl hu
      · rw [List.getElem?_singleton] at hu
        split at hu
        · cases hu; exact .inr ⟨by omega, rfl⟩
        · simp at hu
    have hold : MapsBelow { s with db := s.db ++ [newTag s.env s.db.length fd name type count size] }
        s.db.length := by
      intro j u hu hw m hmem
      rcases hsplit j u hu with h1 | ⟨-, h2⟩
      · exact h.1 j u h1 hw m hmem
      · rw [h2] at hmem; simp at hmem
    refine ⟨fun j u hu hw m hmem => ?_, fun k u hu hr ho => ?_⟩
    · have := hold j u hu hw m hmem
      simp only [List.length_append, List.length_singleton]; omega
    · rcases hsplit k u hu with h1 | ⟨rfl, -⟩
      · intro j v hv hw m hmem
        rcases hsplit j v hv with h2 | ⟨-, h2⟩
        · exact h.2 k u h1 hr ho j v h2 hw m hmem
        · rw [h2] at hmem; simp at hmem
      · intro j v hv hw m hmem
        exact Nat.ne_of_lt (hold j v hv hw m hmem)
  | send _ => exact h
  | other h1 _ _ _ _ _ =>
    unfold MapsOK MapsBelow NoneInto
    rw [h1]
    exact h
  | env e => exact h
  | evCount uid f => exact h
  | groups hm g n => exact h
  | modAdd _ name fd hn => exact h
  | modUuid _ n => exact h
  | modIdx _ uid hr => exact h
  | modDel _ uid => exact h

theorem Reachable.mapsOK {s : Server} (h : Reachable s) : MapsOK s :=
  h.inv (fun e s hi => by
    have := (init_mods hi).2
    refine ⟨fun i t ht _ m hm => ?_, fun k u _ _ _ i t ht _ m hm => ?_⟩ <;>
    · have := (this i t ht).2.2.2.1
      rw [this] at hm; simp at hm) mapsOK_move

/-- As long as it exists, a read-only tag without mappings leading to it stays so. -/
def Guarded (k : Nat) (s : Server) : Prop := ∃ t, s.db[k]? = some t ∧
  (t.name = none ∨ (t.attr.readonly = true ∧ NoneInto s k))

theorem TagMove.keeps {s : Server} {i : Nat} {t t' : Tag} {fl : Kind → Bool} (h : TagMove fl s i t t')
    (hr : t.attr.readonly = true) : t'.name = none ∨ t'.attr.readonly = true := by
  cases h
  case attr a p => exact .inr ((attrAfter_keep _ _).2 hr)
  case kill => exact .inl rfl
  all_goals exact .inr hr

theorem TagMove.dead {s : Server} {i : Nat} {t t' : Tag} {fl : Kind → Bool} (h : TagMove fl s i t t')
    (hn : t.name = none) : t'.name = none := by
  cases h
  case kill => rfl
  all_goals exact hn

theorem guarded_move {fl : Kind → Bool} (k : Nat) (s s' : Server) (h : Guarded k s) (m : Move fl s s') : Guarded k s' := by
  obtain ⟨t0, ht0, hg⟩ := h
  have hk := (List.getElem?_eq_some_iff.mp ht0).1
  cases m with
  | @tag i t t' rt ht hm _ =>
    have hi := (List.getElem?_eq_some_iff.mp ht).1
    by_cases hik : i = k
    · subst hik
      rw [ht0] at ht; cases ht
      refine ⟨t', List.getElem?_set_self hi, ?_⟩
      rcases hg with hg | ⟨hr, hn⟩
      · exact .inl (hm.dead hg)
      · rcases hm.keeps hr with h1 | h1
        · exact .inl h1
        · refine .inr ⟨h1, ?_⟩
          intro j u hu hw x hx
          have hu : (s.db.set i t')[j]? = some u := hu
          by_cases hij : i = j
          · subst hij
            rw [List.getElem?_set_self hi] at hu; cases hu
            obtain ⟨hw', hx'⟩ := hm.maps_mem hw
            rcases hx' x hx with h2 | ⟨v, h2, h3⟩
            · exact hn i t0 ht0 hw' x h2
            · intro he
              have := (tag?_eq.mp h2).2
              rw [he, ht0] at this; cases this
              rw [hr] at h3; simp at h3
          · rw [List.getElem?_set_ne hij] at hu
            exact hn j u hu hw x hx
    · refine ⟨t0, by show (s.db.set i t')[k]? = _; rw [List.getElem?_set_ne hik]; exact ht0, ?_⟩
      rcases hg with hg | ⟨hr, hn⟩
      · exact .inl hg
      · refine .inr ⟨hr, ?_⟩
        intro j u hu hw x hx
        have hu : (s.db.set i t')[j]? = some u := hu
        by_cases hij : i = j
        · subst hij
          rw [List.getElem?_set_self hi] at hu; cases hu
          obtain ⟨hw', hx'⟩ := hm.maps_mem hw
          rcases hx' x hx with h2 | ⟨v, h2, h3⟩
          · exact hn i t ht hw' x h2
          · intro he
            have := (tag?_eq.mp h2).2
            rw [he, ht0] at this; cases this
            rw [hr] at h3; simp at h3
        · rw [List.getElem?_set_ne hij] at hu
          exact hn j u hu hw x hx
  | push fd name type count size =>
    refine ⟨t0, by show (s.db ++ _)[k]? = _; rw [List.getElem?_append_left hk]; exact ht0, ?_⟩
    rcases hg with hg | ⟨hr, hn⟩
    · exact .inl hg
    · refine .inr ⟨hr, ?_⟩
      intro j u hu hw x hx
      have hu : (s.db ++ [newTag s.env s.db.length fd name type count size])[j]? = some u := hu
      rw [List.getElem?_append] at hu
      split at hu
      · exact hn j u hu hw x hx
      · rw [List.getElem?_singleton] at hu
        split at hu
        · cases hu; simp [newTag] at hx
        · simp at hu
  | send _ => exact ⟨t0, ht0, hg⟩
  | other h1 _ _ _ _ _ =>
    unfold Guarded NoneInto
    rw [h1]
    exact ⟨t0, ht0, hg⟩
  | env e => exact ⟨t0, ht0, hg⟩
  | evCount uid f => exact ⟨t0, ht0, hg⟩
  | groups hm g n => exact ⟨t0, ht0, hg⟩
  | modAdd _ name fd hn => exact ⟨t0, ht0, hg⟩
  | modUuid _ n => exact ⟨t0, ht0, hg⟩
  | modIdx _ uid hr => exact ⟨t0, ht0, hg⟩
  | modDel _ uid => exact ⟨t0, ht0, hg⟩

/-! ## One request -/

theorem Req.mild_quiet {q : Req} (h : q.mild = true) : q.quiet = true := by
  cases q <;> simp_all [Req.mild, Req.quiet]

theorem ro_step {s s' : Server} {fd : Int} {q : Req} {r : Reply} {k : Nat} {t : Tag}
    (h : Reachable s) (hq : q.mild = true) (ht : s.db[k]? = some t) (hr : t.attr.readonly = true)
    (hv : t.attr.virt = false) (hf : t.attr.owned = true → t.fd ≠ fd) (hn : NoneInto s k)
    (hh : handle s fd q = .ok (s', r)) : Reads k s s' := by
  have hids : ∀ (i : Nat) (t : Tag), s.db[i]? = some t → IdsOK i t := fun i t ht => h.ids ht
  have hv' : ∀ u, s.db[k]? = some u → u.attr.virt = false := by
    intro u hu; rw [ht] at hu; cases hu; exact hv
  by_cases htg : ∀ i, q.target = some i → 0 ≤ i → i.toNat ≠ k
  · exact mild_reads hq htg hn hids hv' hh
  · have htg : ∃ i, q.target = some i ∧ 0 ≤ i ∧ i.toNat = k := by
      apply Classical.byContradiction
      intro hc
      exact htg (fun i h1 h2 h3 => hc ⟨i, h1, h2, h3⟩)
    obtain ⟨i, h1, h0, rfl⟩ := htg
    have htag : s.tag? i = some t := tag?_eq.mpr ⟨h0, ht⟩
    have hraw : ∀ x, rawAttr s i = .ok x → x = (t.attr, some t.fd) := by
      intro x hx
      unfold rawAttr at hx
      split at hx
      · simp at hx
      · rw [htag] at hx; simpa using hx.symm
    have hro : ∀ b, roForeign s fd i = .ok b → b = true := by
      intro b hb
      unfold roForeign at hb
      obtain ⟨x, hx, hb⟩ := C.bind_eq_ok.mp hb
      rw [hraw x hx] at hb
      simp only [C.ok.injEq] at hb
      rw [← hb, hr]
      cases ho : t.attr.owned with
      | false => rfl
      | true => simp [hf ho]
    cases q <;> simp only [Req.target, Option.some.injEq, reduceCtorEq] at h1
    case tagWrite idx off d =>
      subst h1
      simp only [handle, hTagWrite] at hh
      obtain ⟨b, hb, hh⟩ := C.bind_eq_ok.mp hh
      rw [hro b hb] at hh
      simp only [if_true, C.ok.injEq, Prod.mk.injEq] at hh
      rw [← hh.1]; exact .refl _ _
    case tagMWrite idx off d m =>
      subst h1
      simp only [handle, hTagMWrite] at hh
      obtain ⟨b, hb, hh⟩ := C.bind_eq_ok.mp hh
      rw [hraw b hb] at hh
      simp only [hr, if_true, C.ok.injEq, Prod.mk.injEq] at hh
      rw [← hh.1]; exact .refl _ _
    case atomic hd op buf =>
      subst h1
      simp only [handle, hAtomic] at hh
      obtain ⟨b, hb, hh⟩ := C.bind_eq_ok.mp hh
      rw [hro b hb] at hh
      simp only [if_true, C.ok.injEq, Prod.mk.injEq] at hh
      rw [← hh.1]; exact .refl _ _

theorem SameRead.symm {a b : Tag} (h : SameRead a b) : SameRead b a :=
  ⟨h.type.symm, h.count.symm, h.name.symm, h.data.symm, h.ovr.symm, h.virt.symm, h.ovrSet.symm⟩

/-- Any number of requests. -/
theorem ro_run {k : Nat} {F : Int → Prop} {qs : List (Int × Req)} : ∀ {s s' : Server} {rs : List Reply} {t : Tag},
    Reachable s → (∀ x ∈ qs, x.2.mild = true ∧ F x.1) → s.db[k]? = some t →
    t.name ≠ none → t.attr.readonly = true → t.attr.virt = false → NoneInto s k →
    ((t.attr.owned = true ∧ ∀ fd, F fd → t.fd ≠ fd) ∨ t.attr.owned = false) →
    runR s qs = .ok (s', rs) →
    (∃ t', s'.db[k]? = some t' ∧ SameRead t t') ∧ s'.cdts = s.cdts ∧ s'.env = s.env := by
  induction qs with
  | nil =>
    intro s s' rs t _ _ ht _ _ _ _ _ h
    simp only [runR, C.ok.injEq, Prod.mk.injEq] at h
    rw [← h.1]
    exact ⟨⟨t, ht, SameRead.refl t⟩, rfl, rfl⟩
  | cons x qs ih =>
    intro s s' rs t hR hq ht hn hr hv hni hf h
    obtain ⟨fd, q⟩ := x
    simp only [runR] at h
    obtain ⟨⟨s1, r1⟩, h1, h⟩ := C.bind_eq_ok.mp h
    obtain ⟨⟨s2, r2⟩, h2, h⟩ := C.bind_eq_ok.mp h
    simp only [C.ok.injEq, Prod.mk.injEq] at h
    rw [← h.1]
    have hq0 := hq (fd, q) (by simp)
    have hf0 : t.attr.owned = true → t.fd ≠ fd := by
      intro ho
      rcases hf with ⟨-, hf⟩ | hf
      · exact hf fd hq0.2
      · rw [ho] at hf; simp at hf
    obtain ⟨t1, ht1, sr, -, hown⟩ := ro_step hR hq0.1 ht hr hv hf0 hni h1 t ht
    have qt := handle_quiet (Req.mild_quiet hq0.1) h1
    have hR1 := hR.handle h1
    have ev := (handle_step hR.wf h1).ev.tag k t ht
    obtain ⟨t1', ht1', -, hfd, -, -, -, -, hkeep⟩ := ev
    rw [ht1] at ht1'; cases ht1'
    have hn1 : t1.name ≠ none := by rw [sr.name]; exact hn
    rcases hkeep with hkeep | hkeep
    · exact absurd hkeep hn1
    have g : Guarded k s1 := (handle_path hR.modsOK h1).inv (I := Guarded k) (guarded_move k)
      ⟨t, ht, .inr ⟨hr, hni⟩⟩
    obtain ⟨t1', ht1', g⟩ := g
    rw [ht1] at ht1'; cases ht1'
    rcases g with g | ⟨-, hni1⟩
    · exact absurd g hn1
    obtain ⟨⟨t2, ht2, sr2⟩, e1, e2⟩ := ih hR1 (fun y hy => hq y (by simp [hy])) ht1 hn1
      (hkeep.2 hr) (by rw [sr.virt]; exact hv) hni1 (by rw [hown, hfd]; exact hf) h2
    exact ⟨⟨t2, ht2, sr.trans sr2⟩, e1.trans qt.cdts, e2.trans qt.env⟩

/-! ## C13 -/

theorem Req.plain_mild {q : Req} (h : q.plain) : q.mild = true := by
  cases q <;> first | rfl | exact h.elim

theorem ro_reads {s s' : Server} {k : Nat} {t t' : Tag} (h : Reachable s) (ht : s.db[k]? = some t)
    (ht' : s'.db[k]? = some t') (sr : SameRead t t') (hv : t.attr.virt = false)
    (hc : s'.cdts = s.cdts) (he : s'.env = s.env) (fd off n : Int) (r : Reply) :
    Answers s' fd (.tagRead k off n) r ↔ Answers s fd (.tagRead k off n) r := by
  have hck := ((h.wf).tag k t ht).chk.1
  have hx : CdtExt s.cdts s'.cdts := by rw [hc]; exact CdtExt.refl _
  have hx' : CdtExt s'.cdts s.cdts := by rw [hc]; exact CdtExt.refl _
  exact ⟨read_same ht' ht sr.symm (by rw [sr.virt]; exact hv) (by rw [hc, sr.type]; exact hck) hx' he.symm,
    read_same ht ht' sr hv hck hx he⟩

/-- **C13, owned tags (partial)** A tag is created on one connection with the attributes owned
and read-only.  After any further history, no sequence of plain requests from other connections
(writes, masked writes, atomic operations, changes of other tags that are mapped anywhere, new
mappings, ...) changes what any read of that tag returns.  Missing: group writes and overrides,
which do change it (`C13_group_write`, `C13_override`), and tags that were made read-only after
somebody had mapped another tag to them (`C13_old_mapping`). -/
theorem C13_owned_partial {s s1 s2 s3 : Server} {fd0 : Int} {type count attr : Nat} {name : Name}
    {b : List Byte} {k : Nat} {os : List Op} {qs : List (Int × Req)} {rs : List Reply}
    (h : Reachable s) (hnew : lookup s name = none)
    (hadd : handle s fd0 (.tagAdd type count attr name) = .ok (s1, .resp b))
    (hk : (Reply.resp b).index? = some k)
    (h5 : attr.testBit 5 = true) (h0 : attr.testBit 0 = true) (h2 : attr.testBit 2 = false)
    (hrun : run s1 os = .ok s2) {a : Nat} (hl : AttrAt s2 k a) (hv : a.testBit 1 = false)
    (hqs : ∀ x ∈ qs, x.2.plain ∧ x.1 ≠ fd0) (hh : runR s2 qs = .ok (s3, rs))
    (fd off n : Int) (r : Reply) :
    Answers s3 fd (.tagRead k off n) r ↔ Answers s2 fd (.tagRead k off n) r := by
  have hw := h.wf
  have hr2 : Reachable s2 := (h.handle hadd).run hrun
  have hw2 := hr2.wf
  obtain ⟨t2, ht2, hn2, hbits⟩ := (attrAt_iff hw2).mp hl
  -- the entry after creation
  have key : ∃ t1, s1.db[k]? = some t1 ∧ t1.attr.owned = true ∧ t1.attr.readonly = true ∧
      t1.fd = fd0 ∧ NoneInto s1 k := by
    rcases addReq_cases hw hadd with ⟨e, he, -⟩ | ⟨-, n, hn, he, hadd1, -, -, -, size1, ha1, hc⟩
    · simp at he
    simp only [Reply.resp.injEq] at he
    subst he
    rw [index_le4 hn] at hk
    cases hk
    rcases hc with ⟨hm, -⟩ | ⟨hm, hkl, hadd2⟩
    · have := (lookup_mem hw).mpr hm
      rw [hnew] at this; simp at this
    have hni : NoneInto s1 k := by
      have hb : MapsBelow (growDb s) k := by
        have := h.mapsOK.1
        unfold MapsBelow at this ⊢
        rw [growDb_db, hkl]; exact this
      intro j u hu hw m hm he
      have := tagAddNew_below hb hadd2 j u hu hw m hm
      omega
    have ta := tagAdd_added hw hadd1
    have hlen := h.len
    obtain ⟨hn', -⟩ | ⟨n', hn', -, hcs'⟩ := ta.cases
    · omega
    rcases hcs' with ⟨-, -, -, -, size', t, p, -, ht, -, heq⟩ | ⟨hm', -⟩
    · have heq := heq (by omega)
      rw [← hkl] at ht
      have e1 : wantRetain attr = false := h2
      have e2 : wantOwned attr = true := h5
      have e3 : wantReadonly attr = true := h0
      refine ⟨t, ht, ?_, ?_, ?_, hni⟩
      · rw [heq]
        show (attrAfter _ _).owned = true
        unfold attrAfter
        rw [e1, e2, e3]; rfl
      · rw [heq]
        show (attrAfter _ _).readonly = true
        unfold attrAfter
        rw [e1, e2, e3]; rfl
      · rw [heq]; rfl
    · exact absurd rfl (hm _ hm')
  obtain ⟨t1, ht1, ho1, hr1, hf1, hni1⟩ := key
  have st := run_step (h.handle hadd).wf hrun
  obtain ⟨t2', ht2', -, hf2, -, -, -, -, hk2⟩ := st.ev.tag k t1 ht1
  rw [ht2] at ht2'; cases ht2'
  rcases hk2 with hk2 | hk2
  · exact absurd hk2 hn2
  have g : Guarded k s2 := (run_path (h.handle hadd).modsOK hrun).inv (I := Guarded k)
    (guarded_move k) ⟨t1, ht1, .inr ⟨hr1, hni1⟩⟩
  obtain ⟨t2', ht2', g⟩ := g
  rw [ht2] at ht2'; cases ht2'
  rcases g with g | ⟨-, hni2⟩
  · exact absurd g hn2
  have hv2 : t2.attr.virt = false := by rw [← Attr.bit1, hbits]; exact hv
  obtain ⟨⟨t3, ht3, sr⟩, hc, he⟩ := ro_run (F := fun fd => fd ≠ fd0) hr2
    (fun x hx => ⟨Req.plain_mild (hqs x hx).1, (hqs x hx).2⟩) ht2 hn2 (hk2.2 hr1) hv2 hni2
    (.inl ⟨hk2.1 ho1, fun fd hfd => by rw [hf2, hf1]; exact fun h => hfd h.symm⟩) hh
  exact ro_reads hr2 ht2 ht3 sr hv2 hc he fd off n r

/-- **C13, tags of nobody (partial)** A tag reported as read-only and not owned, as the system tags
are, keeps its value under any sequence of plain requests from anybody.  Missing: as for
`C13_owned_partial`. -/
theorem C13_unowned_partial {s s' : Server} {k a : Nat} {qs : List (Int × Req)} {rs : List Reply}
    (h : Reachable s) (hl : AttrAt s k a) (h0 : a.testBit 0 = true) (h5 : a.testBit 5 = false)
    (hv : a.testBit 1 = false) (hqs : ∀ x ∈ qs, x.2.plain) (hh : runR s qs = .ok (s', rs))
    (fd off n : Int) (r : Reply) :
    Answers s' fd (.tagRead k off n) r ↔ Answers s fd (.tagRead k off n) r := by
  have hw := h.wf
  obtain ⟨t, ht, hn, hbits⟩ := (attrAt_iff hw).mp hl
  have e0 : t.attr.readonly = true := by rw [← Attr.bit0, hbits]; exact h0
  have e5 : t.attr.owned = false := by rw [← Attr.bit5, hbits]; exact h5
  have e1 : t.attr.virt = false := by rw [← Attr.bit1, hbits]; exact hv
  obtain ⟨⟨t', ht', sr⟩, hc, he⟩ := ro_run (F := fun _ => True) h
    (fun x hx => ⟨Req.plain_mild (hqs x hx), trivial⟩) ht hn e0 e1 (h.mapsOK.2 k t ht e0 e5) (.inr e5) hh
  exact ro_reads h ht ht' sr e1 hc he fd off n r

/-- A tag with attributes owned and read-only: its owner (connection 5) writes it, others are
refused with every plain kind of write. -/
def roOps : List Op := demoOps ++ [.req 5 (.tagAdd DAX_INT 2 0x21 (nm "Mine")), .req 5 (.tagWrite 16 0 [7, 0, 9, 0])]

theorem roOps_reachable : Reachable (demo roOps) := demo_reachable (by decide +kernel)

example : lookup (demo demoOps) (nm "Mine") = none ∧ AttrAt (demo roOps) 16 0x21 ∧
    Answers (demo demoOps) 5 (.tagAdd DAX_INT 2 0x21 (nm "Mine")) (.resp (le4 16)) ∧
    ∃ s', runR (demo roOps)
      [(6, .tagWrite 16 0 [1, 1]), (6, .tagMWrite 16 0 [1] [1]),
       (6, .atomic ⟨16, 0, 0, 1, 2, DAX_INT⟩ 1 [1, 0]),
       (6, .mapAdd ⟨13, 0, 0, 1, 2, DAX_INT⟩ ⟨16, 0, 0, 1, 2, DAX_INT⟩),
       (6, .tagWrite 13 0 [4, 4])] =
      .ok (s', [.err ERR_READONLY, .err ERR_READONLY, .err ERR_READONLY, .err ERR_READONLY, .resp []]) ∧
      Answers s' 6 (.tagRead 16 0 4) (.resp [7, 0, 9, 0]) := by
  refine ⟨by decide +kernel, ⟨by decide, nm "Mine", DAX_INT, 2, fun fd => by kernel_rfl⟩,
    exists_reply (by decide +kernel), ?_⟩
  obtain ⟨s', rs, h1, h2, h3⟩ := exists_after (c := runR (demo roOps)
      [(6, .tagWrite 16 0 [1, 1]), (6, .tagMWrite 16 0 [1] [1]),
       (6, .atomic ⟨16, 0, 0, 1, 2, DAX_INT⟩ 1 [1, 0]),
       (6, .mapAdd ⟨13, 0, 0, 1, 2, DAX_INT⟩ ⟨16, 0, 0, 1, 2, DAX_INT⟩),
       (6, .tagWrite 13 0 [4, 4])])
    (p := fun s1 => replyOf (handle s1 6 (.tagRead 16 0 4)) = some (.resp [7, 0, 9, 0]) ∧
      (match runR (demo roOps)
      [(6, .tagWrite 16 0 [1, 1]), (6, .tagMWrite 16 0 [1] [1]),
       (6, .atomic ⟨16, 0, 0, 1, 2, DAX_INT⟩ 1 [1, 0]),
       (6, .mapAdd ⟨13, 0, 0, 1, 2, DAX_INT⟩ ⟨16, 0, 0, 1, 2, DAX_INT⟩),
       (6, .tagWrite 13 0 [4, 4])] with | .ok x => some x.2 | .ub _ => none) = some
       [.err ERR_READONLY, .err ERR_READONLY, .err ERR_READONLY, .err ERR_READONLY, .resp []])
    (by decide +kernel)
  rw [h1] at h3
  simp only [Option.some.injEq] at h3
  subst h3
  exact ⟨s', h1, exists_reply h2⟩

/-- The system tag `_tagcount` is read-only and owned by nobody. -/
example : AttrAt (demo demoOps) 0 1 := ⟨by decide, nm "_tagcount", DAX_DINT, 1, fun fd => by kernel_rfl⟩

/-- **C13 fails for group writes**: connection 6 puts the read-only tag of connection 5 into a group
and writes the group; the value is replaced. -/
theorem C13_group_write : ∃ s' rs, runR (demo roOps)
      [(6, .grpAdd [⟨16, 0, 0, 2, 4, DAX_INT⟩]), (6, .grpWrite 0 [1, 2, 3, 4])] = .ok (s', rs) ∧
    replyOf (handle (demo roOps) 6 (.tagRead 16 0 4)) = some (.resp [7, 0, 9, 0]) ∧
    replyOf (handle s' 6 (.tagRead 16 0 4)) = some (.resp [1, 2, 3, 4]) :=
  exists_runR (p := fun s' => replyOf (handle (demo roOps) 6 (.tagRead 16 0 4)) = some (.resp [7, 0, 9, 0]) ∧
    replyOf (handle s' 6 (.tagRead 16 0 4)) = some (.resp [1, 2, 3, 4])) (by decide +kernel)

/-- **C13 fails for overrides**: connection 6 installs an override on the read-only tag of
connection 5 and switches it on; reads return the override. -/
theorem C13_override : ∃ s' rs, runR (demo roOps)
      [(6, .ovrAdd 16 0 [5, 5] [0xFF, 0xFF]), (6, .ovrSet 16 true)] = .ok (s', rs) ∧
    replyOf (handle (demo roOps) 6 (.tagRead 16 0 4)) = some (.resp [7, 0, 9, 0]) ∧
    replyOf (handle s' 6 (.tagRead 16 0 4)) = some (.resp [5, 5, 9, 0]) :=
  exists_runR (p := fun s' => replyOf (handle (demo roOps) 6 (.tagRead 16 0 4)) = some (.resp [7, 0, 9, 0]) ∧
    replyOf (handle s' 6 (.tagRead 16 0 4)) = some (.resp [5, 5, 9, 0])) (by decide +kernel)

/-- A mapping from `Speed` to another tag, which its creator then declares again as owned and
read-only. -/
def oldMapOps : List Op := demoOps ++
  [.req 5 (.tagAdd DAX_INT 2 0 (nm "Mine")),
   .req 6 (.mapAdd ⟨13, 0, 0, 1, 2, DAX_INT⟩ ⟨16, 0, 0, 1, 2, DAX_INT⟩),
   .req 5 (.tagAdd DAX_INT 2 0x21 (nm "Mine"))]

/-- **C13 fails for mappings made earlier**: writing the source still writes the tag, although it
is read-only now and the writer does not own it. -/
theorem C13_old_mapping : AttrAt (demo oldMapOps) 16 0x21 ∧ ∃ s' rs, runR (demo oldMapOps)
      [(6, .tagWrite 13 0 [4, 3])] = .ok (s', rs) ∧
    replyOf (handle (demo oldMapOps) 6 (.tagRead 16 0 4)) = some (.resp [0, 0, 0, 0]) ∧
    replyOf (handle s' 6 (.tagRead 16 0 4)) = some (.resp [4, 3, 0, 0]) :=
  ⟨⟨by decide, nm "Mine", DAX_INT, 2, fun fd => by kernel_rfl⟩,
   exists_runR (p := fun s' => replyOf (handle (demo oldMapOps) 6 (.tagRead 16 0 4)) = some (.resp [0, 0, 0, 0]) ∧
    replyOf (handle s' 6 (.tagRead 16 0 4)) = some (.resp [4, 3, 0, 0])) (by decide +kernel)⟩

end Dax
