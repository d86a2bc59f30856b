import Verif.Props.Override
import Verif.Props.Counts
/-!
# C15: the override counters
-/
set_option autoImplicit false
namespace Dax

theorem Attr.bit14 (a : Attr) : a.bits.testBit 14 = a.override := by
  obtain ⟨a1, a2, a3, a4, a5, a6, a7, a8, a9⟩ := a
  rw [Nat.testBit_eq_decide_div_mod_eq, Bool.eq_iff_iff, decide_eq_true_iff, ← toNat_one]
  have h := fun b : Bool => Bool.toNat_le b
  have := h a1; have := h a2; have := h a3; have := h a4; have := h a5; have := h a6
  have := h a7; have := h a8; have := h a9
  unfold Attr.bits; simp only; omega

/-- What the counters depend on, per tag. -/
structure SameFlags (t t' : Tag) : Prop where
  name : t'.name.isSome = t.name.isSome
  ovr : t'.attr.override = t.attr.override
  set : t'.attr.ovrSet = t.attr.ovrSet
  maps : t'.maps = t.maps
  wild : t'.wildMaps = t.wildMaps

/-- Nothing of what the counters depend on has changed. -/
structure Tally (s s' : Server) : Prop where
  len : s'.db.length = s.db.length
  inst : s'.ovrInstalled = s.ovrInstalled
  set : s'.ovrSet = s.ovrSet
  env : s'.env = s.env
  tag : ∀ (i : Nat) (t : Tag), s.db[i]? = some t → ∃ t', s'.db[i]? = some t' ∧ SameFlags t t'

theorem Tally.refl (s : Server) : Tally s s := ⟨rfl, rfl, rfl, rfl, fun _ t h => ⟨t, h, rfl, rfl, rfl, rfl, rfl⟩⟩

theorem Tally.trans {a b c : Server} (h1 : Tally a b) (h2 : Tally b c) : Tally a c :=
  ⟨h2.len.trans h1.len, h2.inst.trans h1.inst, h2.set.trans h1.set, h2.env.trans h1.env, fun i t ht => by
    obtain ⟨t1, e1, f1⟩ := h1.tag i t ht
    obtain ⟨t2, e2, f2⟩ := h2.tag i t1 e1
    exact ⟨t2, e2, f2.name.trans f1.name, f2.ovr.trans f1.ovr, f2.set.trans f1.set, f2.maps.trans f1.maps,
      f2.wild.trans f1.wild⟩⟩

theorem tally_set {s s' : Server} {i : Nat} {t t' : Tag} (ht : s.db[i]? = some t) (hf : SameFlags t t')
    (h : s'.db = s.db.set i t') (h1 : s'.ovrInstalled = s.ovrInstalled) (h2 : s'.ovrSet = s.ovrSet)
    (h3 : s'.env = s.env) : Tally s s' := by
  refine ⟨by rw [h]; simp, h1, h2, h3, fun j u hu => ?_⟩
  by_cases hij : i = j
  · subst hij
    rw [ht] at hu; cases hu
    exact ⟨t', by rw [h, List.getElem?_set_self (List.getElem?_eq_some_iff.mp ht).1], hf⟩
  · exact ⟨u, by rw [h, List.getElem?_set_ne hij]; exact hu, rfl, rfl, rfl, rfl, rfl⟩

theorem tagWrite_tally {s s' : Server} {fd idx off r : Int} {d : List Byte}
    (h : tagWrite s fd idx off d = .ok (s', r)) : Tally s s' := by
  rcases tagWrite_inv h with ⟨rfl, -⟩ | ⟨-, hd⟩ | ⟨-, hd⟩
  · exact .refl _
  · obtain ⟨t, b, b', evs, ns, rt, ht, -, -, -, -, rfl⟩ := hd.ex
    exact tally_set (tag?_eq.mp ht).2 (t' := { t with data := .mem b', events := evs }) ⟨rfl, rfl, rfl, rfl, rfl⟩ rfl rfl rfl rfl
  · obtain ⟨t, q, q', evs, ns, ht, -, -, -, -, rfl⟩ := hd
    exact tally_set (tag?_eq.mp ht).2 (t' := { t with data := .queue q', events := evs }) ⟨rfl, rfl, rfl, rfl, rfl⟩ rfl rfl rfl rfl

theorem statusWrite_tally {s s' : Server} {k : Int} {v : Int} (h : statusWrite s k v = .ok s') : Tally s s' := by
  unfold statusWrite at h
  split at h
  · simp only [C.ok.injEq] at h; subst h; exact .refl _
  · split at h
    · simp only [C.ok.injEq] at h; subst h; exact .refl _
    · obtain ⟨⟨s1, r1⟩, h1, h⟩ := C.bind_eq_ok.mp h
      simp only [C.ok.injEq] at h; subst h; exact tagWrite_tally h1

theorem attrAfter_flags (x : Attr) (a : Nat) :
    (attrAfter x a).override = x.override ∧ (attrAfter x a).ovrSet = x.ovrSet := by
  unfold attrAfter; split <;> (try split) <;> (try split) <;> exact ⟨rfl, rfl⟩

theorem setAttribute_tally {s s' : Server} {i a : Nat} (h : setAttribute s i a = .ok s') : Tally s s' := by
  obtain ⟨t, p, rt, ht, rfl⟩ := setAttribute_inv h
  exact tally_set ht (t' := { t with attr := attrAfter t.attr a, retPtr := p })
    ⟨rfl, (attrAfter_flags _ _).1, (attrAfter_flags _ _).2, rfl, rfl⟩ rfl rfl rfl rfl

/-- Tags counted in `_overrides_installed` and `_overrides_set`. -/
def Tag.inst (t : Tag) : Bool := t.name.isSome && t.attr.override
def Tag.force (t : Tag) : Bool := t.name.isSome && t.attr.ovrSet

structure OvrTally (s : Server) : Prop where
  inst : s.ovrInstalled = s.db.countP Tag.inst
  set : s.ovrSet = s.db.countP Tag.force
  maps : RepNoMaps s
  ja : s.env.junkAttr.override = false
  js : s.env.junkAttr.ovrSet = false
  jm : s.env.junkMaps = false

theorem Tally.count {s s' : Server} (h : Tally s s') :
    s'.db.countP Tag.inst = s.db.countP Tag.inst ∧ s'.db.countP Tag.force = s.db.countP Tag.force := by
  constructor
  · refine countP_congr_get h.len fun i t ht => ?_
    obtain ⟨t', ht', f⟩ := h.tag i t ht
    exact ⟨t', ht', by unfold Tag.inst; rw [f.name, f.ovr]⟩
  · refine countP_congr_get h.len fun i t ht => ?_
    obtain ⟨t', ht', f⟩ := h.tag i t ht
    exact ⟨t', ht', by unfold Tag.force; rw [f.name, f.set]⟩

theorem Tally.noMaps {s s' : Server} (h : Tally s s') (hw : WF s) (hw' : WF s') (hm : RepNoMaps s) : RepNoMaps s' := by
  intro i t' ht' hf
  have hi := (List.getElem?_eq_some_iff.mp ht').1
  rw [h.len] at hi
  obtain ⟨u, hu, f⟩ := h.tag i _ (List.getElem?_eq_getElem hi)
  rw [ht'] at hu; cases hu
  have := hm i _ (List.getElem?_eq_getElem hi) (fun hf' => hf ?_)
  · rw [f.wild, f.maps]; exact this
  · refine (hw'.tag i t' ht').name.mp ?_
    have h1 := (hw.tag i _ (List.getElem?_eq_getElem hi)).name.mpr hf'
    have h2 := f.name
    rw [h1] at h2
    simpa using h2

theorem Tally.ovr {s s' : Server} (h : Tally s s') (hw : WF s) (hw' : WF s') (ho : OvrTally s) : OvrTally s' :=
  ⟨by rw [h.inst, h.count.1]; exact ho.inst, by rw [h.set, h.count.2]; exact ho.set, h.noMaps hw hw' ho.maps,
    by rw [h.env]; exact ho.ja, by rw [h.env]; exact ho.js, by rw [h.env]; exact ho.jm⟩

theorem countP_set {p : Tag → Bool} {db : List Tag} {i : Nat} {t t' : Tag} (ht : db[i]? = some t) :
    (db.set i t').countP p + (p t).toNat = db.countP p + (p t').toNat := by
  induction db generalizing i with
  | nil => simp at ht
  | cons a db ih =>
    cases i with
    | zero =>
      simp only [List.getElem?_cons_zero, Option.some.injEq] at ht
      subst ht
      simp only [List.set_cons_zero, List.countP_cons]
      cases p a <;> cases p t' <;> simp <;> omega
    | succ i =>
      have := ih (i := i) (by simpa using ht)
      simp only [List.set_cons_succ, List.countP_cons]
      omega

theorem tagAdd_ovrTally {s s' : Server} {fd : Int} {name : Name} {type count attr : Nat} {r : Int}
    (hw : WF s) (ho : OvrTally s) (h : tagAdd s fd name type count attr = .ok (s', r)) : OvrTally s' := by
  have hw' := (tagAdd_step hw h).wf
  rcases tagAdd_cases hw h with ⟨-, rfl | rfl⟩ | ⟨-, -, -, size, -, hcs⟩
  · exact ho
  · refine Tally.ovr ?_ hw hw' ho
    rcases growDb_eq s with e | ⟨-, e⟩ <;> rw [e]
    · exact .refl _
    · exact ⟨rfl, rfl, rfl, rfl, fun i t ht => ⟨t, ht, rfl, rfl, rfl, rfl, rfl⟩⟩
  have hg : Tally s (growDb s) := by
    rcases growDb_eq s with e | ⟨-, e⟩ <;> rw [e]
    · exact .refl _
    · exact ⟨rfl, rfl, rfl, rfl, fun i t ht => ⟨t, ht, rfl, rfl, rfl, rfl, rfl⟩⟩
  rcases hcs with ⟨n, hn, rfl, h⟩ | ⟨-, rfl, h⟩
  · obtain ⟨t, ht, -⟩ := hw.ent _ hn
    have ht' : (growDb s).db[n]? = some t := by rw [growDb_db]; exact ht
    refine Tally.ovr ?_ hw hw' ho
    rcases tagAddOld_inv ht' h with ⟨rfl, -⟩ | ⟨-, -, -, ⟨-, h1⟩ | ⟨-, d, s2, x, -, h1, h2⟩⟩
    · exact hg
    · exact hg.trans (setAttribute_tally h1)
    · refine hg.trans (Tally.trans ?_ (tagWrite_tally h2))
      refine Tally.trans ?_ (setAttribute_tally h1)
      exact tally_set ht' (t' := { t with data := d, count := u32 count }) ⟨rfl, rfl, rfl, rfl, rfl⟩ rfl rfl rfl rfl
  · unfold tagAddNew at h
    dsimp only at h
    split at h
    · simp at h
    obtain ⟨ix, -, h⟩ := C.bind_eq_ok.mp h
    obtain ⟨tbl, -, h⟩ := C.bind_eq_ok.mp h
    obtain ⟨s1, h1, h⟩ := C.bind_eq_ok.mp h
    obtain ⟨s2, h2, h⟩ := C.bind_eq_ok.mp h
    obtain ⟨s3, h3, h⟩ := C.bind_eq_ok.mp h
    obtain ⟨⟨s4, r4⟩, h4, h⟩ := C.bind_eq_ok.mp h
    simp only [C.ok.injEq, Prod.mk.injEq] at h
    obtain ⟨rfl, -⟩ := h
    have a : Tally s s1 := by
      refine hg.trans (Tally.trans (b := { growDb s with index := ix, cdts := tbl }) ?_ (statusWrite_tally h1))
      exact ⟨rfl, rfl, rfl, rfl, fun i t ht => ⟨t, ht, rfl, rfl, rfl, rfl, rfl⟩⟩
    have b := ((statusWrite_tally h2).trans (setAttribute_tally h3)).trans (tagWrite_tally h4)
    generalize hnt : newTag s1.env (growDb s).db.length fd name type (u32 count) size = nt at *
    have f1 : nt.attr.override = false := by
      rw [← hnt]; unfold newTag; dsimp only
      rw [a.env]
      split <;> split <;> first | rfl | exact ho.ja
    have f2 : nt.attr.ovrSet = false := by
      rw [← hnt]; unfold newTag; dsimp only
      rw [a.env]
      split <;> split <;> first | rfl | exact ho.js
    have f3 : nt.wildMaps = false ∧ nt.maps = [] := by
      rw [← hnt]; unfold newTag; dsimp only
      rw [a.env]
      refine ⟨?_, rfl⟩
      split
      · rfl
      · exact ho.jm
    have ei : Tag.inst nt = false := by unfold Tag.inst; simp [f1]
    have es : Tag.force nt = false := by unfold Tag.force; simp [f2]
    refine ⟨?_, ?_, ?_, ?_, ?_, ?_⟩
    · rw [b.inst, b.count.1]
      simp only [List.countP_append, List.countP_singleton, ei]
      rw [a.count.1]
      show s1.ovrInstalled = _
      rw [a.inst]; simpa using ho.inst
    · rw [b.set, b.count.2]
      simp only [List.countP_append, List.countP_singleton, es]
      rw [a.count.2]
      show s1.ovrSet = _
      rw [a.set]; simpa using ho.set
    · intro i t' ht' hf
      have hi := (List.getElem?_eq_some_iff.mp ht').1
      rw [b.len] at hi
      obtain ⟨u, hu, f⟩ := b.tag i _ (List.getElem?_eq_getElem hi)
      rw [ht'] at hu; cases hu
      simp only [List.length_append, List.length_singleton] at hi
      rw [f.wild, f.maps]
      by_cases hlt : i < s1.db.length
      · simp only [List.getElem_append_left hlt] at f ⊢
        rw [a.len] at hlt
        obtain ⟨u, hu, f'⟩ := a.tag i _ (List.getElem?_eq_getElem hlt)
        have e : s1.db[i]'(by rw [a.len]; exact hlt) = u := by
          have := (List.getElem?_eq_some_iff.mp hu).2; exact this
        simp only [e] at f ⊢
        have := ho.maps i _ (List.getElem?_eq_getElem hlt) (fun hf' => hf ?_)
        · rw [f'.wild, f'.maps]; exact this
        · refine (hw'.tag i t' ht').name.mp ?_
          have g1 := (hw.tag i _ (List.getElem?_eq_getElem hlt)).name.mpr hf'
          have g2 := f.name.trans f'.name
          rw [g1] at g2
          simpa using g2
      · have hi' : i = s1.db.length := by omega
        subst hi'
        simp only [List.getElem_append_right (Nat.le_refl _), Nat.sub_self, List.getElem_cons_zero]
        exact f3
    · rw [b.env]; show s1.env.junkAttr.override = _; rw [a.env]; exact ho.ja
    · rw [b.env]; show s1.env.junkAttr.ovrSet = _; rw [a.env]; exact ho.js
    · rw [b.env]; show s1.env.junkMaps = _; rw [a.env]; exact ho.jm

theorem tagAdd_ctr {s s' : Server} {fd : Int} {name : Name} {type count attr : Nat} {r : Int}
    (hw : WF s) (h : tagAdd s fd name type count attr = .ok (s', r)) :
    s'.ovrInstalled = s.ovrInstalled ∧ s'.ovrSet = s.ovrSet := by
  have hg : (growDb s).ovrInstalled = s.ovrInstalled ∧ (growDb s).ovrSet = s.ovrSet := by
    rcases growDb_eq s with e | ⟨-, e⟩ <;> rw [e] <;> exact ⟨rfl, rfl⟩
  rcases tagAdd_cases hw h with ⟨-, rfl | rfl⟩ | ⟨-, -, -, size, -, hcs⟩
  · exact ⟨rfl, rfl⟩
  · exact hg
  rcases hcs with ⟨n, hnn, rfl, h⟩ | ⟨-, rfl, h⟩
  · obtain ⟨t, ht, -⟩ := hw.ent _ hnn
    have ht' : (growDb s).db[n]? = some t := by rw [growDb_db]; exact ht
    rcases tagAddOld_inv ht' h with ⟨rfl, -⟩ | ⟨-, -, -, ⟨-, h1⟩ | ⟨-, d, s2, x, -, h1, h2⟩⟩
    · exact hg
    · have := setAttribute_tally h1
      exact ⟨this.inst.trans hg.1, this.set.trans hg.2⟩
    · have := (setAttribute_tally h1).trans (tagWrite_tally h2)
      exact ⟨this.inst.trans hg.1, this.set.trans hg.2⟩
  · unfold tagAddNew at h
    dsimp only at h
    split at h
    · simp at h
    obtain ⟨ix, -, h⟩ := C.bind_eq_ok.mp h
    obtain ⟨tbl, -, h⟩ := C.bind_eq_ok.mp h
    obtain ⟨s1, h1, h⟩ := C.bind_eq_ok.mp h
    obtain ⟨s2, h2', h⟩ := C.bind_eq_ok.mp h
    obtain ⟨s3, h3, h⟩ := C.bind_eq_ok.mp h
    obtain ⟨⟨s4, r4⟩, h4, h⟩ := C.bind_eq_ok.mp h
    simp only [C.ok.injEq, Prod.mk.injEq] at h
    obtain ⟨rfl, -⟩ := h
    have a := statusWrite_tally h1
    have b := ((statusWrite_tally h2').trans (setAttribute_tally h3)).trans (tagWrite_tally h4)
    exact ⟨(b.inst.trans a.inst).trans hg.1, (b.set.trans a.set).trans hg.2⟩

structure OvrInv (s : Server) : Prop where
  tally : OvrTally s
  inst : ∃ t, Cell s 7 (nm "_overrides_installed") s.ovrInstalled t
  set : ∃ t, Cell s 8 (nm "_overrides_set") s.ovrSet t

theorem dataOnly_tally {s s' : Server} (h : DataOnly s s') (hl : s'.db.length = s.db.length)
    (h1 : s'.ovrInstalled = s.ovrInstalled) (h2 : s'.ovrSet = s.ovrSet) (h3 : s'.env = s.env) : Tally s s' :=
  ⟨hl, h1, h2, h3, fun i t ht => by
    obtain ⟨d, evs, e⟩ := h i t ht
    exact ⟨_, e, rfl, rfl, rfl, rfl, rfl⟩⟩

theorem data_counters {s s' : Server} {fd : Int} {q : Req} {r : Reply} (hq : q.isData) (hm : RepNoMaps s)
    (hh : handle s fd q = .ok (s', r)) : s'.ovrInstalled = s.ovrInstalled ∧ s'.ovrSet = s.ovrSet := by
  cases q with
  | tagRead idx off n =>
    obtain ⟨x, hx⟩ := read_state hh
    rcases tagRead_inv hx with rfl | ⟨t, q, q', b, ht, hv, hq, -, rfl, -⟩ <;> exact ⟨rfl, rfl⟩
  | tagWrite idx off d =>
    by_cases h0 : 0 ≤ idx
    · obtain ⟨i, rfl⟩ := Int.eq_ofNat_of_zero_le h0
      rcases write_inv (hm i) hh with ⟨rfl, e, rfl⟩ | ⟨rfl, hd | hd⟩
      · exact ⟨rfl, rfl⟩
      · obtain ⟨t, b, b', evs, ns, rt, ht, -, -, -, -, rfl⟩ := hd.ex
        exact ⟨rfl, rfl⟩
      · obtain ⟨t, q, q', evs, ns, ht, -, -, -, -, rfl⟩ := hd
        exact ⟨rfl, rfl⟩
    · simp only [handle, hTagWrite, roForeign, rawAttr] at hh
      rw [if_pos (.inl (by omega))] at hh
      simp at hh
  | tagMWrite idx off d m =>
    by_cases h0 : 0 ≤ idx
    · obtain ⟨i, rfl⟩ := Int.eq_ofNat_of_zero_le h0
      rcases mwrite_inv (hm i) hh with ⟨rfl, e, rfl⟩ | ⟨rfl, t0, b0, old, ht0, hb0, hold, hd⟩
      · exact ⟨rfl, rfl⟩
      · obtain ⟨t, b, b', evs, ns, rt, ht, -, -, -, -, rfl⟩ := hd.ex
        exact ⟨rfl, rfl⟩
    · simp only [handle, hTagMWrite, rawAttr] at hh
      rw [if_pos (.inl (by omega))] at hh
      simp at hh
  | _ => simp [Req.isData] at hq

theorem ovrInv_data {s s' : Server} {fd : Int} {q : Req} {r : Reply} (hR : Reachable s) (hi : OvrInv s)
    (hq : q.isData) (hh : handle s fd q = .ok (s', r)) : OvrInv s' := by
  have hw := hR.wf
  have hw' := (handle_step hw hh).wf
  have hqt : q.quiet := by cases q <;> simp only [Req.isData] at hq <;> trivial
  have hmild : q.mild = true := by cases q <;> simp only [Req.isData] at hq <;> rfl
  have hQ := handle_quiet hqt hh
  obtain ⟨c1, c2⟩ := data_counters hq hi.tally.maps hh
  have hd := data_only hq hi.tally.maps hh
  have cell : ∀ (k : Nat) (n : Name) (v : Int), (∃ t, Cell s k n v t) → ∃ t, Cell s' k n v t := by
    rintro k n v ⟨t, c⟩
    refine c.reads (ro_step hR hmild c.db c.ro c.virt (by rw [c.owned]; simp) (hR.mapsOK.2 k t c.db c.ro c.owned) hh) ?_
    intro t' ht'
    obtain ⟨d, evs, e⟩ := hd k t c.db
    rw [ht'] at e; cases e; exact c.ro
  refine ⟨(dataOnly_tally hd hQ.len c1 c2 hQ.env).ovr hw hw' hi.tally, ?_, ?_⟩
  · rw [c1]; exact cell _ _ _ hi.inst
  · rw [c2]; exact cell _ _ _ hi.set

theorem RepNoMaps.same {s s' : Server} (hw : WF s) (hw' : WF s') (hm : RepNoMaps s) (hs : SameMaps s s')
    (hname : ∀ (i : Nat) (t t' : Tag), s.db[i]? = some t → s'.db[i]? = some t' → t'.name = t.name) : RepNoMaps s' := by
  intro i t' ht' hf
  obtain ⟨t, ht, e1, e2⟩ := hs i t' ht'
  have := hm i t ht (fun hf' => hf ?_)
  · rw [e1, e2]; exact this
  · exact (hw'.tag i t' ht').name.mp (by rw [hname i t t' ht ht']; exact (hw.tag i t ht).name.mpr hf')

theorem ovrInv_add {s s' : Server} {fd off : Int} {idx : Int} {d m : List Byte} {r : Reply} (hR : Reachable s)
    (hi : OvrInv s) (h7 : idx.toNat ≠ 7) (h8 : idx.toNat ≠ 8)
    (hh : handle s fd (.ovrAdd idx off d m) = .ok (s', r)) : OvrInv s' := by
  have hw := hR.wf
  have hw' := (handle_step hw hh).wf
  simp only [handle] at hh
  obtain ⟨⟨s1, r1⟩, h1, hh⟩ := C.bind_eq_ok.mp hh
  simp only [C.ok.injEq, Prod.mk.injEq] at hh
  obtain ⟨rfl, -⟩ := hh
  have hq := overrideAdd_quiet h1
  obtain ⟨t7, c7⟩ := hi.inst
  obtain ⟨t8, c8⟩ := hi.set
  have hname : ∀ (i : Nat) (t t' : Tag), s.db[i]? = some t → s1.db[i]? = some t' → t'.name = t.name := by
    intro i t t' ht ht'
    obtain ⟨u, hu, sh, -⟩ := hq.tag i t ht
    rw [ht'] at hu; cases hu; exact sh.name
  rcases overrideAdd_inv h1 with ⟨rfl, -⟩ | ⟨t, ht, hf, ⟨-, hd⟩ | ⟨-, n, od, om, -, -, -, rfl⟩⟩
  · exact hi
  · have hlive : t.name.isSome = true := by
      cases hn : t.name with
      | some n => rfl
      | none => exact absurd ((hw.tag _ t (tag?_eq.mp ht).2).name.mp hn) hf
    have hm' := hi.tally.maps.same hw hw' (hd.maps ht) hname
    obtain ⟨n, od, om, od', om', s3, t3, -, -, -, -, -, h6, h3, rfl⟩ := hd.ex
    have hidx := (tag?_eq.mp ht).2
    have a : Tally s (s.setTag idx { t with ovr := some (od', om') }) :=
      tally_set hidx (t' := { t with ovr := some (od', om') }) ⟨rfl, rfl, rfl, rfl, rfl⟩ rfl rfl rfl rfl
    have hidx3 := (tag?_eq.mp h3).2
    have e8 : (s3.setTag idx { t3 with attr := { t3.attr with override := true } }).db[8]? = s.db[8]? :=
      hq.same (by rintro (h | h) <;> omega)
    have e7 : (s3.setTag idx { t3 with attr := { t3.attr with override := true } }).db[7]? = s3.db[7]? :=
      List.getElem?_set_ne h7
    rcases h6 with ⟨hov, rfl⟩ | ⟨hov, h6⟩
    · have e3 : t3 = { t with ovr := some (od', om') } := by
        rw [setTag_get ht] at hidx3; cases hidx3; rfl
      have b := a.trans (tally_set hidx3 (t' := { t3 with attr := { t3.attr with override := true } })
        (s' := (s.setTag idx { t with ovr := some (od', om') }).setTag idx { t3 with attr := { t3.attr with override := true } })
        ⟨rfl, by rw [e3]; exact hov.symm, rfl, rfl, rfl⟩ rfl rfl rfl rfl)
      refine ⟨b.ovr hw hw' hi.tally, ⟨t7, ?_⟩, ⟨t8, c8.same e8⟩⟩
      refine c7.same (e7.trans ?_)
      exact List.getElem?_set_ne h7
    · have b := statusWrite_tally h6
      have c : s3.db.countP Tag.inst = s.db.countP Tag.inst ∧ s3.db.countP Tag.force = s.db.countP Tag.force :=
        ⟨b.count.1.trans a.count.1, b.count.2.trans a.count.2⟩
      have f3 : SameFlags t t3 := by
        obtain ⟨u, hu, f⟩ := a.tag _ _ hidx
        obtain ⟨v, hv, g⟩ := b.tag _ _ hu
        rw [hidx3] at hv; cases hv
        exact ⟨g.name.trans f.name, g.ovr.trans f.ovr, g.set.trans f.set, g.maps.trans f.maps, g.wild.trans f.wild⟩
      have k1 := countP_set (p := Tag.inst) (t' := { t3 with attr := { t3.attr with override := true } }) hidx3
      have k2 := countP_set (p := Tag.force) (t' := { t3 with attr := { t3.attr with override := true } }) hidx3
      have v1 : Tag.inst t3 = false := by unfold Tag.inst; rw [f3.ovr, hov]; simp
      have v2 : Tag.inst { t3 with attr := { t3.attr with override := true } } = true := by
        unfold Tag.inst; simp only; rw [f3.name, hlive]; rfl
      have v3 : Tag.force { t3 with attr := { t3.attr with override := true } } = Tag.force t3 := rfl
      rw [v1, v2, c.1] at k1
      rw [v3, c.2] at k2
      simp only [Bool.toNat_false, Bool.toNat_true] at k1
      refine ⟨⟨?_, ?_, hm', ?_, ?_, ?_⟩, ?_, ⟨t8, ?_⟩⟩
      · show s3.ovrInstalled = ((s3.db.set idx.toNat _).countP Tag.inst : Nat)
        rw [b.inst]
        show s.ovrInstalled + 1 = _
        rw [hi.tally.inst]; dsimp only at k1 k2 ⊢; omega
      · show s3.ovrSet = ((s3.db.set idx.toNat _).countP Tag.force : Nat)
        rw [b.set]
        show s.ovrSet = _
        rw [hi.tally.set]; dsimp only at k1 k2 ⊢; omega
      · show s3.env.junkAttr.override = _; rw [b.env]; exact hi.tally.ja
      · show s3.env.junkAttr.ovrSet = _; rw [b.env]; exact hi.tally.js
      · show s3.env.junkMaps = _; rw [b.env]; exact hi.tally.jm
      · have c7' : Cell { s.setTag idx { t with ovr := some (od', om') } with
            ovrInstalled := s.ovrInstalled + 1 } 7 (nm "_overrides_installed") s.ovrInstalled t7 :=
          c7.same (List.getElem?_set_ne h7)
        obtain ⟨u, hu⟩ := c7'.write h6
        refine ⟨u, ?_⟩
        have : (s3.setTag idx { t3 with attr := { t3.attr with override := true } }).ovrInstalled = s.ovrInstalled + 1 :=
          b.inst
        rw [this]
        exact hu.same e7
      · have : (s3.setTag idx { t3 with attr := { t3.attr with override := true } }).ovrSet = s.ovrSet := b.set
        rw [this]
        exact c8.same e8
  · have a : Tally s (s.setTag idx { t with ovr := some (od, om) }) :=
      tally_set (tag?_eq.mp ht).2 (t' := { t with ovr := some (od, om) }) ⟨rfl, rfl, rfl, rfl, rfl⟩ rfl rfl rfl rfl
    exact ⟨a.ovr hw hw' hi.tally, ⟨t7, c7.same (List.getElem?_set_ne h7)⟩, ⟨t8, c8.same (List.getElem?_set_ne h8)⟩⟩

theorem ovrInv_set {s s' : Server} {fd : Int} {idx : Int} {f : Bool} {r : Reply} (hR : Reachable s)
    (hi : OvrInv s) (h7 : idx.toNat ≠ 7) (h8 : idx.toNat ≠ 8)
    (hh : handle s fd (.ovrSet idx f) = .ok (s', r)) : OvrInv s' := by
  have hw := hR.wf
  have hw' := (handle_step hw hh).wf
  simp only [handle] at hh
  obtain ⟨⟨s1, r1⟩, h1, hh⟩ := C.bind_eq_ok.mp hh
  simp only [C.ok.injEq, Prod.mk.injEq] at hh
  obtain ⟨rfl, -⟩ := hh
  have hq := overrideSet_quiet h1
  obtain ⟨t7, c7⟩ := hi.inst
  obtain ⟨t8, c8⟩ := hi.set
  have hname : ∀ (i : Nat) (t t' : Tag), s.db[i]? = some t → s1.db[i]? = some t' → t'.name = t.name := by
    intro i t t' ht ht'
    obtain ⟨u, hu, sh, -⟩ := hq.tag i t ht
    rw [ht'] at hu; cases hu; exact sh.name
  rcases overrideSet_inv h1 with ⟨rfl, -⟩ | ⟨t, s3, t3, -, ht, hf, hno, -, hst, h3, hs1⟩
  · exact hi
  have hlive : t.name.isSome = true := by
    cases hn : t.name with
    | some n => rfl
    | none => exact absurd ((hw.tag _ t (tag?_eq.mp ht).2).name.mp hn) hf
  have hmaps : SameMaps s s1 := by
    rw [hs1]
    refine SameMaps.trans (b := s3) ?_
      (sameMaps_set h3 (t' := { t3 with attr := { t3.attr with ovrSet := f } }) rfl rfl rfl)
    exact (statusWrite_maps hst :)
  have hm' := hi.tally.maps.same hw hw' hmaps hname
  have b := statusWrite_tally hst
  have hidx3 := (tag?_eq.mp h3).2
  have f3 : SameFlags t t3 := by
    obtain ⟨v, hv, g⟩ := b.tag _ _ (tag?_eq.mp ht).2
    rw [hidx3] at hv; cases hv; exact g
  have k1 := countP_set (p := Tag.inst) (t' := { t3 with attr := { t3.attr with ovrSet := f } }) hidx3
  have k2 := countP_set (p := Tag.force) (t' := { t3 with attr := { t3.attr with ovrSet := f } }) hidx3
  have v1 : Tag.force t3 = !f := by unfold Tag.force; rw [f3.set, hno, f3.name, hlive]; simp
  have v2 : Tag.force { t3 with attr := { t3.attr with ovrSet := f } } = f := by
    unfold Tag.force; simp only; rw [f3.name, hlive]; simp
  have v3 : Tag.inst { t3 with attr := { t3.attr with ovrSet := f } } = Tag.inst t3 := rfl
  have c1 := b.count.1
  have c2 := b.count.2
  rw [v1, v2, c2] at k2
  rw [v3, c1] at k1
  have w1 : s1.ovrInstalled = s.ovrInstalled := by rw [hs1]; exact b.inst
  have w2 : s1.ovrSet = s.ovrSet + (if f then 1 else -1) := by rw [hs1]; exact b.set
  have wd : s1.db = s3.db.set idx.toNat { t3 with attr := { t3.attr with ovrSet := f } } := by rw [hs1]; rfl
  have we : s1.env = s.env := by rw [hs1]; exact b.env
  dsimp only at k1 k2
  refine ⟨⟨?_, ?_, hm', by rw [we]; exact hi.tally.ja, by rw [we]; exact hi.tally.js, by rw [we]; exact hi.tally.jm⟩,
    ⟨t7, ?_⟩, ?_⟩
  · rw [w1, wd, hi.tally.inst]; dsimp only; omega
  · rw [w2, wd, hi.tally.set]
    dsimp only
    cases f <;> simp only [Bool.not_true, Bool.not_false, Bool.toNat_true, Bool.toNat_false, if_true, Bool.false_eq_true, if_false] at k2 ⊢ <;> omega
  · rw [w1]; exact c7.same (hq.same (by rintro (h | h) <;> omega))
  · have c8' : Cell { s with ovrSet := s.ovrSet + (if f then 1 else -1) } 8 (nm "_overrides_set") s.ovrSet t8 :=
      c8.same rfl
    obtain ⟨u, hu⟩ := c8'.write hst
    refine ⟨u, ?_⟩
    rw [w2]
    exact hu.same (by rw [wd]; exact List.getElem?_set_ne h8)

theorem tagAdd_cell {s s' : Server} {fd : Int} {name : Name} {type count attr : Nat} {r : Int} {k : Nat}
    (hw : WF s) (h2 : 2 < k) (hk : k < s.db.length) (hn : ⟨name, k⟩ ∉ s.index)
    (h : tagAdd s fd name type count attr = .ok (s', r)) : s'.db[k]? = s.db[k]? := by
  rcases tagAdd_cases hw h with ⟨-, rfl | rfl⟩ | ⟨-, -, -, size, -, hcs⟩
  · rfl
  · rw [growDb_db]
  rcases hcs with ⟨n, hnn, rfl, h⟩ | ⟨-, rfl, h⟩
  · obtain ⟨t, ht, -⟩ := hw.ent _ hnn
    have ht' : (growDb s).db[n]? = some t := by rw [growDb_db]; exact ht
    have hne : n ≠ k := by rintro rfl; exact hn hnn
    rcases tagAddOld_inv ht' h with ⟨rfl, -⟩ | ⟨-, -, -, ⟨-, h1⟩ | ⟨-, d, s2, x, -, h1, h2⟩⟩
    · rw [growDb_db]
    · obtain ⟨u, p, rt, -, rfl⟩ := setAttribute_inv h1
      show ((growDb s).db.set n _)[k]? = _
      rw [List.getElem?_set_ne hne, growDb_db]
    · rw [(tagWrite_quiet h2).same (by show ¬ (k = 2); omega)]
      obtain ⟨u, p, rt, -, rfl⟩ := setAttribute_inv h1
      show (((growDb s).db.set n _).set n _)[k]? = _
      rw [List.getElem?_set_ne hne, List.getElem?_set_ne hne, growDb_db]
  · unfold tagAddNew at h
    dsimp only at h
    split at h
    · simp at h
    obtain ⟨ix, -, h⟩ := C.bind_eq_ok.mp h
    obtain ⟨tbl, -, h⟩ := C.bind_eq_ok.mp h
    obtain ⟨s1, h1, h⟩ := C.bind_eq_ok.mp h
    obtain ⟨s2, h2', h⟩ := C.bind_eq_ok.mp h
    obtain ⟨s3, h3, h⟩ := C.bind_eq_ok.mp h
    obtain ⟨⟨s4, r4⟩, h4, h⟩ := C.bind_eq_ok.mp h
    simp only [C.ok.injEq, Prod.mk.injEq] at h
    obtain ⟨rfl, -⟩ := h
    have l1 : s1.db.length = s.db.length := by
      rw [(statusWrite_quiet h1).len]; show (growDb s).db.length = _; rw [growDb_db]
    rw [(tagWrite_quiet h4).same (by show ¬ (k = 2); omega)]
    obtain ⟨u, p, rt, -, rfl⟩ := setAttribute_inv h3
    show (s2.db.set _ _)[k]? = _
    rw [List.getElem?_set_ne (by rw [growDb_db]; omega), (statusWrite_quiet h2').same (by show ¬ (k = 0); omega)]
    show (s1.db ++ _)[k]? = _
    rw [List.getElem?_append_left (by omega), (statusWrite_quiet h1).same (by show ¬ (k = 1); omega)]
    show (growDb s).db[k]? = _
    rw [growDb_db]

theorem ovrInv_tagAdd {s s' : Server} {fd : Int} {type count attr : Nat} {name : Name} {r : Reply} (hR : Reachable s)
    (hi : OvrInv s) (hh : handle s fd (.tagAdd type count attr name) = .ok (s', r)) : OvrInv s' := by
  have hw := hR.wf
  have hw' := (handle_step hw hh).wf
  have hcount : s'.ovrInstalled = s.ovrInstalled ∧ s'.ovrSet = s.ovrSet ∧ s'.db[7]? = s.db[7]? ∧ s'.db[8]? = s.db[8]? ∧
      OvrTally s' := by
    have hg : Tally s (growDb s) := by
      rcases growDb_eq s with e | ⟨-, e⟩ <;> rw [e]
      · exact .refl _
      · exact ⟨rfl, rfl, rfl, rfl, fun i t ht => ⟨t, ht, rfl, rfl, rfl, rfl, rfl⟩⟩
    rcases addReq_cases hw hh with ⟨e, -, rfl | rfl⟩ | ⟨hu, n, hlt, -, h1, -⟩
    · exact ⟨rfl, rfl, rfl, rfl, hi.tally⟩
    · exact ⟨hg.inst, hg.set, by rw [growDb_db], by rw [growDb_db], hg.ovr hw hw' hi.tally⟩
    · have ht := tagAdd_ovrTally hw hi.tally h1
      obtain ⟨t7, c7⟩ := hi.inst
      obtain ⟨t8, c8⟩ := hi.set
      have nin : ∀ k : Nat, k < 11 → ⟨name, k⟩ ∉ s.index := by
        intro k hk hm
        obtain ⟨t, ht, htn⟩ := hw.ent _ hm
        have := hR.clientIdx ht htn hu
        dsimp only at this
        omega
      have e7 := tagAdd_cell hw (k := 7) (by omega) (List.getElem?_eq_some_iff.mp c7.db).1 (nin 7 (by omega)) h1
      have e8 := tagAdd_cell hw (k := 8) (by omega) (List.getElem?_eq_some_iff.mp c8.db).1 (nin 8 (by omega)) h1
      exact ⟨(tagAdd_ctr hw h1).1, (tagAdd_ctr hw h1).2, e7, e8, ht⟩
  obtain ⟨a1, a2, a3, a4, a5⟩ := hcount
  obtain ⟨t7, c7⟩ := hi.inst
  obtain ⟨t8, c8⟩ := hi.set
  exact ⟨a5, ⟨t7, by rw [a1]; exact c7.same a3⟩, ⟨t8, by rw [a2]; exact c8.same a4⟩⟩

theorem init_ovr (e : Env) : (initServer e >>= fun s => .ok
      ((s.db.drop 7).take 2 |>.map (fun t => (t.data, t.name, t.type, t.count, t.attr)),
        s.db.map (fun t => (t.attr.override, t.attr.ovrSet, t.maps, t.wildMaps)),
        s.ovrInstalled, s.ovrSet, s.env)) =
    .ok ([(.mem (le4 0), some (nm "_overrides_installed"), DAX_DINT, 1, { readonly := true }),
          (.mem (le4 0), some (nm "_overrides_set"), DAX_DINT, 1, { readonly := true })],
         List.replicate 11 (false, false, [], false), 0, 0, e) := by
  kernel_rfl

theorem init_ovrInv {e : Env} {s : Server} (h : initServer e = .ok s) (ja : e.junkAttr.override = false)
    (js : e.junkAttr.ovrSet = false) (jm : e.junkMaps = false) : OvrInv s := by
  have := init_ovr e
  rw [h] at this
  simp only [C.ok_bind, C.ok.injEq, Prod.mk.injEq] at this
  obtain ⟨h1, h2, h3, h4, h5⟩ := this
  have flags : ∀ (i : Nat) (t : Tag), s.db[i]? = some t →
      t.attr.override = false ∧ t.attr.ovrSet = false ∧ t.maps = [] ∧ t.wildMaps = false := by
    intro i t ht
    have h3 := congrArg (fun l => l[i]?) h2
    simp only [List.getElem?_map, ht, Option.map_some, List.getElem?_replicate] at h3
    split at h3
    · simp only [Option.some.injEq, Prod.mk.injEq] at h3; exact h3
    · simp at h3
  have cell : ∀ (k : Nat) (x : Store × Option Name × Nat × Nat × Attr),
      [(Store.mem (le4 0), some (nm "_overrides_installed"), DAX_DINT, 1, { readonly := true }),
          (.mem (le4 0), some (nm "_overrides_set"), DAX_DINT, 1, { readonly := true })][k]? = some x →
      ∃ t : Tag, s.db[7 + k]? = some t ∧ (t.data, t.name, t.type, t.count, t.attr) = x := by
    intro k x hx
    have h3 := congrArg (fun l => l[k]?) h1
    rw [hx] at h3
    have hk : k < 2 := by
      have := (List.getElem?_eq_some_iff.mp hx).1; simpa using this
    simp only [List.getElem?_map, List.getElem?_take, hk, if_true, List.getElem?_drop] at h3
    cases ht : s.db[7 + k]? with
    | none => rw [ht] at h3; simp at h3
    | some t => rw [ht] at h3; exact ⟨t, rfl, by simpa using h3⟩
  refine ⟨⟨?_, ?_, ?_, by rw [h5]; exact ja, by rw [h5]; exact js, by rw [h5]; exact jm⟩, ?_, ?_⟩
  · rw [h3]
    have : s.db.countP Tag.inst = 0 := by
      rw [List.countP_eq_zero]
      intro t ht
      obtain ⟨i, hi⟩ := List.getElem?_of_mem ht
      simp [Tag.inst, (flags i t hi).1]
    rw [this]; rfl
  · rw [h4]
    have : s.db.countP Tag.force = 0 := by
      rw [List.countP_eq_zero]
      intro t ht
      obtain ⟨i, hi⟩ := List.getElem?_of_mem ht
      simp [Tag.force, (flags i t hi).2.1]
    rw [this]; rfl
  · intro i t ht _
    exact ⟨(flags i t ht).2.2.2, (flags i t ht).2.2.1⟩
  · obtain ⟨t, ht, hx⟩ := cell 0 _ rfl
    simp only [Prod.mk.injEq] at hx
    obtain ⟨x1, x2, x3, x4, x5⟩ := hx
    refine ⟨t, ht, x2, x3, x4, ?_, ?_, ?_, ?_, ?_, by rw [x1, h3]⟩ <;> rw [x5]
  · obtain ⟨t, ht, hx⟩ := cell 1 _ rfl
    simp only [Prod.mk.injEq] at hx
    obtain ⟨x1, x2, x3, x4, x5⟩ := hx
    refine ⟨t, ht, x2, x3, x4, ?_, ?_, ?_, ?_, ?_, by rw [x1, h4]⟩ <;> rw [x5]

theorem ovrInv_run {qs : List (Int × Req)} : ∀ {s s' : Server} {rs : List Reply}, Reachable s → OvrInv s →
    (∀ q ∈ qs, q.2.isOvrAdd) → runR s qs = .ok (s', rs) → Reachable s' ∧ OvrInv s' := by
  induction qs with
  | nil =>
    intro s s' rs hR hi _ h
    simp only [runR, C.ok.injEq, Prod.mk.injEq] at h
    rw [← h.1]; exact ⟨hR, hi⟩
  | cons q qs ih =>
    intro s s' rs hR hi hq hr
    obtain ⟨fd, q⟩ := q
    simp only [runR] at hr
    obtain ⟨⟨s1, r1⟩, h1, hr⟩ := C.bind_eq_ok.mp hr
    obtain ⟨⟨s2, rs2⟩, h2, hr⟩ := C.bind_eq_ok.mp hr
    simp only [C.ok.injEq, Prod.mk.injEq] at hr
    obtain ⟨rfl, rfl⟩ := hr
    refine ih (hR.handle h1) ?_ (fun q hq' => hq q (List.mem_cons_of_mem _ hq')) h2
    have hq0 := hq (fd, q) List.mem_cons_self
    cases q with
    | ovrAdd i off d m => exact ovrInv_add hR hi hq0.1 hq0.2 h1
    | ovrSet i f => exact ovrInv_set hR hi hq0.1 hq0.2 h1
    | tagAdd ty c a n => exact ovrInv_tagAdd hR hi h1
    | _ => exact ovrInv_data hR hi (by exact hq0) h1

/-- The number `v` in a status tag. -/
theorem Cell.answer {s : Server} {k : Nat} {nk : Name} {t : Tag} {p : Tag → Bool} {l : List Nat}
    (hw : WF s) (c : Cell s k nk (s.db.countP p) t) (hl : l.length = s.db.countP p) (fd : Int) :
    Answers s fd (.tagRead k 0 4) (.resp (toLE 4 l.length)) := by
  refine ⟨s, ?_⟩
  have := c.read fd
  have hlt := hw.dblt
  have hle : s.db.countP p ≤ s.db.length := List.countP_le_length
  unfold le4 at this
  rw [u32_nat (by omega), ← hl] at this
  exact this

/-- **C15** (part): from a start of the server, over any sequence of creating tags, reading,
writing, installing overrides and switching them on and off, by any clients, the status tags 7
(`_overrides_installed`) and 8 (`_overrides_set`) hold the number of live tags with attribute
0x4000 (an override is installed) and 0x0008 (the override is in force).

Missing: histories with removals of overrides and deletions of tags, for which the statement is
false (`C15_tag_deleted`, `C15_removed_in_force`, `C15_removed_refused`), overrides of the two
status tags themselves, and histories with mappings.  The hypotheses on `e` say that the junk in
the tag array beyond the first 1024 entries (never initialised by the server) has these
attribute bits and the mapping pointer zero. -/
theorem C15_counters_partial {e : Env} {qs : List (Int × Req)} {s0 s : Server} {rs : List Reply}
    (h0 : startServer e none = .ok s0) (ja : e.junkAttr.override = false) (js : e.junkAttr.ovrSet = false)
    (jm : e.junkMaps = false) (hq : ∀ q ∈ qs, q.2.isOvrAdd) (hr : runR s0 qs = .ok (s, rs)) :
    (∃ l : List Nat, l.Nodup ∧ (∀ i, i ∈ l ↔ ∃ a, AttrAt s i a ∧ a.testBit 14) ∧
      ∀ fd, Answers s fd (.tagRead 7 0 4) (.resp (toLE 4 l.length))) ∧
    (∃ l : List Nat, l.Nodup ∧ (∀ i, i ∈ l ↔ ∃ a, AttrAt s i a ∧ a.testBit 3) ∧
      ∀ fd, Answers s fd (.tagRead 8 0 4) (.resp (toLE 4 l.length))) ∧
    lookup s (nm "_overrides_installed") = some 7 ∧ lookup s (nm "_overrides_set") = some 8 := by
  have hR0 : Reachable s0 := ⟨e, none, s0, [], h0, rfl⟩
  have hi0 : OvrInv s0 := by
    refine init_ovrInv (e := e) ?_ ja js jm
    unfold startServer at h0
    obtain ⟨s1, h1, h0⟩ := C.bind_eq_ok.mp h0
    simp only [C.ok.injEq] at h0; rw [← h0]; exact h1
  obtain ⟨hR, hi⟩ := ovrInv_run hR0 hi0 hq hr
  have hw := hR.wf
  obtain ⟨t7, c7⟩ := hi.inst
  obtain ⟨t8, c8⟩ := hi.set
  rw [hi.tally.inst] at c7
  rw [hi.tally.set] at c8
  refine ⟨?_, ?_, (lookup_mem hw).mpr (hw.named _ _ _ c7.db c7.name),
    (lookup_mem hw).mpr (hw.named _ _ _ c8.db c8.name)⟩
  · obtain ⟨l, h1, h2, h3⟩ := countP_positions Tag.inst s.db
    refine ⟨l, h1, fun i => ?_, c7.answer hw h3⟩
    rw [h2]
    constructor
    · rintro ⟨t, ht, hp⟩
      simp only [Tag.inst, Bool.and_eq_true] at hp
      exact ⟨_, (attrAt_iff hw).mpr ⟨t, ht, by intro h; rw [h] at hp; simp at hp, rfl⟩, by rw [Attr.bit14]; exact hp.2⟩
    · rintro ⟨a, ha, hb⟩
      obtain ⟨t, ht, hn, rfl⟩ := (attrAt_iff hw).mp ha
      rw [Attr.bit14] at hb
      exact ⟨t, ht, by simp only [Tag.inst, hb, Bool.and_true]; exact Option.isSome_iff_ne_none.mpr hn⟩
  · obtain ⟨l, h1, h2, h3⟩ := countP_positions Tag.force s.db
    refine ⟨l, h1, fun i => ?_, c8.answer hw h3⟩
    rw [h2]
    constructor
    · rintro ⟨t, ht, hp⟩
      simp only [Tag.force, Bool.and_eq_true] at hp
      exact ⟨_, (attrAt_iff hw).mpr ⟨t, ht, by intro h; rw [h] at hp; simp at hp, rfl⟩, by rw [Attr.bit3]; exact hp.2⟩
    · rintro ⟨a, ha, hb⟩
      obtain ⟨t, ht, hn, rfl⟩ := (attrAt_iff hw).mp ha
      rw [Attr.bit3] at hb
      exact ⟨t, ht, by simp only [Tag.force, hb, Bool.and_true]; exact Option.isSome_iff_ne_none.mpr hn⟩

/-- Two tags, both with an override, one of them in force. -/
def ctrDemo : List (Int × Req) :=
  [(5, .tagAdd DAX_INT 4 0 (nm "A")), (5, .tagAdd DAX_BYTE 2 0 (nm "B")), (5, .ovrAdd 11 0 [1, 2] [3, 4]),
   (6, .ovrAdd 12 1 [1] [1]), (6, .ovrSet 12 true), (5, .tagWrite 12 0 [7]), (6, .ovrSet 11 false)]

example : startServer {} none = .ok init0 ∧ (∀ q ∈ ctrDemo, q.2.isOvrAdd) ∧
    ∃ s rs, runR init0 ctrDemo = .ok (s, rs) ∧ replyOf (handle s 0 (.tagRead 7 0 4)) = some (.resp [2, 0, 0, 0]) ∧
      replyOf (handle s 0 (.tagRead 8 0 4)) = some (.resp [1, 0, 0, 0]) := by
  refine ⟨by unfold startServer; rw [init0_eq]; rfl, ?_, exists_runR (p := fun s =>
    replyOf (handle s 0 (.tagRead 7 0 4)) = some (.resp [2, 0, 0, 0]) ∧
      replyOf (handle s 0 (.tagRead 8 0 4)) = some (.resp [1, 0, 0, 0])) (by decide +kernel)⟩
  intro q hq
  simp only [ctrDemo, List.mem_cons, List.not_mem_nil, or_false] at hq
  rcases hq with rfl | rfl | rfl | rfl | rfl | rfl | rfl <;> simp [Req.isOvrAdd, Req.isData]

/-- The number of live tags among the first 16 with the given attribute bit. -/
def liveWith (s : Server) (bit : Nat) : Nat :=
  (List.range 16).countP fun i => match replyOf (handle s 0 (.tagGetIdx (i : Nat))) with
    | some (.resp d) => (leNat ((d.drop 12).take 2)).testBit bit
    | _ => false

/-- **C15 fails**: deleting a tag leaves both counters as they were. -/
theorem C15_tag_deleted : Reachable (demo demoOps) ∧
    ∃ s rs, runR (demo demoOps) [(5, .ovrAdd 13 0 [1] [1]), (5, .ovrSet 13 true), (5, .tagDel 13)] = .ok (s, rs) ∧
      rs = [.resp [], .resp [], .resp (le4 13)] ∧ liveWith s 14 = 0 ∧ liveWith s 3 = 0 ∧
      replyOf (handle s 0 (.tagRead 7 0 4)) = some (.resp [1, 0, 0, 0]) ∧
      replyOf (handle s 0 (.tagRead 8 0 4)) = some (.resp [1, 0, 0, 0]) :=
  ⟨demoOps_reachable, exists_run2 (p := fun s => liveWith s 14 = 0 ∧ liveWith s 3 = 0 ∧
      replyOf (handle s 0 (.tagRead 7 0 4)) = some (.resp [1, 0, 0, 0]) ∧
      replyOf (handle s 0 (.tagRead 8 0 4)) = some (.resp [1, 0, 0, 0])) (by decide +kernel) (fun _ h => h)⟩

/-- **C15 fails**: removing an override that is in force switches it off but `_overrides_set` stays. -/
theorem C15_removed_in_force : Reachable (demo demoOps) ∧
    ∃ s rs, runR (demo demoOps) [(5, .ovrAdd 13 0 [1] [1]), (5, .ovrSet 13 true), (5, .ovrDel 13 0 [0xFF])] = .ok (s, rs) ∧
      rs = [.resp [], .resp [], .resp []] ∧ liveWith s 14 = 0 ∧ liveWith s 3 = 0 ∧
      replyOf (handle s 0 (.tagRead 7 0 4)) = some (.resp [0, 0, 0, 0]) ∧
      replyOf (handle s 0 (.tagRead 8 0 4)) = some (.resp [1, 0, 0, 0]) :=
  ⟨demoOps_reachable, exists_run2 (p := fun s => liveWith s 14 = 0 ∧ liveWith s 3 = 0 ∧
      replyOf (handle s 0 (.tagRead 7 0 4)) = some (.resp [0, 0, 0, 0]) ∧
      replyOf (handle s 0 (.tagRead 8 0 4)) = some (.resp [1, 0, 0, 0])) (by decide +kernel) (fun _ h => h)⟩

/-- **C15 fails**: an install that was refused can be removed, and `_overrides_installed` becomes −1. -/
theorem C15_removed_refused : Reachable (demo demoOps) ∧
    ∃ s rs, runR (demo demoOps) [(5, .ovrAdd 13 8 [1] [1]), (5, .ovrDel 13 0 [0xFF])] = .ok (s, rs) ∧
      rs = [.err ERR_2BIG, .resp []] ∧ liveWith s 14 = 0 ∧
      replyOf (handle s 0 (.tagRead 7 0 4)) = some (.resp [0xFF, 0xFF, 0xFF, 0xFF]) :=
  ⟨demoOps_reachable, exists_run2 (p := fun s => liveWith s 14 = 0 ∧
      replyOf (handle s 0 (.tagRead 7 0 4)) = some (.resp [0xFF, 0xFF, 0xFF, 0xFF])) (by decide +kernel) (fun _ h => h)⟩

/-- The counting function of these three theorems is not constantly zero. -/
example : ∃ s rs, runR (demo demoOps) [(5, .ovrAdd 13 0 [1] [1]), (5, .ovrSet 13 true)] = .ok (s, rs) ∧
    liveWith s 14 = 1 ∧ liveWith s 3 = 1 :=
  exists_runR (p := fun s => liveWith s 14 = 1 ∧ liveWith s 3 = 1) (by decide +kernel)

end Dax
