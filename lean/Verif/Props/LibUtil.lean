import Verif.Lemmas.LibUtil
import Verif.Props.LibData
import Verif.Props.Events
import Verif.Props.Leave
/-!
# C70: a module and its status tag
-/
set_option autoImplicit false
namespace Dax
open LibUtil LibPath LibData Wire

/-- The same names, types and counts, of tags and of types. -/
structure SameNames (s s' : Server) : Prop where
  cdts : s'.cdts = s.cdts
  tags : ∀ i : Nat, (s'.db[i]?).map (fun t => (t.name, t.type, t.count, t.attr.readonly, t.attr.virt, t.attr.ovrSet)) = (s.db[i]?).map (fun t => (t.name, t.type, t.count, t.attr.readonly, t.attr.virt, t.attr.ovrSet))

theorem SameNames.rfl' (s : Server) : SameNames s s := ⟨rfl, fun _ => rfl⟩

theorem SameNames.trans {a b c : Server} (h : SameNames a b) (h' : SameNames b c) : SameNames a c :=
  ⟨h'.cdts.trans h.cdts, fun i => (h'.tags i).trans (h.tags i)⟩

theorem WriteDone.shape {s s' : Server} {i : Nat} {off : Int} {d : List Byte} {size : Nat} (h : WriteDone s i off d size s') : SameNames s s' := by
  obtain ⟨t, b, b', evs, ns, rt, ht, -, -, -, -, rfl⟩ := h.ex
  refine ⟨rfl, fun j => ?_⟩
  rw [tag?_natCast] at ht
  simp only [Server.setTag, Int.toNat_natCast]
  by_cases hj : j = i
  · subst hj
    rw [List.getElem?_set_self (List.getElem?_eq_some_iff.mp ht).1, ht]
    rfl
  · rw [List.getElem?_set_ne (fun h => hj h.symm)]

theorem SameNames.live {s s' : Server} (h : SameNames s s') (hw : WF s) (hw' : WF s') {i a b : Nat} {n : Name} (hl : LiveTag s i n a b) : LiveTag s' i n a b := by
  obtain ⟨t, ht, h1, h2, h3⟩ := (liveTag_iff hw).mp hl
  have := h.tags i
  rw [ht, Option.map_some, Option.map_eq_some_iff] at this
  obtain ⟨t', ht', e⟩ := this
  simp only [Prod.mk.injEq] at e
  exact (liveTag_iff hw').mpr ⟨t', ht', e.1.trans h1, e.2.1.trans h2, e.2.2.1.trans h3⟩

theorem SameNames.faithful {s s' : Server} (h : SameNames s s') (hw : WF s) (hw' : WF s') {c : TypeCache} (hc : Faithful s c) : Faithful s' c := by
  rw [faithful_iff hw', h.cdts]
  exact (faithful_iff hw).mp hc

theorem SameNames.truthful {s s' : Server} (h : SameNames s s') (hw : WF s) (hw' : WF s') {byname : Name → Option TagFound} (ht : Truthful s byname) :
    Truthful s' byname := by
  intro n f hf
  obtain ⟨i, h1, h2⟩ := ht n f hf
  exact ⟨i, h1, h.live hw hw' h2⟩

theorem StatusTag.next {fd : Int} {s s' : Server} {k : Nat} (h : StatusTag fd s k) {q : Req} {r : Reply} (hq : ¬ (Op.req fd q).leaves fd) (hh : handle s fd q = .ok (s', r)) :
    StatusTag fd s' k := by
  obtain ⟨s0, s1, flags, name, r', tn, os, hR, h1, h2, h3, hno, hrun⟩ := h
  refine ⟨s0, s1, flags, name, r', tn, os ++ [.req fd q], hR, h1, h2, h3, ?_, ?_⟩
  · intro o ho
    rcases List.mem_append.mp ho with h | h
    · exact hno o h
    · simp only [List.mem_singleton] at h; subst h; exact hq
  · exact run_append.mpr ⟨s, hrun, by simp [run, step, hh]⟩

/-- The status tag takes what its owner writes to it. -/
structure Mine (s0 : Server) (fd : Int) (i : Nat) (s : Server) : Prop where
  status : StatusTag fd s i
  maps : RepNoMaps s
  tag : ∃ t b, Plain s i t b ∧ t.attr.readonly = false ∧ t.type = 0x80000000 ∧ t.count = 1
  shape : SameNames s0 s

theorem Mine.special {s0 s : Server} {fd : Int} {i : Nat} (g : Mine s0 fd i s) (t : Tag) {p : Nat} (hp : 12 ≤ p) (k : Nat) :
    (if t.attr.special then specialWrite s t fd i p k else 0) = 0 := by
  obtain ⟨-, m, h1, h2⟩ := g.status.entry
  unfold specialWrite
  rw [h1]
  dsimp only
  rw [h2]
  repeat' split
  all_goals first | rfl | (exfalso; omega) | (rename_i hx; exact absurd rfl hx)

theorem Mine.size {s0 s : Server} {fd : Int} {i : Nat} (g : Mine s0 fd i s) : ∃ t b, Plain s i t b ∧ t.attr.readonly = false ∧ t.type = 0x80000000 ∧ t.count = 1 ∧
    b.length = 78 ∧ tagGetSize s.cdts t = .ok 78 := by
  obtain ⟨hr, -⟩ := g.status.entry
  obtain ⟨t, b, P, hro, hty, hcnt⟩ := g.tag
  have hsz := (modType_ent hr).2.2
  have hne : ¬ ((0x80000000 : Nat) = DAX_BOOL) := by decide
  have hal := ((hr.wf.tag i t P.db).mem b P.data).1
  unfold allocSize at hal
  rw [hty, if_neg hne, hsz, hcnt] at hal
  simp only [C.ok_bind] at hal
  refine ⟨t, b, P, hro, hty, hcnt, ?_, ?_⟩
  · simp only [C.ok.injEq] at hal
    have : u32 (78 * ((1 : Nat) : Int)) = 78 := by decide
    omega
  · unfold tagGetSize
    rw [hty, if_neg hne, hsz, hcnt]
    rfl

theorem Mine.rawAttr {s0 s : Server} {fd : Int} {i : Nat} (g : Mine s0 fd i s) {x : Attr × Option Int} (h : Dax.rawAttr s i = .ok x) : x.1.readonly = false := by
  obtain ⟨t, b, P, hro, -⟩ := g.tag
  unfold Dax.rawAttr at h
  split at h
  · simp at h
  · rw [tag?_natCast, P.db] at h
    simp only [C.ok.injEq] at h
    rw [← h]; exact hro

theorem mine_write {s0 s s' : Server} {fd : Int} {i p : Nat} {d : List Byte} {r : Reply} (g : Mine s0 fd i s) (h12 : 12 ≤ p) (hp : p + d.length ≤ 78)
    (hh : handle s fd (.tagWrite i p d) = .ok (s', r)) : r = .resp [] ∧ Mine s0 fd i s' := by
  obtain ⟨t, b, P, hro, hty, hcnt, hbl, hsz⟩ := g.size
  have hr : r = .resp [] := by
    have hh := hh
    simp only [handle, hTagWrite] at hh
    obtain ⟨ro, hro', hh⟩ := C.bind_eq_ok.mp hh
    unfold roForeign at hro'
    obtain ⟨⟨a1, f1⟩, hx, hro'⟩ := C.bind_eq_ok.mp hro'
    have := g.rawAttr hx
    dsimp only at this hro'
    rw [this] at hro'
    simp only [Bool.false_and, C.ok.injEq] at hro'
    subst hro'
    simp only [Bool.false_eq_true, if_false] at hh
    obtain ⟨⟨s2, r2⟩, h2, hh⟩ := C.bind_eq_ok.mp hh
    unfold tagWrite at h2
    rw [tag?_natCast, P.db] at h2
    simp only [P.virt, P.data, Bool.false_eq_true, if_false, hsz, C.ok_bind] at h2
    obtain ⟨e, he, h2⟩ := C.bind_eq_ok.mp h2
    obtain ⟨-, rfl⟩ := addI32_ok.mp he
    rw [if_neg (by omega), g.special t h12] at h2
    simp only [ne_eq, not_true_eq_false, if_false] at h2
    obtain ⟨b', hb', h2⟩ := C.bind_eq_ok.mp h2
    obtain ⟨rfl, -⟩ := commitWrite_inv h2
    simp only [ne_eq, not_true_eq_false, if_false] at hh
    obtain ⟨s3, -, hh⟩ := C.bind_eq_ok.mp hh
    simp only [C.ok.injEq, Prod.mk.injEq] at hh
    exact hh.2.symm
  have hst := g.status.next (q := .tagWrite i p d) (fun h => h) hh
  have hrm := repNoMaps_data (q := .tagWrite i p d) (by trivial) g.maps hh
  refine ⟨hr, ?_⟩
  rcases write_inv (g.maps i) hh with ⟨rfl, -⟩ | ⟨-, hd' | hd'⟩
  · exact ⟨hst, hrm, ⟨t, b, P, hro, hty, hcnt⟩, g.shape⟩
  · obtain ⟨t', b', P', hwr, h1, h2, -, -, h3, h4⟩ := hd'.plain P
    exact ⟨hst, hrm, ⟨t', b', P', by rw [h3]; exact hro, h1.trans hty, h2.trans hcnt⟩, g.shape.trans hd'.shape⟩
  · obtain ⟨t0, q, q', evs, ns, ht0, hv, -⟩ := hd'
    rw [tag?_natCast, P.db, Option.some.injEq] at ht0
    subst ht0
    rw [P.virt] at hv; simp at hv

theorem mine_mwrite {s0 s s' : Server} {fd : Int} {i p : Nat} {d m : List Byte} {r : Reply} (g : Mine s0 fd i s) (h12 : 12 ≤ p) (hp : p + d.length ≤ 78)
    (hml : m.length = d.length) (hh : handle s fd (.tagMWrite i p d m) = .ok (s', r)) : r = .resp [] ∧ Mine s0 fd i s' := by
  obtain ⟨t, b, P, hro, hty, hcnt, hbl, hsz⟩ := g.size
  have hr : r = .resp [] := by
    have hh := hh
    simp only [handle, hTagMWrite] at hh
    obtain ⟨⟨a1, f1⟩, hx, hh⟩ := C.bind_eq_ok.mp hh
    have := g.rawAttr hx
    dsimp only at this hh
    rw [this] at hh
    simp only [Bool.false_eq_true, if_false] at hh
    obtain ⟨⟨s2, r2⟩, h2, hh⟩ := C.bind_eq_ok.mp hh
    unfold tagMaskWrite at h2
    split at h2
    · simp at h2
    rw [tag?_natCast, P.db] at h2
    simp only [P.virt, P.data, Bool.false_eq_true, if_false, hsz, C.ok_bind] at h2
    obtain ⟨e, he, h2⟩ := C.bind_eq_ok.mp h2
    obtain ⟨-, rfl⟩ := addI32_ok.mp he
    rw [if_neg (by omega), g.special t h12] at h2
    simp only [ne_eq, not_true_eq_false, if_false] at h2
    obtain ⟨old, -, h2⟩ := C.bind_eq_ok.mp h2
    obtain ⟨b', hb', h2⟩ := C.bind_eq_ok.mp h2
    obtain ⟨rfl, -⟩ := commitWrite_inv h2
    simp only [ne_eq, not_true_eq_false, if_false] at hh
    obtain ⟨s3, -, hh⟩ := C.bind_eq_ok.mp hh
    simp only [C.ok.injEq, Prod.mk.injEq] at hh
    exact hh.2.symm
  have hst := g.status.next (q := .tagMWrite i p d m) (fun h => h) hh
  have hrm := repNoMaps_data (q := .tagMWrite i p d m) hml g.maps hh
  refine ⟨hr, ?_⟩
  rcases mwrite_inv (g.maps i) hh with ⟨rfl, -⟩ | ⟨-, t0, b0, old, ht0, hb0, hold, hd'⟩
  · exact ⟨hst, hrm, ⟨t, b, P, hro, hty, hcnt⟩, g.shape⟩
  · obtain ⟨t', b', P', hwr, h1, h2, -, -, h3, h4⟩ := hd'.plain P
    exact ⟨hst, hrm, ⟨t', b', P', by rw [h3]; exact hro, h1.trans hty, h2.trans hcnt⟩, g.shape.trans hd'.shape⟩


theorem repNoMaps_of {s : Server} (hw : WF s) (hm : ∀ j m, LiveAt s j m → NoMaps s j) : RepNoMaps s := by
  intro j t htj hf
  have hnn : t.name ≠ none := fun hn => hf ((hw.tag j t htj).name.mp hn)
  obtain ⟨nn, hnn⟩ := Option.ne_none_iff_exists'.mp hnn
  exact (noMaps_iff htj).mp (hm j nn ((liveAt_iff hw).mpr ⟨t, htj, hnn⟩))

theorem LibUtil.Ready.mine {s : Server} {fd : Int} {i : Nat} {n : Name} {byname : Name → Option TagFound} {c : TypeCache} (R : Ready s fd i n byname c) : Mine s fd i s := by
  obtain ⟨hr, -⟩ := R.owns.status.entry
  have hw := hr.wf
  refine ⟨R.owns.status, repNoMaps_of hw R.maps, ?_, .rfl' s⟩
  obtain ⟨a, ha, h0, h1, h3⟩ := R.attr
  obtain ⟨t, ht', hn', ha'⟩ := (attrAt_iff hw).mp ha
  obtain ⟨t1, b, P⟩ := (ordinary_iff hw).mp ⟨a, ha, h1, h3⟩
  have e := ht'.symm.trans P.db
  cases e
  obtain ⟨t2, ht2, -, hty, hcnt⟩ := (liveTag_iff hw).mp R.owns.live
  have e := ht2.symm.trans P.db
  cases e
  exact ⟨_, b, P, by rw [← Attr.bit0, ha']; exact h0, hty, hcnt⟩

theorem LibUtil.Ready.after {s s' : Server} {fd : Int} {i : Nat} {n : Name} {byname : Name → Option TagFound} {c c' : TypeCache} (R : Ready s fd i n byname c)
    (g : Mine s fd i s') (hc : Faithful s c') : Ready s' fd i n byname c' := by
  obtain ⟨hr, -⟩ := R.owns.status.entry
  obtain ⟨hr', -⟩ := g.status.entry
  have hw := hr.wf
  have hw' := hr'.wf
  refine ⟨⟨g.status, g.shape.live hw hw' R.owns.live, g.shape.live hw hw' R.owns.my⟩, ?_, ?_, g.shape.truthful hw hw' R.truthful, R.knowsMy, R.knows, g.shape.faithful hw hw' hc⟩
  · obtain ⟨a, ha, h0, h1, h3⟩ := R.attr
    obtain ⟨t, ht, hn, rfl⟩ := (attrAt_iff hw).mp ha
    rw [Attr.bit0] at h0
    rw [Attr.bit1] at h1
    rw [Attr.bit3] at h3
    have := g.shape.tags i
    rw [ht, Option.map_some, Option.map_eq_some_iff] at this
    obtain ⟨t', ht', e⟩ := this
    simp only [Prod.mk.injEq] at e
    refine ⟨t'.attr.bits, (attrAt_iff hw').mpr ⟨t', ht', by rw [e.1]; exact hn, rfl⟩, ?_, ?_, ?_⟩
    · rw [Attr.bit0, e.2.2.2.1, h0]
    · rw [Attr.bit1, e.2.2.2.2.1, h1]
    · rw [Attr.bit3, e.2.2.2.2.2, h3]
  · intro j m hl
    obtain ⟨t, ht, hn⟩ := (liveAt_iff hw').mp hl
    exact (noMaps_iff ht).mpr (g.maps j t ht (fun hf => by
      have := (hw'.tag j t ht).name.mpr hf
      rw [hn] at this; simp at this))

/-- Writing one bit of the status tag. -/
theorem own_bit {s s' : Server} {fd : Int} {i : Nat} {n : Name} {byname : Name → Option TagFound} {c c' : TypeCache} (R : Ready s fd i n byname c) {M : Mem}
    (hM : Agrees M s) {h : Handle} {pos : Nat} (P : Points s.cdts h i DAX_BOOL 1 pos) (h8 : h.bit < 8) (h96 : 96 ≤ pos) (hlt : pos < 624) {v : Byte} {l : Log} {o : Outcome} {d : List Byte}
    (hh : daxTagWrite s fd c h [v] = .ok (s', c', l, o, d)) :
    o = .done 0 ∧ Ready s' fd i n byname c' ∧ ∃ M', Agrees M' s' ∧ BitSet M M' i pos (v.getLsbD 0) := by
  obtain ⟨hr, -⟩ := R.owns.status.entry
  have hat := P.at'
  have hcnt := P.count
  have hsz : h.size = 1 := by
    have := P.bool rfl
    omega
  have hb : Bools h := ⟨P.type, h8, by omega, by rw [hsz, hcnt]; omega⟩
  have hsh : shifted h = true := by
    unfold shifted
    rw [P.type, hcnt]
    simp
  have hw := hh
  unfold daxTagWrite at hw
  rw [if_pos hsh] at hw
  obtain ⟨⟨nd, mk⟩, g1, hw⟩ := C.bind_eq_ok.mp hw
  obtain ⟨l1, l2, -, -⟩ := shift_inv hb (by rw [hcnt]; simp) g1
  dsimp only at l1 l2 hw
  have hss : shiftSize h = 1 := by
    unfold shiftSize
    rw [if_neg (by omega), hsz]
  have hc' : c' = c := by
    unfold transfer at hw
    rw [if_neg (by omega)] at hw
    obtain ⟨⟨x1, x2, x3, x4⟩, -, hw⟩ := C.bind_eq_ok.mp hw
    simp only [C.ok.injEq, Prod.mk.injEq] at hw
    exact hw.2.1.symm
  subst hc'
  rcases shifted_transfer hb (by decide) l1 l2 (by omega) hw with ⟨hx, -, -⟩ | ⟨code, rfl, g2, g3⟩
  · omega
  · rw [P.index] at g2
    obtain ⟨rfl, g4⟩ := split_accepted g2 (G := Mine s fd i) (fun s s' q k r a b cc gg hq =>
      mine_mwrite gg (by omega) (by rw [slice_length (by omega)]; omega)
        (by rw [slice_length (by omega), slice_length (by omega)]) hq) R.mine g3
    refine ⟨rfl, R.after g4 R.cache, ?_⟩
    obtain ⟨M', hM', hb1, hb2⟩ := C24_write hr R.maps hM P.index hb (by rw [hcnt]; simp) (by omega) hh
    refine ⟨M', hM', ?_, ?_⟩
    · have := hb1 0 (by omega)
      rw [Nat.add_zero, hat] at this
      rw [this]
      simp [bitOf]
    · intro j q hq
      exact hb2 j q (fun hx => hq ⟨hx.1, by omega⟩)


theorem strnFill_length (val : Name) (k : Nat) : (strnFill val k).length = k := by
  unfold strnFill
  rw [List.length_append, List.length_replicate, List.length_take]
  omega

theorem strnFill_get {val : Name} {n k : Nat} (h : k < n) : (strnFill val n).getD k 0 = val.getD k 0 := by
  unfold strnFill
  simp only [List.getD_eq_getElem?_getD]
  by_cases hk : k < val.length
  · rw [List.getElem?_append_left (by rw [List.length_take]; omega), List.getElem?_take, if_pos h]
  · rw [List.getElem?_append_right (by rw [List.length_take]; omega), List.getElem?_replicate, List.getElem?_eq_none (by omega)]
    split <;> rfl

/-- Writing the text of the status tag. -/
theorem own_text {s s' : Server} {fd : Int} {i : Nat} {n : Name} {byname : Name → Option TagFound} {c c' : TypeCache} (R : Ready s fd i n byname c) {M : Mem}
    (hM : Agrees M s) {h : Handle} (P : Points s.cdts h i DAX_CHAR 64 104) {val : Name} {l : Log} {o : Outcome} {d : List Byte}
    (hh : daxTagWrite s fd c h (strnFill val h.size) = .ok (s', c', l, o, d)) :
    o = .done 0 ∧ Ready s' fd i n byname c' ∧ ∃ M', Agrees M' s' ∧ TextSet M M' i val := by
  obtain ⟨hr, -⟩ := R.owns.status.entry
  have hat := P.at'
  have hcnt := P.count
  obtain ⟨hbit, hs⟩ := P.other (by decide)
  have hsz : h.size = 64 := by have := hs 8 (elem_char _); omega
  have hby : h.byte = 13 := by omega
  have hsh : shifted h = false := by
    unfold shifted
    rw [P.type]
    rfl
  have hlen := strnFill_length val 64
  rw [hsz] at hh
  have hfm : format s fd true (strnFill val 64).length c h.type h.count = .ok (c, 0) := by
    rw [P.type]; rfl
  obtain ⟨c1, r, k1, k2⟩ := daxTagWrite_plain hsh hh
  rw [hfm] at k1
  simp only [C.ok.injEq, Prod.mk.injEq] at k1
  obtain ⟨rfl, rfl⟩ := k1
  rcases k2 with ⟨k2, -⟩ | ⟨-, k2⟩
  · exact absurd rfl k2
  have hc' : c' = c := by
    have k2 := k2
    unfold transfer at k2
    rw [if_neg (by omega)] at k2
    obtain ⟨⟨x1, x2, x3, x4⟩, -, k2⟩ := C.bind_eq_ok.mp k2
    simp only [C.ok.injEq, Prod.mk.injEq] at k2
    exact k2.2.1.symm
  subst hc'
  obtain ⟨code, rfl, g2, g3, -⟩ := transfer_ok (ts := 1) (sends_write (base := h.byte) (by omega) (Nat.le_refl _)) (by decide) (by decide) (Nat.one_dvd _)
    (by decide) (fun _ => by omega) (by omega) (by omega) (fun h => h) k2
  rw [P.index] at g2
  obtain ⟨rfl, g4⟩ := split_accepted g2 (G := Mine s fd i) (fun s s' q k r a b cc gg hq =>
    mine_write gg (by omega) (by rw [slice_length (by omega)]; omega) hq) R.mine g3
  refine ⟨rfl, R.after g4 R.cache, _, C25_written (unit := 1) hr R.maps hM P.index hsh (by omega)
    (fun c1 r _ => ⟨by omega, by omega, fun _ => by omega, by decide, by decide, Nat.one_dvd _⟩) hh, ?_⟩
  rw [hby, hsz, List.take_of_length_le (by omega)]
  refine ⟨fun k hk => ?_, fun j p hn => ?_⟩
  · unfold Mem.store
    have : k < 64 := hk
    rw [if_pos ⟨rfl, Nat.le_add_right _ _⟩, show statusAt + k - 13 = k by unfold statusAt; omega, ← strnFill_get this, List.getD_eq_getElem?_getD,
      List.getElem?_eq_getElem (by omega)]
    rfl
  · unfold Mem.store
    split
    · rename_i hx
      rw [List.getElem?_eq_none]
      · rfl
      · rw [hlen]
        have h1 : statusAt = 13 := rfl
        have h2 : statusLen = 64 := rfl
        rw [h1, h2] at hn
        apply Classical.byContradiction
        intro hlt
        exact hn ⟨hx.1, hx.2, by omega⟩
    · rfl

theorem flag_bounds {mem : Name} {pos : Nat} (h : (mem, pos) ∈ flagBits) : 96 ≤ pos ∧ pos < 624 ∧ PlainName mem ∧ mem.length ≤ 30 := by
  simp only [flagBits, List.mem_cons, List.not_mem_nil, or_false, Prod.mk.injEq] at h
  rcases h with ⟨rfl, rfl⟩ | ⟨rfl, rfl⟩ | ⟨rfl, rfl⟩ | ⟨rfl, rfl⟩ | ⟨rfl, rfl⟩ | ⟨rfl, rfl⟩ <;>
    exact ⟨by decide, by decide, LibUtil.validate_plain (by decide), by decide⟩

theorem own_handle {s : Server} {fd : Int} {i : Nat} {n : Name} {byname : Name → Option TagFound} {c : TypeCache} (R : Ready s fd i n byname c) {mem : Name} {pos : Nat}
    (hf : (mem, pos) ∈ flagBits) : ∃ c' q h, ownMember s fd byname c (46#8 :: mem) = .ok (s, c', [(.tagRead 10 0 33, q)], .done 0, some h) ∧ Ready s fd i n byname c' ∧
      Points s.cdts h i DAX_BOOL 1 pos ∧ h.bit < 8 := by
  obtain ⟨-, -, hp, hl⟩ := flag_bounds hf
  obtain ⟨c', q, h, h1, h2, h3, h4⟩ := ownMember_ok R.owns R.truthful R.knowsMy R.knows R.cache hp hl (flag_before s.cdts hf) (elem_bool s.cdts) (Nat.zero_lt_one)
  exact ⟨c', q, h, h1, { R with cache := h2 }, h3, h4⟩

/-- **C70**, flags: a module that sets or clears a flag of its status tag through the library changes exactly that bit of its own status tag and nothing
else in the server, and the server takes it. -/
theorem C70_flag {s s' : Server} {fd : Int} {i : Nat} {n : Name} {byname : Name → Option TagFound} {c c' : TypeCache} {M : Mem} {mem : Name} {pos : Nat} {val : Byte}
    {l : Log} {o : Outcome} (R : Ready s fd i n byname c) (hM : Agrees M s) (hf : (mem, pos) ∈ flagBits)
    (hh : setFlag s fd byname c (46#8 :: mem) val = .ok (s', c', l, o)) :
    o = .done 0 ∧ Ready s' fd i n byname c' ∧ ∃ M', Agrees M' s' ∧ BitSet M M' i pos (decide (val ≠ 0)) := by
  obtain ⟨c1, q, h, h1, h2, h3, h4⟩ := own_handle R hf
  obtain ⟨b1, b2, -, -⟩ := flag_bounds hf
  unfold setFlag at hh
  rw [h1] at hh
  simp only [C.ok_bind] at hh
  obtain ⟨⟨s2, c2, l2, o2, d2⟩, hw, hh⟩ := C.bind_eq_ok.mp hh
  simp only [C.ok.injEq, Prod.mk.injEq] at hh
  obtain ⟨rfl, rfl, -, rfl⟩ := hh
  obtain ⟨k1, k2, M', k3, k4⟩ := own_bit h2 hM h3 h4 b1 b2 hw
  refine ⟨k1, k2, M', k3, ?_⟩
  rw [show ((if val ≠ 0 then 1 else 0 : Byte)).getLsbD 0 = decide (val ≠ 0) by split <;> simp_all] at k4
  exact k4

/-- **C70**, text: a module that reports a text changes exactly the 64 bytes for the text in its own status tag. -/
theorem C70_status {s s' : Server} {fd : Int} {i : Nat} {n : Name} {byname : Name → Option TagFound} {c c' : TypeCache} {M : Mem} {val : Name}
    {l : Log} {o : Outcome} (R : Ready s fd i n byname c) (hM : Agrees M s) (hh : setStatus s fd byname c val = .ok (s', c', l, o)) :
    o = .done 0 ∧ Ready s' fd i n byname c' ∧ ∃ M', Agrees M' s' ∧ TextSet M M' i val := by
  obtain ⟨c1, q, h, h1, h2, h3, h4⟩ := ownMember_ok R.owns R.truthful R.knowsMy R.knows R.cache (mem := nm "status") (LibUtil.validate_plain (by decide)) (by decide)
    (status_before s.cdts) (elem_char s.cdts) (show 0 < 64 by decide)
  unfold setStatus at hh
  have hn : nm ".status" = 46#8 :: nm "status" := by decide
  rw [hn, h1] at hh
  simp only [C.ok_bind] at hh
  obtain ⟨⟨s2, c2, l2, o2, d2⟩, hw, hh⟩ := C.bind_eq_ok.mp hh
  simp only [C.ok.injEq, Prod.mk.injEq] at hh
  obtain ⟨rfl, rfl, -, rfl⟩ := hh
  exact own_text { R with cache := h2 } hM h3 hw

/-- **C70**, commands: the standard reaction to "run" and "stop" clears the bit of the command and sets or clears the flag `running`, in this order, and changes nothing else. -/
theorem C70_run {s s' : Server} {fd : Int} {i : Nat} {n : Name} {byname : Name → Option TagFound} {c c' : TypeCache} {M : Mem} {mem : Name} {pos : Nat} {run : Byte}
    {l : Log} {o : Outcome} (R : Ready s fd i n byname c) (hM : Agrees M s) (hf : (mem, pos) ∈ flagBits)
    (hh : defaultRun s fd byname c (46#8 :: mem) run = .ok (s', c', l, o)) :
    o = .done 0 ∧ Ready s' fd i n byname c' ∧ ∃ M1 M', Agrees M' s' ∧ BitSet M M1 i pos false ∧ BitSet M1 M' i 96 (decide (run ≠ 0)) := by
  obtain ⟨c1, q, h, h1, h2, h3, h4⟩ := own_handle R hf
  obtain ⟨b1, b2, -, -⟩ := flag_bounds hf
  unfold defaultRun at hh
  rw [h1] at hh
  simp only [C.ok_bind] at hh
  obtain ⟨⟨s2, c2, l2, o2, d2⟩, hw, hh⟩ := C.bind_eq_ok.mp hh
  obtain ⟨⟨s3, c3, l3, o3⟩, hw', hh⟩ := C.bind_eq_ok.mp hh
  simp only [C.ok.injEq, Prod.mk.injEq] at hh
  obtain ⟨rfl, rfl, -, rfl⟩ := hh
  obtain ⟨k1, k2, M1, k3, k4⟩ := own_bit h2 hM h3 h4 b1 b2 hw
  obtain ⟨g1, g2, M2, g3, g4⟩ := C70_flag k2 k3 (mem := nm "running") (pos := 96) (by decide) hw'
  exact ⟨g1, g2, M1, M2, g3, k4, g4⟩


/-- **C70**, commands: the standard reaction to "kill" clears the bit of the command and changes nothing else. -/
theorem C70_kill {s s' : Server} {fd : Int} {i : Nat} {n : Name} {byname : Name → Option TagFound} {c c' : TypeCache} {M : Mem} {l : Log} {o : Outcome} (R : Ready s fd i n byname c) (hM : Agrees M s)
    (hh : defaultKill s fd byname c = .ok (s', c', l, o)) : o = .done 0 ∧ Ready s' fd i n byname c' ∧ ∃ M', Agrees M' s' ∧ BitSet M M' i 619 false :=
  C70_flag R hM (mem := nm "kill") (pos := 619) (val := 0) (by decide) hh

/-- A subscription that was granted. -/
theorem evAdd_granted {s s' : Server} {fd : Int} {h : Handle} {et : Int} {arg d : List Byte} (hh : handle s fd (.evAdd h et arg) = .ok (s', .resp d)) :
    ∃ (t t' : Tag) (id : Nat), s.tag? h.index = some t ∧ d = le4 id ∧ id < 2147483648 ∧ s'.cdts = s.cdts ∧ s'.db = s.db.set h.index.toNat t' ∧ t'.name = t.name ∧
      t'.type = t.type ∧ t'.count = t.count ∧ t'.attr.readonly = t.attr.readonly ∧ t'.attr.virt = t.attr.virt ∧ t'.attr.ovrSet = t.attr.ovrSet ∧ t'.data = t.data ∧
      t'.maps = t.maps ∧ t'.wildMaps = t.wildMaps := by
  simp only [handle, hEvAdd] at hh
  split at hh
  · simp at hh
  rename_i m hm
  obtain ⟨⟨s1, r1⟩, h1, hh⟩ := C.bind_eq_ok.mp hh
  simp only [C.ok.injEq, Prod.mk.injEq] at hh
  obtain ⟨rfl, hrep⟩ := hh
  unfold idOrErr at hrep
  split at hrep
  · simp at hrep
  rename_i hneg
  simp only [Reply.resp.injEq] at hrep
  unfold eventAdd at h1
  split at h1
  · simp only [C.ok.injEq, Prod.mk.injEq] at h1
    rw [← h1.2] at hneg; simp [ERR_ARG] at hneg
  rename_i t ht
  split at h1
  · simp only [C.ok.injEq, Prod.mk.injEq] at h1
    rw [← h1.2] at hneg; simp [ERR_ILLEGAL] at hneg
  rename_i hvq
  split at h1
  · split at h1
    · simp only [C.ok.injEq, Prod.mk.injEq] at h1
      rw [← h1.2] at hneg; simp [ERR_ILLEGAL] at hneg
    · simp at h1
  obtain ⟨sz, hsz, h1⟩ := C.bind_eq_ok.mp h1
  split at h1
  · simp only [C.ok.injEq, Prod.mk.injEq] at h1
    rw [← h1.2] at hneg; simp [ERR_2BIG] at hneg
  split at h1
  · simp only [C.ok.injEq, Prod.mk.injEq] at h1
    rw [← h1.2] at hneg; simp [ERR_ARG] at hneg
  split at h1
  · simp at h1
  rename_i hnx
  obtain ⟨⟨dd, tst⟩, hs, h1⟩ := C.bind_eq_ok.mp h1
  simp only [C.ok.injEq, Prod.mk.injEq] at h1
  obtain ⟨rfl, rfl⟩ := h1
  refine ⟨t, _, t.nextevent.toNat, ht, ?_, by omega, rfl, rfl, rfl, rfl, rfl, ?_, ?_, ?_, rfl, rfl, rfl⟩
  · rw [Int.toNat_of_nonneg (by omega)]; exact hrep.symm
  all_goals dsimp only; split <;> rfl

theorem evAdd_err {s s' : Server} {fd : Int} {h : Handle} {et : Int} {arg : List Byte} {e : Int} (hh : handle s fd (.evAdd h et arg) = .ok (s', .err e)) : e ≠ 0 := by
  simp only [handle, hEvAdd] at hh
  split at hh
  · simp only [C.ok.injEq, Prod.mk.injEq, Reply.err.injEq] at hh
    omega
  obtain ⟨⟨s1, r1⟩, -, hh⟩ := C.bind_eq_ok.mp hh
  simp only [C.ok.injEq, Prod.mk.injEq] at hh
  have h2 := hh.2
  unfold idOrErr at h2
  split at h2
  · simp only [Reply.err.injEq] at h2; omega
  · simp at h2

theorem mine_event {s s' : Server} {fd : Int} {i : Nat} {h : Handle} {et : Int} {arg d : List Byte} (g : Mine s fd i s) (hi : h.index = i)
    (hh : handle s fd (.evAdd h et arg) = .ok (s', .resp d)) : Mine s fd i s' := by
  obtain ⟨t0, b, P, hro, hty, hcnt⟩ := g.tag
  obtain ⟨t, t', id, ht, -, -, hc, hdb, e1, e2, e3, e4, e5, e6, e7, e8, e9⟩ := evAdd_granted hh
  rw [hi, tag?_natCast, P.db, Option.some.injEq] at ht
  subst ht
  rw [hi, Int.toNat_natCast] at hdb
  have hlt := (List.getElem?_eq_some_iff.mp P.db).1
  have hself : s'.db[i]? = some t' := by rw [hdb, List.getElem?_set_self hlt]
  have hoth : ∀ j, j ≠ i → s'.db[j]? = s.db[j]? := fun j hj => by rw [hdb, List.getElem?_set_ne (fun h => hj h.symm)]
  refine ⟨g.status.next (q := .evAdd h et arg) (fun h => h) hh, ?_, ⟨t', b, ⟨hself, by rw [e1]; exact P.name, by rw [e5]; exact P.virt, by rw [e6]; exact P.ovr, by rw [e7]; exact P.data⟩, by rw [e4]; exact hro, e2.trans hty, e3.trans hcnt⟩, hc, ?_⟩
  · intro j u hu hf
    by_cases hj : j = i
    · subst hj
      rw [hself] at hu
      cases hu
      rw [e8, e9]
      exact g.maps j t0 P.db (by rw [P.data]; simp)
    · rw [hoth j hj] at hu
      exact g.maps j u hu hf
  · intro j
    by_cases hj : j = i
    · subst hj
      rw [hself, P.db, Option.map_some, Option.map_some, e1, e2, e3, e4, e5, e6]
    · rw [hoth j hj]

/-- **C70**, callbacks: if the library reports success for the request to call a function on a command, the module has a SET subscription for exactly that bit of its own status tag. -/
theorem C70_callback {s s' : Server} {fd : Int} {i : Nat} {n : Name} {byname : Name → Option TagFound} {c c' : TypeCache} {mem : Name} {pos : Nat}
    {l : Log} {d : List Byte} (R : Ready s fd i n byname c) (hf : (mem, pos) ∈ flagBits) (hh : setCallback s fd byname c (46#8 :: mem) = .ok (s', c', l, .done 0, d)) :
    Ready s' fd i n byname c' ∧ ∃ S b, Watches S fd i pos ∧ d = le4 S.id ∧ Seen S s' [⟨b, false, 0, 0⟩] := by
  obtain ⟨c1, q, h, h1, h2, h3, h4⟩ := own_handle R hf
  obtain ⟨b1, b2, -, -⟩ := flag_bounds hf
  unfold setCallback at hh
  rw [h1] at hh
  simp only [C.ok_bind] at hh
  obtain ⟨⟨s2, l2, e2, d2⟩, hw, hh⟩ := C.bind_eq_ok.mp hh
  simp only [C.ok.injEq, Prod.mk.injEq, Outcome.done.injEq] at hh
  obtain ⟨rfl, rfl, -, rfl, rfl⟩ := hh
  unfold transact at hw
  obtain ⟨⟨s3, r3⟩, hw3, hx⟩ := C.bind_eq_ok.mp hw
  clear hw hh
  have hw := hw3
  clear hw3
  obtain ⟨dd, rfl⟩ : ∃ dd, r3 = .resp dd := by
    cases r3 with
    | resp dd => exact ⟨dd, rfl⟩
    | err e =>
      simp only [C.ok.injEq, Prod.mk.injEq] at hx
      exact absurd hx.2.2.1 (evAdd_err hw)
    | none =>
      simp only [C.ok.injEq, Prod.mk.injEq] at hx
      exact absurd hx.2.2.1 (by decide)
  simp only [C.ok.injEq, Prod.mk.injEq] at hx
  obtain ⟨rfl, -, -, rfl⟩ := hx
  have g := mine_event h2.mine h3.index hw
  refine ⟨h2.after g h2.cache, ?_⟩
  obtain ⟨t', b', P', -⟩ := g.tag
  obtain ⟨-, -, id, -, hd, hid, -⟩ := evAdd_granted hw
  have hat := h3.at'
  have hcnt := h3.count
  have hsz := h3.bool rfl
  refine ⟨⟨i, id, h, EVENT_SET, [], fd⟩, b', ⟨rfl, rfl, rfl, h3.type, hcnt, hat, h4, by dsimp only; omega⟩, hd, .start (S := ⟨i, id, h, EVENT_SET, [], fd⟩) R.owns.status.entry.1 h3.index hid (hd ▸ hw) ⟨t', P'.db, P'.data⟩⟩


theorem LibUtil.Watches.bits {S : Sub} {fd : Int} {i pos : Nat} (h : Watches S fd i pos) (k : Nat) : S.bits k ↔ k = pos := by
  have h1 := h.pos
  have h2 := h.count
  unfold Sub.bits
  rw [if_pos h.type]
  omega

/-- **C70**, commands from others: the first write to the byte with the command after the callback was set is notified iff the command is on then. -/
theorem C70_first {S : Sub} {fd : Int} {i pos : Nat} {s s' : Server} {c : Look} {off : Int} {len : Nat} {b : List Byte} (hS : Watches S fd i pos) (hp : pos < 624)
    (ht : off ≤ (pos / 8 : Nat) ∧ ((pos / 8 : Nat) : Int) < off + len) (h : S.writeTo [c] s s' off len b) : S.notified s s' ↔ bitAt b pos = true := by
  have h1 := hS.pos
  have h2 := hS.bit
  have h3 := hS.size
  have h4 := hS.count
  have hby : S.h.byte = pos / 8 := by omega
  rw [C28_set_first ⟨by omega, by omega, by rw [h3]; decide⟩ (fun _ => by omega) (by omega) hS.kind hS.type ⟨pos / 8, ht.1, ht.2, by omega, by omega⟩ h]
  constructor
  · rintro ⟨k, hk, hb⟩
    rw [hS.bits] at hk
    subst hk; exact hb
  · exact fun hb => ⟨pos, (hS.bits pos).mpr rfl, hb⟩

/-- **C70**, commands from others: from then on a write is notified iff it turns the command on. -/
theorem C70_command {S : Sub} {fd : Int} {i pos : Nat} {s s' : Server} {c : Look} {H : List Look} {off : Int} {len : Nat} {b : List Byte} (hS : Watches S fd i pos)
    (hp : pos < 624) (hH : H ≠ []) (h : S.writeTo (c :: H) s s' off len b) : S.notified s s' ↔ bitAt c.content pos = false ∧ bitAt b pos = true := by
  have h1 := hS.pos
  have h2 := hS.bit
  have h3 := hS.size
  have h4 := hS.count
  rw [C28_set_partial ⟨by omega, by omega, by rw [h3]; decide⟩ (fun _ => by omega) (by omega) hS.kind hS.type hH h]
  constructor
  · rintro ⟨k, hk, hb⟩
    rw [hS.bits] at hk
    subst hk; exact hb
  · exact fun hb => ⟨pos, (hS.bits pos).mpr rfl, hb⟩

/-- **C70**, the three callbacks together. -/
theorem C70_defaults {s s' : Server} {fd : Int} {i : Nat} {n : Name} {byname : Name → Option TagFound} {c c' : TypeCache} {l : Log} {ds : List (List Byte)}
    (R : Ready s fd i n byname c) (hh : setDefaults s fd byname c = .ok (s', c', l, .done 0, ds)) :
    Ready s' fd i n byname c' ∧ ∃ S1 S2 S3 s1 s2 b1 b2 b3, Watches S1 fd i 617 ∧ Watches S2 fd i 616 ∧ Watches S3 fd i 619 ∧
      Seen S1 s1 [⟨b1, false, 0, 0⟩] ∧ Seen S2 s2 [⟨b2, false, 0, 0⟩] ∧ Seen S3 s' [⟨b3, false, 0, 0⟩] ∧ ds = [le4 S1.id, le4 S2.id, le4 S3.id] := by
  unfold setDefaults at hh
  have n1 : nm ".run" = 46#8 :: nm "run" := by decide
  have n2 : nm ".stop" = 46#8 :: nm "stop" := by decide
  have n3 : nm ".kill" = 46#8 :: nm "kill" := by decide
  rw [n1, n2, n3] at hh
  obtain ⟨⟨s1, c1, l1, o1, d1⟩, h1, hh⟩ := C.bind_eq_ok.mp hh
  dsimp only at hh
  split at hh
  · rename_i ho
    simp only [C.ok.injEq, Prod.mk.injEq] at hh
    exact absurd hh.2.2.2.1 ho
  rename_i ho
  simp only [ne_eq, Decidable.not_not] at ho
  subst ho
  obtain ⟨⟨s2, c2, l2, o2, d2⟩, h2, hh⟩ := C.bind_eq_ok.mp hh
  dsimp only at hh
  split at hh
  · rename_i ho
    simp only [C.ok.injEq, Prod.mk.injEq] at hh
    exact absurd hh.2.2.2.1 ho
  rename_i ho
  simp only [ne_eq, Decidable.not_not] at ho
  subst ho
  obtain ⟨⟨s3, c3, l3, o3, d3⟩, h3, hh⟩ := C.bind_eq_ok.mp hh
  simp only [C.ok.injEq, Prod.mk.injEq] at hh
  obtain ⟨rfl, rfl, -, rfl, rfl⟩ := hh
  obtain ⟨R1, S1, b1, k1, k2, k3⟩ := C70_callback R (pos := 617) (by decide) h1
  obtain ⟨R2, S2, b2, g1, g2, g3⟩ := C70_callback R1 (pos := 616) (by decide) h2
  obtain ⟨R3, S3, b3, f1, f2, f3⟩ := C70_callback R2 (pos := 619) (by decide) h3
  exact ⟨R3, S1, S2, S3, s1, s2, b1, b2, b3, k1, g1, f1, k3, g3, f3, by rw [k2, g2, f2]⟩

/-- What the library finds out in the demonstration. -/
def utilNames : Name → Option TagFound := fun n =>
  if n = nm "_my_tagname" then some ⟨10, DAX_CHAR, 33⟩ else if n = nm "_mmodC" then some ⟨16, 0x80000000, 1⟩ else none

theorem noMaps_leave (i : Nat) (name : Name) (h : LiveAt (demo leaveOps) i name) : NoMaps (demo leaveOps) i := by
  obtain ⟨t, ht, -⟩ := (liveAt_iff leaveOps_status.entry.1.wf).mp h
  have key : ∀ t ∈ (demo leaveOps).db, t.wildMaps = false ∧ t.maps = [] := by decide +kernel
  exact (noMaps_iff ht).mpr (key t (List.mem_of_getElem? ht))

theorem utilReady : Ready (demo leaveOps) 9 16 (nm "_mmodC") utilNames [] := by
  have h1 : LiveTag (demo leaveOps) 16 (nm "_mmodC") 0x80000000 1 := ⟨by decide, by decide, 0x10, fun fd => by kernel_rfl⟩
  have h2 : LiveTag (demo leaveOps) 10 (nm "_my_tagname") DAX_CHAR 33 := ⟨by decide, by decide, 3, fun fd => by kernel_rfl⟩
  refine ⟨⟨leaveOps_status, h1, h2⟩, ⟨0x10, ⟨by decide, nm "_mmodC", 0x80000000, 1, fun fd => by kernel_rfl⟩, by decide, by decide, by decide⟩, noMaps_leave, ?_, by decide, by decide, faithful_nil _⟩
  intro n f hf
  unfold utilNames at hf
  split at hf
  · rename_i hn
    subst hn
    cases hf
    exact ⟨10, rfl, h2⟩
  · split at hf
    · rename_i hn
      subst hn
      cases hf
      exact ⟨16, rfl, h1⟩
    · simp at hf


/-- Instance of `C70_flag`, `C70_status` and `C70_run`: the module `modC` sets `running`, reports a text of three characters, and reacts to "stop". -/
example : Ready (demo leaveOps) 9 16 (nm "_mmodC") utilNames [] ∧ (∃ M, Agrees M (demo leaveOps)) ∧
    (setFlag (demo leaveOps) 9 utilNames [] (nm ".running") 1 >>= fun r => C.ok (r.2.2.1, r.2.2.2)) =
      .ok ([(.tagRead 10 0 33, .resp (nm "_mmodC" ++ List.replicate 27 0)), (.tagMWrite 16 12 [1] [1], .resp [])], .done 0) ∧
    (setStatus (demo leaveOps) 9 utilNames [] (nm "OK!") >>= fun r => C.ok (r.2.2.1, r.2.2.2)) =
      .ok ([(.tagRead 10 0 33, .resp (nm "_mmodC" ++ List.replicate 27 0)), (.tagWrite 16 13 (nm "OK!" ++ List.replicate 61 0), .resp [])], .done 0) ∧
    (defaultRun (demo leaveOps) 9 utilNames [] (nm ".stop") 0 >>= fun r => C.ok (r.2.2.1.map (·.1), r.2.2.2)) =
      .ok ([.tagRead 10 0 33, .tagMWrite 16 77 [0] [1], .tagRead 10 0 33, .tagMWrite 16 12 [0] [1]], .done 0) :=
  ⟨utilReady, agrees_exists leaveOps_status.entry.1, by kernel_rfl, by kernel_rfl, by kernel_rfl⟩

/-- Instance of `C70_callback` and `C70_defaults`: all three callbacks are set; the numbers of the subscriptions are 1, 2 and 3. -/
example : (setDefaults (demo leaveOps) 9 utilNames [] >>= fun r => C.ok (r.2.2.2.1, r.2.2.2.2)) = .ok (.done 0, [le4 1, le4 2, le4 3]) := by kernel_rfl

/-- The subscription for the command "run" in the demonstration, and the contents of the status tag. -/
def runSub : Sub := ⟨16, 1, ⟨16, 77, 1, 1, 1, DAX_BOOL⟩, EVENT_SET, [], 9⟩
def utilBlock : List Byte := ((demo leaveOps).db[16]?.map (fun t => t.data.block)).getD []

/-- Instance of `C70_first` and `C70_command`: the module on connection 5 writes the byte with the commands, first without and then with the command "run". -/
example : let S := runSub
    Watches S 9 16 617 ∧ ∃ c s s' b H s2 s3 b', H ≠ [] ∧ S.writeTo [c] s s' 77 1 b ∧ ¬ S.notified s s' ∧ S.writeTo (⟨b, false, 77, 1⟩ :: H) s2 s3 77 1 b' ∧ S.notified s2 s3 := by
  refine ⟨⟨rfl, rfl, rfl, rfl, rfl, rfl, by decide, rfl⟩, ?_⟩
  have h1 := seen_add (S := runSub) (os := leaveOps) (b := utilBlock) (by decide +kernel)
  have h2 := writeTo_wr (d := [0]) (b := utilBlock) (off := 77) h1 (by decide +kernel)
  have h3 := h2.seen (hit := false) ⟨77, by decide⟩ (by decide +kernel)
  exact ⟨_, _, _, _, _, _, _, _, by simp, h2, by decide +kernel, writeTo_wr (d := [2]) (b := utilBlock.set 77 2) (off := 77) h3 (by decide +kernel), by decide +kernel⟩

end Dax
