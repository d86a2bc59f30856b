import Verif.Lemmas.AddDel
import Verif.Lemmas.Lift
import Verif.Lemmas.Demo
import Verif.Spec.Data
import Verif.Props.Names
import Verif.Props.Data
/-!
# C07 to C09: creating and re-declaring tags
-/
set_option autoImplicit false
namespace Dax

/-! ## C07 -/

/-- **C07** A newly created tag reads as zero, whatever part is read and by whom. -/
theorem C07_new {s s1 : Server} {fd : Int} {type count attr i : Nat} {name : Name} {r : Reply}
    (h : Reachable s) (hq : type.testBit 30 = false) (hnew : lookup s name = none)
    (hh : handle s fd (.tagAdd type count attr name) = .ok (s1, r)) (hi : r.index? = some i)
    {fd' off n : Int} {d : List Byte} (hr : Answers s1 fd' (.tagRead i off n) (.resp d)) :
    d = List.replicate n.toNat 0 := by
  have hw := h.wf
  rcases addReq_cases hw hh with ⟨e, rfl, -⟩ | ⟨hu, k, hk, rfl, hadd, hz, hck, hv, size, ha, hc⟩
  · simp [Reply.index?] at hi
  rw [index_le4 hk] at hi
  cases hi
  have hw1 := (h.handle hh).wf
  rcases hc with ⟨hm, -⟩ | ⟨hm, hkl, -⟩
  · have := (lookup_mem hw).mpr hm
    rw [hnew] at this; simp at this
  have ta := tagAdd_added hw hadd
  have hlen := h.len
  obtain ⟨hn, -⟩ | ⟨n', hn', hmem, hcs⟩ := ta.cases
  · omega
  have hn' : i = n' := by omega
  subst hn'
  rcases hcs with ⟨-, -, -, -, size', t, p, ha', ht, -, heq⟩ | ⟨hm', -⟩
  · rw [ha] at ha'; cases ha'
    have heq := heq (by omega)
    rw [← hkl] at ht
    have hdata : t.data = .mem (List.replicate size 0) := by
      rw [heq]; simp [newTag, isQueue, hq]
    have hov : t.ovr = none := by rw [heq]; rfl
    obtain ⟨s2, hr⟩ := hr
    simp only [handle, hTagRead] at hr
    obtain ⟨⟨s3, r3⟩, h3, hr⟩ := C.bind_eq_ok.mp hr
    have key : ∀ d, r3 = .ok d → d = List.replicate n.toNat 0 := by
      intro d hd
      unfold tagRead at h3
      rw [tag?_natCast, ht] at h3
      dsimp only at h3
      split at h3
      · unfold virtRead at h3
        rw [hdata] at h3
        simp at h3
      · obtain ⟨e, -, h3⟩ := C.bind_eq_ok.mp h3
        obtain ⟨sz, -, h3⟩ := C.bind_eq_ok.mp h3
        split at h3
        · simp only [C.ok.injEq, Prod.mk.injEq] at h3
          rw [← h3.2] at hd; simp at hd
        · rw [hdata] at h3
          dsimp only at h3
          obtain ⟨d1, hd1, h3⟩ := C.bind_eq_ok.mp h3
          have hz : d1 = List.replicate n.toNat 0 := by
            obtain ⟨h1, h2⟩ := rd_ok.mp hd1
            rw [h2, List.drop_replicate, List.take_replicate]
            simp only [List.length_replicate] at h1
            congr 1; omega
          split at h3
          · unfold ovrBlend at h3
            rw [hov] at h3
            by_cases h0 : n = 0
            · simp only [h0, if_true, C.ok_bind, C.ok.injEq, Prod.mk.injEq] at h3
              rw [← h3.2] at hd
              simp only [Except.ok.injEq] at hd
              rw [← hd]; exact hz
            · simp [h0] at h3
          · simp only [C.ok.injEq, Prod.mk.injEq] at h3
            rw [← h3.2] at hd
            simp only [Except.ok.injEq] at hd
            rw [← hd]; exact hz
    cases r3 with
    | error e => simp at hr
    | ok d1 =>
      dsimp only at hr
      have h1 := key d1 rfl
      split at hr
      · simp at hr
      · split at hr
        · simp at hr
        · simp only [C.ok.injEq, Prod.mk.injEq, Reply.resp.injEq] at hr
          rw [← hr.2, h1]
          simp [Env.pad]
  · exact absurd rfl (hm _ hm')

/-- Creating an array of three DINTs in the sample history; all of it can be read. -/
example : lookup (demo demoOps) (nm "New") = none ∧
    ∃ s1, handle (demo demoOps) 6 (.tagAdd DAX_DINT 3 0 (nm "New")) = .ok (s1, .resp (le4 16)) ∧
      Answers s1 5 (.tagRead 16 0 12) (.resp (List.replicate 12 0)) := by
  refine ⟨by decide +kernel, ?_⟩
  obtain ⟨s1, r, h1, h2, h3⟩ := exists_after (c := handle (demo demoOps) 6 (.tagAdd DAX_DINT 3 0 (nm "New")))
    (p := fun s1 => replyOf (handle s1 5 (.tagRead 16 0 12)) = some (.resp (List.replicate 12 0)) ∧
      replyOf (handle (demo demoOps) 6 (.tagAdd DAX_DINT 3 0 (nm "New"))) = some (.resp (le4 16)))
    (by decide +kernel)
  rw [h1] at h3
  simp only [replyOf, Option.some.injEq] at h3
  subst h3
  exact ⟨s1, h1, exists_reply h2⟩

/-- What growing a tag does to its entry. -/
theorem grow_entry {s s1 : Server} {fd : Int} {type count attr i c : Nat} {name : Name}
    {r : Reply} (h : Reachable s) (hl : LiveTag s i name type c)
    (hc : c < count) (hlt : count < 4294967296)
    (hh : handle s fd (.tagAdd type count attr name) = .ok (s1, r)) :
    (∃ e, r = .err e) ∨ (r = .resp (le4 i) ∧ ∃ t d p size, s.db[i]? = some t ∧ t.name = some name ∧
      t.type = type ∧ reallocStore s.env t.data size = .ok d ∧
      s1.db[i]? = some { t with data := d, count := count, attr := attrAfter t.attr attr, retPtr := p }) := by
  have hw := h.wf
  obtain ⟨t, ht, hn, hty, hct⟩ := (liveTag_iff hw).mp hl
  rcases addReq_cases hw hh with ⟨e, rfl, -⟩ | ⟨hu, k, hk, rfl, hadd, hz, hck, hv, size, ha, hcs⟩
  · exact .inl ⟨e, rfl⟩
  refine .inr ?_
  have hmem := hw.named i t name ht hn
  rcases hcs with ⟨hm, ho⟩ | ⟨hm, -⟩
  · have hki : k = i := by have := hw.sorted.inj hm hmem rfl; simpa using this
    subst hki
    have h11 := h.clientIdx ht hn hu
    rcases tagAddOld_inv (by rw [growDb_db]; exact ht) ho with ⟨-, hr, -⟩ | ⟨-, -, -, hcs⟩
    · simp [ERR_TAG_DUPL] at hr
    · rw [u32_nat hlt] at hcs
      rcases hcs with ⟨hle, -⟩ | ⟨-, d, s2, x, hd, hs, hwt⟩
      · omega
      · refine ⟨rfl, t, d, ?_⟩
        obtain ⟨t1, p, rt, ht1, rfl⟩ := setAttribute_inv hs
        have hi := (List.getElem?_eq_some_iff.mp ht).1
        have ht1 : ((growDb s).db.set k { t with data := d, count := count })[k]? = some t1 := ht1
        rw [List.getElem?_set_self (by rw [growDb_db]; exact hi)] at ht1
        cases ht1
        rw [growDb_env] at hd
        refine ⟨p, size, ht, hn, hty, hd, ?_⟩
        rw [(tagWrite_quiet hwt).same (by show ¬ (k = 2); omega)]
        simp [growDb_db, hi]
  · exact absurd rfl (hm _ hmem)

/-- **C07, growing (partial)** Re-declaring an ordinary tag with a larger count keeps its index
and its old contents: a read answered before and after gives the same bytes.  Missing: the added
bytes need not be zero, see `C07_grow_junk`. -/
theorem C07_grow_partial {s s1 : Server} {fd : Int} {type count attr i c : Nat} {name : Name}
    {r : Reply} (h : Reachable s) (ho : Ordinary s i) (hl : LiveTag s i name type c)
    (hc : c < count) (hlt : count < 4294967296)
    (hh : handle s fd (.tagAdd type count attr name) = .ok (s1, r)) :
    (∃ e, r = .err e) ∨ (r = .resp (le4 i) ∧ LiveTag s1 i name type count ∧ Ordinary s1 i ∧
      ∀ (fd' off n : Int) (d d' : List Byte), Answers s fd' (.tagRead i off n) (.resp d) →
        Answers s1 fd' (.tagRead i off n) (.resp d') → d' = d) := by
  have hw := h.wf
  have hw1 := (h.handle hh).wf
  rcases grow_entry h hl hc hlt hh with he | ⟨hr, t, d, p, size, ht, hn, hty, hd, ht1⟩
  · exact .inl he
  obtain ⟨t', b, P⟩ := (ordinary_iff hw).mp ho
  have : t' = t := by have := P.db; rw [ht] at this; exact (Option.some.inj this).symm
  subst this
  unfold reallocStore at hd
  rw [P.data] at hd
  dsimp only at hd
  split at hd
  · simp at hd
  simp only [C.ok.injEq] at hd
  subst hd
  have P1 : Plain s1 i _ (s.env.pad b size) := ⟨ht1, by rw [hn]; simp,
    by rw [attrAfter_virt]; exact P.virt, by
      have := P.ovr
      show (attrAfter _ _).ovrSet = false
      unfold attrAfter
      split <;> (try split) <;> (try split) <;> exact this, rfl⟩
  refine .inr ⟨hr, (liveTag_iff hw1).mpr ⟨_, ht1, hn, hty, rfl⟩, (ordinary_iff hw1).mpr ⟨_, _, P1⟩, ?_⟩
  rintro fd' off n x y ⟨s2, h2⟩ ⟨s3, h3⟩
  rcases (read_inv hw P h2).2 with hx | ⟨x', hx, -, hx'⟩
  · simp at hx
  rcases (read_inv hw1 P1 h3).2 with hy | ⟨y', hy, -, hy'⟩
  · simp at hy
  simp only [Reply.resp.injEq] at hx' hy'
  subst hx'; subst hy'
  obtain ⟨hx1, hx2⟩ := rd_ok.mp hx
  obtain ⟨hy1, hy2⟩ := rd_ok.mp hy
  rw [hx2, hy2]
  apply List.ext_getElem?
  intro k
  rw [List.getElem?_take, List.getElem?_take]
  split
  · rw [List.getElem?_drop, List.getElem?_drop, Env.pad, List.getElem?_take]
    rw [Env.pad_length] at hy1
    rw [if_pos (by omega), List.getElem?_append_left (by omega)]
  · rfl

/-- Growing `Speed` from four to six elements. -/
example : Ordinary (demo demoOps) 13 ∧ LiveTag (demo demoOps) 13 (nm "Speed") DAX_INT 4 ∧
    ∃ s1, handle (demo demoOps) 6 (.tagAdd DAX_INT 6 0 (nm "Speed")) = .ok (s1, .resp (le4 13)) :=
  ⟨⟨0, ⟨by decide, nm "Speed", DAX_INT, 4, fun fd => by kernel_rfl⟩, by decide, by decide⟩,
    ⟨by decide, by decide, 0, fun fd => by kernel_rfl⟩, exists_reply (by decide +kernel)⟩

/-- An environment in which fresh memory is not zero. -/
def dirtyEnv : Env := { junkByte := fun _ => 0xA5 }

/-- **C07 fails for growth**: with fresh memory that is not zero, growing `Speed` from four to six
elements makes the new elements read as whatever was there. -/
theorem C07_grow_junk : Reachable (demo demoOps dirtyEnv) ∧
    ∃ s1, handle (demo demoOps dirtyEnv) 6 (.tagAdd DAX_INT 6 0 (nm "Speed")) =
        .ok (s1, .resp (le4 13)) ∧
      Answers s1 6 (.tagRead 13 0 12) (.resp [1, 2, 3, 4, 5, 6, 7, 8, 0xA5, 0xA5, 0xA5, 0xA5]) := by
  refine ⟨demo_reachable (by decide +kernel), ?_⟩
  obtain ⟨s1, r, h1, h2, h3⟩ := exists_after
    (c := handle (demo demoOps dirtyEnv) 6 (.tagAdd DAX_INT 6 0 (nm "Speed")))
    (p := fun s1 => replyOf (handle s1 6 (.tagRead 13 0 12)) =
        some (.resp [1, 2, 3, 4, 5, 6, 7, 8, 0xA5, 0xA5, 0xA5, 0xA5]) ∧
      replyOf (handle (demo demoOps dirtyEnv) 6 (.tagAdd DAX_INT 6 0 (nm "Speed"))) =
        some (.resp (le4 13)))
    (by decide +kernel)
  rw [h1] at h3
  simp only [replyOf, Option.some.injEq] at h3
  subst h3
  exact ⟨s1, h1, exists_reply h2⟩

/-! ## C08 -/

/-- **C08** Adding a tag whose name exists with the same type and a count that is not larger, if
not refused, returns the same index and changes neither type nor count nor what any read of any
tag returns. -/
theorem C08_same {s s1 : Server} {fd : Int} {type count attr i c : Nat} {name : Name} {b : List Byte}
    (h : Reachable s) (hl : LiveTag s i name type c) (hc : count ≤ c)
    (hh : handle s fd (.tagAdd type count attr name) = .ok (s1, .resp b)) :
    b = le4 i ∧ LiveTag s1 i name type c ∧
      (∀ (j : Nat) (fd' off n : Int) (r : Reply),
        Answers s1 fd' (.tagRead j off n) r ↔ Answers s fd' (.tagRead j off n) r) ∧
      (∀ (j : Nat) (name' : Name) (type' c' : Nat),
        LiveTag s1 j name' type' c' ↔ LiveTag s j name' type' c') := by
  have hw := h.wf
  have hw1 := (h.handle hh).wf
  have hclt := hl.2.1
  obtain ⟨t, ht, hn, hty, hct⟩ := (liveTag_iff hw).mp hl
  rcases addReq_cases hw hh with ⟨e, he, -⟩ | ⟨hu, k, hk, he, hadd, hz, hck, hv, size, ha, hcs⟩
  · simp at he
  simp only [Reply.resp.injEq] at he
  subst he
  have hmem := hw.named i t name ht hn
  rcases hcs with ⟨hm, ho⟩ | ⟨hm, -⟩
  · have hki : k = i := by have := hw.sorted.inj hm hmem rfl; simpa using this
    subst hki
    rcases tagAddOld_inv (by rw [growDb_db]; exact ht) ho with ⟨-, hr, -⟩ | ⟨-, -, -, hcs⟩
    · simp [ERR_TAG_DUPL] at hr
    · rw [u32_nat (by omega)] at hcs
      rcases hcs with ⟨-, hs⟩ | ⟨hlt, -⟩
      · obtain ⟨t1, p, rt, ht1, rfl⟩ := setAttribute_inv hs
        rw [growDb_db, ht] at ht1
        cases ht1
        have hi := (List.getElem?_eq_some_iff.mp ht).1
        have hdb : ∀ (j : Nat) (u : Tag), s.db[j]? = some u →
            ∃ u', ((growDb s).db.set k { t with attr := attrAfter t.attr attr, retPtr := p })[j]? = some u' ∧
              SameRead u u' := by
          intro j u hu
          rw [growDb_db]
          by_cases hjk : k = j
          · subst hjk
            rw [ht] at hu; cases hu
            refine ⟨_, List.getElem?_set_self hi, ⟨rfl, rfl, rfl, rfl, rfl, attrAfter_virt _ _, ?_⟩⟩
            show (attrAfter _ _).ovrSet = _
            unfold attrAfter
            split <;> (try split) <;> (try split) <;> rfl
          · exact ⟨u, by rw [List.getElem?_set_ne hjk]; exact hu, SameRead.refl u⟩
        have hlive : ∀ (j : Nat) (name' : Name) (type' c' : Nat),
            LiveTag { growDb s with db := (growDb s).db.set k { t with attr := attrAfter t.attr attr, retPtr := p },
                                    ret := rt } j name' type' c' ↔ LiveTag s j name' type' c' := by
          intro j name' type' c'
          rw [liveTag_iff hw, liveTag_iff hw1]
          constructor
          · rintro ⟨u', hu', h1, h2, h3⟩
            have hu' : ((growDb s).db.set k _)[j]? = some u' := hu'
            have hj := (List.getElem?_eq_some_iff.mp hu').1
            rw [growDb_db, List.length_set] at hj
            obtain ⟨u2, hu2, sr⟩ := hdb j _ (List.getElem?_eq_getElem hj)
            rw [hu'] at hu2; cases hu2
            exact ⟨_, List.getElem?_eq_getElem hj, by rw [← sr.name]; exact h1,
              by rw [← sr.type]; exact h2, by rw [← sr.count]; exact h3⟩
          · rintro ⟨u, hu, h1, h2, h3⟩
            obtain ⟨u', hu', sr⟩ := hdb j u hu
            exact ⟨u', hu', by rw [sr.name]; exact h1, by rw [sr.type]; exact h2,
              by rw [sr.count]; exact h3⟩
        refine ⟨rfl, (hlive _ _ _ _).mpr hl, ?_, hlive⟩
        intro j fd' off n r
        refine read_congr_gen ?_ (hdb j) fd' off n r
        refine ⟨growDb_env s, growDb_cdts s, ?_, ?_, ?_⟩
        · show (growDb s).mods = s.mods
          unfold growDb; split <;> rfl
        · show ((growDb s).db.set k _).length = _
          rw [growDb_db, List.length_set]
        · intro j u hu
          obtain ⟨u', hu', sr⟩ := hdb j u hu
          exact ⟨u', hu', sr.name, by rw [sr.data]; exact Store.Same.refl _⟩
      · omega
  · exact absurd rfl (hm _ hmem)

/-- `Speed` again with three elements. -/
example : LiveTag (demo demoOps) 13 (nm "Speed") DAX_INT 4 ∧
    ∃ s1, handle (demo demoOps) 6 (.tagAdd DAX_INT 3 0 (nm "Speed")) = .ok (s1, .resp (le4 13)) :=
  ⟨⟨by decide, by decide, 0, fun fd => by kernel_rfl⟩, exists_reply (by decide +kernel)⟩

/-- **C08** ... and it is not refused when nobody owns the tag (attribute 0x0020 clear). -/
theorem C08_accepted {s s1 : Server} {fd : Int} {type count attr i c a : Nat} {name : Name} {r : Reply}
    (h : Reachable s) (hu : name.head? ≠ some 0x5F#8) (hl : LiveTag s i name type c)
    (ha : AttrAt s i a) (hown : a.testBit 5 = false) (h0 : 0 < count) (hc : count ≤ c)
    (hh : handle s fd (.tagAdd type count attr name) = .ok (s1, r)) : r = .resp (le4 i) := by
  have hw := h.wf
  have hclt := hl.2.1
  obtain ⟨t, ht, hn, hty, hct⟩ := (liveTag_iff hw).mp hl
  obtain ⟨t', ht', -, hbits⟩ := (attrAt_iff hw).mp ha
  rw [ht] at ht'; cases ht'
  have hno : t.attr.owned = false := by rw [← Attr.bit5, hbits]; exact hown
  have hok := hw.tag i t ht
  simp only [handle, hTagAdd] at hh
  rw [if_neg (by exact hu)] at hh
  obtain ⟨⟨s2, r2⟩, h1, hh⟩ := C.bind_eq_ok.mp hh
  simp only [C.ok.injEq, Prod.mk.injEq] at hh
  obtain ⟨rfl, rfl⟩ := hh
  have hmem := hw.named i t name ht hn
  have hil := (List.getElem?_eq_some_iff.mp ht).1
  have hdb := hw.dblt
  unfold tagAdd tagAddC at h1
  rw [u32_nat (by omega), if_neg (by omega)] at h1
  dsimp only at h1
  rw [growDb_cdts, growDb_index, ← hty, hok.chk.1, hok.valid name hn] at h1
  simp only [Bool.true_eq_false, if_false, ne_eq, not_true] at h1
  obtain ⟨size, -, h1⟩ := C.bind_eq_ok.mp h1
  obtain ⟨x, hx, h1⟩ := C.bind_eq_ok.mp h1
  rw [getByName_of_mem hw.sorted hmem] at hx
  cases hx
  rcases tagAddOld_inv (by rw [growDb_db]; exact ht) h1 with ⟨-, -, h2 | h2⟩ | ⟨rfl, -⟩
  · rw [hno] at h2; simp at h2
  · exact absurd rfl h2
  · simp only [idOrErr]
    rw [if_neg (by omega)]

/-- **C08** Adding a name that exists with another type is refused and is as if it had never been
asked. -/
theorem C08_type {s s1 : Server} {fd : Int} {type type' count attr i c : Nat} {name : Name} {r : Reply}
    (h : Reachable s) (hl : LiveTag s i name type c) (hne : type' ≠ type)
    (hh : handle s fd (.tagAdd type' count attr name) = .ok (s1, r)) :
    (∃ e, r = .err e) ∧ AsBefore s s1 := by
  have hw := h.wf
  obtain ⟨t, ht, hn, hty, hct⟩ := (liveTag_iff hw).mp hl
  have hmem := hw.named i t name ht hn
  rcases addReq_cases hw hh with ⟨e, rfl, rfl | rfl⟩ | ⟨hu, k, hk, rfl, hadd, hz, hck, hv, size, ha, hcs⟩
  · exact ⟨⟨e, rfl⟩, asBefore_refl _⟩
  · exact ⟨⟨e, rfl⟩, asBefore_growDb _⟩
  · exfalso
    rcases hcs with ⟨hm, ho⟩ | ⟨hm, -⟩
    · have hki : k = i := by have := hw.sorted.inj hm hmem rfl; simpa using this
      subst hki
      rcases tagAddOld_inv (by rw [growDb_db]; exact ht) ho with ⟨-, hr, -⟩ | ⟨-, -, h2, -⟩
      · simp [ERR_TAG_DUPL] at hr
      · exact hne (by rw [← h2, hty])
    · exact absurd rfl (hm _ hmem)

/-- **C08** A tag created with the attribute "owned" (0x0020, and not "retain", 0x0004) on one
connection cannot be declared again from another one as long as it exists, whatever happens in
between; the attempt is as if it had never been made. -/
theorem C08_owned {s s1 s2 s3 : Server} {fd1 fd2 : Int} {type count attr type' count' attr' : Nat}
    {name : Name} {b : List Byte} {i : Nat} {os : List Op} {r : Reply}
    (h : Reachable s) (hnew : lookup s name = none)
    (hadd : handle s fd1 (.tagAdd type count attr name) = .ok (s1, .resp b))
    (hi : (Reply.resp b).index? = some i)
    (ho : attr.testBit 5 = true) (hr : attr.testBit 2 = false)
    (hrun : run s1 os = .ok s2) (hl : LiveAt s2 i name) (hne : fd2 ≠ fd1)
    (hh : handle s2 fd2 (.tagAdd type' count' attr' name) = .ok (s3, r)) :
    (∃ e, r = .err e) ∧ AsBefore s2 s3 := by
  have hw := h.wf
  have hr2 : Reachable s2 := (h.handle hadd).run hrun
  have hw2 := hr2.wf
  rcases addReq_cases hw2 hh with ⟨e, rfl, rfl | rfl⟩ | ⟨hu, k, hk, rfl, hadd2, hz, hck, hv, size, ha, hcs⟩
  · exact ⟨⟨e, rfl⟩, asBefore_refl _⟩
  · exact ⟨⟨e, rfl⟩, asBefore_growDb _⟩
  exfalso
  obtain ⟨t2, ht2, hn2⟩ := (liveAt_iff hw2).mp hl
  have hmem := hw2.named i t2 name ht2 hn2
  -- the entry after creation
  have key : ∃ t1, s1.db[i]? = some t1 ∧ t1.attr.owned = true ∧ t1.fd = fd1 := by
    rcases addReq_cases hw hadd with ⟨e, he, -⟩ | ⟨-, n, hn, he, hadd1, -, -, -, size1, ha1, hc⟩
    · simp at he
    simp only [Reply.resp.injEq] at he
    subst he
    rw [index_le4 hn] at hi
    cases hi
    rcases hc with ⟨hm, -⟩ | ⟨hm, hkl, -⟩
    · have := (lookup_mem hw).mpr hm
      rw [hnew] at this; simp at this
    have ta := tagAdd_added hw hadd1
    have hlen := h.len
    obtain ⟨hn', -⟩ | ⟨n', hn', -, hcs'⟩ := ta.cases
    · omega
    rcases hcs' with ⟨-, -, -, -, size', t, p, -, ht, -, heq⟩ | ⟨hm', -⟩
    · have heq := heq (by omega)
      rw [← hkl] at ht
      refine ⟨t, ht, ?_, ?_⟩
      · rw [heq]
        show (attrAfter _ _).owned = true
        unfold attrAfter
        have h1 : wantRetain attr = false := hr
        have h2 : wantOwned attr = true := ho
        rw [h1, h2]
        cases wantReadonly attr <;> rfl
      · rw [heq]; rfl
    · exact absurd rfl (hm _ hm')
  obtain ⟨t1, ht1, ho1, hf1⟩ := key
  have st := run_step (h.handle hadd).wf hrun
  obtain ⟨t2', ht2', -, hf2, -, -, -, -, hk2⟩ := st.ev.tag i t1 ht1
  rw [ht2] at ht2'; cases ht2'
  rcases hk2 with hk2 | hk2
  · rw [hn2] at hk2; simp at hk2
  rcases hcs with ⟨hm, ho'⟩ | ⟨hm, -⟩
  · have hki : k = i := by have := hw2.sorted.inj hm hmem rfl; simpa using this
    subst hki
    rcases tagAddOld_inv (by rw [growDb_db]; exact ht2) ho' with ⟨-, hr', -⟩ | ⟨-, h2, -⟩
    · simp [ERR_TAG_DUPL] at hr'
    · exact h2 ⟨hk2.1 ho1, by rw [hf2, hf1]; exact fun h => hne h.symm⟩
  · exact absurd rfl (hm _ hmem)

/-- `Speed` with the other type, and a tag owned by the module on connection 5 declared from
connection 6. -/
example : LiveTag (demo demoOps) 13 (nm "Speed") DAX_INT 4 ∧
    Answers (demo demoOps) 6 (.tagAdd DAX_DINT 4 0 (nm "Speed")) (.err ERR_TAG_DUPL) ∧
    lookup (demo demoOps) (nm "Mine") = none ∧
    ∃ s1, handle (demo demoOps) 5 (.tagAdd DAX_INT 2 0x20 (nm "Mine")) = .ok (s1, .resp (le4 16)) ∧
      Answers s1 6 (.tagAdd DAX_INT 2 0 (nm "Mine")) (.err ERR_TAG_DUPL) ∧
      Answers s1 5 (.tagAdd DAX_INT 2 0 (nm "Mine")) (.resp (le4 16)) := by
  refine ⟨⟨by decide, by decide, 0, fun fd => by kernel_rfl⟩, exists_reply (by decide +kernel),
    by decide +kernel, ?_⟩
  obtain ⟨s1, r, h1, ⟨h2, h4⟩, h3⟩ := exists_after
    (c := handle (demo demoOps) 5 (.tagAdd DAX_INT 2 0x20 (nm "Mine")))
    (p := fun s1 => (replyOf (handle s1 6 (.tagAdd DAX_INT 2 0 (nm "Mine"))) =
        some (.err ERR_TAG_DUPL) ∧
      replyOf (handle s1 5 (.tagAdd DAX_INT 2 0 (nm "Mine"))) = some (.resp (le4 16))) ∧
      replyOf (handle (demo demoOps) 5 (.tagAdd DAX_INT 2 0x20 (nm "Mine"))) = some (.resp (le4 16)))
    (by decide +kernel)
  rw [h1] at h3
  simp only [replyOf, Option.some.injEq] at h3
  subst h3
  exact ⟨s1, h1, exists_reply h2, exists_reply h4⟩

/-! ## C09 -/

theorem knownType_of_check {s : Server} {t : Nat} (h : checkType s.cdts t = true) : KnownType s t := by
  unfold checkType at h
  simp only [Bool.or_eq_true, Bool.and_eq_true, decide_eq_true_eq] at h
  refine ⟨stripQueue t, ?_, ?_⟩
  · rcases h with h | ⟨hc, hl⟩
    · left; simpa [baseTypes] using h
    · right
      refine ⟨_, hl, ?_⟩
      unfold cdtToIndex
      rw [if_pos hc]
      have hc' : (stripQueue t).testBit 31 = true := hc
      have := Nat.ge_two_pow_of_testBit hc'
      simp only [DAX_CUSTOM]; omega
  · unfold stripQueue
    split
    · rename_i hq
      have hq' : t.testBit 30 = true := hq
      have := Nat.ge_two_pow_of_testBit hq'
      right; simp only [DAX_QUEUE]; omega
    · left; rfl

/-- **C09** A refused tag-add request leaves no trace: whatever happens afterwards (requests from
anybody, disconnects), the replies and event messages are those that would have been given
without it. -/
theorem C09_no_trace {s s1 : Server} {fd : Int} {type count attr : Nat} {name : Name} {e : Int}
    (h : Reachable s) (hh : handle s fd (.tagAdd type count attr name) = .ok (s1, .err e)) :
    AsBefore s s1 := by
  rcases addReq_cases h.wf hh with ⟨e, -, rfl | rfl⟩ | ⟨-, k, -, he, -⟩
  · exact asBefore_refl _
  · exact asBefore_growDb _
  · simp at he

/-- **C09** Zero counts, unknown types, illegal and reserved names are refused (type conflicts and
foreign owners: `C08_type`, `C08_owned`). -/
theorem C09_refused {s s1 : Server} {fd : Int} {type count attr : Nat} {name : Name} {r : Reply}
    (h : Reachable s) (hh : handle s fd (.tagAdd type count attr name) = .ok (s1, r))
    (hbad : count = 0 ∨ ¬ KnownType s type ∨ ¬ ClientName name) : ∃ e, r = .err e := by
  rcases addReq_cases h.wf hh with ⟨e, rfl, -⟩ | ⟨hu, k, -, he, -, hz, hck, hv, -⟩
  · exact ⟨e, rfl⟩
  · exfalso
    rcases hbad with rfl | hb | hb
    · simp [u32] at hz
    · exact hb (knownType_of_check hck)
    · exact hb ((clientName_iff name).mpr ⟨hu, hv⟩)

/-- Refused requests of each kind in the sample history. -/
example :
    Answers (demo demoOps) 5 (.tagAdd DAX_INT 0 0 (nm "A")) (.err ERR_ARG) ∧
    Answers (demo demoOps) 5 (.tagAdd 0x77 1 0 (nm "A")) (.err ERR_BADTYPE) ∧
    Answers (demo demoOps) 5 (.tagAdd DAX_INT 1 0 (nm "A-B")) (.err ERR_TAG_BAD) ∧
    Answers (demo demoOps) 5 (.tagAdd DAX_INT 1 0 (nm "_A")) (.err ERR_ILLEGAL) :=
  ⟨exists_reply (by decide +kernel), exists_reply (by decide +kernel),
   exists_reply (by decide +kernel), exists_reply (by decide +kernel)⟩

end Dax
