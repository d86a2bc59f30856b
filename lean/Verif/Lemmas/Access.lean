import Verif.Lemmas.HandleQuiet
/-!
# Reads and writes of ordinary tags through the request interface
-/
set_option autoImplicit false
namespace Dax

theorem Attr.bits_lt (a : Attr) : a.bits < 65536 := by
  have h := fun b : Bool => Bool.toNat_le b
  have := h a.readonly; have := h a.virt; have := h a.retain; have := h a.ovrSet
  have := h a.special; have := h a.owned; have := h a.mapping; have := h a.event
  have := h a.override
  unfold Attr.bits; omega

theorem toNat_one {b : Bool} : b.toNat = 1 ↔ b = true := by cases b <;> simp

theorem Attr.bit1 (a : Attr) : a.bits.testBit 1 = a.virt := by
  obtain ⟨a1, a2, a3, a4, a5, a6, a7, a8, a9⟩ := a
  rw [Nat.testBit_eq_decide_div_mod_eq, Bool.eq_iff_iff, decide_eq_true_iff, ← toNat_one]
  have h := fun b : Bool => Bool.toNat_le b
  have := h a1; have := h a2; have := h a3; have := h a4; have := h a5; have := h a6
  have := h a7; have := h a8; have := h a9
  unfold Attr.bits; simp only; omega

theorem Attr.bit3 (a : Attr) : a.bits.testBit 3 = a.ovrSet := by
  obtain ⟨a1, a2, a3, a4, a5, a6, a7, a8, a9⟩ := a
  rw [Nat.testBit_eq_decide_div_mod_eq, Bool.eq_iff_iff, decide_eq_true_iff, ← toNat_one]
  have h := fun b : Bool => Bool.toNat_le b
  have := h a1; have := h a2; have := h a3; have := h a4; have := h a5; have := h a6
  have := h a7; have := h a8; have := h a9
  unfold Attr.bits; simp only; omega

theorem Attr.bit0 (a : Attr) : a.bits.testBit 0 = a.readonly := by
  obtain ⟨a1, a2, a3, a4, a5, a6, a7, a8, a9⟩ := a
  rw [Nat.testBit_eq_decide_div_mod_eq, Bool.eq_iff_iff, decide_eq_true_iff, ← toNat_one]
  have h := fun b : Bool => Bool.toNat_le b
  have := h a1; have := h a2; have := h a3; have := h a4; have := h a5; have := h a6
  have := h a7; have := h a8; have := h a9
  unfold Attr.bits; simp only; omega

theorem Attr.bit4 (a : Attr) : a.bits.testBit 4 = a.special := by
  obtain ⟨a1, a2, a3, a4, a5, a6, a7, a8, a9⟩ := a
  rw [Nat.testBit_eq_decide_div_mod_eq, Bool.eq_iff_iff, decide_eq_true_iff, ← toNat_one]
  have h := fun b : Bool => Bool.toNat_le b
  have := h a1; have := h a2; have := h a3; have := h a4; have := h a5; have := h a6
  have := h a7; have := h a8; have := h a9
  unfold Attr.bits; simp only; omega

theorem Attr.bit5 (a : Attr) : a.bits.testBit 5 = a.owned := by
  obtain ⟨a1, a2, a3, a4, a5, a6, a7, a8, a9⟩ := a
  rw [Nat.testBit_eq_decide_div_mod_eq, Bool.eq_iff_iff, decide_eq_true_iff, ← toNat_one]
  have h := fun b : Bool => Bool.toNat_le b
  have := h a1; have := h a2; have := h a3; have := h a4; have := h a5; have := h a6
  have := h a7; have := h a8; have := h a9
  unfold Attr.bits; simp only; omega

theorem tagReply_attr {i i' ty ty' c c' a a' : Nat} {n n' : Name}
    (h : tagReply i ty c a n = tagReply i' ty' c' a' n') (ha : a < 65536) (ha' : a' < 65536) :
    a = a' := by
  unfold tagReply at h
  simp only [List.append_assoc] at h
  have e := fun (x y : Nat) => (toLE_length 4 x).trans (toLE_length 4 y).symm
  have e2 := fun (x y : Nat) => (toLE_length 2 x).trans (toLE_length 2 y).symm
  have h := (List.append_inj h (e _ _)).2
  have h := (List.append_inj h (e _ _)).2
  have h := (List.append_inj h (e _ _)).2
  exact toLE_inj (List.append_inj h (e2 _ _)).1 ha ha'

theorem attrAt_iff {s : Server} (h : WF s) {i a : Nat} :
    AttrAt s i a ↔ ∃ t, s.db[i]? = some t ∧ t.name ≠ none ∧ t.attr.bits = a := by
  constructor
  · rintro ⟨hlt, n, ty, c, hh⟩
    have hh := hh 0
    cases ht : s.db[i]? with
    | none => rw [getIdx_none ht] at hh; simp at hh
    | some t =>
      cases hn : t.name with
      | none => rw [getIdx_dead h ht hn] at hh; simp at hh
      | some m =>
        rw [getIdx_live h ht hn] at hh
        simp only [C.ok.injEq, Prod.mk.injEq, Reply.resp.injEq, true_and] at hh
        exact ⟨t, rfl, by simp [hn], tagReply_attr hh (Attr.bits_lt _) hlt⟩
  · rintro ⟨t, ht, hn, rfl⟩
    obtain ⟨n, hn⟩ := Option.ne_none_iff_exists'.mp hn
    exact ⟨Attr.bits_lt _, n, t.type, t.count, fun fd => getIdx_live h ht hn fd⟩

/-- An ordinary tag as it is represented. -/
structure Plain (s : Server) (i : Nat) (t : Tag) (b : List Byte) : Prop where
  db : s.db[i]? = some t
  name : t.name ≠ none
  virt : t.attr.virt = false
  ovr : t.attr.ovrSet = false
  data : t.data = .mem b

theorem ordinary_iff {s : Server} (h : WF s) {i : Nat} :
    Ordinary s i ↔ ∃ t b, Plain s i t b := by
  constructor
  · rintro ⟨a, ha, h1, h3⟩
    obtain ⟨t, ht, hn, rfl⟩ := (attrAt_iff h).mp ha
    rw [Attr.bit1] at h1
    rw [Attr.bit3] at h3
    rcases (h.tag i t ht).virt h1 with hf | ⟨b, hb⟩
    · exact absurd ((h.tag i t ht).name.mpr hf) hn
    · exact ⟨t, b, ht, hn, h1, h3, hb⟩
  · rintro ⟨t, b, P⟩
    exact ⟨_, (attrAt_iff h).mpr ⟨t, P.db, P.name, rfl⟩, by rw [Attr.bit1, P.virt],
      by rw [Attr.bit3, P.ovr]⟩

theorem noMaps_iff {s : Server} {i : Nat} {t : Tag} (ht : s.db[i]? = some t) :
    NoMaps s i ↔ t.wildMaps = false ∧ t.maps = [] := by
  have hg : s.tag? (i : Int) = some t := by rw [tag?_natCast]; exact ht
  constructor
  · intro h
    have key : ∀ id, ∃ e, mapGet s i id = .ok (.error e) := by
      intro id
      obtain ⟨e, he⟩ := h 0 id
      simp only [handle, hMapGet] at he
      obtain ⟨o, ho, he⟩ := C.bind_eq_ok.mp he
      cases o with
      | error e => exact ⟨e, ho⟩
      | ok p => simp at he
    refine ⟨?_, ?_⟩
    · obtain ⟨e, he⟩ := key 0
      unfold mapGet at he
      rw [hg] at he
      cases hw : t.wildMaps with
      | false => rfl
      | true => simp [hw] at he
    · cases hm : t.maps with
      | nil => rfl
      | cons m ms =>
        obtain ⟨e, he⟩ := key m.id
        unfold mapGet at he
        rw [hg] at he
        simp only [hm, List.find?_cons, decide_true] at he
        split at he <;> simp at he
  · rintro ⟨h1, h2⟩ fd id
    refine ⟨ERR_NOTFOUND, ?_⟩
    simp only [handle, hMapGet, mapGet, hg, h1, h2]
    rfl

/-- Size used for bounds checking. -/
theorem tagGetSize_mem {tbl : List Cdt} {t : Tag} {b : List Byte} (h : TagOK tbl t)
    (hb : t.data = .mem b) : ∃ sz, tagGetSize tbl t = .ok sz ∧ (sz = b.length ∨ sz < 0) ∧
      (t.type = DAX_BOOL → sz = b.length ∧ b.length = t.count / 8 + 1) := by
  have ha := (h.mem b hb).1
  unfold allocSize at ha
  unfold tagGetSize
  split at ha
  · rename_i hbool
    rw [if_pos hbool]
    simp only [C.ok.injEq] at ha
    exact ⟨_, rfl, .inl (by rw [ha]), fun _ => ⟨by rw [ha], ha.symm⟩⟩
  · rename_i hbool
    rw [if_neg hbool]
    obtain ⟨ts, hts, ha⟩ := C.bind_eq_ok.mp ha
    simp only [C.ok.injEq] at ha
    rw [hts]
    refine ⟨i32 (ts * t.count), rfl, ?_, fun h => absurd h hbool⟩
    rw [← ha]
    unfold i32 u32
    split <;> omega

theorem read_inv {s s' : Server} {i : Nat} {t : Tag} {b : List Byte} {fd off n : Int} {r : Reply}
    (hw : WF s) (P : Plain s i t b) (hh : handle s fd (.tagRead i off n) = .ok (s', r)) :
    s' = s ∧ (r = .err ERR_2BIG ∨ ∃ d, rd b off n = .ok d ∧ n ≤ 4088 ∧ r = .resp d) := by
  obtain ⟨sz, hsz, hszb, -⟩ := tagGetSize_mem (hw.tag i t P.db) P.data
  simp only [handle, hTagRead] at hh
  obtain ⟨⟨s1, r1⟩, h1, hh⟩ := C.bind_eq_ok.mp hh
  unfold tagRead at h1
  rw [tag?_natCast, P.db] at h1
  simp only [P.virt, P.ovr, P.data, Bool.false_eq_true, if_false, hsz, C.ok_bind] at h1
  obtain ⟨e, he, h1⟩ := C.bind_eq_ok.mp h1
  dsimp only at hh
  split at h1
  · simp only [C.ok.injEq, Prod.mk.injEq] at h1
    obtain ⟨rfl, rfl⟩ := h1
    simp only [C.ok.injEq, Prod.mk.injEq] at hh
    exact ⟨hh.1.symm, .inl hh.2.symm⟩
  · obtain ⟨d, hd, h1⟩ := C.bind_eq_ok.mp h1
    simp only [C.ok.injEq, Prod.mk.injEq] at h1
    obtain ⟨rfl, rfl⟩ := h1
    dsimp only at hh
    have hl := rd_length hd
    have : MSG_DATA_SIZE = 4088 := rfl
    split at hh
    · simp at hh
    · split at hh
      · omega
      · simp only [C.ok.injEq, Prod.mk.injEq] at hh
        refine ⟨hh.1.symm, .inr ⟨d, hd, by omega, ?_⟩⟩
        rw [← hh.2]
        unfold Env.pad
        rw [← hl]
        simp

theorem read_ok {s : Server} {i : Nat} {t : Tag} {b d : List Byte} {off n : Int}
    (P : Plain s i t b) (hd : rd b off n = .ok d) (hn : n ≤ 4088)
    (hsz : tagGetSize s.cdts t = .ok (b.length : Int)) (hlt : off + n < 2147483648) (fd : Int) :
    handle s fd (.tagRead i off n) = .ok (s, .resp d) := by
  have hl := rd_length hd
  have hr := (rd_ok.mp hd).1
  simp only [handle, hTagRead, tagRead]
  rw [tag?_natCast, P.db]
  have ha : addI32 off n = .ok (off + n) := by unfold addI32; rw [if_pos (by omega)]
  simp only [P.virt, P.ovr, P.data, Bool.false_eq_true, if_false, hsz, ha, C.ok_bind]
  rw [if_neg (by omega), hd]
  simp only [C.ok_bind]
  have : MSG_DATA_SIZE = 4088 := rfl
  rw [if_neg (by omega), if_neg (by omega)]
  unfold Env.pad
  rw [← hl]
  simp

theorem read_eq {s : Server} {i : Nat} {t : Tag} {b : List Byte} (P : Plain s i t b)
    (fd off n : Int) : handle s fd (.tagRead i off n) = (do
      let e ← addI32 off n
      let sz ← tagGetSize s.cdts t
      if e > sz then .ok (s, .err ERR_2BIG)
      else do
        let d ← rd b off n
        if n > 4088 then .ub "reply buffer" else .ok (s, .resp d)) := by
  simp only [handle, hTagRead, tagRead]
  rw [tag?_natCast, P.db]
  simp only [P.virt, P.ovr, P.data, Bool.false_eq_true, if_false]
  cases addI32 off n with
  | ub w => rfl
  | ok e =>
    simp only [C.ok_bind]
    cases tagGetSize s.cdts t with
    | ub w => rfl
    | ok sz =>
      simp only [C.ok_bind]
      split
      · rfl
      · cases hd : rd b off n with
        | ub w => rfl
        | ok d =>
          simp only [C.ok_bind]
          have hl := rd_length hd
          have hr := (rd_ok.mp hd).1
          have : MSG_DATA_SIZE = 4088 := rfl
          split
          · rw [if_pos (by omega)]
          · rw [if_neg (by omega), if_neg (by omega)]
            unfold Env.pad
            rw [← hl]
            simp

theorem read_2big {s : Server} {i : Nat} {t : Tag} {b : List Byte} {off n : Int}
    (P : Plain s i t b) {sz : Int} (hsz : tagGetSize s.cdts t = .ok sz) (h : sz < off + n)
    (hlt : -2147483648 ≤ off + n ∧ off + n < 2147483648) (fd : Int) :
    handle s fd (.tagRead i off n) = .ok (s, .err ERR_2BIG) := by
  simp only [handle, hTagRead, tagRead]
  rw [tag?_natCast, P.db]
  have ha : addI32 off n = .ok (off + n) := by unfold addI32; rw [if_pos hlt]
  simp only [P.virt, Bool.false_eq_true, if_false, hsz, ha, C.ok_bind]
  rw [if_pos (by omega)]
  rfl

theorem mapCheck_nil {s : Server} {i : Int} {off size : Int} {t : Tag} (ht : s.tag? i = some t)
    (h1 : t.wildMaps = false) (h2 : t.maps = []) : mapCheck s i off size = .ok s := by
  unfold mapCheck
  rw [ht]
  simp [h1, h2, mapLoop]

theorem NoMaps.rep {s : Server} {i : Nat} (h : NoMaps s i) (t : Tag) (ht : s.db[i]? = some t)
    (_ : t.data ≠ .freed) : t.wildMaps = false ∧ t.maps = [] := (noMaps_iff ht).mp h

/-- What a write request does, in one place. -/
theorem write_inv {s s' : Server} {i : Nat} {fd off : Int} {d : List Byte} {r : Reply}
    (hm : ∀ t, s.db[i]? = some t → t.data ≠ .freed → t.wildMaps = false ∧ t.maps = [])
    (hh : handle s fd (.tagWrite i off d) = .ok (s', r)) :
    (s' = s ∧ ∃ e, r = .err e) ∨ (r = .resp [] ∧
      (WriteDone s i off d d.length s' ∨ QueueDone s i off d s')) := by
  simp only [handle, hTagWrite] at hh
  obtain ⟨ro, -, hh⟩ := C.bind_eq_ok.mp hh
  split at hh
  · simp only [C.ok.injEq, Prod.mk.injEq] at hh
    exact .inl ⟨hh.1.symm, _, hh.2.symm⟩
  · obtain ⟨⟨s1, r1⟩, h1, hh⟩ := C.bind_eq_ok.mp hh
    dsimp only at hh
    rcases tagWrite_inv h1 with ⟨hs, hr⟩ | ⟨rfl, hd⟩ | ⟨rfl, hd⟩
    · rw [if_pos hr] at hh
      simp only [C.ok.injEq, Prod.mk.injEq] at hh
      exact .inl ⟨hh.1.symm.trans hs, _, hh.2.symm⟩
    · right
      simp only [ne_eq, not_true, if_false] at hh
      have hd' := hd
      obtain ⟨t, b, b', evs, ns, rt, ht, -, hdt, -, -, hs1⟩ := hd.ex
      have hlt := (List.getElem?_eq_some_iff.mp (tag?_eq.mp ht).2).1
      obtain ⟨w1, w2⟩ := hm t (by rw [tag?_natCast] at ht; exact ht) (by rw [hdt]; simp)
      have hg : s1.tag? (i : Int) = some { t with data := .mem b', events := evs } := by
        rw [hs1, tag?_natCast]
        simp only [Server.setTag, Int.toNat_natCast]
        rw [List.getElem?_set_self (by simpa using hlt)]
      rw [mapCheck_nil hg w1 w2] at hh
      simp only [C.ok_bind, C.ok.injEq, Prod.mk.injEq] at hh
      obtain ⟨rfl, rfl⟩ := hh
      exact ⟨rfl, .inl hd'⟩
    · right
      simp only [ne_eq, not_true, if_false] at hh
      have hd' := hd
      obtain ⟨t, q, q', evs, ns, ht, -, hdt, -, -, hs1⟩ := hd
      have hlt := (List.getElem?_eq_some_iff.mp (tag?_eq.mp ht).2).1
      obtain ⟨w1, w2⟩ := hm t (by rw [tag?_natCast] at ht; exact ht) (by rw [hdt]; simp)
      have hg : s1.tag? (i : Int) = some { t with data := .queue q', events := evs } := by
        rw [hs1, tag?_natCast]
        simp only [Server.setTag, Int.toNat_natCast]
        rw [List.getElem?_set_self (by simpa using hlt)]
      rw [mapCheck_nil hg w1 w2] at hh
      simp only [C.ok_bind, C.ok.injEq, Prod.mk.injEq] at hh
      obtain ⟨rfl, rfl⟩ := hh
      exact ⟨rfl, .inr hd'⟩

/-- What a masked write request does. -/
theorem mwrite_inv {s s' : Server} {i : Nat} {fd off : Int} {d m : List Byte} {r : Reply}
    (hm : ∀ t, s.db[i]? = some t → t.data ≠ .freed → t.wildMaps = false ∧ t.maps = [])
    (hh : handle s fd (.tagMWrite i off d m) = .ok (s', r)) :
    (s' = s ∧ ∃ e, r = .err e) ∨ (r = .resp [] ∧ ∃ t b old, s.tag? i = some t ∧
      t.data = .mem b ∧ rd b off d.length = .ok old ∧
      WriteDone s i off (maskMerge d m old) d.length s') := by
  simp only [handle, hTagMWrite] at hh
  obtain ⟨ro, -, hh⟩ := C.bind_eq_ok.mp hh
  split at hh
  · simp only [C.ok.injEq, Prod.mk.injEq] at hh
    exact .inl ⟨hh.1.symm, _, hh.2.symm⟩
  · obtain ⟨⟨s1, r1⟩, h1, hh⟩ := C.bind_eq_ok.mp hh
    dsimp only at hh
    rcases tagMaskWrite_inv h1 with ⟨hs, hr⟩ | ⟨rfl, t0, b0, old, ht0, hb0, hold, hd⟩
    · rw [if_pos hr] at hh
      simp only [C.ok.injEq, Prod.mk.injEq] at hh
      exact .inl ⟨hh.1.symm.trans hs, _, hh.2.symm⟩
    · right
      simp only [ne_eq, not_true, if_false] at hh
      have hd' := hd
      obtain ⟨t, b, b', evs, ns, rt, ht, -, hdt, -, -, hs1⟩ := hd.ex
      have hlt := (List.getElem?_eq_some_iff.mp (tag?_eq.mp ht).2).1
      obtain ⟨w1, w2⟩ := hm t (by rw [tag?_natCast] at ht; exact ht) (by rw [hdt]; simp)
      have hg : s1.tag? (i : Int) = some { t with data := .mem b', events := evs } := by
        rw [hs1, tag?_natCast]
        simp only [Server.setTag, Int.toNat_natCast]
        rw [List.getElem?_set_self (by simpa using hlt)]
      rw [mapCheck_nil hg w1 w2] at hh
      simp only [C.ok_bind, C.ok.injEq, Prod.mk.injEq] at hh
      obtain ⟨rfl, rfl⟩ := hh
      exact ⟨rfl, t0, b0, old, ht0, hb0, hold, hd'⟩

/-- A write to an ordinary tag leaves it ordinary with the new contents. -/
theorem WriteDone.plain {s s' : Server} {i : Nat} {off : Int} {d : List Byte} {size : Nat} {t : Tag}
    {b : List Byte} (h : WriteDone s i off d size s') (P : Plain s i t b) :
    ∃ t' b', Plain s' i t' b' ∧ wr b off d = .ok b' ∧ t'.type = t.type ∧ t'.count = t.count ∧
      t'.wildMaps = t.wildMaps ∧ t'.maps = t.maps ∧ t'.attr = t.attr ∧ s'.cdts = s.cdts := by
  obtain ⟨t0, b0, b', evs, ns, rt, ht, -, hb, hwr, -, rfl⟩ := h.ex
  rw [tag?_natCast, P.db] at ht
  cases ht
  rw [P.data] at hb
  cases hb
  have hlt := (List.getElem?_eq_some_iff.mp P.db).1
  refine ⟨{ t with data := .mem b', events := evs }, b', ⟨?_, P.name, P.virt, P.ovr, rfl⟩, hwr,
    rfl, rfl, rfl, rfl, rfl, rfl⟩
  simp only [Server.setTag, Int.toNat_natCast]
  rw [List.getElem?_set_self (by simpa using hlt)]

theorem WriteDone.mods {s s' : Server} {i : Int} {off : Int} {d : List Byte} {size : Nat}
    (h : WriteDone s i off d size s') : s'.mods = s.mods := by
  obtain ⟨t0, b0, b', evs, ns, rt, ht, -, hb, hwr, -, rfl⟩ := h.ex
  rfl

theorem QueueDone.mods {s s' : Server} {i : Int} {off : Int} {d : List Byte}
    (h : QueueDone s i off d s') : s'.mods = s.mods := by
  obtain ⟨t0, q, q', evs, ns, ht, -, hb, hwr, -, rfl⟩ := h
  rfl

/-- An accepted write lies inside the size used for bounds checking. -/
theorem write_fits {s s' : Server} {i : Nat} {fd off : Int} {d : List Byte} {t : Tag} {b : List Byte}
    (hw : WF s) (P : Plain s i t b) (hh : handle s fd (.tagWrite i off d) = .ok (s', .resp [])) :
    off + d.length < 2147483648 ∧
      (0 ≤ off → tagGetSize s.cdts t = .ok (b.length : Int) ∧ off + d.length ≤ b.length) := by
  obtain ⟨sz, hsz, hszb, -⟩ := tagGetSize_mem (hw.tag i t P.db) P.data
  simp only [handle, hTagWrite] at hh
  obtain ⟨ro, -, hh⟩ := C.bind_eq_ok.mp hh
  split at hh
  · simp at hh
  · obtain ⟨⟨s1, r1⟩, h1, hh⟩ := C.bind_eq_ok.mp hh
    unfold tagWrite at h1
    rw [tag?_natCast, P.db] at h1
    simp only [P.virt, P.data, Bool.false_eq_true, if_false, hsz, C.ok_bind] at h1
    obtain ⟨e, he, h1⟩ := C.bind_eq_ok.mp h1
    obtain ⟨he, hr⟩ := addI32_ok.mp he
    split at h1
    · simp only [C.ok.injEq, Prod.mk.injEq] at h1
      obtain ⟨rfl, rfl⟩ := h1
      dsimp only at hh
      rw [if_pos (by decide)] at hh
      simp at hh
    · refine ⟨by omega, fun h0 => ?_⟩
      rcases hszb with h | h
      · rw [← h]; exact ⟨hsz, by omega⟩
      · omega

theorem mwrite_fits {s s' : Server} {i : Nat} {fd off : Int} {d m : List Byte} {t : Tag}
    {b : List Byte} (hw : WF s) (P : Plain s i t b)
    (hh : handle s fd (.tagMWrite i off d m) = .ok (s', .resp [])) :
    off + d.length < 2147483648 ∧
      (0 ≤ off → tagGetSize s.cdts t = .ok (b.length : Int) ∧ off + d.length ≤ b.length) := by
  obtain ⟨sz, hsz, hszb, -⟩ := tagGetSize_mem (hw.tag i t P.db) P.data
  simp only [handle, hTagMWrite] at hh
  obtain ⟨ro, -, hh⟩ := C.bind_eq_ok.mp hh
  split at hh
  · simp at hh
  · obtain ⟨⟨s1, r1⟩, h1, hh⟩ := C.bind_eq_ok.mp hh
    unfold tagMaskWrite at h1
    split at h1
    · simp at h1
    rw [tag?_natCast, P.db] at h1
    simp only [P.virt, P.data, Bool.false_eq_true, if_false, hsz, C.ok_bind] at h1
    obtain ⟨e, he, h1⟩ := C.bind_eq_ok.mp h1
    obtain ⟨he, hr⟩ := addI32_ok.mp he
    split at h1
    · simp only [C.ok.injEq, Prod.mk.injEq] at h1
      obtain ⟨rfl, rfl⟩ := h1
      dsimp only at hh
      rw [if_pos (by decide)] at hh
      simp at hh
    · refine ⟨by omega, fun h0 => ?_⟩
      rcases hszb with h | h
      · rw [← h]; exact ⟨hsz, by omega⟩
      · omega

/-! ## Unaffected reads -/

/-- Two entries that a read cannot tell apart. -/
structure SameRead (t t' : Tag) : Prop where
  type : t'.type = t.type
  count : t'.count = t.count
  name : t'.name = t.name
  data : t'.data = t.data
  ovr : t'.ovr = t.ovr
  virt : t'.attr.virt = t.attr.virt
  ovrSet : t'.attr.ovrSet = t.attr.ovrSet

theorem SameRead.refl (t : Tag) : SameRead t t := ⟨rfl, rfl, rfl, rfl, rfl, rfl, rfl⟩

theorem SameRead.trans {a b c : Tag} (h1 : SameRead a b) (h2 : SameRead b c) : SameRead a c :=
  ⟨h2.type.trans h1.type, h2.count.trans h1.count, h2.name.trans h1.name, h2.data.trans h1.data,
    h2.ovr.trans h1.ovr, h2.virt.trans h1.virt, h2.ovrSet.trans h1.ovrSet⟩

/-- What reads depend on besides the tag itself. -/
structure ReadFrame (s s' : Server) : Prop where
  env : s'.env = s.env
  cdts : s'.cdts = s.cdts
  mods : s'.mods = s.mods
  len : s'.db.length = s.db.length
  tag : ∀ (i : Nat) (t : Tag), s.db[i]? = some t →
    ∃ t', s'.db[i]? = some t' ∧ t'.name = t.name ∧ t.data.Same t'.data

/-- The reply to a read depends only on the tag itself, the modules, the clock, and for
`_my_tagname` the name of the reader's status tag. -/
theorem read_congr_at {s s' : Server} (q : ReadFrame s s') (fd off n : Int)
    {j : Nat} (hj : ∀ t, s.db[j]? = some t → ∃ t', s'.db[j]? = some t' ∧
      SameRead t { t' with ovr := t.ovr } ∧ ∀ d, ovrBlend t' d off n = ovrBlend t d off n)
    (r : Reply) :
    Answers s' fd (.tagRead j off n) r ↔ Answers s fd (.tagRead j off n) r := by
  have key : ∀ r', (∃ x, tagRead s' fd j off n = .ok (x, r')) ↔
      (∃ x, tagRead s fd j off n = .ok (x, r')) := by
    intro r'
    unfold tagRead
    rw [tag?_natCast, tag?_natCast]
    cases ht : s.db[j]? with
    | none =>
      have : s'.db[j]? = none := by
        rw [List.getElem?_eq_none_iff] at ht ⊢; rw [q.len]; exact ht
      simp [this]
    | some t =>
      obtain ⟨t', ht', sr, hbl⟩ := hj t ht
      have svirt : t'.attr.virt = t.attr.virt := sr.virt
      have sdata : t'.data = t.data := sr.data
      have stype : t'.type = t.type := sr.type
      have scount : t'.count = t.count := sr.count
      have sset : t'.attr.ovrSet = t.attr.ovrSet := sr.ovrSet
      simp only [ht', svirt]
      by_cases hv : t.attr.virt = true
      · simp only [hv, if_true]
        unfold virtRead
        rw [sdata]
        cases hdt : t.data with
        | freed => simp
        | mem b => simp
        | vTime =>
          simp only [q.env]
          cases rd (toLE 8 s.env.now) 0 n <;> simp
        | vMyName =>
          simp only [Server.modByFd, q.mods]
          cases hf : s.mods.find? (fun m => m.fd == fd) with
          | none => simp
          | some m =>
            simp only
            by_cases h0 : m.tagindex = 0
            · simp [h0]
            · simp only [h0, if_false]
              cases hu : s.tag? m.tagindex with
              | none =>
                have : s'.tag? m.tagindex = none := by
                  rw [tag?_none] at hu ⊢; rw [q.len]; exact hu
                simp [this]
              | some mt =>
                obtain ⟨hp, hu'⟩ := tag?_eq.mp hu
                obtain ⟨mt', hmt', hsn, hd⟩ := q.tag _ mt hu'
                have : s'.tag? m.tagindex = some mt' := tag?_eq.mpr ⟨hp, hmt'⟩
                simp only [this]
                rw [hsn]
                cases h1 : mt.data <;> cases h2 : mt'.data <;> rw [h1, h2] at hd <;>
                  simp only [Store.Same] at hd <;> cases mt.name <;> simp
        | queue qq =>
          simp only
          cases queueRead qq with
          | ub w => simp
          | ok o => cases o <;> simp
      · simp only [hv, Bool.false_eq_true, if_false]
        have hsz : tagGetSize s'.cdts t' = tagGetSize s.cdts t := by
          unfold tagGetSize; rw [q.cdts, stype, scount]
        rw [hsz, sdata, sset]
        simp only [hbl]
        cases addI32 off n with
        | ub w => simp
        | ok e =>
          simp only [C.ok_bind]
          cases tagGetSize s.cdts t with
          | ub w => simp
          | ok sz =>
            simp only [C.ok_bind]
            split
            · simp
            · cases t.data with
              | mem b =>
                simp only
                cases rd b off n with
                | ub w => simp
                | ok d =>
                  simp only [C.ok_bind]
                  split
                  · cases ovrBlend t d off n <;> simp
                  · simp
              | _ => simp
  unfold Answers
  simp only [handle, hTagRead]
  constructor
  · rintro ⟨x, hx⟩
    obtain ⟨⟨s1, r1⟩, h1, hx⟩ := C.bind_eq_ok.mp hx
    obtain ⟨y, hy⟩ := (key r1).mp ⟨s1, h1⟩
    rw [hy]
    simp only [C.ok_bind]
    cases r1 with
    | error e => simp at hx ⊢; exact hx.2
    | ok d =>
      dsimp only at hx ⊢
      split at hx
      · simp at hx
      · rename_i h1
        rw [if_neg h1]
        split at hx
        · rename_i h2
          rw [if_pos h2]; simp at hx ⊢; exact hx.2
        · rename_i h2
          rw [if_neg h2]; simp [q.env] at hx ⊢; exact hx.2
  · rintro ⟨x, hx⟩
    obtain ⟨⟨s1, r1⟩, h1, hx⟩ := C.bind_eq_ok.mp hx
    obtain ⟨y, hy⟩ := (key r1).mpr ⟨s1, h1⟩
    rw [hy]
    simp only [C.ok_bind]
    cases r1 with
    | error e => simp at hx ⊢; exact hx.2
    | ok d =>
      dsimp only at hx ⊢
      split at hx
      · simp at hx
      · rename_i h1
        rw [if_neg h1]
        split at hx
        · rename_i h2
          rw [if_pos h2]; simp at hx ⊢; exact hx.2
        · rename_i h2
          rw [if_neg h2]; simp [q.env] at hx ⊢; exact hx.2

theorem read_congr_gen {s s' : Server} (q : ReadFrame s s')
    {j : Nat} (hj : ∀ t, s.db[j]? = some t → ∃ t', s'.db[j]? = some t' ∧ SameRead t t')
    (fd off n : Int) (r : Reply) :
    Answers s' fd (.tagRead j off n) r ↔ Answers s fd (.tagRead j off n) r := by
  refine read_congr_at q fd off n (fun t ht => ?_) r
  obtain ⟨t', ht', sr⟩ := hj t ht
  exact ⟨t', ht', ⟨sr.type, sr.count, sr.name, sr.data, rfl, sr.virt, sr.ovrSet⟩,
    fun d => by unfold ovrBlend; rw [sr.ovr]⟩

theorem Quiet.readFrame {s s' : Server} {F : Nat → Prop} (q : Quiet F s s') (hm : s'.mods = s.mods) :
    ReadFrame s s' :=
  ⟨q.env, q.cdts, hm, q.len, fun i t ht => by
    obtain ⟨t', ht', hs, -⟩ := q.tag i t ht
    exact ⟨t', ht', hs.name, hs.data⟩⟩

theorem read_congr {s s' : Server} {F : Nat → Prop} (q : Quiet F s s') (hm : s'.mods = s.mods)
    {j : Nat} (hj : s'.db[j]? = s.db[j]?) (fd off n : Int) (r : Reply) :
    Answers s' fd (.tagRead j off n) r ↔ Answers s fd (.tagRead j off n) r :=
  read_congr_gen (q.readFrame hm) (fun t ht => ⟨t, hj.trans ht, SameRead.refl t⟩) fd off n r

end Dax
