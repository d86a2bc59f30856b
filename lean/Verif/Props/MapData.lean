import Verif.Spec.MapData
import Verif.Props.Data
import Verif.Props.Maps
/-!
# Reading, writing and masked writing on servers with mappings (C03, C04, C06)
-/
set_option autoImplicit false
namespace Dax

theorem remember_off {D : Nat → Nat → Prop} {M N : Mem} (h : ∀ i k, ¬ D i k → M i k = N i k) (p : Req × Reply) :
    ∀ i k, ¬ D i k → remember M p i k = remember N p i k := by
  intro i k hk
  obtain ⟨q, r⟩ := p
  have h1 := h i k hk
  cases q <;> try exact h1
  all_goals cases r <;> try exact h1
  · simp only [remember, Mem.store, h1]
  · simp only [remember, Mem.storeMasked, h1]

theorem agreesOff_of {D : Nat → Nat → Prop} {M N : Mem} {s : Server} (h : ∀ i k, ¬ D i k → M i k = N i k)
    (hN : AgreesOff D N s) : AgreesOff D M s := by
  intro i fd off n d ho ha
  obtain ⟨h1, h2, h3⟩ := hN i fd off n d ho ha
  exact ⟨h1, h2, fun k hk hD => by rw [h i _ hD]; exact h3 k hk hD⟩

/-- Agreement outside some bytes is agreement with another memory that differs only there. -/
theorem agreesOff_iff {D : Nat → Nat → Prop} {M : Mem} {s : Server} (hr : Reachable s) :
    AgreesOff D M s ↔ ∃ N, (∀ i k, ¬ D i k → M i k = N i k) ∧ Agrees N s := by
  constructor
  · intro h
    obtain ⟨M0, h0⟩ := agrees_exists hr
    classical
    refine ⟨fun i k => if D i k then M0 i k else M i k, fun i k hD => by simp [hD], ?_⟩
    intro i fd off n d ho ha
    obtain ⟨h1, h2, h3⟩ := h i fd off n d ho ha
    refine ⟨h1, h2, fun k hk => ?_⟩
    by_cases hD : D i (off.toNat + k)
    · simp only [hD, if_true]; exact (h0 i fd off n d ho ha).2.2 k hk
    · simp only [hD, if_false]; exact h3 k hk hD
  · rintro ⟨N, hN, h⟩
    refine agreesOff_of hN fun i fd off n d ho ha => ?_
    obtain ⟨h1, h2, h3⟩ := h i fd off n d ho ha
    exact ⟨h1, h2, fun k hk _ => h3 k hk⟩

/-- Bytes of which all bits are equal. -/
theorem bytes_of_bits {b b' : List Byte} {k : Nat} (hl : b'.length = b.length)
    (h : ∀ j, j < 8 → bitAt b' (8 * k + j) = bitAt b (8 * k + j)) : b'[k]? = b[k]? := by
  by_cases hk : k < b.length
  · rw [List.getElem?_eq_getElem hk, List.getElem?_eq_getElem (by omega)]
    refine congrArg some (BitVec.eq_of_getLsbD_eq fun j hj => ?_)
    have := h j hj
    unfold bitAt bitOf at this
    rw [show (8 * k + j) / 8 = k by omega, show (8 * k + j) % 8 = j by omega,
      List.getElem?_eq_getElem hk, List.getElem?_eq_getElem (by omega)] at this
    exact this
  · rw [List.getElem?_eq_none (by omega), List.getElem?_eq_none (by omega)]

/-- Tags with contents have names. -/
def Named (s : Server) : Prop := ∀ (i : Nat) (t : Tag) (b : List Byte), s.db[i]? = some t → t.data = .mem b → t.name ≠ none

theorem wf_named {s : Server} (hw : WF s) : Named s := fun i t b ht hb hn => by
  have := (hw.tag i t ht).name.mp hn
  rw [hb] at this; cases this

theorem WriteDone.named {s s' : Server} {i : Nat} {off : Int} {d : List Byte} {size : Nat}
    (h : WriteDone s i off d size s') (hn : Named s) : Named s' := by
  obtain ⟨t, b, b', evs, ns, rt, ht, hv, hb, hwr, -, rfl⟩ := h.ex
  rw [tag?_natCast] at ht
  intro j u c hu hc
  simp only [Server.setTag, Int.toNat_natCast] at hu
  rcases set_cases (List.getElem?_eq_some_iff.mp ht).1 hu with ⟨rfl, rfl⟩ | ⟨-, hu⟩
  · exact hn j t b ht hb
  · exact hn j u c hu hc

theorem QueueDone.named {s s' : Server} {i : Nat} {off : Int} {d : List Byte}
    (h : QueueDone s i off d s') (hn : Named s) : Named s' := by
  obtain ⟨t, q, q', evs, ns, ht, hv, hb, -, -, rfl⟩ := h
  rw [tag?_natCast] at ht
  intro j u c hu hc
  simp only [Server.setTag, Int.toNat_natCast] at hu
  rcases set_cases (List.getElem?_eq_some_iff.mp ht).1 hu with ⟨rfl, rfl⟩ | ⟨-, hu⟩
  · simp at hc
  · exact hn j u c hu hc

/-- An ordinary tag after a change of bits only. -/
theorem Bits.plain {P : Nat → Nat → Prop} {s s' : Server} (h : Bits P s s') (hw' : Named s') {i : Nat} {t : Tag}
    {b : List Byte} (p : Plain s i t b) : ∃ u c, Plain s' i u c ∧ c.length = b.length ∧
      tagGetSize s'.cdts u = tagGetSize s.cdts t ∧ ∀ k, (∀ j, j < 8 → ¬ P i (8 * k + j)) → c[k]? = b[k]? := by
  obtain ⟨u, hu, ea, et, ec, hf, -⟩ := h.tag i t p.db
  obtain ⟨c, hc, hlen, hbits⟩ := hf b p.data
  refine ⟨u, c, ⟨hu, hw' i u c hu hc, ea ▸ p.virt, ea ▸ p.ovr, hc⟩, hlen, ?_, fun k hk => ?_⟩
  · unfold tagGetSize; rw [et, ec, h.cdts]
  · exact bytes_of_bits hlen fun j hj => hbits _ (hk j hj)

/-- An ordinary tag before a change of bits only. -/
theorem Bits.plain_back {P : Nat → Nat → Prop} {s s' : Server} (h : Bits P s s') (hw : Named s) {i : Nat} {u : Tag}
    {c : List Byte} (p : Plain s' i u c) : ∃ t b, Plain s i t b := by
  have hlt : i < s.db.length := by
    have := (List.getElem?_eq_some_iff.mp p.db).1
    have := h.len
    omega
  have hb0 : s.db[i]? = some s.db[i] := List.getElem?_eq_getElem hlt
  generalize s.db[i] = t at hb0
  obtain ⟨u', hu', ea, et, ec, hf, hb⟩ := h.tag i t hb0
  rw [p.db] at hu'; cases hu'
  obtain ⟨b, hbm⟩ := hb c p.data
  exact ⟨t, b, hb0, hw i t b hb0 hbm, ea ▸ p.virt, ea ▸ p.ovr, hbm⟩

theorem rd_congr {b c : List Byte} {o n : Int} (hl : c.length = b.length)
    (h : ∀ k : Nat, o ≤ k → (k : Int) < o + n → c[k]? = b[k]?) : rd c o n = rd b o n := by
  by_cases hr : 0 ≤ o ∧ 0 ≤ n ∧ o + n ≤ b.length
  · have hd : rd b o n = .ok ((b.drop o.toNat).take n.toNat) := rd_ok.mpr ⟨hr, rfl⟩
    rw [hd, rd_ok]
    refine ⟨by rw [hl]; exact hr, List.ext_getElem? fun k => ?_⟩
    rw [List.getElem?_take, List.getElem?_take, List.getElem?_drop, List.getElem?_drop]
    split
    · rw [h _ (by omega) (by omega)]
    · rfl
  · unfold rd
    simp only [hl]
    rw [if_neg hr, if_neg hr]

/-- What changes only bits in the bytes `D` keeps the agreement outside of `D`. -/
theorem Bits.off {P D : Nat → Nat → Prop} {s s' : Server} {M : Mem} (h : Bits P s s') (hw : Named s) (hw' : WF s')
    (hD : ∀ j b, P j b → D j (b / 8)) (hM : RepAgrees M s) : AgreesOff D M s' := by
  rintro i fd off n d ho ⟨s2, hh⟩
  obtain ⟨u, c, P'⟩ := (ordinary_iff hw').mp ho
  obtain ⟨t, b, Pl⟩ := h.plain_back hw P'
  obtain ⟨u', c', P2, hlen, hgs, hbytes⟩ := h.plain (wf_named hw') Pl
  obtain rfl : u' = u := by have := P2.db; rw [P'.db] at this; cases this; rfl
  obtain rfl : c' = c := by have := P2.data; rw [P'.data] at this; cases this; rfl
  rw [read_eq P'] at hh
  obtain ⟨e, he, hh⟩ := C.bind_eq_ok.mp hh
  obtain ⟨sz, hsz, hh⟩ := C.bind_eq_ok.mp hh
  split at hh
  · simp at hh
  obtain ⟨d', hd, hh⟩ := C.bind_eq_ok.mp hh
  split at hh
  · simp at hh
  simp only [C.ok.injEq, Prod.mk.injEq, Reply.resp.injEq] at hh
  obtain ⟨-, rfl⟩ := hh
  obtain ⟨he, rfl⟩ := addI32_ok.mp he
  have hrd := (rd_ok.mp hd).1
  have hl := rd_length hd
  refine ⟨hrd.1, hl, fun k hk hk' => ?_⟩
  rw [rd_get hd, if_pos (by omega), hbytes _ fun j hj hp => hk' (by
    have := hD _ _ hp
    rwa [show (8 * (off.toNat + k) + j) / 8 = off.toNat + k by omega] at this)]
  exact hM i t b ⟨Pl.db, Pl.name, Pl.virt, Pl.ovr, Pl.data⟩ sz (hgs ▸ hsz) _ (by omega) (by omega) (by omega)

/-- A write request: refused, or the write proper followed by the mappings. -/
theorem write_inv_maps {s s' : Server} {i : Nat} {fd off : Int} {d : List Byte} {r : Reply}
    (hh : handle s fd (.tagWrite i off d) = .ok (s', r)) :
    (s' = s ∧ ∃ e, r = .err e) ∨ (r = .resp [] ∧ ∃ s1, SameMaps s s1 ∧
      (WriteDone s i off d d.length s1 ∨ QueueDone s i off d s1) ∧ mapCheck s1 i off d.length = .ok s') := by
  simp only [handle, hTagWrite] at hh
  obtain ⟨ro, -, hh⟩ := C.bind_eq_ok.mp hh
  split at hh
  · simp only [C.ok.injEq, Prod.mk.injEq] at hh
    exact .inl ⟨hh.1.symm, _, hh.2.symm⟩
  · obtain ⟨⟨s1, r1⟩, h1, hh⟩ := C.bind_eq_ok.mp hh
    dsimp only at hh
    rcases tagWrite_inv h1 with ⟨hs, hr⟩ | ⟨rfl, hd⟩ | ⟨rfl, hd⟩
    · rw [if_pos hr] at hh
      simp only [C.ok.injEq, Prod.mk.injEq] at hh
      exact .inl ⟨hh.1.symm.trans hs, _, hh.2.symm⟩
    all_goals
      right
      simp only [ne_eq, not_true, if_false] at hh
      obtain ⟨s2, h2, hh⟩ := C.bind_eq_ok.mp hh
      simp only [C.ok.injEq, Prod.mk.injEq] at hh
      obtain ⟨rfl, rfl⟩ := hh
    · exact ⟨rfl, s1, tagWrite_maps h1, .inl hd, h2⟩
    · exact ⟨rfl, s1, tagWrite_maps h1, .inr hd, h2⟩

/-- A masked write request: refused, or the write proper followed by the mappings. -/
theorem mwrite_inv_maps {s s' : Server} {i : Nat} {fd off : Int} {d m : List Byte} {r : Reply}
    (hh : handle s fd (.tagMWrite i off d m) = .ok (s', r)) :
    (s' = s ∧ ∃ e, r = .err e) ∨ (r = .resp [] ∧ ∃ s1 t b old, SameMaps s s1 ∧ s.tag? i = some t ∧ t.data = .mem b ∧
      rd b off d.length = .ok old ∧ WriteDone s i off (maskMerge d m old) d.length s1 ∧
      mapCheck s1 i off d.length = .ok s') := by
  simp only [handle, hTagMWrite] at hh
  obtain ⟨ro, -, hh⟩ := C.bind_eq_ok.mp hh
  split at hh
  · simp only [C.ok.injEq, Prod.mk.injEq] at hh
    exact .inl ⟨hh.1.symm, _, hh.2.symm⟩
  · obtain ⟨⟨s1, r1⟩, h1, hh⟩ := C.bind_eq_ok.mp hh
    dsimp only at hh
    rcases tagMaskWrite_inv h1 with ⟨hs, hr⟩ | ⟨rfl, t0, b0, old, ht0, hb0, hold, hd⟩
    · rw [if_pos hr] at hh
      simp only [C.ok.injEq, Prod.mk.injEq] at hh
      exact .inl ⟨hh.1.symm.trans hs, _, hh.2.symm⟩
    · right
      simp only [ne_eq, not_true, if_false] at hh
      obtain ⟨s2, h2, hh⟩ := C.bind_eq_ok.mp hh
      simp only [C.ok.injEq, Prod.mk.injEq] at hh
      obtain ⟨rfl, rfl⟩ := hh
      exact ⟨rfl, s1, t0, b0, old, tagMaskWrite_maps h1, ht0, hb0, hold, hd, h2⟩

/-- What the mappings set off by a write change. -/
theorem mapCheck_bits {s s1 s' : Server} {i len : Nat} {off : Int} (hr : Reachable s)
    (h32 : MapFields s) (hsame : SameMaps s s1) (h : mapCheck s1 i off len = .ok s') :
    Bits (fun j b => ∃ (t : Tag) (m : DMap), s.db[i]? = some t ∧ t.wildMaps = false ∧ m ∈ t.maps ∧
      mapOverlap m off len = true ∧ mapPart m j b) s1 s' := by
  unfold mapCheck at h
  rw [tag?_natCast] at h
  split at h
  · simp at h
  rename_i t1 ht1
  split at h
  · simp at h
  rename_i hw
  have hw : t1.wildMaps = false := by simpa using hw
  obtain ⟨t, ht0, hmaps, hwild⟩ := hsame i t1 ht1
  rw [hwild] at hw
  have hmasks := hr.masks ht0
  refine (mapLoop_bits (fun x hx => ⟨(hmasks x (hmaps ▸ hx)).1,
    (h32 i x.src x.dst ⟨x.id, t, x, ht0, hw, hmaps ▸ hx, rfl, rfl, rfl⟩).1⟩) h).mono ?_
  rintro j b ⟨m, hm, ho, hp⟩
  exact ⟨t, m, ht0, hw, hmaps ▸ hm, ho, hp⟩

/-- All of it leads to mapped bytes. -/
theorem part_mapped {s : Server} {i : Nat} (hr : Reachable s) {t : Tag} {m : DMap} (ht : s.db[i]? = some t)
    (hw : t.wildMaps = false) (hm : m ∈ t.maps) {j b : Nat} (hp : mapPart m j b) : Mapped s j (b / 8) := by
  have := (hr.masks ht m hm).2
  have h1 := hp.1
  exact ⟨i, m.src, m.dst, ⟨m.id, t, m, ht, hw, hm, rfl, rfl, rfl⟩, by omega, b, hp.2, rfl⟩

/-- The mappings set off are those whose source is touched. -/
theorem part_hit {s : Server} {i len : Nat} {off : Int} (hr : Reachable s) (h32 : MapFields s) {t : Tag} {m : DMap}
    (ht : s.db[i]? = some t) (hw : t.wildMaps = false) (hm : m ∈ t.maps) {j b : Nat} (h0 : 0 ≤ off) (hl : 0 < len)
    (hlt : off + len < 2147483648) (ho : mapOverlap m off len = true) (hp : mapPart m j b) :
    Hit s i off len j (b / 8) := by
  obtain ⟨hmk, hix⟩ := hr.masks ht m hm
  have h1 := hp.1
  have hh : HasMap s i m.src m.dst := ⟨m.id, t, m, ht, hw, hm, rfl, rfl, rfl⟩
  exact ⟨m.src, m.dst, hh, (mapOverlap_iff h0 hl hlt (dest_pos hmk hp.2) (h32 _ _ _ hh).2).mp ho, by omega, b, hp.2, rfl⟩

/-- A successful write to a tag with mappings: the write proper, then changes in the bytes hit. -/
theorem writes_hit {s s' : Server} {fd off : Int} {q : Req} {i len : Nat} {t : Tag} {b : List Byte} (hr : Reachable s)
    (h32 : MapFields s) (P : Plain s i t b) (hq : q.writes i off len) (h0 : 0 ≤ off) (hl : 0 < len)
    (hh : handle s fd q = .ok (s', .resp [])) :
    ∃ s1 x, x.length = len ∧ WriteDone s i off x len s1 ∧ Named s1 ∧ Bits (fun j b => Hit s i off len j (b / 8)) s1 s' ∧
      tagGetSize s.cdts t = .ok (b.length : Int) ∧ off + len ≤ b.length ∧ off + len < 2147483648 ∧
      ((∃ d, q = .tagWrite i off d ∧ x = d) ∨
        ∃ d m old, q = .tagMWrite i off d m ∧ m.length = len ∧ d.length = len ∧ rd b off len = .ok old ∧ x = maskMerge d m old) := by
  have hw := hr.wf
  have key : ∀ {s1}, SameMaps s s1 → off + len < 2147483648 → mapCheck s1 i off len = .ok s' →
      Bits (fun j b => Hit s i off len j (b / 8)) s1 s' := by
    intro s1 hsm hlt hc
    refine (mapCheck_bits hr h32 hsm hc).mono ?_
    rintro j b ⟨t, m, ht, hwm, hm, ho, hp⟩
    exact part_hit hr h32 ht hwm hm h0 hl hlt ho hp
  rcases hq with ⟨d, rfl, rfl⟩ | ⟨d, m, rfl, rfl, hml⟩
  · obtain ⟨hlt, hfit⟩ := write_fits hw P hh
    obtain ⟨hsz, hin⟩ := hfit h0
    rcases write_inv_maps hh with ⟨-, e, he⟩ | ⟨-, s1, hsm, hd | hd, hc⟩
    · simp at he
    · exact ⟨s1, d, rfl, hd, hd.named (wf_named hw), key hsm hlt hc, hsz, hin, hlt, .inl ⟨d, rfl, rfl⟩⟩
    · obtain ⟨t', q, q', evs, ns, ht, hv, -⟩ := hd
      rw [tag?_natCast, P.db] at ht; cases ht
      rw [P.virt] at hv; simp at hv
  · obtain ⟨hlt, hfit⟩ := mwrite_fits hw P hh
    obtain ⟨hsz, hin⟩ := hfit h0
    rcases mwrite_inv_maps hh with ⟨-, e, he⟩ | ⟨-, s1, t0, b0, old, hsm, ht0, hb0, hold, hd, hc⟩
    · simp at he
    · rw [tag?_natCast, P.db] at ht0; cases ht0
      rw [P.data] at hb0; cases hb0
      have hol := rd_length hold
      have hle : (maskMerge d m old).length = d.length := by rw [maskMerge_length]; omega
      exact ⟨s1, maskMerge d m old, hle, hd, hd.named (wf_named hw), key hsm hlt hc, hsz, hin, hlt,
        .inr ⟨d, m, old, rfl, hml, rfl, hold, rfl⟩⟩

/-- What reads of an ordinary tag answer depends on its bytes, length and size. -/
theorem answers_congr {s s' : Server} {i : Nat} {t u : Tag} {b c : List Byte} (P : Plain s i t b) (P' : Plain s' i u c)
    (hl : c.length = b.length) (hg : tagGetSize s'.cdts u = tagGetSize s.cdts t) {o n : Int}
    (h : ∀ k : Nat, o ≤ k → (k : Int) < o + n → c[k]? = b[k]?) (fd : Int) (a : Reply) :
    Answers s' fd (.tagRead i o n) a ↔ Answers s fd (.tagRead i o n) a := by
  unfold Answers
  rw [read_eq P, read_eq P', hg, rd_congr hl h]
  cases addI32 o n with
  | ub w => simp
  | ok e =>
    simp only [C.ok_bind]
    cases tagGetSize s.cdts t with
    | ub w => simp
    | ok sz =>
      simp only [C.ok_bind]
      split
      · simp
      · cases rd b o n with
        | ub w => simp
        | ok d => simp only [C.ok_bind]; split <;> simp

/-- **C03** with mappings: after a successful write to an ordinary tag, reading any part of the
written range returns the bytes written, provided no mapping set off by this write (one of the tag,
with a source touched) leads back into the part read. -/
theorem C03_read_after_write_maps_partial {s s' : Server} {fd off : Int} {i : Nat} {d : List Byte}
    (hr : Reachable s) (ho : Ordinary s i) (h32 : MapFields s) (h0 : 0 ≤ off) (hl : 0 < d.length)
    (hh : handle s fd (.tagWrite i off d) = .ok (s', .resp [])) (fd' o n : Int)
    (h1 : off ≤ o) (h2 : 0 ≤ n) (h3 : o + n ≤ off + d.length) (h4 : n ≤ 4088)
    (hit : ∀ k : Nat, o ≤ k → (k : Int) < o + n → ¬ Hit s i off d.length i k) :
    handle s' fd' (.tagRead i o n) = .ok (s', .resp ((d.drop (o - off).toNat).take n.toNat)) := by
  obtain ⟨t, b, P⟩ := (ordinary_iff hr.wf).mp ho
  obtain ⟨s1, x, hx, hd, hn, hb, hsz, hin, hlt, hc⟩ := writes_hit hr h32 P (.inl ⟨d, rfl, rfl⟩) h0 hl hh
  obtain rfl : x = d := by
    rcases hc with ⟨d', hq, rfl⟩ | ⟨d', m, old, hq, -⟩
    · cases hq; rfl
    · cases hq
  obtain ⟨t1, b1, P1, hwr, hty, hct, -, -, -, hcd⟩ := hd.plain P
  have hbl := wr_length hwr
  obtain ⟨u, c, P', hcl, hgs, hbytes⟩ := hb.plain (wf_named (hr.handle hh).wf) P1
  refine read_ok P' ?_ h4 ?_ (by omega) fd'
  · rw [rd_congr hcl fun k hk1 hk2 => hbytes k fun j hj hH => hit k hk1 hk2 (by
      rwa [show (8 * k + j) / 8 = k by omega] at hH), rd_ok]
    refine ⟨⟨by omega, h2, by omega⟩, ?_⟩
    apply List.ext_getElem?
    intro k
    rw [List.getElem?_take, List.getElem?_take, List.getElem?_drop, List.getElem?_drop]
    split
    · rw [wr_get hwr, if_pos (by omega)]
      congr 1; omega
    · rfl
  · rw [hgs, hcd, hcl, hbl, ← hsz]
    unfold tagGetSize
    rw [hty, hct]

/-- **C06** with mappings: a masked write to an ordinary tag changes in each byte of the range that
is not hit by a mapping it sets off exactly the bits with mask bit 1. -/
theorem C06_masked_maps_partial {s s' : Server} {i : Nat} {fd off : Int} {d m old : List Byte}
    (hr : Reachable s) (ho : Ordinary s i) (h32 : MapFields s) (hl : m.length = d.length) (h0 : 0 < d.length)
    (hh : handle s fd (.tagMWrite i off d m) = .ok (s', .resp []))
    (hold : Answers s fd (.tagRead i off d.length) (.resp old)) :
    ∃ new, new.length = d.length ∧
      (∀ fd', Answers s' fd' (.tagRead i off d.length) (.resp new)) ∧
      ∀ k, k < d.length → ¬ Hit s i off d.length i (off.toNat + k) → ∀ b, b < 8 →
        bitOf new k b = if bitOf m k b then bitOf d k b else bitOf old k b := by
  have hw := hr.wf
  obtain ⟨t, b, P⟩ := (ordinary_iff hw).mp ho
  obtain ⟨s2, hold⟩ := hold
  obtain ⟨-, hrr⟩ := read_inv hw P hold
  rcases hrr with hrr | ⟨d', hrd, hn, hrr⟩
  · simp at hrr
  cases hrr
  have hr0 := (rd_ok.mp hrd).1
  obtain ⟨s1, x, hx, hd, hn1, hb, hsz, hin, hlt, hc⟩ := writes_hit hr h32 P (.inr ⟨d, m, rfl, rfl, hl⟩) hr0.1 h0 hh
  obtain rfl : x = maskMerge d m old := by
    rcases hc with ⟨d', hq, rfl⟩ | ⟨d', m', old', hq, -, -, hold', rfl⟩
    · cases hq
    · cases hq
      rw [hrd] at hold'; cases hold'; rfl
  have hol := rd_length hrd
  obtain ⟨t1, b1, P1, hwr, hty, hct, -, -, -, hcd⟩ := hd.plain P
  have hbl := wr_length hwr
  obtain ⟨u, c, P', hcl, hgs, hbytes⟩ := hb.plain (wf_named (hr.handle hh).wf) P1
  have hnew : rd c off d.length = .ok ((c.drop off.toNat).take d.length) := rd_ok.mpr ⟨by omega, by simp⟩
  have hnl := rd_length hnew
  refine ⟨_, by rw [hnl]; simp, fun fd' => ⟨s', read_ok P' hnew hn ?_ hlt fd'⟩, ?_⟩
  · rw [hgs, hcd, hcl, hbl, ← hsz]
    unfold tagGetSize
    rw [hty, hct]
  · intro k hk hit bb _
    have h1 : d[k]? = some d[k] := List.getElem?_eq_getElem hk
    have h2 : m[k]? = some m[k] := List.getElem?_eq_getElem (by omega)
    have h3 : old[k]? = some old[k] := List.getElem?_eq_getElem (by omega)
    have h4 : ((c.drop off.toNat).take d.length)[k]? = (maskMerge d m old)[k]? := by
      rw [List.getElem?_take, if_pos hk, List.getElem?_drop, hbytes _ fun j hj hH => hit (by
        rwa [show (8 * (off.toNat + k) + j) / 8 = off.toNat + k by omega] at hH), wr_get hwr, if_pos (by omega)]
      congr 1; omega
    unfold bitOf
    rw [h4, maskMerge_get d m old k _ _ _ h1 h2 h3, h1, h2, h3]
    simp only [BitVec.getLsbD_or, BitVec.getLsbD_and, BitVec.getLsbD_not]
    cases (m[k]).getLsbD bb <;> simp [*]

/-- **C04** with mappings: a write or masked write leaves the answers to all of these as they were:
reads of ordinary tags of ranges with no byte in the written range and no byte hit by a mapping set
off. -/
theorem C04_isolated_maps_partial {s s' : Server} {i j len : Nat} {fd off : Int} {q : Req}
    (hr : Reachable s) (h32 : MapFields s) (hi : Ordinary s i) (hq : q.writes i off len) (h0 : 0 ≤ off) (hl : 0 < len)
    (hh : handle s fd q = .ok (s', .resp [])) (hj : Ordinary s j) (fd' o n : Int) (a : Reply)
    (hout : j = i → ∀ k : Nat, o ≤ k → (k : Int) < o + n → off ≤ k → ¬ (k : Int) < off + len)
    (hit : ∀ k : Nat, o ≤ k → (k : Int) < o + n → ¬ Hit s i off len j k) :
    Ordinary s' j ∧ (Answers s' fd' (.tagRead j o n) a ↔ Answers s fd' (.tagRead j o n) a) := by
  have hw' := (hr.handle hh).wf
  obtain ⟨ti, bi, Pi⟩ := (ordinary_iff hr.wf).mp hi
  obtain ⟨t, b, P⟩ := (ordinary_iff hr.wf).mp hj
  obtain ⟨s1, x, hx, hd, hn, hb, hsz, hin, hlt, -⟩ := writes_hit hr h32 Pi hq h0 hl hh
  have hbb := hd.bits.trans hb
  obtain ⟨u, c, P', hcl, hgs, hbytes⟩ := hbb.plain (wf_named hw') P
  refine ⟨(ordinary_iff hw').mpr ⟨u, c, P'⟩, answers_congr P P' hcl hgs (fun k hk1 hk2 => hbytes k ?_) fd' a⟩
  rintro e he (⟨h1, h2, h3⟩ | hH)
  · rw [Int.toNat_natCast] at h1
    exact hout h1 k hk1 hk2 (by omega) (by omega)
  · exact hit k hk1 hk2 (by rwa [show (8 * k + e) / 8 = k by omega] at hH)

/-! ## Histories -/

/-- Reads, writes and masked writes make no mappings. -/
theorem data_hasMap {s s' : Server} {fd : Int} {q : Req} {r : Reply} (hr : Reachable s) (hq : q.isData)
    (hh : handle s fd q = .ok (s', r)) {i : Nat} {src dst : Handle} (h : HasMap s' i src dst) : HasMap s i src dst := by
  have hk : q.kinds fd .mapAdd = false ∧ s'.db.length = s.db.length := by
    cases q with
    | tagRead idx off n =>
      refine ⟨rfl, ?_⟩
      have := handle_quiet (q := .tagRead idx off n) rfl hh
      exact this.len
    | tagWrite idx off d =>
      refine ⟨by simp [Req.kinds], ?_⟩
      have := handle_quiet (q := .tagWrite idx off d) rfl hh
      exact this.len
    | tagMWrite idx off d m =>
      refine ⟨by simp [Req.kinds], ?_⟩
      have := handle_quiet (q := .tagMWrite idx off d m) rfl hh
      exact this.len
    | _ => simp [Req.isData] at hq
  obtain ⟨id, t', m, ht', hw', hm, rfl, rfl, rfl⟩ := h
  have hlt : i < s.db.length := by
    have := (List.getElem?_eq_some_iff.mp ht').1
    omega
  have ht : s.db[i]? = some s.db[i] := List.getElem?_eq_getElem hlt
  generalize s.db[i] = t at ht
  obtain ⟨t2, ht2, hJ⟩ := (handle_path_kinds hr.modsOK hh).tag_inv
    (J := fun x => x.wildMaps = false → t.wildMaps = false ∧ ∀ m ∈ x.maps, m ∈ t.maps) (i := i) (by
      intro s0 x x' hx mv
      cases mv
      case mapAdd hf _ _ _ => rw [hk.1] at hf; cases hf
      case mapDel hs _ => exact fun hw => ⟨(hx hw).1, fun y hy => (hx hw).2 y (hs.subset hy)⟩
      case clear => exact fun hw => ⟨(hx hw).1, fun y hy => by simp at hy⟩
      all_goals exact hx) ht (fun hw => ⟨hw, fun _ h => h⟩)
  rw [ht'] at ht2; cases ht2
  obtain ⟨h1, h2⟩ := hJ hw'
  exact ⟨m.id, t, m, ht, h1, h2 m hm, rfl, rfl, rfl⟩

/-- One data request on a server with mappings. -/
theorem data_step_maps {s s' : Server} {fd : Int} {q : Req} {r : Reply} {M : Mem} (hr : Reachable s)
    (h32 : MapFields s) (hq : q.isData) (hM : Agrees M s) (hh : handle s fd q = .ok (s', r)) :
    AgreesOff (Mapped s) (remember M (q, r)) s' := by
  have hw := hr.wf
  have hw' := (hr.handle hh).wf
  have hrep := (agrees_iff hw).mp hM
  have same : ∀ {N : Mem}, s' = s → Agrees N s → AgreesOff (Mapped s) N s' := by
    rintro N rfl h i fd off n d ho ha
    obtain ⟨h1, h2, h3⟩ := h i fd off n d ho ha
    exact ⟨h1, h2, fun k hk _ => h3 k hk⟩
  have key : ∀ {N : Mem} {s1 : Server} {i len : Nat} {off : Int}, SameMaps s s1 → Named s1 → RepAgrees N s1 →
      mapCheck s1 i off len = .ok s' → AgreesOff (Mapped s) N s' := by
    intro N s1 i len off hsm hn hN hc
    refine (mapCheck_bits hr h32 hsm hc).off hn hw' ?_ hN
    rintro j b ⟨t, m, ht, hwm, hm, -, hp⟩
    exact part_mapped hr ht hwm hm hp
  cases q with
  | tagRead idx off n =>
    by_cases h0 : 0 ≤ idx
    · obtain ⟨i, rfl⟩ := Int.eq_ofNat_of_zero_le h0
      exact fun i fd off n d ho ha => by
        obtain ⟨h1, h2, h3⟩ := (agrees_iff hw').mpr (read_unchanged hrep hh).1 i fd off n d ho ha
        exact ⟨h1, h2, fun k hk _ => h3 k hk⟩
    · simp only [handle, hTagRead, tagRead] at hh
      rw [tag?_none.mpr (.inl (by omega))] at hh
      simp only [C.ok_bind, C.ok.injEq, Prod.mk.injEq] at hh
      exact same hh.1.symm hM
  | tagWrite idx off d =>
    by_cases h0 : 0 ≤ idx
    · obtain ⟨i, rfl⟩ := Int.eq_ofNat_of_zero_le h0
      rcases write_inv_maps hh with ⟨hs, e, rfl⟩ | ⟨rfl, s1, hsm, hd | hd, hc⟩
      · exact same hs hM
      · exact key hsm (hd.named (wf_named hw)) (hd.stored hrep) hc
      · exact key hsm (hd.named (wf_named hw)) (hd.mem hrep (fun j k h => store_other _ _ _ _ _ _ h)) hc
    · simp only [handle, hTagWrite, roForeign, rawAttr] at hh
      rw [if_pos (.inl (by omega))] at hh
      simp at hh
  | tagMWrite idx off d m =>
    by_cases h0 : 0 ≤ idx
    · obtain ⟨i, rfl⟩ := Int.eq_ofNat_of_zero_le h0
      rcases mwrite_inv_maps hh with ⟨hs, e, rfl⟩ | ⟨rfl, s1, t0, b0, old, hsm, ht0, hb0, hold, hd, hc⟩
      · exact same hs hM
      · exact key hsm (hd.named (wf_named hw)) (hd.storedMasked ht0 hb0 hold hq hrep) hc
    · simp only [handle, hTagMWrite, rawAttr] at hh
      rw [if_pos (.inl (by omega))] at hh
      simp at hh
  | _ => simp [Req.isData] at hq

/-- **C03, C04, C06** with mappings: over any sequence of reads, writes and masked writes by any
clients, reads of ordinary tags return, for every byte into which no mapping leads, exactly what a
client computes from the requests and replies; whatever mappings lead away from the tags written. -/
theorem C03_history_maps_partial {qs : List (Int × Req)} {s s' : Server} {rs : List Reply} {M : Mem}
    (hr : Reachable s) (h32 : MapFields s) (hM : AgreesOff (Mapped s) M s)
    (hq : ∀ q ∈ qs, q.2.isData) (hrun : runR s qs = .ok (s', rs)) :
    AgreesOff (Mapped s) (((qs.map (·.2)).zip rs).foldl remember M) s' := by
  generalize hD : Mapped s = D at hM ⊢
  have hsub : ∀ i src dst, HasMap s i src dst → ∀ j k, Lands src dst j k → D j k := by
    rw [← hD]; exact fun i src dst h j k hl => ⟨i, src, dst, h, hl⟩
  clear hD
  induction qs generalizing s rs M with
  | nil =>
    simp only [runR, C.ok.injEq, Prod.mk.injEq] at hrun
    rw [← hrun.1, ← hrun.2]; exact hM
  | cons q qs ih =>
    obtain ⟨fd, q⟩ := q
    simp only [runR] at hrun
    obtain ⟨⟨s1, r1⟩, h1, hrun⟩ := C.bind_eq_ok.mp hrun
    obtain ⟨⟨s2, rs2⟩, h2, hrun⟩ := C.bind_eq_ok.mp hrun
    simp only [C.ok.injEq, Prod.mk.injEq] at hrun
    obtain ⟨rfl, rfl⟩ := hrun
    have hqd : q.isData := hq (fd, q) List.mem_cons_self
    obtain ⟨N, hN, hA⟩ := (agreesOff_iff hr).mp hM
    have hs := data_step_maps hr h32 hqd hA h1
    have hback : ∀ {i src dst}, HasMap s1 i src dst → HasMap s i src dst := fun h => data_hasMap hr hqd h1 h
    refine ih (hr.handle h1) (fun i src dst h => h32 i src dst (hback h))
      (fun q hq' => hq q (List.mem_cons_of_mem _ hq')) h2 ?_ (fun i src dst h => hsub i src dst (hback h))
    refine agreesOff_of (N := remember N (q, r1)) (remember_off hN _) fun i fd off n d ho ha => ?_
    obtain ⟨e1, e2, e3⟩ := hs i fd off n d ho ha
    refine ⟨e1, e2, fun k hk hnD => e3 k hk ?_⟩
    rintro ⟨i', src, dst, hm, hl⟩
    exact hnD (hsub i' src dst hm _ _ hl)

/-! ## The hypotheses of the theorems are met -/

theorem mapFields_of {s : Server} (h : ∀ t ∈ s.db, ∀ m ∈ t.maps, m.dst.byte < 4294967296 ∧ m.src.byte + m.src.size < 4294967296) :
    MapFields s := by
  rintro i src dst ⟨id, t, m, ht, -, hm, rfl, rfl, rfl⟩
  exact h t (List.mem_of_getElem? ht) m hm

theorem mapped_of {s : Server} {l : List (Handle × Handle)} (h : ∀ t ∈ s.db, ∀ m ∈ t.maps, (m.src, m.dst) ∈ l) {j k : Nat}
    (hm : Mapped s j k) : ∃ p ∈ l, Lands p.1 p.2 j k := by
  obtain ⟨i, src, dst, ⟨id, t, m, ht, -, hm, rfl, rfl, rfl⟩, hl⟩ := hm
  exact ⟨_, h t (List.mem_of_getElem? ht) m hm, hl⟩

theorem mapOps_reachable : Reachable (demo mapOps) := demo_reachable (by decide +kernel)

theorem mapOps_fields : MapFields (demo mapOps) := mapFields_of (by decide +kernel)

theorem mapOps_hit {off : Int} {len j k : Nat} (h : Hit (demo mapOps) 13 off len j k) : j = 16 ∧ 4 ≤ k ∧ k < 8 := by
  obtain ⟨src, dst, hm, -, hi, b, hb, rfl⟩ := h
  have := (mapOps_speed _ _).mp hm
  cases this
  unfold inDest at hb
  have hb : 32 ≤ b ∧ b < 32 + 32 := hb
  have hi : (16 : Int) = j := hi
  omega

theorem mapOps_ordinary : Ordinary (demo mapOps) 13 ∧ Ordinary (demo mapOps) 16 := by
  constructor
  · exact ⟨0x1000, ⟨by decide, nm "Speed", DAX_INT, 4, fun fd => by kernel_rfl⟩, by decide, by decide⟩
  · exact ⟨0x1000, ⟨by decide, nm "Out", DAX_BYTE, 8, fun fd => by kernel_rfl⟩, by decide, by decide⟩

/-- The hypotheses of `C03_read_after_write_maps_partial` are met: "Speed" is mapped to the second half of
"Out" and back. -/
example : handle (demo (mapOps ++ [.req 6 (.tagWrite 13 1 [9, 8, 7])])) 5 (.tagRead 13 1 3) =
    .ok (demo (mapOps ++ [.req 6 (.tagWrite 13 1 [9, 8, 7])]), .resp [9, 8, 7]) :=
  C03_read_after_write_maps_partial (s := demo mapOps) mapOps_reachable mapOps_ordinary.1 mapOps_fields (by decide) (by decide)
    (demo_handle (by decide +kernel) (by decide +kernel)) 5 1 3 (by decide) (by decide) (by decide) (by decide)
    fun k _ _ h => by have := (mapOps_hit h).1; omega

/-- The hypotheses of `C06_masked_maps_partial` are met. -/
example : (∃ s', handle (demo mapOps) 6 (.tagMWrite 13 2 [0xF0, 0x99] [0x0F, 0xFF]) = .ok (s', .resp [])) ∧
    Answers (demo mapOps) 6 (.tagRead 13 2 2) (.resp [3, 4]) ∧ ∀ k, ¬ Hit (demo mapOps) 13 2 2 13 k :=
  ⟨exists_reply (by decide +kernel), exists_reply (by decide +kernel), fun k h => by have := (mapOps_hit h).1; omega⟩

/-- The hypotheses of `C04_isolated_maps_partial` are met: the first half of "Out". -/
example : Answers (demo (mapOps ++ [.req 6 (.tagWrite 13 1 [9, 8, 7])])) 5 (.tagRead 16 0 4) (.resp [0, 0, 0, 0]) :=
  (C04_isolated_maps_partial (s := demo mapOps) (fd := 6) (off := 1) (len := 3) (q := .tagWrite 13 1 [9, 8, 7]) mapOps_reachable
    mapOps_fields mapOps_ordinary.1 (.inl ⟨_, rfl, rfl⟩) (by decide) (by decide) (demo_handle (by decide +kernel) (by decide +kernel))
    mapOps_ordinary.2 5 0 4 _ (fun h => by omega)
    (fun k h1 h2 h => by have := mapOps_hit h; omega)).2.mpr (exists_reply (by decide +kernel))

/-- The hypotheses of `C03_history_maps_partial` are met by writes that set off all three mappings
and change mapped bytes directly as well. -/
example : (∃ M, AgreesOff (Mapped (demo mapOps)) M (demo mapOps)) ∧
    (∀ k, ¬ Mapped (demo mapOps) 14 k) ∧
    ∃ s' rs, runR (demo mapOps) [(5, .tagWrite 13 2 [9, 8]), (6, .tagMWrite 14 0 [255] [15]),
      (6, .tagWrite 16 3 [1, 2, 3]), (6, .tagWrite 13 4 [1, 2, 3, 4, 5, 6])] = .ok (s', rs) ∧ True := by
  refine ⟨?_, ?_, exists_runR (p := fun _ => True) (by decide +kernel)⟩
  · obtain ⟨M, hM⟩ := agrees_exists mapOps_reachable
    exact ⟨M, (agreesOff_iff mapOps_reachable).mpr ⟨M, fun _ _ _ => rfl, hM⟩⟩
  · intro k h
    obtain ⟨p, hp, hl, -⟩ := mapped_of (l := [mapFlags, mapSpeed, mapBack]) (by decide +kernel) h
    have : p.2.index ≠ 14 := by
      simp only [List.mem_cons, List.not_mem_nil, or_false] at hp
      rcases hp with rfl | rfl | rfl <;> decide
    exact this hl

end Dax
