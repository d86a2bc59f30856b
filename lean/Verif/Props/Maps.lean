import Verif.Lemmas.Maps
import Verif.Lemmas.Demo
import Verif.Props.Subs
/-!
# Data mappings (C34–C36)
-/
set_option autoImplicit false
namespace Dax

/-! ## C34 -/

theorem Reachable.masks {s : Server} (h : Reachable s) {i : Nat} {t : Tag} (ht : s.db[i]? = some t) :
    ∀ m ∈ t.maps, MaskOK m ∧ 0 ≤ m.dst.index := by
  refine h.forall_tags (I := fun _ t => ∀ m ∈ t.maps, MaskOK m ∧ 0 ≤ m.dst.index) ?_ ?_ ?_ i t ht
  · intro e s0 h0 j u hu
    obtain ⟨-, -, -, h4, -⟩ := (init_mods h0).2 j u hu
    rw [h4]; simp
  · intro e i fd name type count size m hm
    simp [newTag] at hm
  · intro s i t t' hI hm
    cases hm
    case mapAdd hd _ _ _ hk _ _ =>
      intro x hx
      rcases List.mem_cons.mp hx with rfl | hx
      · exact ⟨hk, (tag?_eq.mp hd).1⟩
      · exact hI x hx
    case mapDel hs _ => exact fun x hx => hI x (hs.subset hx)
    case clear => intro x hx; simp at hx
    all_goals exact hI

/-- A successful client write: the write proper, then the mappings of the tag. -/
theorem writes_split {s s' : Server} {fd off : Int} {q : Req} {i len : Nat} (hq : q.writes i off len)
    (hh : handle s fd q = .ok (s', .resp [])) :
    ∃ s1 t1, s1.db[i]? = some t1 ∧ t1.wildMaps = false ∧ SameMaps s s1 ∧ mapLoop s1 i off len t1.maps = .ok s' ∧
      Bits (fun j k => j = i ∧ 8 * off.toNat ≤ k ∧ k < 8 * (off.toNat + len)) s s1 ∧
      (∀ b, TagData s1 i b → off + len < 2147483648 ∧ off + len ≤ b.length) := by
  have hmc : ∀ s1, mapCheck s1 i off len = .ok s' → ∃ t1, s1.db[i]? = some t1 ∧ t1.wildMaps = false ∧
      mapLoop s1 i off len t1.maps = .ok s' := by
    intro s1 h
    unfold mapCheck at h
    rw [tag?_natCast] at h
    split at h
    · simp at h
    · rename_i t1 ht1
      split at h
      · simp at h
      · rename_i hw
        exact ⟨t1, ht1, by simpa using hw, h⟩
  have hset : ∀ {t : Tag} (u : Tag) {b : List Byte} {s1 : Server}, s.tag? (i : Int) = some t → s1.db = s.db.set i u →
      TagData s1 i b → u.data = .mem b := by
    intro t u b s1 ht hdb hb
    obtain ⟨w, hw, hd⟩ := hb
    have hl := (List.getElem?_eq_some_iff.mp (tag?_eq.mp ht).2).1
    have hl : i < s.db.length := hl
    rw [hdb, List.getElem?_set_self hl] at hw
    cases hw; exact hd
  rcases hq with ⟨d, rfl, rfl⟩ | ⟨d, m, rfl, rfl, hml⟩
  · simp only [handle, hTagWrite] at hh
    obtain ⟨ro, -, hh⟩ := C.bind_eq_ok.mp hh
    split at hh
    · simp at hh
    obtain ⟨⟨s1, r1⟩, h1, hh⟩ := C.bind_eq_ok.mp hh
    dsimp only at hh
    split at hh
    · simp at hh
    rename_i hr
    obtain ⟨s2, h2, hh⟩ := C.bind_eq_ok.mp hh
    simp only [C.ok.injEq, Prod.mk.injEq, and_true] at hh
    subst hh
    obtain ⟨t1, ht1, hw1, hl⟩ := hmc s1 h2
    refine ⟨s1, t1, ht1, hw1, tagWrite_maps h1, hl, ?_⟩
    rcases tagWrite_inv h1 with ⟨-, h⟩ | ⟨-, h⟩ | ⟨-, h⟩
    · exact absurd h hr
    · refine ⟨h.bits, fun b hb => ?_⟩
      obtain ⟨t, b0, b', evs, ns, rt, ht, hv, hb0, hw, -, hs1⟩ := h.ex
      have hdd := hset (b := b) { t with data := .mem b', events := evs } (s1 := s1) ht (by rw [hs1]; rfl) hb
      simp only [Store.mem.injEq] at hdd
      subst hdd
      have hin := (wr_ok.mp hw).1
      have hlen := wr_length hw
      unfold tagWrite at h1
      rw [ht] at h1
      simp only [hv, Bool.false_eq_true, if_false] at h1
      obtain ⟨e, he, h1⟩ := C.bind_eq_ok.mp h1
      have := (addI32_ok.mp he).1
      omega
    · refine ⟨h.bits _, fun b hb => ?_⟩
      obtain ⟨t, q, q', evs, ns, ht, -, -, -, -, hs1⟩ := h
      have hdd := hset (b := b) { t with data := .queue q', events := evs } (s1 := s1) ht (by rw [hs1]; rfl) hb
      cases hdd
  · simp only [handle, hTagMWrite] at hh
    obtain ⟨⟨a, _⟩, -, hh⟩ := C.bind_eq_ok.mp hh
    dsimp only at hh
    split at hh
    · simp at hh
    obtain ⟨⟨s1, r1⟩, h1, hh⟩ := C.bind_eq_ok.mp hh
    dsimp only at hh
    split at hh
    · simp at hh
    rename_i hr
    obtain ⟨s2, h2, hh⟩ := C.bind_eq_ok.mp hh
    simp only [C.ok.injEq, Prod.mk.injEq, and_true] at hh
    subst hh
    obtain ⟨t1, ht1, hw1, hl⟩ := hmc s1 h2
    refine ⟨s1, t1, ht1, hw1, tagMaskWrite_maps h1, hl, ?_⟩
    rcases tagMaskWrite_inv h1 with ⟨-, h⟩ | ⟨-, t2, b2, old, -, -, hold, h⟩
    · exact absurd h hr
    have hol := rd_length hold
    have hle : (maskMerge d m old).length = d.length := by rw [maskMerge_length]; omega
    refine ⟨by have := h.bits; rw [hle] at this; exact this, fun b hb => ?_⟩
    obtain ⟨t, b0, b', evs, ns, rt, ht, hv, hb0, hw, -, hs1⟩ := h.ex
    have hdd := hset (b := b) { t with data := .mem b', events := evs } (s1 := s1) ht (by rw [hs1]; rfl) hb
    simp only [Store.mem.injEq] at hdd
    subst hdd
    have hin := (wr_ok.mp hw).1
    have hlen := wr_length hw
    unfold tagMaskWrite at h1
    split at h1
    · simp at h1
    rw [ht] at h1
    simp only [hv, Bool.false_eq_true, if_false] at h1
    obtain ⟨e, he, h1⟩ := C.bind_eq_ok.mp h1
    have := (addI32_ok.mp he).1
    omega

theorem mapOverlap_iff {m : DMap} {off : Int} {len : Nat} (h0 : 0 ≤ off) (hlen : 0 < len) (hl : off + len < 2147483648)
    (hs : 0 < m.src.size) (hr : m.src.byte + m.src.size < 4294967296) :
    mapOverlap m off len = true ↔ srcTouched m.src off len := by
  simp only [mapOverlap, Bool.and_eq_true, decide_eq_true_eq]
  have e1 : u32 off = off.toNat := by unfold u32; omega
  have e2 : u32 ((m.src.byte : Int) + m.src.size - 1) = m.src.byte + m.src.size - 1 := by unfold u32; omega
  have e3 : u32 (off + len - 1) = (off + len - 1).toNat := by unfold u32; omega
  rw [e1, e2, e3]
  constructor
  · rintro ⟨h1, h2⟩
    refine ⟨max off.toNat m.src.byte, ?_, ?_, ?_, ?_⟩ <;> omega
  · rintro ⟨k, h1, h2, h3, h4⟩
    constructor <;> omega

theorem dest_pos {m : DMap} {k : Nat} (h : MaskOK m) (hk : inDest m.src m.dst k) : 0 < m.src.size := by
  unfold inDest mapBits at hk
  rcases h with ⟨hbool, -, mk, hmk, -⟩ | ⟨hbool, -⟩
  · have := (maskLoop_bits _ _ _ hmk).2.1
    rw [if_pos hbool] at hk
    have := this (by omega)
    rw [List.length_replicate] at this
    omega
  · rw [if_neg hbool] at hk; omega

/-- **C34**, the copy: after a successful client write touching the source range of a mapping, the
destination holds the source bits — for byte ranges and for BOOL ranges at any bit offset.

Conditions: the ranges lie in the tags (the server checks this when the mapping is made, but with
wrapping arithmetic), the destination is an ordinary tag, and no mapping of the written tag that
this write sets off has a destination in common with this mapping's source or, unless it is this
mapping, with its destination.  Missing from the full statement: BOOL mappings whose bits straddle
more destination bytes than source bytes (`C34_straddle`) corrupt memory when they are created,
those with a source handle too short are not always triggered. -/
theorem C34_copy_partial {s s' : Server} {fd off : Int} {q : Req} {i j len : Nat} {src dst : Handle} {b c : List Byte}
    (hr : Reachable s) (hq : q.writes i off len) (h0 : 0 ≤ off) (hh : handle s fd q = .ok (s', .resp []))
    (hm : HasMap s i src dst) (hj : dst.index = j) (ht : srcTouched src off len)
    (hb : TagData s' i b) (hc : OpenData s' j c)
    (hin : dst.byte + src.size ≤ c.length) (hsm : c.length < 2147483648)
    (h32 : ∀ src' dst', HasMap s i src' dst' → dst'.byte < 4294967296 ∧ src'.byte + src'.size < 4294967296)
    (hsrc : ∀ src' dst' k, HasMap s i src' dst' → srcTouched src' off len → dst'.index = i → inDest src src k →
      ¬ inDest src' dst' k)
    (hdst : ∀ src' dst' k, HasMap s i src' dst' → srcTouched src' off len → dst'.index = j → inDest src dst k →
      inDest src' dst' k → src' = src ∧ dst' = dst) :
    ∀ k, k < mapBits src → bitAt c (mapStart src dst + k) = bitAt b (mapStart src src + k) := by
  obtain ⟨s1, t1, ht1, hw1, hsame, hloop, hbits, hsize⟩ := writes_split hq hh
  obtain ⟨t, ht0, hmaps, hwild⟩ := hsame i t1 ht1
  obtain ⟨id, t', m, ht', hw', hmem, rfl, rfl, rfl⟩ := hm
  rw [ht0] at ht'; cases ht'
  have hmasks := hr.masks ht0
  have hhas : ∀ x ∈ t.maps, HasMap s i x.src x.dst := fun x hx => ⟨x.id, t, x, ht0, hw', hx, rfl, rfl, rfl⟩
  have hok : ∀ x ∈ t1.maps, MaskOK x ∧ x.dst.byte < 4294967296 := fun x hx =>
    ⟨(hmasks x (hmaps ▸ hx)).1, (h32 _ _ (hhas x (hmaps ▸ hx))).1⟩
  have hlb := mapLoop_bits hok hloop
  obtain ⟨b1, hb1, hl1, -⟩ := hlb.back hb
  obtain ⟨hoff, hoffb⟩ := hsize b1 hb1
  have hlen : 0 < len := by obtain ⟨k, h1, h2, -⟩ := ht; omega
  have hpos : 0 < m.src.size := by obtain ⟨k, -, -, h1, h2⟩ := ht; omega
  have hov := (mapOverlap_iff h0 hlen hoff hpos (h32 _ _ (hhas m hmem)).2).mpr ht
  obtain ⟨u, hu, hud, huv, hus⟩ := hc
  have hsz := tagGetSize_small ((hr.handle hh).wf.tag j u hu) hud hsm
  refine mapLoop_copies hok hloop ⟨m, hmaps ▸ hmem, hov, rfl, rfl⟩ hj hb hu hud huv hus hsz hin hsm ?_
  intro x hx hxo
  have hxh := hhas x (hmaps ▸ hx)
  have hxt : ∀ k, inDest x.src x.dst k → srcTouched x.src off len := fun k hk =>
    (mapOverlap_iff h0 hlen hoff (dest_pos (hmasks x (hmaps ▸ hx)).1 hk) (h32 _ _ hxh).2).mp hxo
  have hxd : ∀ {n : Nat}, n = x.dst.index.toNat → x.dst.index = n := by
    intro n hn
    have := (hmasks x (hmaps ▸ hx)).2
    omega
  refine ⟨fun k hk hp => ?_, fun hne k hk hp => ?_⟩
  · exact hsrc _ _ k hxh (hxt k hp.2) (hxd hp.1) hk hp.2
  · exact hne (hdst _ _ k hxh (hxt k hp.2) (hxd hp.1) hk hp.2)

/-- **C34**, the rest: a successful client write to tag `i` changes, besides the written range of
`i`, only bits in the destinations of mappings of `i` whose source range it touches. -/
theorem C34_frame {s s' : Server} {fd off : Int} {q : Req} {i j len : Nat} {c c' : List Byte}
    (hr : Reachable s) (hq : q.writes i off len) (h0 : 0 ≤ off) (hl : 0 < len) (hh : handle s fd q = .ok (s', .resp []))
    (h32 : ∀ src' dst', HasMap s i src' dst' → dst'.byte < 4294967296 ∧ src'.byte + src'.size < 4294967296)
    (hi : ∃ b, TagData s i b) (hc : TagData s j c) (hc' : TagData s' j c') : c'.length = c.length ∧
      ∀ k, bitAt c' k ≠ bitAt c k → (j = i ∧ off ≤ (k / 8 : Nat) ∧ (k / 8 : Nat) < off + len) ∨
        ∃ src dst, HasMap s i src dst ∧ srcTouched src off len ∧ dst.index = j ∧ inDest src dst k := by
  obtain ⟨s1, t1, ht1, hw1, hsame, hloop, hbits, hsize⟩ := writes_split hq hh
  obtain ⟨t, ht0, hmaps, hwild⟩ := hsame i t1 ht1
  have hmasks := hr.masks ht0
  have hw' : t.wildMaps = false := hwild ▸ hw1
  have hhas : ∀ x ∈ t.maps, HasMap s i x.src x.dst := fun x hx => ⟨x.id, t, x, ht0, hw', hx, rfl, rfl, rfl⟩
  have hok : ∀ x ∈ t1.maps, MaskOK x ∧ x.dst.byte < 4294967296 := fun x hx =>
    ⟨(hmasks x (hmaps ▸ hx)).1, (h32 _ _ (hhas x (hmaps ▸ hx))).1⟩
  have hlb := mapLoop_bits hok hloop
  obtain ⟨bi, hbi⟩ := hi
  obtain ⟨bi1, hbi1, -, -⟩ := hbits.fwd hbi
  obtain ⟨hoff, hoffb⟩ := hsize bi1 hbi1
  obtain ⟨y, hy, hyl, hyb⟩ := (hbits.trans hlb).fwd hc
  obtain rfl := hc'.uniq hy
  refine ⟨hyl, fun k hk => ?_⟩
  apply Classical.byContradiction
  intro hno
  refine hk (hyb k ?_)
  rintro (⟨rfl, hk1, hk2⟩ | ⟨x, hx, hxo, hxp⟩)
  · exact hno (.inl ⟨rfl, by omega, by omega⟩)
  · have hxh := hhas x (hmaps ▸ hx)
    obtain ⟨hm1, hm2⟩ := hmasks x (hmaps ▸ hx)
    refine hno (.inr ⟨x.src, x.dst, hxh, ?_, ?_, hxp.2⟩)
    · exact (mapOverlap_iff h0 hl hoff (dest_pos hm1 hxp.2) (h32 _ _ hxh).2).mp hxo
    · have := hxp.1; omega

/-! ## C35 -/

/-- **C35**, completion: a write to an ordinary tag completes whatever mappings lead away from the
tag and from their destinations — chains, cycles, mappings of a tag onto itself — as long as the
ranges of the mappings lie in ordinary tags.  Missing from the full statement: destinations that
are watched or saved are left out, because checking their subscriptions may itself go wrong
(C26–C30, C33), and a destination that has been deleted makes the server read freed memory
(`C35_deleted_destination`). -/
theorem C35_completes_partial {s : Server} {i : Nat} {b d : List Byte} {fd off : Int} (hr : Reachable s)
    (hb : QuietData s i b) (h0 : 0 ≤ off) (hin : off + d.length ≤ b.length) (hsm : b.length < 2147483648)
    (hw : ∀ t, s.db[i]? = some t → t.wildMaps = false)
    (hm : ∀ src dst, HasMap s i src dst → ∃ c, QuietData s dst.index.toNat c ∧ MapFits src dst b c) :
    ∃ s', handle s fd (.tagWrite i off d) = .ok (s', .resp []) := by
  have hwf := hr.wf
  have hsz : SizesOK s := ⟨hwf.dbsz, fun j t c ht hc hl => tagGetSize_small (hwf.tag j t ht) hc hl⟩
  obtain ⟨n, rfl⟩ : ∃ n : Nat, off = n := ⟨off.toNat, by omega⟩
  obtain ⟨s1, h1, hk⟩ := tagWrite_quietData (fd := fd) (off := n) (d := d) (fun t ht hd => hsz.2 i t b ht hd hsm) hb (by omega) hsm
  obtain ⟨t, ht, hd, hv, hs, hro, hre, hev⟩ := id hb
  have hl := (List.getElem?_eq_some_iff.mp ht).1
  have hmasks := hr.masks ht
  have hsame := tagWrite_maps h1
  have hbits : Bits (fun _ _ => True) s s1 := by
    rcases tagWrite_inv h1 with ⟨-, h⟩ | ⟨-, h⟩ | ⟨-, h⟩
    · exact absurd rfl h
    · exact h.bits.mono fun _ _ _ => trivial
    · exact h.bits _
  obtain ⟨b1, ⟨t1, ht1, hb1⟩, hl1, -⟩ := hbits.fwd ⟨t, ht, hd⟩
  obtain ⟨t0, ht0, hmaps, hwild⟩ := hsame i t1 ht1
  rw [ht] at ht0; cases ht0
  have hwt := hw t ht
  have hhas : ∀ x ∈ t.maps, HasMap s i x.src x.dst := fun x hx => ⟨x.id, t, x, ht, hwt, hx, rfl, rfl, rfl⟩
  obtain ⟨s', hs'⟩ := mapLoop_total (i := i) (off := n) (size := d.length) (ms := t.maps) (s := s1) (b := b1)
    hmasks (hsz.bits hbits hk.2.1) ⟨t1, ht1, hb1⟩ (fun m hmm => by
      obtain ⟨c, hc, hf⟩ := hm _ _ (hhas m hmm)
      obtain ⟨c', hc', hl'⟩ := hk.2.2 _ _ hc
      refine ⟨c', hc', ?_⟩
      unfold MapFits at *
      rw [hl1, hl']
      exact hf)
  refine ⟨s', ?_⟩
  have hlt : (i : Int) < s.dbsize := by have := hwf.dbsz; omega
  have hrw : roForeign s fd i = .ok false := by
    unfold roForeign rawAttr
    rw [if_neg (by omega), tag?_natCast, ht]
    simp [hro]
  simp only [handle, hTagWrite, hrw, C.ok_bind, h1, Bool.false_eq_true, if_false, ne_eq, not_true]
  unfold mapCheck
  rw [tag?_natCast, ht1]
  simp only [hwild, hwt, Bool.false_eq_true, if_false, hmaps, hs', C.ok_bind]

/-- **C35**, at most once: a write to tag `i` makes the server send, for any subscription of any tag
`j`, at most one notification per mapping from `i` into `j` (and one more if `j` is the written tag
itself) — each mapping of the written tag is applied at most once, and no mapping of a
destination is applied at all. -/
theorem C35_once {s s' : Server} {fd off : Int} {q : Req} {i j id len : Nat} {r : Reply} (hr : Reachable s)
    (hq : q.writes i off len) (hh : handle s fd q = .ok (s', r)) :
    (notices s s' j id).length ≤ mapCount s i j + if j = i then 1 else 0 := by
  have hids : ∀ (j : Nat) (t : Tag), s.db[j]? = some t → IdsOK j t := fun j t ht => hr.ids ht
  have fin : SentAtMost s s' j id (mapCount s i j + if j = i then 1 else 0) →
      (notices s s' j id).length ≤ mapCount s i j + if j = i then 1 else 0 := by
    rintro ⟨ns, hns, hl⟩
    unfold notices
    rw [hns, List.drop_left]
    exact hl
  apply fin
  have hcond : (if (i : Int) = j then 1 else 0) = if j = i then 1 else 0 := by
    by_cases h : j = i
    · subst h; simp
    · rw [if_neg h, if_neg (by omega)]
  have main : ∀ s1, SentAtMost s s1 j id (if (i : Int) = j then 1 else 0) → SameMaps s s1 →
      (∀ (j : Nat) (t : Tag), s1.db[j]? = some t → IdsOK j t) → mapCheck s1 i off len = .ok s' →
      SentAtMost s s' j id (mapCount s i j + if j = i then 1 else 0) := by
    intro s1 h1 hsm hid1 h
    unfold mapCheck at h
    rw [tag?_natCast] at h
    split at h
    · simp at h
    rename_i t1 ht1
    split at h
    · simp at h
    obtain ⟨t, ht, e1, -⟩ := hsm i t1 ht1
    have h2 := mapLoop_sent j id hid1 h
    have hc : mapCount s i j = t1.maps.countP (fun m => decide (m.dst.index = (j : Int))) := by
      unfold mapCount; rw [ht, e1]
    rw [hc, ← hcond, Nat.add_comm]
    exact h1.trans h2
  have zero : ∀ {n : Nat} (a : Nat), SentAtMost s s' j id n → SentAtMost s s' j id (a + n) := by
    rintro n a ⟨ns, h1, h2⟩; exact ⟨ns, h1, by omega⟩
  rcases hq with ⟨d, rfl, rfl⟩ | ⟨d, m, rfl, rfl, hml⟩
  · simp only [handle, hTagWrite] at hh
    obtain ⟨ro, -, hh⟩ := C.bind_eq_ok.mp hh
    split at hh
    · simp only [C.ok.injEq, Prod.mk.injEq] at hh; rw [← hh.1]; exact .zero rfl
    obtain ⟨⟨s1, r1⟩, h1, hh⟩ := C.bind_eq_ok.mp hh
    have hs1 := tagWrite_sent h1 (fun j t ht => (hids j t ht).evLt) j id
    dsimp only at hh
    split at hh
    · simp only [C.ok.injEq, Prod.mk.injEq] at hh
      obtain ⟨rfl, -⟩ := hh
      rw [← hcond]
      exact zero _ hs1
    obtain ⟨s2, h2, hh⟩ := C.bind_eq_ok.mp hh
    simp only [C.ok.injEq, Prod.mk.injEq] at hh
    obtain ⟨rfl, -⟩ := hh
    exact main s1 hs1 (tagWrite_maps h1) ((tagWrite_path (fl := fun _ => true) .refl (.inr rfl) _ h1).evIds hids) h2
  · simp only [handle, hTagMWrite] at hh
    obtain ⟨⟨a, _⟩, -, hh⟩ := C.bind_eq_ok.mp hh
    dsimp only at hh
    split at hh
    · simp only [C.ok.injEq, Prod.mk.injEq] at hh; rw [← hh.1]; exact .zero rfl
    obtain ⟨⟨s1, r1⟩, h1, hh⟩ := C.bind_eq_ok.mp hh
    have hs1 := tagMaskWrite_sent h1 (fun j t ht => (hids j t ht).evLt) j id
    dsimp only at hh
    split at hh
    · simp only [C.ok.injEq, Prod.mk.injEq] at hh
      obtain ⟨rfl, -⟩ := hh
      rw [← hcond]
      exact zero _ hs1
    obtain ⟨s2, h2, hh⟩ := C.bind_eq_ok.mp hh
    simp only [C.ok.injEq, Prod.mk.injEq] at hh
    obtain ⟨rfl, -⟩ := hh
    exact main s1 hs1 (tagMaskWrite_maps h1) ((tagMaskWrite_path (fl := fun _ => true) .refl (.inr rfl) _ h1).evIds hids) h2

/-! ## C36 -/

theorem mapAdd_reply {s s' : Server} {fd : Int} {src dst : Handle} {d : List Byte} (hr : Reachable s)
    (h : handle s fd (.mapAdd src dst) = .ok (s', .resp d)) : ∃ a, d = le4 a ∧ 0 ≤ a ∧ a < 2147483648 ∧
      MapAt s' src.index.toNat a src dst ∧ 0 ≤ src.index ∧
      (s' = s ∨ ∃ t, s.db[src.index.toNat]? = some t ∧ a = t.nextmap ∧ ∀ j id x y, MapAt s j id x y → MapAt s' j id x y) := by
  simp only [handle] at h
  obtain ⟨⟨s1, r⟩, h1, hh⟩ := C.bind_eq_ok.mp h
  simp only [C.ok.injEq, Prod.mk.injEq, idOrErr] at hh
  obtain ⟨rfl, hd⟩ := hh
  split at hd
  · simp at hd
  rename_i hneg
  simp only [Reply.resp.injEq] at hd
  rcases mapAdd_inv h1 with ⟨-, hn⟩ | ⟨rfl, t, m, ht, hw, hm, rfl, rfl, rfl⟩ | ⟨t, m, ht, hw, hlt, rfl, hid, rfl, rfl, rfl⟩
  · exact absurd hn (by omega)
  · have hids := hr.ids (tag?_eq.mp ht).2
    have := hids.mapRange m hm
    have hlt : t.nextmap ≤ 2147483647 := Reachable.nextmap_le hr (tag?_eq.mp ht).2
    exact ⟨m.id, hd.symm, by omega, by omega, ⟨t, m, (tag?_eq.mp ht).2, hw, hm, rfl, rfl, rfl⟩, (tag?_eq.mp ht).1, .inl rfl⟩
  · have hids := hr.ids (tag?_eq.mp ht).2
    have h1 := hids.mapNext
    have hl := (List.getElem?_eq_some_iff.mp (tag?_eq.mp ht).2).1
    have hself : ∀ t' : Tag, (s.setTag m.src.index t').db[m.src.index.toNat]? = some t' := fun t' => by
      simp only [Server.setTag]; rw [List.getElem?_set_self hl]
    refine ⟨t.nextmap, hd.symm, by omega, by omega, ⟨_, m, hself _, hw, List.mem_cons_self .., hid, rfl, rfl⟩, (tag?_eq.mp ht).1,
      .inr ⟨t, (tag?_eq.mp ht).2, rfl, fun j id x y hxy => ?_⟩⟩
    obtain ⟨u, n, hu, hwu, hn, h1, h2, h3⟩ := hxy
    by_cases hj : m.src.index.toNat = j
    · subst hj
      rw [(tag?_eq.mp ht).2] at hu; cases hu
      exact ⟨_, n, hself _, hwu, List.mem_cons_of_mem _ hn, h1, h2, h3⟩
    · exact ⟨u, n, by simp only [Server.setTag]; rw [List.getElem?_set_ne hj]; exact hu, hwu, hn, h1, h2, h3⟩

theorem MapAt.same_id {s : Server} {i : Nat} {a b : Int} {src dst src' dst' : Handle} (hr : Reachable s)
    (h : MapAt s i a src dst) (h' : MapAt s i b src' dst') (hab : a = b) : src' = src ∧ dst' = dst := by
  obtain ⟨t, m, ht, -, hm, rfl, rfl, rfl⟩ := h
  obtain ⟨u, n, hu, -, hn, rfl, rfl, rfl⟩ := h'
  rw [ht] at hu; cases hu
  have h1 := find_map (hr.ids ht).mapLt hm
  have h2 := find_map (hr.ids ht).mapLt hn
  rw [hab, h2] at h1
  cases h1
  exact ⟨rfl, rfl⟩

theorem pairwise_ne {α : Type} {R : α → α → Prop} {l : List α} (h : l.Pairwise R) {a b : α} (ha : a ∈ l) (hb : b ∈ l) (hne : a ≠ b) :
    R a b ∨ R b a := by
  induction l with
  | nil => simp at ha
  | cons x l ih =>
    obtain ⟨h1, h2⟩ := List.pairwise_cons.mp h
    rcases List.mem_cons.mp ha with e1 | ha' <;> rcases List.mem_cons.mp hb with e2 | hb'
    · exact absurd (e1.trans e2.symm) hne
    · exact .inl (e1 ▸ h1 b hb')
    · exact .inr (e2 ▸ h1 a ha')
    · exact ih h2 ha' hb'

theorem MapAt.same_ranges {s : Server} {i : Nat} {a b : Int} {src dst : Handle} (hr : Reachable s)
    (h : MapAt s i a src dst) (h' : MapAt s i b src dst) : a = b := by
  obtain ⟨t, m, ht, -, hm, rfl, rfl, rfl⟩ := h
  obtain ⟨u, n, hu, -, hn, rfl, h1, h2⟩ := h'
  rw [ht] at hu; cases hu
  apply Classical.byContradiction
  intro hne
  have := pairwise_ne (hr.mapsDiffer ht) hm hn (fun e => hne (by rw [e]))
  rcases this with h | h
  · exact h ⟨h1, h2⟩
  · exact h ⟨h1.symm, h2.symm⟩

/-- What a client is told about a mapping: the two ranges if it is in force, "not found" if there is
none with that identifier. -/
theorem mapGet_reply {s : Server} {fd id : Int} {i : Nat} {t : Tag} (hr : Reachable s) (ht : s.db[i]? = some t)
    (hw : t.wildMaps = false) :
    (∀ src dst, MapAt s i id src dst →
      handle s fd (.mapGet i id) = .ok (s, .resp (s.env.pad (handleBytes src ++ handleBytes dst) 48))) ∧
    ((¬ ∃ src dst, MapAt s i id src dst) → handle s fd (.mapGet i id) = .ok (s, .err ERR_NOTFOUND)) := by
  constructor
  · rintro src dst ⟨u, m, hu, -, hm, rfl, rfl, rfl⟩
    rw [ht] at hu; cases hu
    have hf := find_map (hr.ids ht).mapLt hm
    simp only [handle, hMapGet, mapGet, tag?_natCast, ht, hw, Bool.false_eq_true, if_false, hf, C.ok_bind]
  · intro hno
    have hf : t.maps.find? (fun m => decide (m.id = id)) = none := by
      rw [List.find?_eq_none]
      intro m hm
      simp only [decide_eq_true_eq]
      intro e
      exact hno ⟨_, _, t, m, ht, hw, hm, e, rfl, rfl⟩
    simp only [handle, hMapGet, mapGet, tag?_natCast, ht, hw, Bool.false_eq_true, if_false, hf, C.ok_bind]

/-- **C36**, identifiers: when two requests to map a range of the same tag are answered with the
same identifier — whatever happens in between — the second one found the mapping of the first one
still in force and changed nothing.  So an identifier is never given to another mapping, not even
to an identical one made after the first was deleted. -/
theorem C36_ids_never_reused {s s1 s2 s3 : Server} {fd fd' : Int} {src dst src' dst' : Handle} {d : List Byte} {os : List Op}
    (hr : Reachable s) (h1 : handle s fd (.mapAdd src dst) = .ok (s1, .resp d)) (h2 : run s1 os = .ok s2)
    (h3 : handle s2 fd' (.mapAdd src' dst') = .ok (s3, .resp d)) (hi : src'.index = src.index) :
    src' = src ∧ dst' = dst ∧ s3 = s2 := by
  have hr1 := hr.handle h1
  have hr2 := hr1.run h2
  have hr3 := hr2.handle h3
  obtain ⟨a, rfl, ha0, ha1, hm1, -, -⟩ := mapAdd_reply hr h1
  obtain ⟨a', hd, ha0', ha1', hm3, hn, hor⟩ := mapAdd_reply hr2 h3
  have haa := le4_inj ⟨ha0, ha1⟩ ⟨ha0', ha1'⟩ hd
  subst haa
  rw [hi] at hm3 hor
  obtain ⟨t1, m1, ht1, hw1, hmm1, e1, e2, e3⟩ := id hm1
  have hlt := (hr1.ids ht1).mapRange m1 hmm1
  have hIM : IdMeans a src dst t1 := ⟨by omega, fun m hm hma =>
    hm1.same_id hr1 (b := a) ⟨t1, m, ht1, hw1, hm, hma, rfl, rfl⟩ rfl⟩
  obtain ⟨t2, ht2, hI2⟩ := (run_path hr1.modsOK h2).tag_inv (J := IdMeans a src dst) (fun _ _ _ h m => h.move m) ht1 hIM
  rcases hor with rfl | ⟨t, ht, rfl, -⟩
  · obtain ⟨t3, m3, ht3, hw3, hmm3, f1, f2, f3⟩ := hm3
    rw [ht2] at ht3; cases ht3
    obtain ⟨g1, g2⟩ := hI2.2 m3 hmm3 f1
    exact ⟨by rw [← f2, g1], by rw [← f3, g2], rfl⟩
  · rw [ht2] at ht; cases ht
    have := hI2.1
    omega

/-- **C36**, identical mappings: asking for a mapping that is in force is answered with its
identifier and changes nothing. -/
theorem C36_identical {s s' : Server} {fd id : Int} {i : Nat} {src dst : Handle} {d : List Byte} (hr : Reachable s)
    (hm : MapAt s i id src dst) (hh : handle s fd (.mapAdd src dst) = .ok (s', .resp d)) : s' = s ∧ d = le4 id := by
  have hi : src.index.toNat = i := by
    obtain ⟨t, m, ht, -, hmm, rfl, rfl, rfl⟩ := hm
    have := ((hr.ids ht).mapRange m hmm).2.2.1
    omega
  obtain ⟨a, rfl, -, -, hm', -, hor⟩ := mapAdd_reply hr hh
  rw [hi] at hm' hor
  rcases hor with rfl | ⟨t, ht, rfl, hk⟩
  · exact ⟨rfl, by rw [hm.same_ranges hr hm']⟩
  · have heq := (hk _ _ _ _ hm).same_ranges (hr.handle hh) hm'
    obtain ⟨u, m, hu, -, hmm, rfl, -, -⟩ := hm
    rw [ht] at hu; cases hu
    have := (hr.ids ht).mapRange m hmm
    omega

/-- **C36**, deletion: what a successful deletion leaves in force.  The deleted mapping is gone, the
older ones stay, mappings of other tags stay; of the newer ones only the newest stays. -/
theorem C36_delete_exact {s s' : Server} {fd id : Int} {i : Nat} {d : List Byte} (hr : Reachable s)
    (hh : handle s fd (.mapDel i id) = .ok (s', .resp d)) (j : Nat) (id' : Int) (src dst : Handle) :
    MapAt s' j id' src dst ↔ MapAt s j id' src dst ∧
      (j = i → id' < id ∨ (id' ≠ id ∧ ∀ id2 src2 dst2, MapAt s i id2 src2 dst2 → id2 ≤ id')) := by
  simp only [handle] at hh
  obtain ⟨⟨s1, r⟩, h1, hh⟩ := C.bind_eq_ok.mp hh
  simp only [C.ok.injEq, Prod.mk.injEq, idOrErr] at hh
  obtain ⟨rfl, hd⟩ := hh
  split at hd
  · simp at hd
  rename_i hneg
  rcases mapDel_inv (fun t ht => (hr.ids (tag?_eq.mp ht).2).mapLt) h1 with ⟨-, hn⟩ | ⟨-, t, ms, ht, hw, rfl, -, hmem⟩
  · exact absurd hn (by omega)
  rw [tag?_natCast] at ht
  have hl := (List.getElem?_eq_some_iff.mp ht).1
  have hself : (s.setTag (i : Int) { t with maps := ms }).db[i]? = some { t with maps := ms } := by
    simp only [Server.setTag]
    have : ((i : Int)).toNat = i := rfl
    rw [this, List.getElem?_set_self hl]
  have hoth : ∀ k, k ≠ i → (s.setTag (i : Int) { t with maps := ms }).db[k]? = s.db[k]? := by
    intro k hk
    simp only [Server.setTag]
    have : ((i : Int)).toNat = i := rfl
    rw [this, List.getElem?_set_ne (Ne.symm hk)]
  constructor
  · rintro ⟨u, m, hu, hwu, hm, rfl, rfl, rfl⟩
    by_cases hj : j = i
    · subst hj
      rw [hself] at hu; cases hu
      obtain ⟨hm1, hm2⟩ := (hmem m).mp hm
      refine ⟨⟨t, m, ht, hw, hm1, rfl, rfl, rfl⟩, fun _ => ?_⟩
      rcases hm2 with h | ⟨h, hmax⟩
      · exact .inl h
      · refine .inr ⟨h, ?_⟩
        rintro id2 src2 dst2 ⟨v, n, hv, -, hn, rfl, -, -⟩
        rw [ht] at hv; cases hv
        exact hmax n hn
    · rw [hoth j hj] at hu
      exact ⟨⟨u, m, hu, hwu, hm, rfl, rfl, rfl⟩, fun h => absurd h hj⟩
  · rintro ⟨⟨u, m, hu, hwu, hm, rfl, rfl, rfl⟩, hc⟩
    by_cases hj : j = i
    · subst hj
      rw [ht] at hu; cases hu
      refine ⟨_, m, hself, hw, (hmem m).mpr ⟨hm, ?_⟩, rfl, rfl, rfl⟩
      rcases hc rfl with h | ⟨h, hmax⟩
      · exact .inl h
      · exact .inr ⟨h, fun y hy => hmax y.id y.src y.dst ⟨t, y, ht, hw, hy, rfl, rfl, rfl⟩⟩
    · exact ⟨u, m, by rw [hoth j hj]; exact hu, hwu, hm, rfl, rfl, rfl⟩

/-- **C36**, deletion of a mapping with at most one newer one: that mapping is gone, all others stay
in force.  Missing from the full statement: with two or more newer mappings, those in between are
lost (`C36_delete_drops`). -/
theorem C36_delete_partial {s s' : Server} {fd id : Int} {i : Nat} {d : List Byte} (hr : Reachable s)
    (hh : handle s fd (.mapDel i id) = .ok (s', .resp d))
    (hnew : ∀ a b src dst src' dst', MapAt s i a src dst → MapAt s i b src' dst' → id < a → id < b → a = b)
    (j : Nat) (id' : Int) (src dst : Handle) :
    MapAt s' j id' src dst ↔ MapAt s j id' src dst ∧ ¬ (j = i ∧ id' = id) := by
  rw [C36_delete_exact hr hh j id' src dst]
  constructor
  · rintro ⟨h1, h2⟩
    refine ⟨h1, fun ⟨e1, e2⟩ => ?_⟩
    rcases h2 e1 with h | ⟨h, -⟩ <;> omega
  · rintro ⟨h1, h2⟩
    refine ⟨h1, fun e => ?_⟩
    subst e
    by_cases hlt : id' < id
    · exact .inl hlt
    · have hne : id' ≠ id := fun e => h2 ⟨rfl, e⟩
      refine .inr ⟨hne, fun id2 src2 dst2 h3 => ?_⟩
      by_cases h4 : id2 ≤ id
      · omega
      · have := hnew _ _ _ _ _ _ h1 h3 (by omega) (by omega)
        omega

/-- **C36**, persistence: a request that neither deletes a mapping or a tag nor writes leaves all
mappings in force. -/
theorem C36_kept {s s' : Server} {fd : Int} {q : Req} {r : Reply} {i : Nat} {id : Int} {src dst : Handle} (hr : Reachable s)
    (hq : q.kinds fd .mapDel = false ∧ q.kinds fd .del = false) (hh : handle s fd q = .ok (s', r))
    (hm : MapAt s i id src dst) : MapAt s' i id src dst :=
  (handle_path_kinds hr.modsOK hh).mapAt hq.1 hq.2 hm

/-! ## The hypotheses of the theorems are met, and the witnesses -/

/-- Bits 3 to 7 of "Flags" mapped to bits 2 to 6 of tag 16. -/
def mapFlags : Handle × Handle := (⟨14, 0, 3, 5, 1, DAX_BOOL⟩, ⟨16, 0, 2, 5, 1, DAX_BOOL⟩)
/-- The first two elements of "Speed" mapped to bytes 4 to 7 of tag 16. -/
def mapSpeed : Handle × Handle := (⟨13, 0, 0, 2, 4, DAX_INT⟩, ⟨16, 4, 0, 4, 4, DAX_BYTE⟩)
/-- Bytes 4 to 7 of tag 16 mapped back to "Speed": with `mapSpeed` a cycle. -/
def mapBack : Handle × Handle := (⟨16, 4, 0, 4, 4, DAX_BYTE⟩, ⟨13, 0, 0, 2, 4, DAX_INT⟩)

/-- The demo session with a tag "Out" (index 16) and three mappings. -/
def mapOps : List Op := demoOps ++
  [.req 5 (.tagAdd DAX_BYTE 8 0 (nm "Out")), .req 5 (.mapAdd mapFlags.1 mapFlags.2), .req 5 (.mapAdd mapSpeed.1 mapSpeed.2),
   .req 5 (.mapAdd mapBack.1 mapBack.2)]

theorem mapAt_iff {s : Server} {i : Nat} {l : List (Int × Handle × Handle)}
    (h : (s.db[i]?).map (fun t => (t.wildMaps, t.maps.map fun m => (m.id, m.src, m.dst))) = some (false, l))
    (id : Int) (src dst : Handle) : MapAt s i id src dst ↔ (id, src, dst) ∈ l := by
  cases hs : s.db[i]? with
  | none => rw [hs] at h; simp at h
  | some t =>
    rw [hs] at h
    simp only [Option.map_some, Option.some.injEq, Prod.mk.injEq] at h
    obtain ⟨hw, rfl⟩ := h
    simp only [List.mem_map, Prod.mk.injEq]
    constructor
    · rintro ⟨u, m, hu, -, hm, rfl, rfl, rfl⟩
      rw [hs] at hu; cases hu
      exact ⟨m, hm, rfl, rfl, rfl⟩
    · rintro ⟨m, hm, rfl, rfl, rfl⟩
      exact ⟨t, m, hs, hw, hm, rfl, rfl, rfl⟩

theorem openData_of {s : Server} {j : Nat} {c : List Byte}
    (h : (s.db[j]?).map (fun t => (t.data, t.attr.virt, t.attr.special)) = some (.mem c, false, false)) : OpenData s j c := by
  cases hs : s.db[j]? with
  | none => rw [hs] at h; simp at h
  | some t =>
    rw [hs] at h
    simp only [Option.map_some, Option.some.injEq, Prod.mk.injEq] at h
    exact ⟨t, hs, h.1, h.2.1, h.2.2⟩

theorem quietData_of {s : Server} {j : Nat} {c : List Byte}
    (h : (s.db[j]?).map (fun t => (t.data, t.attr.virt, t.attr.special, t.attr.readonly, t.attr.retain, t.events.isEmpty)) =
      some (.mem c, false, false, false, false, true)) : QuietData s j c := by
  cases hs : s.db[j]? with
  | none => rw [hs] at h; simp at h
  | some t =>
    rw [hs] at h
    simp only [Option.map_some, Option.some.injEq, Prod.mk.injEq] at h
    exact ⟨t, hs, h.1, h.2.1, h.2.2.1, h.2.2.2.1, h.2.2.2.2.1, List.isEmpty_iff.mp h.2.2.2.2.2⟩

theorem mapOps_flags (src dst : Handle) : HasMap (demo mapOps) 14 src dst ↔ (src, dst) = mapFlags := by
  have := mapAt_iff (s := demo mapOps) (i := 14) (l := [(1, mapFlags)]) (by decide +kernel)
  unfold HasMap
  simp only [this, List.mem_singleton, Prod.mk.injEq]
  simp

theorem mapOps_speed (src dst : Handle) : HasMap (demo mapOps) 13 src dst ↔ (src, dst) = mapSpeed := by
  have := mapAt_iff (s := demo mapOps) (i := 13) (l := [(1, mapSpeed)]) (by decide +kernel)
  unfold HasMap
  simp only [this, List.mem_singleton, Prod.mk.injEq]
  simp

/-- The hypotheses of `C34_copy_partial` are met by a mapping of five bits to another bit offset;
the destination ends up as 0x54, the bits 3 to 7 of 0xA8 shifted down by one. -/
example : OpenData (demo (mapOps ++ [.req 6 (.tagWrite 14 0 [0xA8, 1])])) 16 [0x54, 0, 0, 0, 0, 0, 0, 0] ∧
    ∀ k, k < 5 → bitAt [0x54, 0, 0, 0, 0, 0, 0, 0] (2 + k) = bitAt [0xA8, 1, 0] (3 + k) := by
  have ho : OpenData (demo (mapOps ++ [.req 6 (.tagWrite 14 0 [0xA8, 1])])) 16 [0x54, 0, 0, 0, 0, 0, 0, 0] :=
    openData_of (by decide +kernel)
  refine ⟨ho, ?_⟩
  refine C34_copy_partial (s := demo mapOps) (fd := 6) (off := 0) (q := .tagWrite 14 0 [0xA8, 1]) (len := 2) (i := 14) (j := 16)
    (src := mapFlags.1) (dst := mapFlags.2) (demo_reachable (by decide +kernel)) (by simp [Req.writes]) (by omega)
    (demo_handle (by decide +kernel) (by decide +kernel)) ((mapOps_flags _ _).mpr rfl) rfl
    ⟨0, by decide, by decide, by decide, by decide⟩ (tagData_of (by decide +kernel)) ho (by decide) (by decide) ?_ ?_ ?_
  · intro src dst h
    have := (mapOps_flags _ _).mp h
    cases this
    decide
  · intro src dst k h _ hi
    have := (mapOps_flags _ _).mp h
    cases this
    exact absurd hi (by decide)
  · intro src dst k h _ _ _ _
    have := (mapOps_flags _ _).mp h
    cases this
    exact ⟨rfl, rfl⟩

/-- The hypotheses of `C34_frame` are met. -/
example : ∀ k, bitAt [0, 0, 0, 0, 1, 9, 9, 9] k ≠ bitAt [0, 0, 0, 0, 0, 0, 0, 0] k →
    ((16 : Nat) = 13 ∧ (1 : Int) ≤ (k / 8 : Nat) ∧ ((k / 8 : Nat) : Int) < 1 + 3) ∨
      ∃ src dst, HasMap (demo mapOps) 13 src dst ∧ srcTouched src 1 3 ∧ dst.index = 16 ∧ inDest src dst k := by
  refine (C34_frame (s := demo mapOps) (s' := demo (mapOps ++ [.req 6 (.tagWrite 13 1 [9, 9, 9])])) (fd := 6) (off := 1)
    (q := .tagWrite 13 1 [9, 9, 9]) (i := 13) (j := 16) (len := 3) (demo_reachable (by decide +kernel)) (by simp [Req.writes]) (by omega)
    (by omega) (demo_handle (by decide +kernel) (by decide +kernel)) ?_ (hasMem_of (by decide +kernel))
    (tagData_of (by decide +kernel)) (tagData_of (by decide +kernel))).2
  intro src dst h
  have := (mapOps_speed _ _).mp h
  cases this
  decide

/-- The hypotheses of `C35_completes_partial` are met by a cycle of two mappings. -/
example : ∃ s', handle (demo mapOps) 6 (.tagWrite 13 1 [9, 9, 9]) = .ok (s', .resp []) := by
  refine C35_completes_partial (b := [1, 2, 3, 4, 5, 6, 7, 8]) (demo_reachable (by decide +kernel)) (quietData_of (by decide +kernel))
    (by decide) (by decide) (by decide) ?_ ?_
  · have : ((demo mapOps).db[13]?).map (·.wildMaps) = some false := by decide +kernel
    intro t ht
    rw [ht] at this
    simpa using this
  · intro src dst h
    have := (mapOps_speed _ _).mp h
    cases this
    exact ⟨[0, 0, 0, 0, 0, 0, 0, 0], quietData_of (by decide +kernel), by decide, by decide, by decide, by intro h; exact absurd h (by decide)⟩

/-- The bound of `C35_once` is reached: with a subscription on "Out" and a mapping into it, a write
to "Speed" is notified exactly once, although "Out" is mapped back to "Speed". -/
def mapWatched : List Op := mapOps ++ [.req 6 (.evAdd ⟨16, 4, 0, 4, 4, DAX_BYTE⟩ EVENT_CHANGE [])]

example : mapCount (demo mapWatched) 13 16 = 1 ∧
    (notices (demo mapWatched) (demo (mapWatched ++ [.req 5 (.tagWrite 13 0 [7])])) 16 1).length = 1 ∧
    (notices (demo mapWatched) (demo (mapWatched ++ [.req 5 (.tagWrite 13 0 [7])])) 16 1).length ≤ 1 + 0 := by
  refine ⟨by decide +kernel, by decide +kernel, ?_⟩
  exact C35_once (s := demo mapWatched) (fd := 5) (q := .tagWrite 13 0 [7]) (i := 13) (len := 1) (off := 0)
    (demo_reachable (by decide +kernel)) (by simp [Req.writes])
    (demo_handle (r := .resp []) (by decide +kernel) (by decide +kernel))

/-- Four mappings of "Speed", with the identifiers 1 to 4. -/
def fourMaps : List Op := demoOps ++
  [.req 5 (.tagAdd DAX_BYTE 8 0 (nm "Out")),
   .req 5 (.mapAdd ⟨13, 0, 0, 1, 1, DAX_BYTE⟩ ⟨16, 0, 0, 1, 1, DAX_BYTE⟩),
   .req 5 (.mapAdd ⟨13, 1, 0, 1, 1, DAX_BYTE⟩ ⟨16, 1, 0, 1, 1, DAX_BYTE⟩),
   .req 5 (.mapAdd ⟨13, 2, 0, 1, 1, DAX_BYTE⟩ ⟨16, 2, 0, 1, 1, DAX_BYTE⟩),
   .req 5 (.mapAdd ⟨13, 3, 0, 1, 1, DAX_BYTE⟩ ⟨16, 3, 0, 1, 1, DAX_BYTE⟩)]

theorem fourMaps_reachable : Reachable (demo fourMaps) := demo_reachable (by decide +kernel)

theorem fourMaps_at (id : Int) (src dst : Handle) : MapAt (demo fourMaps) 13 id src dst ↔
    (id, src, dst) ∈ ([(4, ⟨13, 3, 0, 1, 1, DAX_BYTE⟩, ⟨16, 3, 0, 1, 1, DAX_BYTE⟩), (3, ⟨13, 2, 0, 1, 1, DAX_BYTE⟩, ⟨16, 2, 0, 1, 1, DAX_BYTE⟩),
      (2, ⟨13, 1, 0, 1, 1, DAX_BYTE⟩, ⟨16, 1, 0, 1, 1, DAX_BYTE⟩), (1, ⟨13, 0, 0, 1, 1, DAX_BYTE⟩, ⟨16, 0, 0, 1, 1, DAX_BYTE⟩)] :
        List (Int × Handle × Handle)) :=
  mapAt_iff (by decide +kernel) id src dst

/-- The mapping of byte 4 of "Speed". -/
def fifth : Req := .mapAdd ⟨13, 4, 0, 1, 1, DAX_BYTE⟩ ⟨16, 4, 0, 1, 1, DAX_BYTE⟩

/-- The hypotheses of `C36_ids_never_reused` are met: an identical mapping is asked for twice, with a
write and a deletion in between. -/
example : ∃ s1 s2 s3, handle (demo fourMaps) 5 fifth = .ok (s1, .resp (le4 5)) ∧
    run s1 [.req 5 (.tagWrite 13 0 [5]), .req 5 (.mapDel 13 4)] = .ok s2 ∧
    handle s2 6 fifth = .ok (s3, .resp (le4 5)) ∧ s3 = s2 := by
  have h1 := demo_handle (e := {}) (os := fourMaps) (fd := 5) (q := fifth) (r := .resp (le4 5)) (by decide +kernel) (by decide +kernel)
  have h2 := demo_run (e := {}) (os := fourMaps ++ [.req 5 fifth]) (os' := [.req 5 (.tagWrite 13 0 [5]), .req 5 (.mapDel 13 4)])
    (by decide +kernel)
  have h3 := demo_handle (e := {}) (os := fourMaps ++ [.req 5 fifth] ++ [.req 5 (.tagWrite 13 0 [5]), .req 5 (.mapDel 13 4)]) (fd := 6)
    (q := fifth) (r := .resp (le4 5)) (by decide +kernel) (by decide +kernel)
  exact ⟨_, _, _, h1, h2, h3, (C36_ids_never_reused fourMaps_reachable h1 h2 h3 rfl).2.2⟩

/-- After a deletion the same mapping gets another identifier. -/
example : ∃ s3, handle (demo (fourMaps ++ [.req 5 (.mapDel 13 4)])) 6
      (.mapAdd ⟨13, 3, 0, 1, 1, DAX_BYTE⟩ ⟨16, 3, 0, 1, 1, DAX_BYTE⟩) = .ok (s3, .resp (le4 5)) :=
  exists_reply (by decide +kernel)

/-- The hypotheses of `C36_identical` are met. -/
example : ∃ s' d, handle (demo fourMaps) 6 (.mapAdd ⟨13, 2, 0, 1, 1, DAX_BYTE⟩ ⟨16, 2, 0, 1, 1, DAX_BYTE⟩) = .ok (s', .resp d) ∧
    s' = demo fourMaps ∧ d = le4 3 := by
  obtain ⟨s', h⟩ := exists_reply
    (c := handle (demo fourMaps) 6 (.mapAdd ⟨13, 2, 0, 1, 1, DAX_BYTE⟩ ⟨16, 2, 0, 1, 1, DAX_BYTE⟩)) (r := .resp (le4 3)) (by decide +kernel)
  exact ⟨s', _, h, C36_identical fourMaps_reachable ((fourMaps_at _ _ _).mpr (by decide)) h⟩

/-- The hypotheses of `C36_delete_partial` are met: deletion of the newest but one. -/
example (j : Nat) (id' : Int) (src dst : Handle) :
    MapAt (demo (fourMaps ++ [.req 6 (.mapDel 13 3)])) j id' src dst ↔
      MapAt (demo fourMaps) j id' src dst ∧ ¬ (j = 13 ∧ id' = 3) := by
  refine C36_delete_partial fourMaps_reachable (i := 13) (demo_handle (r := .resp (le4 0)) (by decide +kernel) (by decide +kernel)) ?_ j id' src dst
  intro a b src dst src' dst' ha hb
  have ha := (fourMaps_at _ _ _).mp ha
  have hb := (fourMaps_at _ _ _).mp hb
  simp only [List.mem_cons, Prod.mk.injEq, List.not_mem_nil, or_false] at ha hb
  omega

/-- `C36_kept` covers reads and requests about other things. -/
example : ∃ s', handle (demo fourMaps) 6 (.tagRead 13 0 2) = .ok (s', .resp [1, 2]) ∧
    MapAt s' 13 2 ⟨13, 1, 0, 1, 1, DAX_BYTE⟩ ⟨16, 1, 0, 1, 1, DAX_BYTE⟩ := by
  obtain ⟨s', h⟩ := exists_reply (c := handle (demo fourMaps) 6 (.tagRead 13 0 2)) (r := .resp [1, 2]) (by decide +kernel)
  exact ⟨s', h, C36_kept fourMaps_reachable ⟨rfl, rfl⟩ h ((fourMaps_at _ _ _).mpr (by decide))⟩

/-- **C36** fails: deleting the oldest of four mappings also removes the second and the third. -/
theorem C36_delete_drops : ∃ s s', Reachable s ∧ handle s 5 (.mapDel 13 1) = .ok (s', .resp (le4 0)) ∧
    (∃ src dst, MapAt s 13 2 src dst) ∧ (∃ src dst, MapAt s 13 3 src dst) ∧
    handle s' 5 (.mapGet 13 2) = .ok (s', .err ERR_NOTFOUND) ∧ handle s' 5 (.mapGet 13 3) = .ok (s', .err ERR_NOTFOUND) := by
  refine ⟨demo fourMaps, demo (fourMaps ++ [.req 5 (.mapDel 13 1)]), fourMaps_reachable,
    demo_handle (by decide +kernel) (by decide +kernel), ⟨_, _, (fourMaps_at _ ⟨13, 1, 0, 1, 1, DAX_BYTE⟩ ⟨16, 1, 0, 1, 1, DAX_BYTE⟩).mpr (by decide)⟩,
    ⟨_, _, (fourMaps_at _ ⟨13, 2, 0, 1, 1, DAX_BYTE⟩ ⟨16, 2, 0, 1, 1, DAX_BYTE⟩).mpr (by decide)⟩, by kernel_rfl, by kernel_rfl⟩

/-- **C36** fails: deleting a mapping of a tag that has none makes the server follow a null
pointer. -/
theorem C36_delete_none : ∃ s, Reachable s ∧ ∃ w, handle s 5 (.mapDel 13 1) = .ub w :=
  ⟨demo demoOps, demoOps_reachable, isOk_false (by decide +kernel)⟩

/-- Three mappings of "Speed", the oldest one into a tag that is deleted afterwards. -/
def lostDest : List Op := demoOps ++
  [.req 5 (.tagAdd DAX_BYTE 8 0 (nm "Out")), .req 5 (.tagAdd DAX_BYTE 8 0 (nm "Old")),
   .req 5 (.mapAdd ⟨13, 0, 0, 1, 1, DAX_BYTE⟩ ⟨17, 0, 0, 1, 1, DAX_BYTE⟩),
   .req 5 (.mapAdd ⟨13, 1, 0, 1, 1, DAX_BYTE⟩ ⟨16, 1, 0, 1, 1, DAX_BYTE⟩),
   .req 5 (.mapAdd ⟨13, 2, 0, 1, 1, DAX_BYTE⟩ ⟨16, 2, 0, 1, 1, DAX_BYTE⟩),
   .req 5 (.tagDel 17)]

/-- **C35** fails: a write that touches the source of a mapping whose destination has been deleted
reads the freed mapping. -/
theorem C35_deleted_destination : ∃ s, Reachable s ∧ ∃ w, handle s 5 (.tagWrite 13 0 [9]) = .ub w :=
  ⟨demo lostDest, demo_reachable (by decide +kernel), isOk_false (by decide +kernel)⟩

/-- **C36** fails: even if freed memory keeps its content, such a write removes, besides the mapping
into the deleted tag, mappings between other tags. -/
theorem C36_write_drops : ∃ s s', Reachable s ∧ handle s 5 (.tagWrite 13 0 [9]) = .ok (s', .resp []) ∧
    MapAt s 13 2 ⟨13, 1, 0, 1, 1, DAX_BYTE⟩ ⟨16, 1, 0, 1, 1, DAX_BYTE⟩ ∧
    handle s' 5 (.mapGet 13 2) = .ok (s', .err ERR_NOTFOUND) := by
  refine ⟨demo lostDest { freedReadable := true }, demo (lostDest ++ [.req 5 (.tagWrite 13 0 [9])]) { freedReadable := true },
    demo_reachable (by decide +kernel), demo_handle (by decide +kernel) (by decide +kernel), ?_, by kernel_rfl⟩
  refine (mapAt_iff (l := [(3, ⟨13, 2, 0, 1, 1, DAX_BYTE⟩, ⟨16, 2, 0, 1, 1, DAX_BYTE⟩), (2, ⟨13, 1, 0, 1, 1, DAX_BYTE⟩, ⟨16, 1, 0, 1, 1, DAX_BYTE⟩),
    (1, ⟨13, 0, 0, 1, 1, DAX_BYTE⟩, ⟨17, 0, 0, 1, 1, DAX_BYTE⟩)]) (by decide +kernel) _ _ _).mpr (by decide)

/-- **C34** fails: mapping eight bits to a destination that straddles two bytes makes the server
write behind the mask it allocates. -/
theorem C34_straddle : ∃ s, Reachable s ∧
    ∃ w, handle s 5 (.mapAdd ⟨14, 0, 0, 8, 1, DAX_BOOL⟩ ⟨16, 0, 4, 8, 2, DAX_BOOL⟩) = .ub w :=
  ⟨demo mapOps, demo_reachable (by decide +kernel), isOk_false (by decide +kernel)⟩

/-- **C34** fails: the range check of the destination wraps around, so that a mapping to the last
byte offset is accepted although the tag has eight bytes; the next write reads or writes outside the
tag. -/
theorem C34_wrap : ∃ s s' d, Reachable s ∧
    handle s 5 (.mapAdd ⟨13, 4, 0, 1, 1, DAX_BYTE⟩ ⟨16, 4294967295, 0, 1, 1, DAX_BYTE⟩) = .ok (s', .resp d) ∧
    ∃ w, handle s' 5 (.tagWrite 13 4 [9]) = .ub w :=
  ⟨demo mapOps, demo (mapOps ++ [.req 5 (.mapAdd ⟨13, 4, 0, 1, 1, DAX_BYTE⟩ ⟨16, 4294967295, 0, 1, 1, DAX_BYTE⟩)]), le4 2,
    demo_reachable (by decide +kernel), demo_handle (by decide +kernel) (by decide +kernel), isOk_false (by decide +kernel)⟩

end Dax
