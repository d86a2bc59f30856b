import Verif.Spec.LuaCycle
import Verif.Props.LuaTag
import Verif.Props.LibUtil
/-!
# C71: one execution of a Lua script
-/
set_option autoImplicit false
namespace Dax
open Lua LibPath LibData LibUtil Wire

/-! ## One write keeps names, types and rights -/

/-- The same names, types, counts and attributes of tags, and the same types. -/
structure SameTags (s s' : Server) : Prop where
  cdts : s'.cdts = s.cdts
  tags : ∀ i : Nat, (s'.db[i]?).map (fun t => (t.name, t.type, t.count, t.attr)) = (s.db[i]?).map (fun t => (t.name, t.type, t.count, t.attr))

theorem SameTags.refl (s : Server) : SameTags s s := ⟨rfl, fun _ => rfl⟩

theorem SameTags.trans {a b c : Server} (h : SameTags a b) (h' : SameTags b c) : SameTags a c := ⟨h'.cdts.trans h.cdts, fun i => (h'.tags i).trans (h.tags i)⟩

theorem WriteDone.tags {s s' : Server} {i : Nat} {off : Int} {d : List Byte} {size : Nat} (h : WriteDone s i off d size s') : SameTags s s' := by
  obtain ⟨t, b, b', evs, ns, rt, ht, -, -, -, -, rfl⟩ := h.ex
  refine ⟨rfl, fun j => ?_⟩
  rw [tag?_natCast] at ht
  simp only [Server.setTag, Int.toNat_natCast]
  by_cases hj : j = i
  · subst hj
    rw [List.getElem?_set_self (List.getElem?_eq_some_iff.mp ht).1, ht]
    rfl
  · rw [List.getElem?_set_ne (fun h => hj h.symm)]

theorem SameTags.get {s s' : Server} (h : SameTags s s') {i : Nat} {t : Tag} (ht : s.db[i]? = some t) : ∃ t', s'.db[i]? = some t' ∧ t'.name = t.name ∧ t'.type = t.type ∧ t'.count = t.count ∧ t'.attr = t.attr := by
  have := h.tags i
  rw [ht, Option.map_some, Option.map_eq_some_iff] at this
  obtain ⟨t', ht', e⟩ := this
  simp only [Prod.mk.injEq] at e
  exact ⟨t', ht', e⟩

theorem SameTags.live {s s' : Server} (h : SameTags s s') (hw : WF s) (hw' : WF s') {i a b : Nat} {n : Name} (hl : LiveTag s i n a b) : LiveTag s' i n a b := by
  obtain ⟨t, ht, h1, h2, h3⟩ := (liveTag_iff hw).mp hl
  obtain ⟨t', ht', e1, e2, e3, -⟩ := h.get ht
  exact (liveTag_iff hw').mpr ⟨t', ht', e1.trans h1, e2.trans h2, e3.trans h3⟩

theorem SameTags.attr {s s' : Server} (h : SameTags s s') (hw : WF s) (hw' : WF s') {i a : Nat} (ha : AttrAt s i a) : AttrAt s' i a := by
  obtain ⟨t, ht, hn, ha⟩ := (attrAt_iff hw).mp ha
  obtain ⟨t', ht', e1, -, -, e4⟩ := h.get ht
  exact (attrAt_iff hw').mpr ⟨t', ht', by rw [e1]; exact hn, by rw [e4]; exact ha⟩

theorem SameTags.faithful {s s' : Server} (h : SameTags s s') (hw : WF s) (hw' : WF s') {c : TypeCache} (hc : Faithful s c) : Faithful s' c := by
  rw [faithful_iff hw', h.cdts]
  exact (faithful_iff hw).mp hc

theorem SameTags.takes {s s' : Server} (h : SameTags s s') (hw : WF s) (hw' : WF s') {i n : Nat} (ht : Takes s i n) : Takes s' i n := by
  obtain ⟨a, name, T, N, h1, h2, h3, h4, h5, h6, h7, h8⟩ := ht
  exact ⟨a, name, T, N, h.attr hw hw' h1, h2, h3, h4, h5, h.live hw hw' h6, by rw [h.cdts]; exact h7, h8⟩

theorem SameTags.slot {cap : Nat} {s s' : Server} (h : SameTags s s') {hd : Handle} (ht : Slot cap s hd) : Slot cap s' hd := by
  cases ht with
  | plain e h1 h2 h3 h4 h5 h6 h7 => exact .plain e h1 (fun hc => fits_congr h.cdts (h2 hc)) (by rw [h.cdts]; exact h3) h4 h5 h6 h7
  | bools h1 h2 => exact .bools h1 h2

theorem SameTags.target {cap : Nat} {s s' : Server} (h : SameTags s s') (hw : WF s) (hw' : WF s') {hd : Handle} (ht : Target cap s hd) : Target cap s' hd := by
  obtain ⟨h1, i, n, h2, h3, h4⟩ := ht
  exact ⟨h.slot h1, i, n, h2, h.takes hw hw' h3, h4⟩

theorem noMaps_of_rep {s : Server} (hw : WF s) (h : RepNoMaps s) : ∀ i name, LiveAt s i name → NoMaps s i := by
  intro j m hl
  obtain ⟨t, ht, hn⟩ := (liveAt_iff hw).mp hl
  exact (noMaps_iff ht).mpr (h j t ht (fun hf => by
    have := (hw.tag j t ht).name.mpr hf
    rw [hn] at this; simp at this))

theorem good_of_takes {s : Server} {i n : Nat} (hr : Reachable s) (hm : ∀ i name, LiveAt s i name → NoMaps s i) (h : Takes s i n) : Good i n s := by
  obtain ⟨a, name, T, N, ha, h0, h1, h3, h4, ht, hb, hn⟩ := h
  rcases hb with ⟨rfl, rfl⟩ | ⟨hT, E, hE, hEN⟩
  · have hw := hr.wf
    refine ⟨hr, repNoMaps_of hw hm, ?_⟩
    obtain ⟨t, ht', hn', ha'⟩ := (attrAt_iff hw).mp ha
    obtain ⟨t1, b, P⟩ := (ordinary_iff hw).mp ⟨a, ha, h1, h3⟩
    have e := ht'.symm.trans P.db
    cases e
    obtain ⟨t2, ht2, -, hty, hcnt⟩ := (liveTag_iff hw).mp ht
    have e := ht2.symm.trans P.db
    cases e
    have hal := ((hw.tag i _ P.db).mem b P.data).1
    unfold allocSize at hal
    rw [if_pos hty] at hal
    simp only [C.ok.injEq] at hal
    refine ⟨_, b, P, by rw [← Attr.bit0, ha']; exact h0, by rw [← Attr.bit4, ha']; exact h4, by omega, ?_⟩
    unfold tagGetSize
    rw [if_pos hty]
    simp only [C.ok.injEq]
    omega
  · have := good_of_live hr hm ha h0 h1 h3 h4 ht hT hE (by omega)
    rw [show E * N / 8 = n by omega] at this
    exact this

/-- What a sequence of accepted writes keeps. -/
def KeptTags (i n : Nat) (s s1 : Server) : Prop := Good i n s1 ∧ SameTags s s1

theorem kept_write {s s1 s2 : Server} {fd : Int} {i n p : Nat} {d : List Byte} {r : Reply} (g : KeptTags i n s s1) (hp : p + d.length ≤ n)
    (hn : n ≤ 2147483647) (hd : d.length ≤ 4088) (hh : handle s1 fd (.tagWrite i p d) = .ok (s2, r)) : r = .resp [] ∧ KeptTags i n s s2 := by
  obtain ⟨h1, h2⟩ := good_write g.1 hp hn hd hh
  refine ⟨h1, h2, g.2.trans ?_⟩
  obtain ⟨t, b, P, -⟩ := g.1.tag
  rcases write_inv (g.1.maps i) hh with ⟨rfl, -⟩ | ⟨-, hd' | hd'⟩
  · exact .refl _
  · exact hd'.tags
  · obtain ⟨t0, q, q', evs, ns, ht0, hv, -⟩ := hd'
    rw [tag?_natCast, P.db, Option.some.injEq] at ht0
    subst ht0
    rw [P.virt] at hv; simp at hv

theorem kept_mwrite {s s1 s2 : Server} {fd : Int} {i n p : Nat} {d m : List Byte} {r : Reply} (g : KeptTags i n s s1) (hp : p + d.length ≤ n)
    (hn : n ≤ 2147483647) (hd : d.length ≤ 4088) (hml : m.length = d.length) (hh : handle s1 fd (.tagMWrite i p d m) = .ok (s2, r)) : r = .resp [] ∧ KeptTags i n s s2 := by
  obtain ⟨h1, h2⟩ := good_mwrite g.1 hp hn hd hml hh
  refine ⟨h1, h2, g.2.trans ?_⟩
  rcases mwrite_inv (g.1.maps i) hh with ⟨rfl, -⟩ | ⟨-, t0, b0, old, ht0, hb0, hold, hd'⟩
  · exact .refl _
  · exact hd'.tags

/-- BOOLs that have to be moved are accepted. -/
theorem kept_shifted {s s' : Server} {fd : Int} {c c' : TypeCache} {h : Handle} {i n : Nat} {data : List Byte} {l : Log} {o : Outcome} {d : List Byte} {tlim : Nat} (htl : 1 ≤ tlim)
    (hr : Reachable s) (hfc : Faithful s c) (g : Good i n s) (hi : h.index = i) (hb : Bools h) (hl : h.count ≤ 8 * data.length) (hn : 8 * n ≤ 2147483600)
    (hin : h.byte + h.size + extraByte h ≤ n) (hbad : ¬ (h.size = 2040 ∧ extraByte h = 1)) {p : List Byte × List Byte}
    (hp : shiftLoop data (h.bit % 8) h.count 0 (List.replicate (shiftSize h) 0, List.replicate (shiftSize h) 0) = .ok p)
    (hh : transfer (fun s n k => do
        let d ← part p.1 n k
        let m ← part p.2 n k
        daxMask s fd h.index ((h.byte + n) % 4294967296) d m) 2040 tlim s fd c h.type h.size (shiftSize h) = .ok (s', c', l, o, d)) :
    o = .done 0 ∧ KeptTags i n s s' ∧ Faithful s c' := by
  have hss : shiftSize h = h.size + extraByte h := by
    unfold shiftSize extraByte
    split
    · rename_i hx; rw [if_pos ⟨hb.type, hx⟩]
    · rename_i hx; rw [if_neg (fun hc => hx hc.2)]; rfl
  have hex : extraByte h ≤ 1 := by unfold extraByte; split <;> omega
  obtain ⟨l1, l2, b1, b2⟩ := shift_inv hb hl hp
  have hc' := transfer_cache (cap := 0) hr (fun hc => absurd (hb.type ▸ hc) not_compound_bool) hfc (by rw [hb.type]; exact elemBits_bool) hh
  rcases shifted_transfer hb htl l1 l2 (by omega) hh with ⟨hx, hy, -⟩ | ⟨code, rfl, g2, g3⟩
  · omega
  · rw [hi] at g2
    obtain ⟨rfl, g4⟩ := split_accepted g2 (G := KeptTags i n s) (fun s1 s2 q k r a b cc gg hq =>
      kept_mwrite gg (by rw [_root_.Dax.slice_length (by omega)]; omega) (by omega) (by rw [_root_.Dax.slice_length (by omega)]; omega)
        (by rw [_root_.Dax.slice_length (by omega), _root_.Dax.slice_length (by omega)]) hq) ⟨g, .refl s⟩ g3
    exact ⟨rfl, g4, hc'⟩

theorem extra_plain {h : Handle} (hs : shifted h = false) : extraByte h = 0 := by
  unfold extraByte
  rw [if_neg]
  rintro ⟨h1, h2, -⟩
  unfold shifted at hs
  rw [h1] at hs
  simp only [BEq.rfl, Bool.true_and, Bool.or_eq_false_iff, decide_eq_false_iff_not] at hs
  exact hs.1 h2

theorem at_bools {tbl : List Cdt} {n off : Nat} (h : off < n) : ∃ ks, At tbl DAX_BOOL n ks DAX_BOOL 1 off := by
  by_cases h1 : n = 1
  · subst h1
    have : off = 0 := by omega
    subst this
    exact ⟨[], .one _ not_compound_bool⟩
  · refine ⟨[.int (off + 1)], ?_⟩
    have := At.elem (tbl := tbl) DAX_BOOL n off 1 [] DAX_BOOL 1 0 (by omega) h elemBits_bool (.one _ not_compound_bool)
    rw [Nat.one_mul, Nat.add_zero] at this
    exact this

/-- The value of one global arrives. -/
theorem arrives {cap : Nat} {env : LuaEnv} {s s' : Server} {fd : Int} {c c' : TypeCache} {h : Handle} {v : Val} {junk : List Byte} {l : Log} {x : Option Outcome} {M : Mem}
    (hr : Reachable s) (hm : ∀ i name, LiveAt s i name → NoMaps s i) (hM : Agrees M s) (hfc : Faithful s c) (ht : Target cap s h) (hv : Value s.cdts h v) (hj : junk.length = h.size)
    (hh : luaTagWrite env s fd c h v junk = .ok (s', c', l, x)) :
    x = some (.done 0) ∧ Reachable s' ∧ RepNoMaps s' ∧ SameTags s s' ∧ Faithful s c' ∧ ∃ M', Agrees M' s' ∧ Arrived env s.cdts h v M M' := by
  obtain ⟨hslot, i, n, hi, htk, hroom, hbad⟩ := ht
  have hin : h.index.toNat = i := by rw [hi]; rfl
  have hn8 : 8 * n ≤ 2147483600 := by obtain ⟨a, name, T, N, _, _, _, _, _, _, _, h⟩ := htk; exact h
  have g := good_of_takes hr hm htk
  have hh0 := hh
  cases hslot with
  | plain e hs hf he hn hz hq hlim =>
    have hex := extra_plain hs
    have hfb : startBit h = 8 * h.byte := by unfold startBit; rw [if_neg (by rw [hs]; decide)]; rfl
    obtain ⟨c1, data, mask, a1, a2, a3, a4, a5, a6⟩ := C68_write_partial (env := env) (fd := fd) (st := []) hr hf hfc he hn (by omega) hv.1 (data := junk) (mask := List.replicate h.size 0)
      (by omega) (by rw [List.length_replicate, hj])
    rw [List.length_replicate] at a4
    obtain ⟨s1, c2, l1, o, d, hx, hb⟩ := luaTagWrite_inv a1 hh
    simp only [Prod.mk.injEq] at hx
    obtain ⟨rfl, rfl, rfl, rfl⟩ := hx
    have hfm : ∀ {c3 r}, format s fd true data.length c1 h.type h.count = .ok (c3, r) → Faithful s c3 ∧ r = 0 := fun hfm => format_faithful hr hf he hq a2 hfm
    have key : o = .done 0 ∧ KeptTags i n s s' ∧ Faithful s c' := by
      rcases hb with ⟨-, hh⟩ | ⟨-, hh⟩
      · obtain ⟨c3, r, k1, ⟨hr', -⟩ | ⟨-, hh⟩⟩ := daxTagMask_plain hs hh
        · exact absurd (hfm k1).2 hr'
        · have w := whole_unit (fd := fd) hr hf (hfm k1).1 he hn hz (by omega) (lim := 2040) (by omega) (by decide)
          have hc' := transfer_cache hr hf (hfm k1).1 he hh
          obtain ⟨code, rfl, g2, g3, -⟩ := transfer_ok (sends_mask w.small (Nat.le_refl _)) w.upos w.fits w.dvd
            w.fits w.elem w.pos (by have := w.small; omega) (fun h => h) hh
          rw [hi] at g2
          obtain ⟨rfl, g4⟩ := split_accepted g2 (G := KeptTags i n s) (fun s1 s2 q k r a b cc gg hq =>
            kept_mwrite gg (by rw [_root_.Dax.slice_length (by omega)]; omega) (by omega) (by rw [_root_.Dax.slice_length (by omega)]; omega)
              (by rw [_root_.Dax.slice_length (by omega), _root_.Dax.slice_length (by omega)]) hq) ⟨g, .refl s⟩ g3
          exact ⟨rfl, g4, hc'⟩
      · obtain ⟨c3, r, k1, ⟨hr', -⟩ | ⟨-, hh⟩⟩ := daxTagWrite_plain hs hh
        · exact absurd (hfm k1).2 hr'
        · have w := whole_unit (fd := fd) hr hf (hfm k1).1 he hn hz (by omega) (lim := 4080) (by omega) (by decide)
          have hc' := transfer_cache hr hf (hfm k1).1 he hh
          obtain ⟨code, rfl, g2, g3, -⟩ := transfer_ok (sends_write w.small (Nat.le_refl _)) w.upos w.fits w.dvd
            w.fits w.elem w.pos (by have := w.small; omega) (fun h => h) hh
          rw [hi] at g2
          obtain ⟨rfl, g4⟩ := split_accepted g2 (G := KeptTags i n s) (fun s1 s2 q k r a b cc gg hq =>
            kept_write gg (by rw [_root_.Dax.slice_length (by omega)]; omega) (by omega) (by rw [_root_.Dax.slice_length (by omega)]; omega) hq) ⟨g, .refl s⟩ g3
          exact ⟨rfl, g4, hc'⟩
    obtain ⟨rfl, ⟨k1, k2⟩, k3⟩ := key
    refine ⟨rfl, k1.reach, k1.maps, k2, k3, ?_⟩
    obtain ⟨code, hc, hw⟩ := C69_write_partial hr hm hM hi hs hf hfc he hn hz hq (by omega) (by omega) hlim hv.1 hj hh0
    simp only [Option.some.injEq, Outcome.done.injEq] at hc
    obtain ⟨M', m1, m2, m3⟩ := hw hc.symm
    exact ⟨M', m1, ⟨by rw [hin, hfb]; exact m2, by rw [hin, hfb]; exact m3⟩⟩
  | bools hs hb =>
    have hsz := hb.size
    have hbit := hb.bit
    have hfb : startBit h = 8 * h.byte + h.bit := by unfold startBit; rw [if_pos hs]
    obtain ⟨hsh, hall⟩ := hv
    rw [hb.type] at hsh
    have hall := hall hs
    rw [hb.type] at hall
    obtain ⟨c1, data, mask, a1, a2, a3, a4, a5, a6⟩ := C68_write_partial (cap := 0) (env := env) (fd := fd) (st := []) hr (fun h => absurd h not_compound_bool) hfc elemBits_bool hb.pos (by omega) hsh
      (data := junk) (mask := List.replicate h.size 0) (by omega) (by rw [List.length_replicate, hj])
    rw [← hb.type] at a1
    obtain ⟨s1, c2, l1, o, d, hx, ha⟩ := luaTagWrite_inv a1 hh
    simp only [Prod.mk.injEq] at hx
    obtain ⟨rfl, rfl, rfl, rfl⟩ := hx
    have key : o = .done 0 ∧ KeptTags i n s s' ∧ Faithful s c' := by
      rcases ha with ⟨-, hh⟩ | ⟨-, hh⟩
      · unfold daxTagMask at hh
        rw [if_pos hs] at hh
        obtain ⟨p, g1, hh⟩ := C.bind_eq_ok.mp hh
        exact kept_shifted (by decide) hr a2 g hi hb (by omega) hn8 hroom hbad g1 hh
      · unfold daxTagWrite at hh
        rw [if_pos hs] at hh
        obtain ⟨p, g1, hh⟩ := C.bind_eq_ok.mp hh
        exact kept_shifted (by decide) hr a2 g hi hb (by omega) hn8 hroom hbad g1 hh
    obtain ⟨rfl, ⟨k1, k2⟩, k3⟩ := key
    refine ⟨rfl, k1.reach, k1.maps, k2, k3, ?_⟩
    obtain ⟨M', m1, m2, m3⟩ := C69_bools_partial hr hm hM hi hb hs hfc (by omega) (by omega) hsh hall hj hh0
    refine ⟨M', m1, fun ks ty off hat => ?_, fun j q hg => m3 j q (fun hx => hg ?_)⟩
    · rw [hb.type] at hat
      rw [hin, hfb]
      have hty : ty = DAX_BOOL := by
        rcases hat.base not_compound_bool with ⟨_, _, h, _⟩ | ⟨_, _, h, _⟩ | ⟨_, _, _, _, _, _, h, _⟩ <;> exact h
      subst hty
      refine ⟨fun hv => absurd hv (hall ks _ off hat), fun _ _ => m2 ks _ off hat, fun w sg x hi => ?_, fun _ hx => absurd hx (by decide), fun _ hx => absurd hx (by decide)⟩
      exact absurd hi (by simp [intTypes, DAX_BOOL, DAX_BYTE, DAX_SINT, DAX_CHAR, DAX_WORD, DAX_INT, DAX_UINT, DAX_DWORD, DAX_DINT, DAX_UDINT, DAX_LWORD, DAX_LINT, DAX_ULINT])
    · rw [hin, hfb, hb.type]
      obtain ⟨x1, x2, x3⟩ := hx
      obtain ⟨ks, hat⟩ := at_bools (tbl := s.cdts) (n := h.count) (off := q - (8 * h.byte + h.bit)) (by omega)
      exact ⟨x1, ks, DAX_BOOL, _, 1, hat, hall ks _ _ hat, .inl ⟨rfl, rfl⟩, by omega, by omega⟩

/-! ## All globals are written -/

theorem memBit_bytes {M M' : Mem} {i p w : Nat} (h : ∀ b, 8 * p ≤ b → b < 8 * p + 8 * w → memBit M' i b = memBit M i b) : memBytes M' i p w = memBytes M i p w := by
  unfold memBytes
  refine List.map_congr_left fun k hk => ?_
  have hk := List.mem_range.mp hk
  apply BitVec.eq_of_getLsbD_eq
  intro j hj
  have := h (8 * (p + k) + j) (by omega) (by omega)
  unfold memBit at this
  rw [show (8 * (p + k) + j) / 8 = p + k by omega, show (8 * (p + k) + j) % 8 = j by omega] at this
  exact this

theorem width_int {ty w : Nat} {sg : Bool} (h : (ty, w, sg) ∈ intTypes) : Width ty (8 * w) ∧ ty ≠ DAX_BOOL := by
  simp only [intTypes, List.mem_cons, List.not_mem_nil, or_false, Prod.mk.injEq] at h
  rcases h with h|h|h|h|h|h|h|h|h|h|h|h <;> obtain ⟨rfl, rfl, rfl⟩ := h <;> exact ⟨.inr ⟨_, by decide, rfl⟩, by decide⟩

/-- What becomes of an item depends on its bits only. -/
theorem put_congr {env : LuaEnv} {M M' N N' : Mem} {i p ty : Nat} {v : Val} (ha : ty ≠ DAX_BOOL → p % 8 = 0)
    (h1 : ∀ e, Width ty e → ∀ b, p ≤ b → b < p + e → memBit N i b = memBit M i b) (h2 : ∀ e, Width ty e → ∀ b, p ≤ b → b < p + e → memBit N' i b = memBit M' i b)
    (h : Put env M M' i p ty v) : Put env N N' i p ty v := by
  have bytes : ∀ w, Width ty (8 * w) → ty ≠ DAX_BOOL → memBytes N' i (p / 8) w = memBytes M' i (p / 8) w := by
    intro w hw hb
    have := ha hb
    exact memBit_bytes fun b x1 x2 => h2 _ hw b (by omega) (by omega)
  refine ⟨fun hv e he b x1 x2 => ?_, fun hv hb => ?_, fun w sg x hi hx => ?_, fun hv hb => ?_, fun hv hb => ?_⟩
  · rw [h1 e he b x1 x2, h2 e he b x1 x2]; exact h.kept hv e he b x1 x2
  · rw [h2 1 (.inl ⟨hb, rfl⟩) p (Nat.le_refl _) (by omega)]; exact h.bool hv hb
  · obtain ⟨w1, w2⟩ := width_int hi
    rw [bytes w w1 w2]; exact h.int w sg x hi hx
  · rw [bytes 8 (.inr ⟨8, by rw [hb]; decide, rfl⟩) (by rw [hb]; decide)]; exact h.lreal hv hb
  · rw [bytes 4 (.inr ⟨4, by rw [hb]; decide, rfl⟩) (by rw [hb]; decide)]; exact h.real hv hb

theorem Lua.Slot.elem {cap : Nat} {s : Server} {h : Handle} (hs : Slot cap s h) : ∃ e, ElemBits s.cdts h.type e ∧ (Compound h.type → Fits cap s h.type) := by
  cases hs with
  | plain e h1 h2 h3 h4 h5 h6 h7 => exact ⟨e, h3, h2⟩
  | bools h1 h2 => exact ⟨1, by rw [h2.type]; exact elemBits_bool, fun hc => absurd (h2.type ▸ hc) not_compound_bool⟩

theorem width_det {ty e e' : Nat} (h : Width ty e) (h' : Width ty e') : e = e' := by
  have f : ∀ {x}, Width ty x → ElemBits [] ty x := by
    intro x h
    rcases h with h | h
    · exact .inl h
    · exact .inr (.inl h)
  exact ElemBits.det (f h) (f h')

/-- The bits of an item belong to the part of the tag. -/
theorem Lua.Slot.item {cap : Nat} {s : Server} (hr : Reachable s) {h : Handle} (hs : Slot cap s h) {ks : List Key} {ty off : Nat} (hat : At s.cdts h.type h.count ks ty 1 off) :
    (ty ≠ DAX_BOOL → (startBit h + off) % 8 = 0) ∧ ∀ e, Width ty e → ∀ b, startBit h + off ≤ b → b < startBit h + off + e → Covers s.cdts h h.index.toNat b := by
  obtain ⟨e, he, hf⟩ := hs.elem
  obtain ⟨e', w1, w2, w3⟩ := hat.within hr rfl hf he
  constructor
  · intro hb
    have := w3 hb
    unfold startBit
    split
    · rename_i hsh
      exfalso
      cases hs with
      | plain e h1 => rw [h1] at hsh; cases hsh
      | bools h1 h2 =>
        rw [h2.type] at hat
        rcases hat.base not_compound_bool with ⟨_, _, h, _⟩ | ⟨_, _, h, _⟩ | ⟨_, _, _, _, _, _, h, _⟩ <;> exact hb h
    · omega
  · intro e1 hw b x1 x2
    have := width_det hw w1
    exact ⟨rfl, e, he, by omega, by omega⟩

theorem Lua.Slot.given {cap : Nat} {s : Server} (hr : Reachable s) {h : Handle} (hs : Slot cap s h) {v : Val} {j q : Nat} (hg : Given s.cdts h.type h.count h.index.toNat (startBit h) v j q) :
    Covers s.cdts h j q := by
  obtain ⟨rfl, ks, ty, off, e, hat, -, hw, x1, x2⟩ := hg
  exact (hs.item hr hat).2 e hw q x1 x2

theorem sendGlobs_skip {env : LuaEnv} {fd : Int} {junk : Glob → List Byte} {vars : Vars} {s : Server} {c : TypeCache} {g : Glob} {gs : List Glob} (h : ∀ hd, g.handle = some hd → g.write = false) :
    sendGlobs env fd junk vars s c (g :: gs) = sendGlobs env fd junk vars s c gs ∧ outputs (g :: gs) = outputs gs := by
  rw [sendGlobs]
  unfold outputs
  cases hg : g.handle with
  | none => exact ⟨rfl, List.filterMap_cons_none (by rw [hg])⟩
  | some hd =>
    have hw := h hd hg
    refine ⟨by rw [hw]; rfl, List.filterMap_cons_none ?_⟩
    rw [hg]
    dsimp only
    rw [hw]
    rfl

/-- **C71**, the end: after a script has run, whatever it has done, every global that is to be written and has a value of the shape of its tag is in its tag, and nothing else has changed in any tag.

Missing: tags with mappings, values that do not suit (`C71_rest_lost`), BOOLs that are left out, and what is missing in `C69_accepted_partial` and `C24_accepted_partial`. -/
theorem C71_end_partial {cap : Nat} {env : LuaEnv} {fd : Int} {junk : Glob → List Byte} {vars : Vars} (gs : List Glob) :
    ∀ {s s' : Server} {c c' : TypeCache} {M : Mem} {done : Bool}, Reachable s → (∀ i name, LiveAt s i name → NoMaps s i) → Agrees M s → Faithful s c →
    (∀ g ∈ gs, ∀ h, g.handle = some h → (junk g).length = h.size) →
    (∀ o ∈ outputs gs, Target cap s o.1 ∧ Value s.cdts o.1 (vars o.2)) →
    (outputs gs).Pairwise (fun a b => ∀ j q, Covers s.cdts a.1 j q → ¬ Covers s.cdts b.1 j q) →
    sendGlobs env fd junk vars s c gs = .ok (s', c', done) →
    done = true ∧ Reachable s' ∧ RepNoMaps s' ∧ SameTags s s' ∧ Faithful s' c' ∧ ∃ M', Agrees M' s' ∧
      (∀ o ∈ outputs gs, ∀ ks ty off, At s.cdts o.1.type o.1.count ks ty 1 off → Put env M M' o.1.index.toNat (startBit o.1 + off) ty (valAt (vars o.2) ks)) ∧
      ∀ j q, (∀ o ∈ outputs gs, ¬ Given s.cdts o.1.type o.1.count o.1.index.toNat (startBit o.1) (vars o.2) j q) → memBit M' j q = memBit M j q := by
  induction gs with
  | nil =>
    intro s s' c c' M done hr hm hM hfc hj ht hd hh
    rw [sendGlobs] at hh
    simp only [C.ok.injEq, Prod.mk.injEq] at hh
    obtain ⟨rfl, rfl, rfl⟩ := hh
    exact ⟨rfl, hr, repNoMaps_of hr.wf hm, .refl _, hfc, M, hM, fun o ho => (by cases ho), fun _ _ _ => rfl⟩
  | cons g gs ih =>
    intro s s' c c' M done hr hm hM hfc hj ht hd hh
    by_cases hsk : ∀ hd, g.handle = some hd → g.write = false
    · obtain ⟨e1, e2⟩ := sendGlobs_skip (env := env) (fd := fd) (junk := junk) (vars := vars) (s := s) (c := c) (gs := gs) hsk
      rw [e1] at hh
      rw [e2] at ht hd ⊢
      exact ih hr hm hM hfc (fun g hg => hj g (List.mem_cons_of_mem _ hg)) ht hd hh
    · obtain ⟨h, hg, hw⟩ : ∃ h, g.handle = some h ∧ g.write = true := by
        apply Classical.byContradiction
        intro hn
        exact hsk fun h hg => by
          cases hw : g.write with
          | false => rfl
          | true => exact absurd ⟨h, hg, hw⟩ hn
      have eo : outputs (g :: gs) = (h, g.name) :: outputs gs := by
        unfold outputs
        rw [List.filterMap_cons_some]
        rw [hg]
        dsimp only
        rw [hw]
        rfl
      rw [sendGlobs, hg] at hh
      dsimp only at hh
      rw [if_pos hw] at hh
      obtain ⟨⟨s1, c1, l1, x1⟩, h1, hh⟩ := C.bind_eq_ok.mp hh
      rw [eo] at ht hd ⊢
      obtain ⟨t1, t2⟩ := ht _ (List.mem_cons_self ..)
      obtain ⟨rfl, r1, m1, st, fc1, M1, a1, arr⟩ := arrives hr hm hM hfc t1 t2 (hj g (List.mem_cons_self ..) h hg) h1
      dsimp only at hh
      rw [if_pos rfl] at hh
      have hw0 := hr.wf
      have hw1 := r1.wf
      obtain ⟨hd1, hd2⟩ := List.pairwise_cons.mp hd
      have e := st.cdts
      obtain ⟨i1, i2, i3, i4, i5, M', i6, i7, i8⟩ := ih r1 (noMaps_of_rep hw1 m1) a1 (st.faithful hw0 hw1 fc1) (fun g hg => hj g (List.mem_cons_of_mem _ hg))
        (fun o ho => ⟨st.target hw0 hw1 (ht o (List.mem_cons_of_mem _ ho)).1, by rw [e]; exact (ht o (List.mem_cons_of_mem _ ho)).2⟩) (by rw [e]; exact hd2) hh
      rw [e] at i7 i8
      refine ⟨i1, i2, i3, st.trans i4, i5, M', i6, fun o ho ks ty off hat => ?_, fun j q hn => ?_⟩
      · rcases List.mem_cons.mp ho with rfl | ho
        · obtain ⟨q1, q2⟩ := t1.1.item hr hat
          refine put_congr q1 (fun _ _ _ _ _ => rfl) (fun e he b b1 b2 => i8 _ _ fun o ho hgv => ?_) (arr.put ks ty off hat)
          exact hd1 o ho _ _ (q2 e he b b1 b2) ((ht o (List.mem_cons_of_mem _ ho)).1.1.given hr hgv)
        · obtain ⟨q1, q2⟩ := (ht o (List.mem_cons_of_mem _ ho)).1.1.item hr hat
          refine put_congr q1 (fun e he b b1 b2 => ?_) (fun _ _ _ _ _ => rfl) (i7 o ho ks ty off hat)
          exact (arr.rest _ _ fun hgv => hd1 o ho _ _ (t1.1.given hr hgv) (q2 e he b b1 b2)).symm
      · rw [i8 j q fun o ho => hn o (List.mem_cons_of_mem _ ho)]
        exact arr.rest j q (hn _ (List.mem_cons_self ..))


/-! ## Reading is accepted -/

theorem plain_of_gives {s : Server} {i n : Nat} (hr : Reachable s) (h : Gives s i n) : Ordinary s i ∧ ∃ t b, Plain s i t b ∧ b.length = n ∧ tagGetSize s.cdts t = .ok (b.length : Int) := by
  obtain ⟨a, name, T, N, ha, h1, h3, ht, hb, hn⟩ := h
  have hw := hr.wf
  have ho : Ordinary s i := ⟨a, ha, h1, h3⟩
  refine ⟨ho, ?_⟩
  obtain ⟨t1, b, P⟩ := (ordinary_iff hw).mp ho
  obtain ⟨t2, ht2, -, hty, hcnt⟩ := (liveTag_iff hw).mp ht
  have e := ht2.symm.trans P.db
  cases e
  have hal := ((hw.tag i _ P.db).mem b P.data).1
  rcases hb with ⟨rfl, rfl⟩ | ⟨hT, E, hE, hEN⟩
  · unfold allocSize at hal
    rw [if_pos hty] at hal
    simp only [C.ok.injEq] at hal
    refine ⟨_, b, P, by omega, ?_⟩
    unfold tagGetSize
    rw [if_pos hty]
    simp only [C.ok.injEq]
    omega
  · obtain ⟨k, hk, rfl⟩ := typeSize_of_elem hE hT
    have h8 : 8 * k * N = 8 * (k * N) := Nat.mul_assoc ..
    have hkn : ((k : Int) * (N : Int)) = ((k * N : Nat) : Int) := by push_cast; rfl
    unfold allocSize at hal
    rw [if_neg (by rw [hty]; exact hT), hty, hk, hcnt] at hal
    simp only [C.ok_bind, C.ok.injEq, hkn] at hal
    rw [u32_nat (by omega)] at hal
    refine ⟨_, b, P, by omega, ?_⟩
    unfold tagGetSize
    rw [if_neg (by rw [hty]; exact hT), hty, hk, hcnt]
    simp only [C.ok_bind, C.ok.injEq, hkn]
    unfold i32
    omega

theorem reads_ok {i n unit p k : Nat} {l : Log} {code : Int} {fd : Int} {s : Server} {t : Tag} {b : List Byte} (P : Plain s i t b) (hbl : b.length = n) (hsz : tagGetSize s.cdts t = .ok (b.length : Int))
    (hn : n ≤ 2147483647) (h : Split (readOf i) 4088 unit p k l code) : p + k ≤ n → ∀ {s' : Server}, Happened s fd l s' → code = 0 ∧ s' = s := by
  induction h with
  | done p =>
    intro _ s' hh
    unfold Happened at hh
    simp only [List.map_nil, runR, C.ok.injEq, Prod.mk.injEq, and_true] at hh
    exact ⟨rfl, hh.symm⟩
  | step p n k r log code h0 h1 h2 h3 _ ih =>
    intro hp s' hh
    obtain ⟨s1, g1, g2⟩ := happened_cons hh
    obtain ⟨x, hx⟩ := rd_total (b := b) (off := (p : Int)) (n := (k : Int)) (by omega)
    have := read_ok P hx (by omega) hsz (by omega) fd
    unfold readOf at g1
    rw [this] at g1
    simp only [C.ok.injEq, Prod.mk.injEq] at g1
    obtain ⟨rfl, -⟩ := g1
    exact ih (by omega) g2
  | stop p n k e h0 h1 h2 h3 he =>
    intro hp s' hh
    obtain ⟨s1, g1, g2⟩ := happened_cons hh
    obtain ⟨x, hx⟩ := rd_total (b := b) (off := (p : Int)) (n := (k : Int)) (by omega)
    have := read_ok P hx (by omega) hsz (by omega) fd
    unfold readOf at g1
    rw [this] at g1
    simp at g1

theorem Lua.Slot.bools_of {cap : Nat} {s : Server} {h : Handle} (hs : Slot cap s h) (ht : h.type = DAX_BOOL) : Bools h ∧ startBit h = 8 * h.byte + h.bit := by
  unfold startBit
  cases hs with
  | plain e h1 h2 h3 h4 h5 h6 h7 =>
    rw [ht] at h3
    have he := h3.det elemBits_bool
    subst he
    rw [if_neg (by rw [h1]; simp)]
    unfold shifted at h1
    rw [ht] at h1
    simp only [beq_self_eq_true, Bool.true_and, Bool.or_eq_false_iff, decide_eq_false_iff_not, bne_eq_false_iff_eq] at h1
    exact ⟨⟨ht, by omega, h4, by omega⟩, by omega⟩
  | bools h1 h2 => exact ⟨h2, by rw [if_pos h1]⟩

theorem Lua.Slot.room {cap : Nat} {s : Server} {h : Handle} (hs : Slot cap s h) :
    ∃ e, (Compound h.type → Fits cap s h.type) ∧ ElemBits s.cdts h.type e ∧ 0 < h.count ∧ e * h.count ≤ 8 * h.size ∧ h.type < 3221225472 := by
  cases hs with
  | plain e h1 h2 h3 h4 h5 h6 h7 =>
    exact ⟨e, h2, h3, h4, by omega, h6⟩
  | bools h1 h2 =>
    have := h2.size
    have := h2.bit
    have := h2.pos
    exact ⟨1, fun h => absurd (h2.type ▸ h) not_compound_bool, by rw [h2.type]; exact elemBits_bool, h2.pos, by omega, by rw [h2.type]; decide⟩

theorem read_accepted {cap : Nat} {s s' : Server} {fd : Int} {c c' : TypeCache} {h : Handle} {l : Log} {o : Outcome} {d : List Byte} {i n : Nat} (hr : Reachable s) (hfc : Faithful s c)
    (hs : Slot cap s h) (hi : h.index = i) (hg : Gives s i n) (hin : h.byte + h.size ≤ n) (hh : daxTagRead s fd c h = .ok (s', c', l, o, d)) : o = .done 0 ∧ s' = s := by
  obtain ⟨-, t, b, P, hbl, hsz⟩ := plain_of_gives hr hg
  obtain ⟨-, -, -, -, -, -, -, -, -, hn8⟩ := hg
  obtain ⟨e, r1, r2, r3, r4, r5⟩ := hs.room
  obtain ⟨unit, w⟩ : ∃ unit, Whole s fd c h 4088 unit := by
    cases hs with
    | plain e h1 h2 h3 h4 h5 h6 h7 => exact ⟨_, whole_unit hr h2 hfc h3 h4 h5 (by omega) (by omega) (by decide)⟩
    | bools h1 h2 => exact ⟨1, by have := h2.size; omega, by omega, fun _ => ⟨c, by rw [h2.type]; exact ctypeSize_bool⟩, by decide, by decide, Nat.one_dvd _⟩
  unfold daxTagRead at hh
  obtain ⟨⟨s1, c1, l1, o1, d1⟩, h1, hk⟩ := C.bind_eq_ok.mp hh
  clear hh
  obtain ⟨code, rfl, h2, h3, h4⟩ := transfer_ok (sends_read w.small (Nat.le_refl _)) w.upos w.fits w.dvd
    (show unit ≤ MSG_DATA_SIZE from w.fits) w.elem w.pos (by have := w.small; omega) (fun h => h) h1
  rw [hi] at h2
  obtain ⟨rfl, rfl⟩ := reads_ok P hbl hsz (by omega) h2 (by omega) h3
  dsimp only at hk
  rw [if_neg (by simp)] at hk
  split at hk
  · obtain ⟨nd, -, hk⟩ := C.bind_eq_ok.mp hk
    simp only [C.ok.injEq, Prod.mk.injEq] at hk
    exact ⟨hk.2.2.2.1.symm, hk.1.symm⟩
  · obtain ⟨⟨c2, r⟩, h5, hk⟩ := C.bind_eq_ok.mp hk
    obtain ⟨-, rfl⟩ := format_faithful hr r1 r2 r5 (transfer_cache hr r1 hfc r2 h1) h5
    simp only [C.ok.injEq, Prod.mk.injEq] at hk
    exact ⟨hk.2.2.2.1.symm, hk.1.symm⟩

theorem no_real {s : Server} {n : Nat} {ks : List Key} {off : Nat} (ha : At s.cdts DAX_BOOL n ks DAX_REAL 1 off) : False := by
  rcases ha.base not_compound_bool with ⟨_, _, h, _⟩ | ⟨_, _, h, _⟩ | ⟨_, _, _, _, _, _, h, _⟩ <;> exact absurd h (by decide)

/-- One `luaTagRead` of a part of a tag that can be read. -/
theorem shown {cap : Nat} {s s' : Server} {fd : Int} {c c' : TypeCache} {h : Handle} {l : Log} {o : Outcome} {x : Option Val} {M : Mem} (hr : Reachable s) (hM : Agrees M s) (hfc : Faithful s c)
    (hs : Source cap s M h) (hh : luaTagRead s fd c h = .ok (s', c', l, o, x)) : s' = s ∧ Faithful s c' ∧ ∃ v, x = some v ∧ Shows s.cdts M h v := by
  obtain ⟨hsl, ⟨i, n, hi, hg, hin⟩, hreal⟩ := hs
  have hit : h.index.toNat = i := by rw [hi]; rfl
  obtain ⟨ho, -⟩ := plain_of_gives hr hg
  have hn8 : 8 * n ≤ 2147483600 := by obtain ⟨-, -, -, -, -, -, -, -, -, hn8⟩ := hg; exact hn8
  obtain ⟨e, r1, r2, r3, r4, r5⟩ := hsl.room
  obtain ⟨s1, c1, l1, o1, d, h1, h2⟩ := luaTagRead_inv hh
  obtain ⟨rfl, rfl⟩ := read_accepted hr hfc hsl hi hg hin h1
  rcases h2 with ⟨hne, -⟩ | ⟨-, c2, v, h2, hx⟩
  · exact absurd rfl hne
  · simp only [Prod.mk.injEq] at hx
    obtain ⟨rfl, rfl, rfl, rfl, rfl⟩ := hx
    have hcc := daxTagRead_cache hr r1 hfc r2 r5 h1 rfl
    have hlen : d.length = h.size ∧ (h.type ≠ DAX_BOOL → d = memBytes M i h.byte h.size) := by
      by_cases hb : h.type = DAX_BOOL
      · exact ⟨(C24_read hr ho hM hi (hsl.bools_of hb).1 (by omega) h1).2.1, fun hn => absurd hb hn⟩
      · cases hsl with
        | bools _ h2 => exact absurd h2.type hb
        | plain e h1' h2' h3' h4' h5' h6' h7' =>
          obtain ⟨-, a3, a4⟩ := C25_read_data hr ho hM hi hb (whole_unit hr h2' hfc h3' h4' h5' (by omega) (lim := 4088) (by omega) (by decide)) h1
          refine ⟨a3, fun _ => List.ext_getElem? fun k => ?_⟩
          unfold memBytes
          rw [List.getElem?_map]
          by_cases hk : k < h.size
          · rw [List.getElem?_range hk, a4 k hk]; rfl
          · rw [List.getElem?_eq_none (by omega), List.getElem?_eq_none (by rw [List.length_range]; omega)]; rfl
    obtain ⟨c4, v', g1, g2, -⟩ := C68_read_partial (fd := fd) hr r1 hcc r2 r3 (by omega) (data := d) (by omega) (fun ks off ha => by
      by_cases hb : h.type = DAX_BOOL
      · rw [hb] at ha; exact (no_real ha).elim
      · rw [hlen.2 hb, ← hit]; exact hreal ks off ha)
    rw [g1] at h2
    simp only [C.ok.injEq, Prod.mk.injEq] at h2
    obtain ⟨rfl, rfl⟩ := h2
    refine ⟨rfl, g2, v', rfl, fun hb => ?_, fun hb => ?_⟩
    · cases hsl with
      | bools _ h2 => exact absurd h2.type hb
      | plain e h1' h2' h3' h4' h5' h6' h7' =>
        rw [hit] at hreal ⊢
        obtain ⟨-, v, e1, e2⟩ := C69_read_partial hr ho hM hi hb h2' hfc h3' h4' h5' h6' (by omega) (by omega) (by omega) hreal hh
        cases e1
        exact e2
    · obtain ⟨hB, hst⟩ := hsl.bools_of hb
      have := hB.size
      have := hB.bit
      obtain ⟨-, v, e1, e2⟩ := C69_read_bools hr ho hM hi hB hfc (by omega) (by omega) hh
      cases e1
      rw [hb, hst, hit]
      exact e2

theorem zeros_small {n a : Nat} : sglExp (unsignedVal (slice (List.replicate n (0 : Byte)) a 4)) < 190 := by
  have h : ∀ l : List Byte, (∀ x ∈ l, x = 0) → unsignedVal l = 0 := by
    intro l
    induction l with
    | nil => intro _; rfl
    | cons x l ih =>
      intro hx
      have e1 := ih fun y hy => hx y (List.mem_cons_of_mem _ hy)
      have e2 := hx x (List.mem_cons_self ..)
      unfold unsignedVal at e1 ⊢
      rw [List.foldr_cons, e1, e2]
      rfl
  rw [h]
  · decide
  · intro x hx
    unfold slice at hx
    exact List.eq_of_mem_replicate (List.mem_of_mem_drop (List.mem_of_mem_take hx))

theorem zeros_ok {cap : Nat} {s : Server} {fd : Int} {c c' : TypeCache} {h : Handle} {v : Val} (hr : Reachable s) (hfc : Faithful s c) (hs : Slot cap s h) (h8 : 8 * h.size ≤ 2147483600)
    (hh : daxToLua s fd c h.type h.count (List.replicate h.size 0) = .ok (c', v)) : Faithful s c' ∧ Zeros s.cdts h v := by
  obtain ⟨e, r1, r2, r3, r4, r5⟩ := hs.room
  obtain ⟨c4, v', g1, g2, g3⟩ := C68_read_partial (fd := fd) hr r1 hfc r2 r3 (by omega) (data := List.replicate h.size 0) (by rw [List.length_replicate]; omega) (fun ks off _ => zeros_small)
  rw [g1] at hh
  simp only [C.ok.injEq, Prod.mk.injEq] at hh
  obtain ⟨rfl, rfl⟩ := hh
  exact ⟨g2, g3⟩

/-! ## Before the script -/

theorem setVar_self {vars : Vars} {n : Name} {v : Val} : setVar vars n v n = v := if_pos rfl

theorem setVar_other {vars : Vars} {n m : Name} {v : Val} (h : m ≠ n) : setVar vars n v m = vars m := if_neg h

theorem begin_one {cap : Nat} {s s' : Server} {fd : Int} {byname : Name → Option TagFound} {c c1 c' : TypeCache} {g g' : Glob} {vars vars1 vars' : Vars} {M : Mem}
    (hr : Reachable s) (hM : Agrees M s) (hfc : Faithful s c) (hu : Usable cap s fd byname M g) (h1 : findGlob s fd byname c g vars = .ok (c1, g', vars1))
    (h2 : fetchGlob s fd c1 g' vars1 = .ok (s', c', vars')) :
    s' = s ∧ Faithful s c' ∧ Begun s fd byname M g g' (vars g.name) (vars' g.name) ∧ ∀ n, n ≠ g.name → vars' n = vars n := by
  have fetch : ∀ {g' : Glob} {h : Handle} {c1 : TypeCache} {vars1 : Vars}, Faithful s c1 → g'.handle = some h → (g'.read = true → Source cap s M h) → fetchGlob s fd c1 g' vars1 = .ok (s', c', vars') →
      s' = s ∧ Faithful s c' ∧ (g'.read = true → Shows s.cdts M h (vars' g'.name)) ∧ (g'.read = false → vars' = vars1) ∧ ∀ n, n ≠ g'.name → vars' n = vars1 n := by
    intro g' h c1 vars1 hc1 hg hsrc h2
    unfold fetchGlob at h2
    rw [hg] at h2
    dsimp only at h2
    cases hrd : g'.read with
    | false =>
      rw [hrd, if_neg (by simp)] at h2
      simp only [C.ok.injEq, Prod.mk.injEq] at h2
      obtain ⟨rfl, rfl, rfl⟩ := h2
      exact ⟨rfl, hc1, fun h => (by cases h), fun _ => rfl, fun _ _ => rfl⟩
    | true =>
      rw [hrd, if_pos rfl] at h2
      obtain ⟨⟨s2, c2, l, o, x⟩, h3, h2⟩ := C.bind_eq_ok.mp h2
      obtain ⟨rfl, f2, v, rfl, hsh⟩ := shown hr hM hc1 (hsrc hrd) h3
      simp only [C.ok.injEq, Prod.mk.injEq] at h2
      obtain ⟨rfl, rfl, rfl⟩ := h2
      exact ⟨rfl, f2, fun _ => by rw [setVar_self]; exact hsh, fun h => (by cases h), fun n hn => setVar_other hn⟩
  obtain ⟨gn, tn, rd, wr, st, gh⟩ := g
  unfold findGlob at h1
  cases st with
  | some v =>
    simp only [C.ok.injEq, Prod.mk.injEq] at h1
    obtain ⟨rfl, rfl, rfl⟩ := h1
    obtain ⟨u1, u2⟩ := hu.const (by simp)
    cases u1
    cases u2
    unfold fetchGlob at h2
    simp only [C.ok.injEq, Prod.mk.injEq] at h2
    obtain ⟨rfl, rfl, rfl⟩ := h2
    exact ⟨rfl, hfc, ⟨rfl, fun x hx => by cases hx; exact ⟨setVar_self, rfl⟩, fun hn => by cases hn⟩, fun n hn => setVar_other hn⟩
  | none =>
    cases gh with
    | some h =>
      simp only [C.ok.injEq, Prod.mk.injEq] at h1
      obtain ⟨rfl, rfl, rfl⟩ := h1
      obtain ⟨f1, f2, f3, f4, f5⟩ := fetch hfc rfl (fun hrd => hu.known rfl h rfl hrd) h2
      exact ⟨f1, f2, ⟨rfl, fun x hx => (by cases hx), fun _ => ⟨h, rfl, .inl rfl, f3, fun _ hn => (by cases hn), fun hrd _ => by rw [f4 hrd]⟩⟩, f5⟩
    | none =>
      dsimp only at h1
      obtain ⟨⟨c2, h, r⟩, h3, h1⟩ := C.bind_eq_ok.mp h1
      obtain ⟨c2', h', e1, fc2, hsl, h8, hsrc⟩ := hu.fresh rfl rfl c hfc
      have e1' := e1
      rw [e1] at h3
      simp only [C.ok.injEq, Prod.mk.injEq] at h3
      obtain ⟨rfl, rfl, rfl⟩ := h3
      dsimp only at h1
      rw [if_neg (by simp)] at h1
      cases rd with
      | true =>
        rw [if_pos rfl] at h1
        simp only [C.ok.injEq, Prod.mk.injEq] at h1
        obtain ⟨rfl, rfl, rfl⟩ := h1
        obtain ⟨f1, f2, f3, f4, f5⟩ := fetch fc2 rfl (fun _ => hsrc rfl) h2
        exact ⟨f1, f2, ⟨rfl, fun x hx => (by cases hx), fun _ => ⟨_, rfl, .inr ⟨rfl, c, _, e1'⟩, fun _ => f3 rfl, fun hn _ => (by cases hn), fun hn _ => (by cases hn)⟩⟩, f5⟩
      | false =>
        rw [if_neg (by simp)] at h1
        obtain ⟨⟨c3, v⟩, h4, h1⟩ := C.bind_eq_ok.mp h1
        obtain ⟨fc3, hz⟩ := zeros_ok hr fc2 hsl h8 h4
        simp only [C.ok.injEq, Prod.mk.injEq] at h1
        obtain ⟨rfl, rfl, rfl⟩ := h1
        obtain ⟨f1, f2, f3, f4, f5⟩ := fetch fc3 rfl (fun hn => by cases hn) h2
        have f4 := f4 rfl
        refine ⟨f1, f2, ⟨rfl, fun x hx => (by cases hx), fun _ => ⟨_, rfl, .inr ⟨rfl, c, _, e1'⟩, fun hn => (by cases hn), fun _ _ => ?_, fun _ hn => absurd rfl hn⟩⟩, fun n hn => ?_⟩
        · rw [f4, setVar_self]; exact hz
        · rw [f4]; exact setVar_other hn

/-- **C71**, before the script: the globals that are read have the values of their tags, constants have their values, globals that are only written are zeros the first time and what they were afterwards,
nothing else changes, neither in the script nor in the server.

Missing: tags that do not exist (their globals stay nil); floating point numbers above 2^63, parts of tags that `Slot` excludes. -/
theorem C71_begin_partial {cap : Nat} {s : Server} {fd : Int} {byname : Name → Option TagFound} {M : Mem} (hr : Reachable s) (hM : Agrees M s) (gs : List Glob) :
    ∀ {s' : Server} {c c' : TypeCache} {gs' : List Glob} {vars vars' : Vars}, Faithful s c → (gs.map (·.name)).Nodup → (∀ g ∈ gs, Usable cap s fd byname M g) →
    receiveGlobs s fd byname c gs vars = .ok (s', c', gs', vars') →
    s' = s ∧ Faithful s c' ∧ gs'.length = gs.length ∧ (∀ (k : Nat) (g : Glob), gs[k]? = some g → ∃ g', gs'[k]? = some g' ∧ Begun s fd byname M g g' (vars g.name) (vars' g.name)) ∧
      ∀ n, n ∉ gs.map (·.name) → vars' n = vars n := by
  induction gs with
  | nil =>
    intro s' c c' gs' vars vars' hfc _ _ hh
    rw [receiveGlobs] at hh
    simp only [C.ok.injEq, Prod.mk.injEq] at hh
    obtain ⟨rfl, rfl, rfl, rfl⟩ := hh
    exact ⟨rfl, hfc, rfl, fun k g hg => by simp at hg, fun _ _ => rfl⟩
  | cons g gs ih =>
    intro s' c c' gs' vars vars' hfc hnd hu hh
    rw [receiveGlobs] at hh
    obtain ⟨⟨c1, g1, vars1⟩, h1, hh⟩ := C.bind_eq_ok.mp hh
    obtain ⟨⟨s2, c2, vars2⟩, h2, hh⟩ := C.bind_eq_ok.mp hh
    obtain ⟨⟨s3, c3, gs3, vars3⟩, h3, hh⟩ := C.bind_eq_ok.mp hh
    simp only [C.ok.injEq, Prod.mk.injEq] at hh
    obtain ⟨rfl, rfl, rfl, rfl⟩ := hh
    obtain ⟨rfl, b1, b2, b3⟩ := begin_one hr hM hfc (hu g (List.mem_cons_self ..)) h1 h2
    rw [List.map_cons, List.nodup_cons] at hnd
    obtain ⟨i1, i2, i3, i4, i5⟩ := ih b1 hnd.2 (fun g hg => hu g (List.mem_cons_of_mem _ hg)) h3
    refine ⟨i1, i2, by rw [List.length_cons, List.length_cons, i3], fun k g0 hk => ?_, fun n hn => ?_⟩
    · cases k with
      | zero =>
        rw [List.getElem?_cons_zero] at hk
        cases hk
        exact ⟨g1, rfl, by rw [i5 _ hnd.1]; exact b2⟩
      | succ k =>
        rw [List.getElem?_cons_succ] at hk
        obtain ⟨g', a1, a2⟩ := i4 k g0 hk
        refine ⟨g', by rw [List.getElem?_cons_succ]; exact a1, ?_⟩
        rw [b3 g0.name fun he => hnd.1 (he ▸ List.mem_map.mpr ⟨g0, List.mem_of_getElem? hk, rfl⟩)] at a2
        exact a2
    · rw [List.map_cons, List.mem_cons] at hn
      rw [i5 n fun h => hn (.inr h)]
      exact b3 n fun h => hn (.inl h)


/-- **C71**: one execution.  The script runs with what `C71_begin_partial` says and with `_firstrun`, on the server as it was; what it leaves is written as `C71_end_partial` says, also if it has failed; the next
execution is not the first.

Missing: as for those. -/
theorem C71_cycle_partial {cap : Nat} {env : LuaEnv} {s s' : Server} {fd : Int} {byname : Name → Option TagFound} {M : Mem} {c c' : TypeCache} {junk : Glob → List Byte} {x x' : Script} {body : Body} {err : Bool}
    (hr : Reachable s) (hM : Agrees M s) (hfc : Faithful s c) (hnd : (x.globs.map (·.name)).Nodup) (hfr : nm "_firstrun" ∉ x.globs.map (·.name)) (hu : ∀ g ∈ x.globs, Usable cap s fd byname M g)
    (hh : execScript env s fd byname c junk x body = .ok (s', c', x', err)) :
    ∃ c0 vars0 s1 c1, Faithful s c0 ∧ x'.globs.length = x.globs.length ∧
      (∀ (k : Nat) (g : Glob), x.globs[k]? = some g → ∃ g', x'.globs[k]? = some g' ∧ Begun s fd byname M g g' (x.vars g.name) (vars0 g.name)) ∧
      vars0 (nm "_firstrun") = .bool x.firstrun ∧ (∀ n, n ∉ x.globs.map (·.name) → n ≠ nm "_firstrun" → vars0 n = x.vars n) ∧
      body s c0 vars0 = .ok (s1, c1, x'.vars, err) ∧ x'.firstrun = false ∧
      ∀ M1, Reachable s1 → (∀ i name, LiveAt s1 i name → NoMaps s1 i) → Agrees M1 s1 → Faithful s1 c1 → (∀ g ∈ x'.globs, ∀ h, g.handle = some h → (junk g).length = h.size) →
        (∀ o ∈ outputs x'.globs, Target cap s1 o.1 ∧ Value s1.cdts o.1 (x'.vars o.2)) →
        (outputs x'.globs).Pairwise (fun a b => ∀ j q, Covers s1.cdts a.1 j q → ¬ Covers s1.cdts b.1 j q) →
        Reachable s' ∧ SameTags s1 s' ∧ Faithful s' c' ∧ ∃ M', Agrees M' s' ∧
          (∀ o ∈ outputs x'.globs, ∀ ks ty off, At s1.cdts o.1.type o.1.count ks ty 1 off → Put env M1 M' o.1.index.toNat (startBit o.1 + off) ty (valAt (x'.vars o.2) ks)) ∧
          ∀ j q, (∀ o ∈ outputs x'.globs, ¬ Given s1.cdts o.1.type o.1.count o.1.index.toNat (startBit o.1) (x'.vars o.2) j q) → memBit M' j q = memBit M1 j q := by
  unfold execScript at hh
  obtain ⟨⟨s0, c0, gs, vars0⟩, h1, hh⟩ := C.bind_eq_ok.mp hh
  obtain ⟨⟨s1, c1, vars1, err1⟩, h2, hh⟩ := C.bind_eq_ok.mp hh
  obtain ⟨⟨s2, c2, done⟩, h3, hh⟩ := C.bind_eq_ok.mp hh
  simp only [C.ok.injEq, Prod.mk.injEq] at hh
  obtain ⟨rfl, rfl, rfl, rfl⟩ := hh
  obtain ⟨rfl, b1, b2, b3, b4⟩ := C71_begin_partial hr hM x.globs hfc hnd hu h1
  refine ⟨c0, _, s1, c1, b1, b2, fun k g hk => ?_, setVar_self, fun n hn hn' => ?_, h2, rfl, fun M1 q1 q2 q3 q4 q5 q6 q7 => ?_⟩
  · obtain ⟨g', a1, a2⟩ := b3 k g hk
    refine ⟨g', a1, ?_⟩
    have hm : g.name ∈ x.globs.map (·.name) := List.mem_map.mpr ⟨g, List.mem_of_getElem? hk, rfl⟩
    rw [setVar_other fun he => hfr (by rw [← he]; exact hm)]
    exact a2
  · rw [setVar_other hn']; exact b4 n hn
  · obtain ⟨-, e2, -, e4, e5, e6⟩ := C71_end_partial gs q1 q2 q3 q4 q5 q6 q7 h3
    exact ⟨e2, e4, e5, e6⟩

/-! ## Instances -/

/-- A name server that knows "Speed" only. -/
def cycleFind : Name → Option TagFound := fun n => if n = nm "Speed" then some ⟨13, DAX_INT, 4⟩ else none

/-- A script that reads "Speed" as `v`, writes `o` to it and has a constant `k`. -/
def cycleScript : Script :=
  { globs := [{ name := nm "o", tagname := nm "Speed", write := true }, { name := nm "k", static := some (.int 1000) }, { name := nm "v", tagname := nm "Speed", read := true }], vars := fun _ => .nil }

/-- What it does: `o[i] = v[i] + k`, and then it fails. -/
def cycleBody : Body := fun s c vars => .ok (s, c, setVar vars (nm "o") (.tbl (([1, 2, 3, 4] : List Int).map fun i => (.int i, match valAt (vars (nm "v")) [.int i], vars (nm "k") with
  | .int a, .int b => .int (a + b)
  | _, _ => .nil))), true)

theorem cycle_slot : Slot 248 (demo demoOps) ⟨13, 0, 0, 4, 8, DAX_INT⟩ :=
  .plain 16 rfl (fun h => absurd h.1 (by decide)) (.inr (.inl ⟨2, by decide, rfl⟩)) (by decide) (by decide) (by decide) (by decide)

theorem cycle_takes : Takes (demo demoOps) 13 8 :=
  ⟨0, nm "Speed", DAX_INT, 4, ⟨by decide, nm "Speed", DAX_INT, 4, fun fd => by kernel_rfl⟩, by decide, by decide, by decide, by decide, ⟨by decide, by decide, 0, fun fd => by kernel_rfl⟩,
    .inr ⟨by decide, 16, .inr (.inl ⟨2, by decide, rfl⟩), by decide⟩, by decide⟩

theorem cycle_source (M : Mem) : Source 248 (demo demoOps) M ⟨13, 0, 0, 4, 8, DAX_INT⟩ := by
  obtain ⟨a, name, T, N, h1, _, h2, h3, _, h4, h5, h6⟩ := cycle_takes
  refine ⟨cycle_slot, ⟨13, 8, rfl, ⟨a, name, T, N, h1, h2, h3, h4, h5, h6⟩, by decide⟩, fun ks off ha => ?_⟩
  rcases ha.base (fun h => absurd h.1 (by decide)) with ⟨_, _, h, _⟩ | ⟨_, _, h, _⟩ | ⟨_, _, _, _, _, _, h, _⟩ <;> exact absurd h (by decide)

/-- Instance of the hypotheses of `C71_begin_partial` and `C71_cycle_partial`, and what comes out of one execution of the script. -/
example : Reachable (demo demoOps) ∧ (∃ M, Agrees M (demo demoOps)) ∧ Faithful (demo demoOps) [] ∧ (cycleScript.globs.map (·.name)).Nodup ∧ nm "_firstrun" ∉ cycleScript.globs.map (·.name) ∧
    (∀ M, ∀ g ∈ cycleScript.globs, Usable 248 (demo demoOps) 5 cycleFind M g) ∧
    (execScript luaEnv (demo demoOps) 5 cycleFind [] (fun _ => List.replicate 8 0xAA) cycleScript cycleBody >>= fun r => handle r.1 6 (.tagRead 13 0 8) >>= fun q => C.ok (q.2, r.2.2.1.firstrun, r.2.2.2)) =
      .ok (.resp [0xE9, 5, 0xEB, 7, 0xED, 9, 0xEF, 0xB], false, true) := by
  refine ⟨demoOps_reachable, agrees_exists demoOps_reachable, faithful_nil _, by decide, by decide, fun M g hg => ?_, by kernel_rfl⟩
  have fresh : ∀ c, tagHandle (demo demoOps) 5 cycleFind c (nm "Speed") 0 = .ok (c, ⟨13, 0, 0, 4, 8, DAX_INT⟩, 0) := fun c => by kernel_rfl
  rcases List.mem_cons.mp hg with rfl | hg
  · exact ⟨fun h => absurd rfl h, fun _ h hh => (by cases hh), fun _ _ c hc => ⟨c, _, fresh c, hc, cycle_slot, by decide, fun h => (by cases h)⟩⟩
  · rcases List.mem_cons.mp hg with rfl | hg
    · exact ⟨fun _ => ⟨rfl, rfl⟩, fun h => (by cases h), fun h => (by cases h)⟩
    · rcases List.mem_cons.mp hg with rfl | hg
      · exact ⟨fun h => absurd rfl h, fun _ h hh => (by cases hh), fun _ _ c hc => ⟨c, _, fresh c, hc, cycle_slot, by decide, fun _ => cycle_source M⟩⟩
      · cases hg

/-- Two INTs of "Speed". -/
def cyclePair : List Glob := [{ name := nm "b", write := true, handle := some ⟨13, 0, 0, 1, 2, DAX_INT⟩ }, { name := nm "a", write := true, handle := some ⟨13, 4, 0, 1, 2, DAX_INT⟩ }]

theorem cycle_target (k : Nat) (hk : k ≤ 6) : Target 248 (demo demoOps) ⟨13, k, 0, 1, 2, DAX_INT⟩ :=
  ⟨.plain 16 rfl (fun h => absurd h.1 (show ¬ 2147483648 ≤ DAX_INT by decide)) (.inr (.inl ⟨2, show (DAX_INT, 2) ∈ elemBytes by decide, rfl⟩)) (Nat.zero_lt_one) rfl (show DAX_INT < 3221225472 by decide) (by decide), 13, 8, rfl, cycle_takes,
    (by show k + 2 + 0 ≤ 8; omega), fun h => absurd h.1 (by show ¬ 2 = 2040; decide)⟩

/-- Instance of the hypotheses of `C71_end_partial`. -/
example : (∀ i name, LiveAt (demo demoOps) i name → NoMaps (demo demoOps) i) ∧ outputs cyclePair = [(⟨13, 0, 0, 1, 2, DAX_INT⟩, nm "b"), (⟨13, 4, 0, 1, 2, DAX_INT⟩, nm "a")] ∧
    (∀ o ∈ outputs cyclePair, Target 248 (demo demoOps) o.1 ∧ Value (demo demoOps).cdts o.1 (.int 5)) ∧
    (outputs cyclePair).Pairwise (fun a b => ∀ j q, Covers (demo demoOps).cdts a.1 j q → ¬ Covers (demo demoOps).cdts b.1 j q) := by
  have hv : ∀ k : Nat, Value (demo demoOps).cdts ⟨13, k, 0, 1, 2, DAX_INT⟩ (.int 5) := fun k =>
    ⟨.base _ _ (fun h => absurd h.1 (show ¬ 2147483648 ≤ DAX_INT by decide)) (.inr (.inl ⟨2, true, 5, show (DAX_INT, 2, true) ∈ intTypes by decide, .inl rfl, by decide, by decide⟩)), fun h => by cases h⟩
  have ho : outputs cyclePair = [(⟨13, 0, 0, 1, 2, DAX_INT⟩, nm "b"), (⟨13, 4, 0, 1, 2, DAX_INT⟩, nm "a")] := rfl
  refine ⟨noMaps_demo, ho, fun o hm => ?_, ?_⟩
  · rw [ho] at hm
    rcases List.mem_cons.mp hm with rfl | hm
    · exact ⟨cycle_target 0 (by decide), hv 0⟩
    · rcases List.mem_cons.mp hm with rfl | hm
      · exact ⟨cycle_target 4 (by decide), hv 4⟩
      · cases hm
  · rw [ho]
    refine List.pairwise_cons.mpr ⟨fun o hm j q ha hb => ?_, List.pairwise_cons.mpr ⟨fun o hm => (by cases hm), .nil⟩⟩
    rcases List.mem_cons.mp hm with rfl | hm
    · obtain ⟨_, e, he, ha1, ha2⟩ := ha
      obtain ⟨_, e', he', hb1, hb2⟩ := hb
      have h16 := he.det (.inr (.inl ⟨2, by decide, rfl⟩))
      subst h16
      have hx : q < 0 + 16 * 1 := ha2
      have hy : 32 ≤ q := hb1
      omega
    · cases hm

/-! ## What does not hold -/

/-- The first two INTs of "Speed" as "b", the third as "a". -/
def cycleLost : List Glob := [{ name := nm "b", write := true, handle := some ⟨13, 0, 0, 2, 4, DAX_INT⟩ }, { name := nm "a", write := true, handle := some ⟨13, 4, 0, 1, 2, DAX_INT⟩ }]

/-- **C71 fails**: "a" is configured before "b" and has a proper value, but "b" is a number where there must be two.  The values are written last one first, and the first that does not suit ends the writing: "a" is not
written.  `run_script` does not look at the result. -/
theorem C71_rest_lost : Reachable (demo demoOps) ∧ Target 248 (demo demoOps) ⟨13, 4, 0, 1, 2, DAX_INT⟩ ∧ Value (demo demoOps).cdts ⟨13, 4, 0, 1, 2, DAX_INT⟩ (.int 5) ∧
    (sendGlobs luaEnv 5 (fun _ => [0xAA, 0xAA, 0xAA, 0xAA]) (fun n => if n = nm "a" then .int 5 else .int 7) (demo demoOps) [] cycleLost >>=
      fun r => handle r.1 6 (.tagRead 13 0 8) >>= fun q => C.ok (q.2, r.2.2)) = .ok (.resp [1, 2, 3, 4, 5, 6, 7, 8], false) ∧
    (sendGlobs luaEnv 5 (fun _ => [0xAA, 0xAA, 0xAA, 0xAA]) (fun n => if n = nm "a" then .int 5 else .tbl [(.int 1, .int 7)]) (demo demoOps) [] cycleLost >>=
      fun r => handle r.1 6 (.tagRead 13 0 8) >>= fun q => C.ok (q.2, r.2.2)) = .ok (.resp [7, 0, 3, 4, 5, 0, 7, 8], true) :=
  ⟨demoOps_reachable, cycle_target 4 (by decide), ⟨.base _ _ (fun h => absurd h.1 (by decide)) (.inr (.inl ⟨2, true, 5, by decide, .inl rfl, by decide, by decide⟩)), fun h => by cases h⟩, by kernel_rfl, by kernel_rfl⟩

end Dax
