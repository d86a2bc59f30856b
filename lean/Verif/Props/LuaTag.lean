import Verif.Props.LibLua
import Verif.Lemmas.LuaTag
import Verif.Props.Override
/-!
# Tags read and written from Lua (C69)

Full property: a value that is written to a tag from Lua is in the tag, and nothing else has changed, neither elements and members that are left out nor other tags; and what is read from Lua is what
the tag holds.  It fails: BOOLs that are left out of an array are overwritten with what happens to be in the memory of the client, unless the array fills whole bytes.
The conversions have the restrictions of C68.
-/
set_option autoImplicit false
namespace Dax
open Dax.LibPath Dax.LibData Dax.Lua Dax.Wire

/-- The unit in which the elements of a type are transferred. -/
def luaUnit (t e : Nat) : Nat := if t = DAX_BOOL then 1 else e / 8

theorem whole_unit {cap : Nat} {s : Server} (hr : Reachable s) {fd : Int} {c : TypeCache} {h : Handle} {e lim : Nat} (hf : Compound h.type → Fits cap s h.type) (hc : Faithful s c)
    (he : ElemBits s.cdts h.type e) (hn : 0 < h.count) (hz : e * h.count = 8 * h.size) (hsm : h.byte + h.size ≤ 2147483647) (hlim : e ≤ 8 * lim) (hl : 1 ≤ lim) :
    Whole s fd c h lim (luaUnit h.type e) := by
  have key : (h.type = DAX_BOOL ∧ e = 1) ∨ (h.type ≠ DAX_BOOL ∧ 0 < e / 8 ∧ 8 * (e / 8) = e ∧ ∃ c', ctypeSize s fd c h.type = .ok (c', ((e / 8 : Nat) : Int))) := by
    rcases he with ⟨h1, h2⟩ | ⟨w, h1, h2⟩ | ⟨h1, k, h2, h3⟩
    · exact .inl ⟨h1, h2⟩
    · have hp := (elem_pos h1).1
      have : e / 8 = w := by omega
      refine .inr ⟨fun hb => ?_, by omega, by omega, c, ?_⟩
      · rw [hb] at h1; exact absurd h1 (by simp [elemBytes, DAX_BOOL, DAX_BYTE, DAX_SINT, DAX_CHAR, DAX_WORD, DAX_INT, DAX_UINT, DAX_DWORD, DAX_DINT, DAX_UDINT, DAX_REAL, DAX_LWORD, DAX_LINT, DAX_ULINT, DAX_TIME, DAX_LREAL])
      · rw [this]; exact ctypeSize_base h1
    · obtain ⟨c', k, g1, -, g3, g4⟩ := (hf h1).csize hr (.inr (.inr ⟨h1, k, h2, h3⟩)) hc (fd := fd)
      have : e / 8 = k := by omega
      refine .inr ⟨fun hb => ?_, by omega, by omega, c', by rw [this]; exact g1⟩
      have := h1.1
      rw [hb] at this; exact absurd this (by decide)
  have hpos : 0 < h.size := by
    have : e * 1 ≤ e * h.count := Nat.mul_le_mul_left _ hn
    rcases key with ⟨-, h2⟩ | ⟨-, h2, -⟩ <;> omega
  unfold luaUnit
  rcases key with ⟨h1, h2⟩ | ⟨h1, h2, h3, c', h4⟩
  · rw [if_pos h1]
    exact ⟨hpos, hsm, fun _ => ⟨c, by rw [h1]; exact ctypeSize_bool⟩, by decide, hl, Nat.one_dvd _⟩
  · rw [if_neg h1]
    refine ⟨hpos, hsm, fun _ => ⟨c', h4⟩, h2, by omega, h.count, ?_⟩
    have : 8 * (e / 8 * h.count) = 8 * h.size := by rw [← Nat.mul_assoc, h3, hz]
    omega

/-- The effect of a transfer with a mask that ends with success (C25). -/
theorem C25_masked {s s' : Server} {fd : Int} {c c' : TypeCache} {h : Handle} {i : Nat} {data mask : List Byte} {l : Log} {d : List Byte}
    {unit : Nat} {M : Mem} (hr : Reachable s) (hm : ∀ i name, LiveAt s i name → NoMaps s i) (hM : Agrees M s)
    (hi : h.index = i) (hs : shifted h = false) (hl : h.size ≤ data.length) (hml : mask.length = data.length)
    (w : ∀ c1 r, format s fd true data.length c h.type h.count = .ok (c1, r) → Whole s fd c1 h 2040 unit)
    (hh : daxTagMask s fd c h data mask = .ok (s', c', l, .done 0, d)) :
    Agrees (M.storeMasked i h.byte (data.take h.size) (mask.take h.size)) s' := by
  rcases C25_mask_partial hs w hh with ⟨-, -, e, he, h0⟩ | ⟨code, h0, h1, h2⟩
  · simp only [Outcome.done.injEq] at h0; exact absurd h0.symm he
  · simp only [Outcome.done.injEq] at h0
    subst h0
    have := happened_agrees hr hm hM (fun x hx => by
      obtain ⟨q, k, -, -, e⟩ := split_mem h1 x hx
      rw [e]; exact isData_mask hml _ _) h2
    rw [hi] at h1
    rw [split_storeMasked h1 rfl (Nat.le_refl _) (by omega) hml] at this
    rw [Nat.sub_self] at this
    exact this

theorem full_byte (x y : Byte) : (x &&& 0xFF#8) ||| (y &&& ~~~ 0xFF#8) = x := by
  apply BitVec.eq_of_getLsbD_eq
  intro i hi
  have : (0xFF#8).getLsbD i = true := by
    have : i = 0 ∨ i = 1 ∨ i = 2 ∨ i = 3 ∨ i = 4 ∨ i = 5 ∨ i = 6 ∨ i = 7 := by omega
    rcases this with rfl | rfl | rfl | rfl | rfl | rfl | rfl | rfl <;> decide
  simp only [BitVec.getLsbD_or, BitVec.getLsbD_and, BitVec.getLsbD_not, this]
  simp only [Bool.and_true, Bool.not_true, Bool.and_false, Bool.or_false]

theorem storeMasked_full (M : Mem) (i p : Nat) {d m : List Byte} (hl : m.length = d.length) (h : ∀ x ∈ m, x = 0xFF) : M.storeMasked i p d m = M.store i p d := by
  funext j k
  unfold Mem.storeMasked Mem.store
  split
  · by_cases hk : k - p < d.length
    · rw [List.getElem?_eq_getElem hk, List.getElem?_eq_getElem (l := m) (by omega)]
      dsimp only
      rw [h _ (List.getElem_mem (by omega))]
      exact full_byte _ _
    · rw [List.getElem?_eq_none (by omega)]; rfl
  · rfl

theorem anyUnmasked_false {m : List Byte} {n : Nat} (hl : m.length = n) (h : anyUnmasked m n = false) : ∀ x ∈ m, x = 0xFF := by
  unfold anyUnmasked at h
  rw [List.take_of_length_le (by omega), List.any_eq_false] at h
  intro x hx
  have := h x hx
  simpa using this

theorem bitAt_zeros (n b : Nat) : bitAt (List.replicate n (0 : Byte)) b = false := by
  unfold bitAt bitOf
  rw [List.getElem?_replicate]
  by_cases h : b / 8 < n
  · rw [if_pos h]; exact BitVec.getLsbD_zero
  · rw [if_neg h]

/-- What a transfer leaves, when data and mask are those made from a Lua value. -/
theorem put_of_goes {env : LuaEnv} {M : Mem} {i base n ty off : Nat} {v : Val} {junk data mask : List Byte} (hd : data.length = n) (hm : mask.length = n)
    (ha : ty ≠ DAX_BOOL → off % 8 = 0) (e' : Nat) (hw : Width ty e')
    (g : Goes env ty off v junk (List.replicate n 0) data mask) : Put env M (M.storeMasked i base data mask) i (8 * base + off) ty v := by
  have hz := bitAt_zeros n
  have bits : ∀ b, bitAt mask b = true → memBit (M.storeMasked i base data mask) i (8 * base + b) = bitAt data b := by
    intro b hb
    unfold bitAt at hb ⊢
    rw [memBit_masked _ _ _ _ _ (by omega), show 8 * base + b - 8 * base = b by omega, if_pos ⟨rfl, by omega, hb⟩]
  have inside : ∀ b, bitAt mask b = true → b / 8 < n := by
    intro b hb
    apply Classical.byContradiction; intro hn
    unfold bitAt bitOf at hb
    rw [List.getElem?_eq_none (by omega)] at hb
    cases hb
  have bytes : v ≠ .nil → ∀ w, e' = 8 * w → ty ≠ DAX_BOOL → memBytes (M.storeMasked i base data mask) i ((8 * base + off) / 8) w = slice data (off / 8) w := by
    intro hv w hw' hb
    have ha := ha hb
    have hmk := g.masked hv e' hw
    refine List.ext_getElem? fun k => ?_
    unfold memBytes slice
    rw [List.getElem?_map, List.getElem?_take]
    by_cases hk : k < w
    · have := inside (off + 8 * k) (hmk _ (by omega) (by omega))
      rw [List.getElem?_range hk, if_pos hk, List.getElem?_drop, List.getElem?_eq_getElem (by omega)]
      simp only [Option.map_some, Option.some.injEq]
      apply BitVec.eq_of_getLsbD_eq
      intro j hj
      have h1 := bits (off + 8 * k + j) (hmk _ (by omega) (by omega))
      unfold memBit bitAt bitOf at h1
      rw [show (8 * base + (off + 8 * k + j)) / 8 = (8 * base + off) / 8 + k by omega, show (8 * base + (off + 8 * k + j)) % 8 = j by omega,
        show (off + 8 * k + j) / 8 = off / 8 + k by omega, show (off + 8 * k + j) % 8 = j by omega, List.getElem?_eq_getElem (by omega)] at h1
      exact h1
    · rw [if_neg hk, List.getElem?_eq_none (by rw [List.length_range]; omega)]; rfl
  have wid : ∀ w, (ty, w) ∈ elemBytes → e' = 8 * w ∧ ty ≠ DAX_BOOL := by
    intro w h1
    have hb : ty ≠ DAX_BOOL := fun hb => by
      rw [hb] at h1; exact absurd h1 (by simp [elemBytes, DAX_BOOL, DAX_BYTE, DAX_SINT, DAX_CHAR, DAX_WORD, DAX_INT, DAX_UINT, DAX_DWORD, DAX_DINT, DAX_UDINT, DAX_REAL, DAX_LWORD, DAX_LINT, DAX_ULINT, DAX_TIME, DAX_LREAL])
    rcases hw with ⟨h2, -⟩ | ⟨w', h2, rfl⟩
    · exact absurd h2 hb
    · refine ⟨?_, hb⟩
      have := (ElemBits.det (tbl := []) (t := ty) (.inr (.inl ⟨w, h1, rfl⟩)) (.inr (.inl ⟨w', h2, rfl⟩)))
      omega
  refine ⟨fun hv e hwe b h1 h2 => ?_, fun hv hb => ?_, fun w sg x hi hx => ?_, fun hv hb => ?_, fun hv hb => ?_⟩
  · have := (not_changed (g.kept hv e hwe (b - 8 * base) (by omega) (by omega))).2
    rw [hz] at this
    unfold bitAt at this
    rw [memBit_masked _ _ _ _ _ (by omega), this, if_neg (by simp)]
  · have h1 : e' = 1 := by
      rcases hw with ⟨-, h⟩ | ⟨w, h, -⟩
      · exact h
      · exact absurd hb (wid w h).2
    rw [bits off (g.masked hv e' hw off (Nat.le_refl _) (by omega))]
    exact g.bool hv hb
  · have hv : v ≠ .nil := by
      rcases hx with rfl | ⟨d, rfl, -⟩ <;> exact fun h => by cases h
    have hm : (ty, w) ∈ elemBytes := by
      simp only [intTypes, List.mem_cons, List.not_mem_nil, or_false, Prod.mk.injEq] at hi
      rcases hi with h|h|h|h|h|h|h|h|h|h|h|h <;> obtain ⟨rfl, rfl, rfl⟩ := h <;> decide
    obtain ⟨h1, h2⟩ := wid w hm
    rw [bytes hv w h1 h2]
    exact g.int w sg x hi hx
  · obtain ⟨h1, h2⟩ := wid 8 (by rw [hb]; decide)
    rw [bytes hv 8 h1 h2]
    exact g.lreal hv hb
  · obtain ⟨h1, h2⟩ := wid 4 (by rw [hb]; decide)
    rw [bytes hv 4 h1 h2]
    exact g.real hv hb

theorem luaTagWrite_inv {env : LuaEnv} {s : Server} {fd : Int} {c c1 : TypeCache} {h : Handle} {v : Val} {junk data mask : List Byte} {x : Server × TypeCache × Log × Option Outcome}
    (a1 : luaToDax env s fd c h.type h.count ⟨junk, List.replicate h.size 0, [v]⟩ = .ok (c1, ⟨data, mask, [v]⟩, 0))
    (hh : luaTagWrite env s fd c h v junk = .ok x) :
    ∃ s' c' l o d, x = (s', c', l, some o) ∧
      ((anyUnmasked mask h.size = true ∧ daxTagMask s fd c1 h data mask = .ok (s', c', l, o, d)) ∨ (anyUnmasked mask h.size = false ∧ daxTagWrite s fd c1 h data = .ok (s', c', l, o, d))) := by
  unfold luaTagWrite at hh
  rw [a1] at hh
  simp only [C.ok_bind, ne_eq, not_true, if_false] at hh
  cases hq : anyUnmasked mask h.size with
  | true =>
    rw [hq] at hh
    simp only [if_true] at hh
    obtain ⟨⟨s1, c2, l, o, d⟩, h1, hh⟩ := C.bind_eq_ok.mp hh
    simp only [C.ok.injEq] at hh
    exact ⟨s1, c2, l, o, d, hh.symm, .inl ⟨rfl, h1⟩⟩
  | false =>
    rw [hq] at hh
    simp only [Bool.false_eq_true, if_false] at hh
    obtain ⟨⟨s1, c2, l, o, d⟩, h1, hh⟩ := C.bind_eq_ok.mp hh
    simp only [C.ok.injEq] at hh
    exact ⟨s1, c2, l, o, d, hh.symm, .inr ⟨rfl, h1⟩⟩

/-- **C69**, writing: a value of the right shape that is written to a tag, or to a part of it, from Lua is always sent; when the call ends with success, every element and member that is given has the value, and
all other bits of all tags are as before, whatever `malloc` left in the buffer.

Missing: BOOLs that do not fill whole bytes (`C69_bools_partial`), elements of more than 2040 bytes, tags with mappings. -/
theorem C69_write_partial {cap : Nat} {env : LuaEnv} {s s' : Server} {fd : Int} {c c' : TypeCache} {h : Handle} {i e : Nat} {v : Val} {junk : List Byte} {l : Log} {x : Option Outcome} {M : Mem}
    (hr : Reachable s) (hm : ∀ i name, LiveAt s i name → NoMaps s i) (hM : Agrees M s) (hi : h.index = i) (hs : shifted h = false)
    (hf : Compound h.type → Fits cap s h.type) (hfc : Faithful s c) (he : ElemBits s.cdts h.type e) (hn : 0 < h.count) (hz : e * h.count = 8 * h.size) (hq : h.type < 3221225472)
    (hN : e * h.count ≤ 2147483600) (hsm : h.byte + h.size ≤ 2147483647) (hlim : e ≤ 16320) (hv : Shaped s.cdts h.type h.count v) (hj : junk.length = h.size)
    (hh : luaTagWrite env s fd c h v junk = .ok (s', c', l, x)) :
    ∃ code, x = some (.done code) ∧ (code = 0 → ∃ M', Agrees M' s' ∧
      (∀ ks ty off, At s.cdts h.type h.count ks ty 1 off → Put env M M' i (8 * h.byte + off) ty (valAt v ks)) ∧
      ∀ j q, ¬ Given s.cdts h.type h.count i (8 * h.byte) v j q → memBit M' j q = memBit M j q) := by
  obtain ⟨c1, data, mask, a1, a2, a3, a4, a5, a6⟩ := C68_write_partial (env := env) (fd := fd) (st := []) hr hf hfc he hn hN hv (data := junk) (mask := List.replicate h.size 0)
    (by omega) (by rw [List.length_replicate, hj])
  rw [List.length_replicate] at a4
  obtain ⟨s1, c2, l1, o, d, hx, hb⟩ := luaTagWrite_inv a1 hh
  simp only [Prod.mk.injEq] at hx
  obtain ⟨rfl, rfl, rfl, rfl⟩ := hx
  have w : ∀ lim, 2040 ≤ lim → ∀ c3 r, format s fd true data.length c1 h.type h.count = .ok (c3, r) → Whole s fd c3 h lim (luaUnit h.type e) := fun lim hlm c3 r hfm =>
    whole_unit hr hf (format_faithful hr hf he hq a2 hfm).1 he hn hz hsm (by omega) (by omega)
  have fin : Agrees (M.storeMasked i h.byte data mask) s' → ∃ M', Agrees M' s' ∧
      (∀ ks ty off, At s.cdts h.type h.count ks ty 1 off → Put env M M' i (8 * h.byte + off) ty (valAt v ks)) ∧
      ∀ j q, ¬ Given s.cdts h.type h.count i (8 * h.byte) v j q → memBit M' j q = memBit M j q := by
    intro hag
    refine ⟨_, hag, fun ks ty off ha => ?_, fun j q hg => ?_⟩
    · obtain ⟨e', b1, -, b3⟩ := ha.within hr rfl hf he
      exact put_of_goes (a3.trans hj) a4 b3 e' b1 (a5 ks ty off ha)
    · rw [memBit_masked _ _ _ _ _ (by omega)]
      apply if_neg
      intro hc
      apply hg
      obtain ⟨rfl, h1, h2⟩ := hc
      obtain ⟨ks, ty, off, e', b1, b2, b3, b4, b5⟩ := a6 (q - 8 * h.byte) (.inr (by
        rw [bitAt_zeros]; unfold bitAt; rw [h2]; simp))
      exact ⟨rfl, ks, ty, off, e', b1, b2, b3, by omega, by omega⟩
  rcases hb with ⟨hb, hh⟩ | ⟨hb, hh⟩
  · have hdone : ∃ code, o = .done code := by
      rcases C25_mask_partial hs (w 2040 (Nat.le_refl _)) hh with ⟨-, -, e, he, h0⟩ | ⟨code, h0, -⟩
      · exact ⟨_, h0⟩
      · exact ⟨_, h0⟩
    obtain ⟨code, rfl⟩ := hdone
    refine ⟨code, rfl, fun h0 => ?_⟩
    subst h0
    have := C25_masked hr hm hM hi hs (by omega) (by omega) (w 2040 (Nat.le_refl _)) hh
    rw [List.take_of_length_le (by omega), List.take_of_length_le (by omega)] at this
    exact fin this
  · have hdone : ∃ code, o = .done code := by
      rcases C25_write_partial hs (w 4080 (by decide)) hh with ⟨-, -, e, he, h0⟩ | ⟨code, h0, -⟩
      · exact ⟨_, h0⟩
      · exact ⟨_, h0⟩
    obtain ⟨code, rfl⟩ := hdone
    refine ⟨code, rfl, fun h0 => ?_⟩
    subst h0
    have := C25_written hr hm hM hi hs (by omega) (w 4080 (by decide)) hh
    rw [List.take_of_length_le (by omega), ← storeMasked_full M i h.byte (m := mask) (by omega) (anyUnmasked_false a4 hb)] at this
    exact fin this

/-- BOOLs that have to be moved are all written, whatever the mask (C24). -/
theorem C24_masked {s s' : Server} {fd : Int} {c c' : TypeCache} {h : Handle} {i : Nat} {data mask : List Byte} {l : Log} {d : List Byte} {M : Mem}
    (hr : Reachable s) (hm : ∀ i name, LiveAt s i name → NoMaps s i) (hM : Agrees M s) (hi : h.index = i) (hb : Bools h) (hs : shifted h = true)
    (hl : h.count ≤ 8 * data.length) (hsm : h.byte + h.size + 1 ≤ 2147483647)
    (hh : daxTagMask s fd c h data mask = .ok (s', c', l, .done 0, d)) : ∃ M', Agrees M' s' ∧ BitsWritten M M' i h data := by
  unfold daxTagMask at hh
  rw [if_pos hs] at hh
  obtain ⟨⟨nd, mk⟩, h1, hh⟩ := C.bind_eq_ok.mp hh
  obtain ⟨l1, l2, b1, b2⟩ := shift_inv hb hl h1
  dsimp only at l1 l2 b1 b2 hh
  rcases shifted_transfer hb (by decide) l1 l2 hsm hh with ⟨-, -, -, -, h0⟩ | ⟨code, h0, h2, h3⟩
  · exact absurd h0 (by decide)
  · simp only [Outcome.done.injEq] at h0
    subst h0
    refine ⟨M.storeMasked i h.byte nd mk, ?_, shift_written hb l1 l2 b1 b2⟩
    have := happened_agrees hr hm hM (fun x hx => by
      obtain ⟨q, k, -, -, e⟩ := split_mem h2 x hx
      rw [e]; exact isData_mask (by omega) _ _) h3
    rw [hi] at h2
    rw [split_storeMasked h2 rfl (Nat.le_refl _) (by omega) (by omega), Nat.sub_self] at this
    unfold slice at this
    rw [List.drop_zero, List.drop_zero, List.take_of_length_le (by omega), List.take_of_length_le (by omega)] at this
    exact this

theorem elemBits_bool {tbl : List Cdt} : ElemBits tbl DAX_BOOL 1 := .inl ⟨rfl, rfl⟩

theorem not_compound_bool : ¬ Compound DAX_BOOL := fun h => absurd h.1 (by decide)

/-- **C69**, writing BOOLs at any bit: when all of them are given and the call ends with success, they have the values given, and no other bit of any tag has changed.

Missing: BOOLs that are left out; see `C69_bools_left_out`. -/
theorem C69_bools_partial {env : LuaEnv} {s s' : Server} {fd : Int} {c c' : TypeCache} {h : Handle} {i : Nat} {v : Val} {junk : List Byte} {l : Log} {M : Mem}
    (hr : Reachable s) (hm : ∀ i name, LiveAt s i name → NoMaps s i) (hM : Agrees M s) (hi : h.index = i) (hb : Bools h) (hs : shifted h = true) (hfc : Faithful s c)
    (hN : h.count ≤ 2147483600) (hsm : h.byte + h.size + 1 ≤ 2147483647) (hv : Shaped s.cdts DAX_BOOL h.count v) (hall : Complete s.cdts DAX_BOOL h.count v) (hj : junk.length = h.size)
    (hh : luaTagWrite env s fd c h v junk = .ok (s', c', l, some (.done 0))) :
    ∃ M', Agrees M' s' ∧
      (∀ ks ty off, At s.cdts DAX_BOOL h.count ks ty 1 off → (memBit M' i (8 * h.byte + h.bit + off) = false ↔ valAt v ks = .bool false)) ∧
      ∀ j q, ¬ (j = i ∧ 8 * h.byte + h.bit ≤ q ∧ q < 8 * h.byte + h.bit + h.count) → memBit M' j q = memBit M j q := by
  have hsz := hb.size
  obtain ⟨c1, data, mask, a1, a2, a3, a4, a5, a6⟩ := C68_write_partial (cap := 0) (env := env) (fd := fd) (st := []) hr (fun h => absurd h not_compound_bool) hfc elemBits_bool hb.pos (by omega) hv
    (data := junk) (mask := List.replicate h.size 0) (by omega) (by rw [List.length_replicate, hj])
  rw [← hb.type] at a1
  obtain ⟨s1, c2, l1, o, d, hx, ha⟩ := luaTagWrite_inv a1 hh
  simp only [Prod.mk.injEq, Option.some.injEq] at hx
  obtain ⟨rfl, rfl, rfl, rfl⟩ := hx
  have hw : ∃ M', Agrees M' s' ∧ BitsWritten M M' i h data := by
    rcases ha with ⟨-, hh⟩ | ⟨-, hh⟩
    · exact C24_masked hr hm hM hi hb hs (by omega) hsm hh
    · exact C24_write hr hm hM hi hb (by omega) hsm hh
  obtain ⟨M', h1, h2, h3⟩ := hw
  refine ⟨M', h1, fun ks ty off hat => ?_, h3⟩
  obtain ⟨e', b1, b2, -⟩ := hat.within (cap := 0) hr rfl (fun h => absurd h not_compound_bool) elemBits_bool
  have hty : ty = DAX_BOOL := by
    rcases hat.base not_compound_bool with ⟨_, _, h, _⟩ | ⟨_, _, h, _⟩ | ⟨_, _, _, _, _, _, h, _⟩ <;> exact h
  have hpos : 0 < e' := by
    rcases b1 with ⟨-, rfl⟩ | ⟨w, h, rfl⟩
    · decide
    · have := (elem_pos h).1; omega
  rw [h2 off (by omega)]
  exact (a5 ks ty off hat).bool (hall ks ty off hat) hty

/-! ## Reading -/

theorem transfer_cache {cap : Nat} {s s' : Server} (hr : Reachable s) {fd : Int} {c c' : TypeCache} {send : Server → Nat → Nat → C (Server × Log × Int × List Byte)} {lim tlim t hsize size e : Nat}
    {l : Log} {o : Outcome} {d : List Byte} (hf : Compound t → Fits cap s t) (hc : Faithful s c) (he : ElemBits s.cdts t e)
    (hh : transfer send lim tlim s fd c t hsize size = .ok (s', c', l, o, d)) : Faithful s c' := by
  unfold transfer at hh
  split at hh
  · obtain ⟨⟨c1, ts⟩, h1, hh⟩ := C.bind_eq_ok.mp hh
    have hc1 : Faithful s c1 := by
      rcases he with ⟨hx, -⟩ | ⟨w, hw, -⟩ | ⟨hct, k, h2, h3⟩
      · rw [hx, ctypeSize_bool] at h1
        simp only [C.ok.injEq, Prod.mk.injEq] at h1
        exact h1.1 ▸ hc
      · rw [ctypeSize_base hw] at h1
        simp only [C.ok.injEq, Prod.mk.injEq] at h1
        exact h1.1 ▸ hc
      · obtain ⟨c3, k, g1, g2, -⟩ := (hf hct).csize hr (.inr (.inr ⟨hct, k, h2, h3⟩)) hc (fd := fd)
        rw [g1] at h1
        simp only [C.ok.injEq, Prod.mk.injEq] at h1
        exact h1.1 ▸ g2
    dsimp only at hh
    split at hh
    · simp only [C.ok.injEq, Prod.mk.injEq] at hh
      exact hh.2.1 ▸ hc1
    · obtain ⟨⟨s2, l2, o2, d2⟩, h2, hh⟩ := C.bind_eq_ok.mp hh
      simp only [C.ok.injEq, Prod.mk.injEq] at hh
      exact hh.2.1 ▸ hc1
  · obtain ⟨⟨s2, l2, o2, d2⟩, h2, hh⟩ := C.bind_eq_ok.mp hh
    simp only [C.ok.injEq, Prod.mk.injEq] at hh
    exact hh.2.1 ▸ hc

theorem luaTagRead_inv {s : Server} {fd : Int} {c : TypeCache} {h : Handle} {x : Server × TypeCache × Log × Outcome × Option Val} (hh : luaTagRead s fd c h = .ok x) :
    ∃ s' c1 l o d, daxTagRead s fd c h = .ok (s', c1, l, o, d) ∧ ((o ≠ .done 0 ∧ x = (s', c1, l, o, none)) ∨
      (o = .done 0 ∧ ∃ c2 v, daxToLua s' fd c1 h.type h.count d = .ok (c2, v) ∧ x = (s', c2, l, o, some v))) := by
  unfold luaTagRead at hh
  obtain ⟨⟨s', c1, l, o, d⟩, h1, hh⟩ := C.bind_eq_ok.mp hh
  refine ⟨s', c1, l, o, d, h1, ?_⟩
  dsimp only at hh
  split at hh
  · rename_i hne
    simp only [C.ok.injEq] at hh
    exact .inl ⟨hne, hh.symm⟩
  · rename_i hne
    obtain ⟨⟨c2, v⟩, h2, hh⟩ := C.bind_eq_ok.mp hh
    simp only [C.ok.injEq] at hh
    exact .inr ⟨Classical.byContradiction hne, c2, v, h2, hh.symm⟩

theorem daxTagRead_cache {cap : Nat} {s s' : Server} (hr : Reachable s) {fd : Int} {c c' : TypeCache} {h : Handle} {e : Nat} {l : Log} {d : List Byte} (hf : Compound h.type → Fits cap s h.type)
    (hc : Faithful s c) (he : ElemBits s.cdts h.type e) (hq : h.type < 3221225472) (hh : daxTagRead s fd c h = .ok (s', c', l, .done 0, d)) (hss : s' = s) : Faithful s c' := by
  unfold daxTagRead at hh
  obtain ⟨⟨s1, c1, l1, o1, d1⟩, h1, hh⟩ := C.bind_eq_ok.mp hh
  have hc1 := transfer_cache hr hf hc he h1
  dsimp only at hh
  split at hh
  · rename_i hne
    simp only [C.ok.injEq, Prod.mk.injEq] at hh
    exact absurd hh.2.2.2.1 hne
  · split at hh
    · obtain ⟨nd, -, hh⟩ := C.bind_eq_ok.mp hh
      simp only [C.ok.injEq, Prod.mk.injEq] at hh
      exact hh.2.1 ▸ hc1
    · obtain ⟨⟨c2, r⟩, h2, hh⟩ := C.bind_eq_ok.mp hh
      simp only [C.ok.injEq, Prod.mk.injEq] at hh
      obtain ⟨rfl, rfl, -⟩ := hh
      subst hss
      exact (format_faithful hr hf he hq hc1 h2).1

/-- **C69**, reading of anything but BOOLs: when the tag can be read, there is a value, and it has, under every list of keys, what the tag holds there; nothing has changed.

Missing: as for `C68_read_partial`; elements of more than 2040 bytes, and tags with overrides or read hooks. -/
theorem C69_read_partial {cap : Nat} {s s' : Server} {fd : Int} {c c' : TypeCache} {h : Handle} {i e : Nat} {l : Log} {x : Option Val} {M : Mem}
    (hr : Reachable s) (ho : Ordinary s i) (hM : Agrees M s) (hi : h.index = i) (ht : h.type ≠ DAX_BOOL)
    (hf : Compound h.type → Fits cap s h.type) (hfc : Faithful s c) (he : ElemBits s.cdts h.type e) (hn : 0 < h.count) (hz : e * h.count = 8 * h.size) (hq : h.type < 3221225472)
    (hN : e * h.count ≤ 2147483600) (hsm : h.byte + h.size ≤ 2147483647) (hlim : e ≤ 16320)
    (hreal : ∀ ks off, At s.cdts h.type h.count ks DAX_REAL 1 off → sglExp (unsignedVal (slice (memBytes M i h.byte h.size) (off / 8) 4)) < 190)
    (hh : luaTagRead s fd c h = .ok (s', c', l, .done 0, x)) :
    s' = s ∧ ∃ v, x = some v ∧ ∀ ks ty k off, At s.cdts h.type h.count ks ty k off → Comes (memBytes M i h.byte h.size) ty k off (indexed ks) (valAt v ks) := by
  obtain ⟨s1, c1, l1, o, d, h1, ⟨hne, hx⟩ | ⟨rfl, c2, v, h2, hx⟩⟩ := luaTagRead_inv hh
  · simp only [Prod.mk.injEq] at hx
    exact absurd hx.2.2.2.1.symm hne
  · simp only [Prod.mk.injEq] at hx
    obtain ⟨rfl, rfl, rfl, -, rfl⟩ := hx
    obtain ⟨rfl, h3, h4⟩ := C25_read_data hr ho hM hi ht (whole_unit hr hf hfc he hn hz hsm (lim := 4088) (by omega) (by decide)) h1
    have hd : d = memBytes M i h.byte h.size := by
      refine List.ext_getElem? fun k => ?_
      unfold memBytes
      rw [List.getElem?_map]
      by_cases hk : k < h.size
      · rw [List.getElem?_range hk, h4 k hk]; rfl
      · rw [List.getElem?_eq_none (by omega), List.getElem?_eq_none (by rw [List.length_range]; omega)]; rfl
    rw [← hd] at hreal ⊢
    obtain ⟨c4, v', g1, -, g3⟩ := C68_read_partial (fd := fd) hr hf (daxTagRead_cache hr hf hfc he hq h1 rfl) he hn hN (data := d) (by omega) hreal
    rw [g1] at h2
    simp only [C.ok.injEq, Prod.mk.injEq] at h2
    obtain ⟨-, rfl⟩ := h2
    exact ⟨rfl, v', rfl, g3⟩

/-- **C69**, reading of BOOLs at any bit. -/
theorem C69_read_bools {s s' : Server} {fd : Int} {c c' : TypeCache} {h : Handle} {i : Nat} {l : Log} {x : Option Val} {M : Mem}
    (hr : Reachable s) (ho : Ordinary s i) (hM : Agrees M s) (hi : h.index = i) (hb : Bools h) (hfc : Faithful s c) (hN : h.count ≤ 2147483600) (hsm : h.byte + h.size ≤ 2147483647)
    (hh : luaTagRead s fd c h = .ok (s', c', l, .done 0, x)) :
    s' = s ∧ ∃ v, x = some v ∧ ∀ ks ty off, At s.cdts DAX_BOOL h.count ks ty 1 off → valAt v ks = .bool (memBit M i (8 * h.byte + h.bit + off)) := by
  have hsz := hb.size
  have hty : ¬ Compound h.type := by rw [hb.type]; exact not_compound_bool
  obtain ⟨s1, c1, l1, o, d, h1, ⟨hne, hx⟩ | ⟨rfl, c2, v, h2, hx⟩⟩ := luaTagRead_inv hh
  · simp only [Prod.mk.injEq] at hx
    exact absurd hx.2.2.2.1.symm hne
  · simp only [Prod.mk.injEq] at hx
    obtain ⟨rfl, rfl, rfl, -, rfl⟩ := hx
    obtain ⟨rfl, h3, h4, -⟩ := C24_read hr ho hM hi hb hsm h1
    have hel : ElemBits s'.cdts h.type 1 := by rw [hb.type]; exact elemBits_bool
    have hcc := daxTagRead_cache (cap := 0) hr (fun h => absurd h hty) hfc hel (by rw [hb.type]; decide) h1 rfl
    rw [hb.type] at h2
    obtain ⟨c4, v', g1, -, g3⟩ := C68_read_partial (cap := 0) (fd := fd) hr (fun h => absurd h not_compound_bool) hcc elemBits_bool hb.pos (by omega) (data := d) (by omega) (fun ks off ha => by
      rcases ha.base not_compound_bool with ⟨_, _, h, _⟩ | ⟨_, _, h, _⟩ | ⟨_, _, _, _, _, _, h, _⟩ <;> exact absurd h (by decide))
    rw [g1] at h2
    simp only [C.ok.injEq, Prod.mk.injEq] at h2
    obtain ⟨-, rfl⟩ := h2
    refine ⟨rfl, v', rfl, fun ks ty off ha => ?_⟩
    obtain ⟨e', b1, b2, -⟩ := ha.within (cap := 0) hr rfl (fun h => absurd h not_compound_bool) elemBits_bool
    have hty : ty = DAX_BOOL := by
      rcases ha.base not_compound_bool with ⟨_, _, h, _⟩ | ⟨_, _, h, _⟩ | ⟨_, _, _, _, _, _, h, _⟩ <;> exact h
    have hpos : 0 < e' := by
      rcases b1 with ⟨-, rfl⟩ | ⟨w, h, rfl⟩
      · decide
      · have := (elem_pos h).1; omega
    rw [(g3 ks ty 1 off ha).bool hty rfl, ← h4 off (by omega)]
    rfl

/-! ## Acceptance, and both together -/

theorem typeSize_of_elem {tbl : List Cdt} {t e : Nat} (he : ElemBits tbl t e) (hb : t ≠ DAX_BOOL) : ∃ k : Nat, typeSize tbl t = .ok (k : Int) ∧ e = 8 * k := by
  rcases he with ⟨h, -⟩ | ⟨w, hw, rfl⟩ | ⟨-, k, h1, h2⟩
  · exact absurd h hb
  · refine ⟨w, ?_, rfl⟩
    simp only [elemBytes, List.mem_cons, List.not_mem_nil, or_false, Prod.mk.injEq] at hw
    rcases hw with h|h|h|h|h|h|h|h|h|h|h|h|h|h|h <;> obtain ⟨rfl, rfl⟩ := h <;> rfl
  · exact ⟨k, h1, h2⟩

theorem good_of_live {s : Server} {i a T N E : Nat} {name : Name} (hr : Reachable s) (hm : ∀ i name, LiveAt s i name → NoMaps s i) (ha : AttrAt s i a) (h0 : a.testBit 0 = false)
    (h1 : a.testBit 1 = false) (h3 : a.testBit 3 = false) (h4 : a.testBit 4 = false) (ht : LiveTag s i name T N) (hT : T ≠ DAX_BOOL) (heT : ElemBits s.cdts T E)
    (hsm : E * N ≤ 2147483600) : Good i (E * N / 8) s := by
  have hw := hr.wf
  obtain ⟨k, hk, rfl⟩ := typeSize_of_elem heT hT
  refine ⟨hr, ?_, ?_⟩
  · intro j t htj hf
    have hnn : t.name ≠ none := fun hn => hf ((hw.tag j t htj).name.mp hn)
    obtain ⟨nn, hnn⟩ := Option.ne_none_iff_exists'.mp hnn
    exact (noMaps_iff htj).mp (hm j nn ((liveAt_iff hw).mpr ⟨t, htj, hnn⟩))
  · obtain ⟨t, ht', hn', ha'⟩ := (attrAt_iff hw).mp ha
    obtain ⟨t1, b, P⟩ := (ordinary_iff hw).mp ⟨a, ha, h1, h3⟩
    have e := ht'.symm.trans P.db
    cases e
    obtain ⟨t2, ht2, -, hty, hcnt⟩ := (liveTag_iff hw).mp ht
    have e := ht2.symm.trans P.db
    cases e
    have hal := ((hw.tag i _ P.db).mem b P.data).1
    have h8 : 8 * k * N = 8 * (k * N) := Nat.mul_assoc ..
    have hkn : ((k : Int) * (N : Int)) = ((k * N : Nat) : Int) := by push_cast; rfl
    unfold allocSize at hal
    rw [if_neg (by rw [hty]; exact hT), hty, hk, hcnt] at hal
    simp only [C.ok_bind, C.ok.injEq, hkn] at hal
    rw [u32_nat (by omega)] at hal
    refine ⟨_, b, P, by rw [← Attr.bit0, ha']; exact h0, by rw [← Attr.bit4, ha']; exact h4, by omega, ?_⟩
    unfold tagGetSize
    rw [if_neg (by rw [hty]; exact hT), hty, hk, hcnt]
    simp only [C.ok_bind, C.ok.injEq, hkn]
    unfold i32
    omega

/-- **C69**, acceptance: a value of the right shape for a part of an ordinary tag that is neither read-only nor a status tag is never refused.

Missing: as for `C69_write_partial`. -/
theorem C69_accepted_partial {cap : Nat} {env : LuaEnv} {s s' : Server} {fd : Int} {c c' : TypeCache} {h : Handle} {i e a T N E : Nat} {name : Name} {v : Val} {junk : List Byte} {l : Log} {x : Option Outcome}
    (hr : Reachable s) (hm : ∀ i name, LiveAt s i name → NoMaps s i) (ha : AttrAt s i a) (h0 : a.testBit 0 = false)
    (h1 : a.testBit 1 = false) (h3 : a.testBit 3 = false) (h4 : a.testBit 4 = false) (ht : LiveTag s i name T N) (hT : T ≠ DAX_BOOL) (heT : ElemBits s.cdts T E) (hEN : E * N ≤ 2147483600)
    (hi : h.index = i) (hs : shifted h = false)
    (hf : Compound h.type → Fits cap s h.type) (hfc : Faithful s c) (he : ElemBits s.cdts h.type e) (hn : 0 < h.count) (hz : e * h.count = 8 * h.size) (hq : h.type < 3221225472)
    (hin : 8 * (h.byte + h.size) ≤ E * N) (hlim : e ≤ 16320) (hv : Shaped s.cdts h.type h.count v) (hj : junk.length = h.size)
    (hh : luaTagWrite env s fd c h v junk = .ok (s', c', l, x)) :
    x = some (.done 0) ∧ Reachable s' ∧ Ordinary s' i ∧ s'.cdts = s.cdts := by
  have g := good_of_live hr hm ha h0 h1 h3 h4 ht hT heT hEN
  obtain ⟨c1, data, mask, a1, a2, a3, a4, a5, a6⟩ := C68_write_partial (env := env) (fd := fd) (st := []) hr hf hfc he hn (by omega) hv (data := junk) (mask := List.replicate h.size 0)
    (by omega) (by rw [List.length_replicate, hj])
  rw [List.length_replicate] at a4
  obtain ⟨s1, c2, l1, o, d, hx, hb⟩ := luaTagWrite_inv a1 hh
  simp only [Prod.mk.injEq] at hx
  obtain ⟨rfl, rfl, rfl, rfl⟩ := hx
  have hfm : ∀ {c3 r}, format s fd true data.length c1 h.type h.count = .ok (c3, r) → Faithful s c3 ∧ r = 0 := fun hfm => format_faithful hr hf he hq a2 hfm
  have fin : ∀ {s1}, (Good i (E * N / 8) s1 ∧ s1.cdts = s.cdts) → Reachable s1 ∧ Ordinary s1 i ∧ s1.cdts = s.cdts := by
    intro s1 g1
    obtain ⟨t, b, P, -⟩ := g1.1.tag
    exact ⟨g1.1.reach, (ordinary_iff g1.1.reach.wf).mpr ⟨t, b, P⟩, g1.2⟩
  rcases hb with ⟨-, hh⟩ | ⟨-, hh⟩
  · obtain ⟨c3, r, k1, ⟨hr', -⟩ | ⟨-, hh⟩⟩ := daxTagMask_plain hs hh
    · exact absurd (hfm k1).2 hr'
    · have w := whole_unit (fd := fd) hr hf (hfm k1).1 he hn hz (by omega) (lim := 2040) (by omega) (by decide)
      obtain ⟨code, rfl, g2, g3, -⟩ := transfer_ok (sends_mask w.small (Nat.le_refl _)) w.upos w.fits w.dvd
        w.fits w.elem w.pos (by have := w.small; omega) (fun h => h) hh
      rw [hi] at g2
      obtain ⟨rfl, g4⟩ := split_accepted g2 (G := fun s1 => Good i (E * N / 8) s1 ∧ s1.cdts = s.cdts) (fun s1 s2 q k r a b cc gg hq => by
        obtain ⟨u1, u2⟩ := good_mwrite gg.1 (by rw [_root_.Dax.slice_length (by omega)]; omega) (by omega) (by rw [_root_.Dax.slice_length (by omega)]; omega)
          (by rw [_root_.Dax.slice_length (by omega), _root_.Dax.slice_length (by omega)]) hq
        exact ⟨u1, u2, (data_cdts (isData_mask (by omega) _ _) gg.1.maps hq).trans gg.2⟩) ⟨g, rfl⟩ g3
      exact ⟨rfl, fin g4⟩
  · obtain ⟨c3, r, k1, ⟨hr', -⟩ | ⟨-, hh⟩⟩ := daxTagWrite_plain hs hh
    · exact absurd (hfm k1).2 hr'
    · have w := whole_unit (fd := fd) hr hf (hfm k1).1 he hn hz (by omega) (lim := 4080) (by omega) (by decide)
      obtain ⟨code, rfl, g2, g3, -⟩ := transfer_ok (sends_write w.small (Nat.le_refl _)) w.upos w.fits w.dvd
        w.fits w.elem w.pos (by have := w.small; omega) (fun h => h) hh
      rw [hi] at g2
      obtain ⟨rfl, g4⟩ := split_accepted g2 (G := fun s1 => Good i (E * N / 8) s1 ∧ s1.cdts = s.cdts) (fun s1 s2 q k r a b cc gg hq => by
        obtain ⟨u1, u2⟩ := good_write gg.1 (by rw [_root_.Dax.slice_length (by omega)]; omega) (by omega) (by rw [_root_.Dax.slice_length (by omega)]; omega) hq
        exact ⟨u1, u2, (data_cdts (q := writeOf i h.byte data q k) trivial gg.1.maps hq).trans gg.2⟩) ⟨g, rfl⟩ g3
      exact ⟨rfl, fin g4⟩

/-- The answer to a query for a type depends on the types only. -/
theorem hCdtGet_congr {s s' : Server} (hc : s'.cdts = s.cdts) {t : Nat} {r : Reply} (h : hCdtGet s t = .ok (s, r)) : hCdtGet s' t = .ok (s', r) := by
  unfold hCdtGet at h ⊢
  rw [hc]
  obtain ⟨x, h1, h⟩ := C.bind_eq_ok.mp h
  rw [h1]
  simp only [C.ok_bind]
  cases x with
  | none =>
    simp only [C.ok.injEq, Prod.mk.injEq, true_and] at h ⊢
    exact h
  | some str =>
    dsimp only at h ⊢
    split at h
    · rename_i hx; rw [if_pos hx]
      simp only [C.ok.injEq, Prod.mk.injEq, true_and] at h ⊢
      exact h
    · rename_i hx; rw [if_neg hx]
      simp only [C.ok.injEq, Prod.mk.injEq, true_and] at h ⊢
      exact h

theorem fetchable_congr {s s' : Server} (hc : s'.cdts = s.cdts) {t : Nat} (h : Fetchable s t) : Fetchable s' t := by
  induction h with
  | mk t n fs sub h1 h2 h3 h4 h5 _ ih =>
    refine .mk t n fs sub ⟨h1.1, fun fd => hCdtGet_congr hc (h1.2 fd)⟩ h2 h3 h4 (fun f hf hb => ?_) ih
    obtain ⟨txt, g1, g2⟩ := h5 f hf hb
    refine ⟨txt, g1, fun fd => ?_⟩
    have := g2 fd
    simp only [handle] at this ⊢
    rw [hc]
    exact hCdtGet_congr hc this

theorem fits_congr {cap : Nat} {s s' : Server} (hc : s'.cdts = s.cdts) {t : Nat} (h : Fits cap s t) : Fits cap s' t := by
  induction h with
  | mk t d q h1 h2 h3 h4 h5 h6 _ ih => exact .mk t d q (fetchable_congr hc h1) (by rw [hc]; exact h2) (by rw [hc]; exact h3) h4 h5 h6 ih

theorem bitAt_mem {M : Mem} {i p n off : Nat} (h : off < 8 * n) : bitAt (memBytes M i p n) off = memBit M i (8 * p + off) := by
  unfold bitAt bitOf memBytes memBit
  rw [List.getElem?_map, List.getElem?_range (by omega), show (8 * p + off) / 8 = p + off / 8 by omega, show (8 * p + off) % 8 = off % 8 by omega]
  rfl

theorem slice_mem {M : Mem} {i p n o w : Nat} (h : o + w ≤ n) : slice (memBytes M i p n) o w = memBytes M i (p + o) w := by
  refine List.ext_getElem? fun k => ?_
  unfold slice memBytes
  rw [List.getElem?_take, List.getElem?_map]
  by_cases hk : k < w
  · rw [if_pos hk, List.getElem?_drop, List.getElem?_map, List.getElem?_range (by omega), List.getElem?_range hk]
    simp only [Option.map_some]
    rw [Nat.add_assoc]
  · rw [if_neg hk, List.getElem?_eq_none (by rw [List.length_range]; omega)]; rfl

/-- **C69**, from script to script: what one module writes to a part of a tag from Lua is never refused, and another module that reads it afterwards has the same values, wherever they were given:
the same truth, the same integer (below 2^53), the same LREAL.

Missing: REALs (their fraction is lost when they are read, `C68_real_lost`), BOOLs alone (`C69_bools_partial` and `C69_read_bools`), and what is missing in `C69_write_partial`. -/
theorem C69_round_partial {cap : Nat} {env : LuaEnv} {s s' s'' : Server} {fd fd' : Int} {c c' cr cr' : TypeCache} {h : Handle} {i e a T N E : Nat} {name : Name} {v : Val} {junk : List Byte} {l l' : Log}
    {x : Option Outcome} {y : Option Val} {M : Mem} (hM : Agrees M s)
    (hr : Reachable s) (hm : ∀ i name, LiveAt s i name → NoMaps s i) (ha : AttrAt s i a) (h0 : a.testBit 0 = false)
    (h1 : a.testBit 1 = false) (h3 : a.testBit 3 = false) (h4 : a.testBit 4 = false) (ht : LiveTag s i name T N) (hT : T ≠ DAX_BOOL) (heT : ElemBits s.cdts T E) (hEN : E * N ≤ 2147483600)
    (hi : h.index = i) (hb : h.type ≠ DAX_BOOL)
    (hf : Compound h.type → Fits cap s h.type) (hfc : Faithful s c) (hfr : Faithful s cr) (he : ElemBits s.cdts h.type e) (hn : 0 < h.count) (hz : e * h.count = 8 * h.size) (hq : h.type < 3221225472)
    (hin : 8 * (h.byte + h.size) ≤ E * N) (hlim : e ≤ 16320) (hv : Shaped s.cdts h.type h.count v) (hj : junk.length = h.size)
    (hnr : ∀ ks off, ¬ At s.cdts h.type h.count ks DAX_REAL 1 off)
    (hh : luaTagWrite env s fd c h v junk = .ok (s', c', l, x)) (hh' : luaTagRead s' fd' cr h = .ok (s'', cr', l', .done 0, y)) :
    x = some (.done 0) ∧ ∃ v', y = some v' ∧ ∀ ks ty off, At s.cdts h.type h.count ks ty 1 off → valAt v ks ≠ .nil →
      (ty = DAX_BOOL → (valAt v' ks = .bool false ↔ valAt v ks = .bool false) ∧ ∃ b, valAt v' ks = .bool b) ∧
      (∀ w sg n, (ty, w, sg) ∈ intTypes → (ty = DAX_CHAR → ¬ indexed ks) → IsNum (valAt v ks) n → n.natAbs < 2 ^ 53 → IsNum (valAt v' ks) n) ∧
      (ty = DAX_LREAL → ∃ d, IsReal (valAt v ks) d ∧ valAt v' ks = .num d) := by
  have hs : shifted h = false := by
    unfold shifted
    rw [beq_eq_false_iff_ne.mpr hb]; rfl
  obtain ⟨rfl, hr', ho', hc'⟩ := C69_accepted_partial hr hm ha h0 h1 h3 h4 ht hT heT hEN hi hs hf hfc he hn hz hq hin hlim hv hj hh
  obtain ⟨code, hcode, hput⟩ := C69_write_partial hr hm hM hi hs hf hfc he hn hz hq (by omega) (by omega) hlim hv hj hh
  simp only [Option.some.injEq, Outcome.done.injEq] at hcode
  obtain ⟨M', hM', hputs, -⟩ := hput hcode.symm
  have hfr' : Faithful s' cr := by unfold Faithful; rw [hc']; exact hfr
  obtain ⟨rfl, v', rfl, hget⟩ := C69_read_partial (e := e) hr' ho' hM' hi hb (fun h => fits_congr hc' (hf h)) hfr' (by rw [hc']; exact he) hn hz hq (by omega) (by omega) hlim
    (fun ks off hat => absurd (hc' ▸ hat) (hnr ks off)) hh'
  rw [hc'] at hget
  refine ⟨rfl, v', rfl, fun ks ty off hat hnn => ?_⟩
  have p := hputs ks ty off hat
  have g := hget ks ty 1 off hat
  obtain ⟨e', w1, w2, w3⟩ := hat.within hr rfl hf he
  have bytes : ∀ w, (ty, w) ∈ elemBytes → slice (memBytes M' i h.byte h.size) (off / 8) w = memBytes M' i ((8 * h.byte + off) / 8) w := by
    intro w hw
    have hnb : ty ≠ DAX_BOOL := fun hb => by
      rw [hb] at hw; exact absurd hw (by simp [elemBytes, DAX_BOOL, DAX_BYTE, DAX_SINT, DAX_CHAR, DAX_WORD, DAX_INT, DAX_UINT, DAX_DWORD, DAX_DINT, DAX_UDINT, DAX_REAL, DAX_LWORD, DAX_LINT, DAX_ULINT, DAX_TIME, DAX_LREAL])
    have h8 : e' = 8 * w := by
      rcases w1 with ⟨h2, -⟩ | ⟨w', h2, rfl⟩
      · exact absurd h2 hnb
      · exact ElemBits.det (tbl := []) (t := ty) (.inr (.inl ⟨w', h2, rfl⟩)) (.inr (.inl ⟨w, hw, rfl⟩))
    have := w3 hnb
    rw [slice_mem (by omega), show (8 * h.byte + off) / 8 = h.byte + off / 8 by omega]
  refine ⟨fun hbt => ?_, fun w sg n hi hch hx hlt => ?_, fun hd => ?_⟩
  · have hpos : 0 < e' := by
      rcases w1 with ⟨-, rfl⟩ | ⟨w, h, rfl⟩
      · decide
      · have := (elem_pos h).1; omega
    have h2 := g.bool hbt rfl
    rw [bitAt_mem (by omega)] at h2
    refine ⟨?_, _, h2⟩
    rw [h2, ← p.bool hnn hbt]
    simp only [Val.bool.injEq]
  · have hmem : (ty, w) ∈ elemBytes := by
      simp only [intTypes, List.mem_cons, List.not_mem_nil, or_false, Prod.mk.injEq] at hi
      rcases hi with h|h|h|h|h|h|h|h|h|h|h|h <;> obtain ⟨rfl, rfl, rfl⟩ := h <;> decide
    have h1 := p.int w sg n hi hx
    rw [← bytes w hmem] at h1
    rw [← h1]
    refine g.int w sg hi rfl hch fun hw => ?_
    obtain ⟨rfl, rfl⟩ := hw
    unfold intVal at h1
    simp only [Bool.false_eq_true, if_false] at h1
    omega
  · obtain ⟨d, h1, h2⟩ := p.lreal hnn hd
    refine ⟨d, h1, ?_⟩
    rw [← bytes 8 (by rw [hd]; decide)] at h2
    rw [g.lreal hd rfl, h2]
    congr 1
    exact BitVec.ofNat_toNat ..

/-! ## Instances -/

/-- Two elements of a compound type. -/
def luaTagDemo : List Op := demoOps ++ [.req 5 (.cdtCreate (nm "Pv:x,DINT,1:b,BOOL,3")), .req 5 (.tagAdd 0x80000002 2 0 (nm "P"))]

theorem luaTagDemo_reachable : Reachable (demo luaTagDemo) := demo_reachable (by decide +kernel)

theorem noMaps_luaTag (i : Nat) (name : Name) (h : LiveAt (demo luaTagDemo) i name) : NoMaps (demo luaTagDemo) i := by
  obtain ⟨t, ht, -⟩ := (liveAt_iff luaTagDemo_reachable.wf).mp h
  have key : ∀ t ∈ (demo luaTagDemo).db, t.wildMaps = false ∧ t.maps = [] := by decide +kernel
  exact (noMaps_iff ht).mpr (key t (List.mem_of_getElem? ht))

theorem luaTagDemo_pv : (demo luaTagDemo).cdts[2]? = some { name := nm "Pv", members := [⟨nm "x", DAX_DINT, 1⟩, ⟨nm "b", DAX_BOOL, 3⟩], refcount := 1 } := by kernel_rfl

theorem luaTagDemo_elem : ElemBits (demo luaTagDemo).cdts 0x80000002 40 := .inr (.inr ⟨⟨by decide, by decide⟩, 5, by kernel_rfl, rfl⟩)

theorem luaTagDemo_fetchable : Fetchable (demo luaTagDemo) 0x80000002 := by
  refine .mk _ (nm "Pv") [(nm "x", nm "DINT", 1), (nm "b", nm "BOOL", 3)] (fun _ => 0)
      ⟨⟨by decide, by decide⟩, fun fd => by kernel_rfl⟩ (by decide) (by decide) (by decide) ?_ ?_ <;>
    · intro f hf hb
      exfalso; revert f; decide

theorem luaTagDemo_fits : Fits 248 (demo luaTagDemo) 0x80000002 := by
  refine .mk _ _ 35 luaTagDemo_fetchable luaTagDemo_pv (.cons _ _ 0 32 35 (.inr (.inl ⟨4, by decide, rfl⟩)) (.cons _ _ 32 1 35 (.inl ⟨rfl, rfl⟩) (.nil 35)))
      (by omega) (by omega) (by decide) (fun m hm hc => ?_)
  simp only [List.mem_cons, List.not_mem_nil, or_false] at hm
  rcases hm with rfl | rfl
  · exact absurd hc.1 (by decide)
  · exact absurd hc.1 (by decide)

/-- `{b = {nil, true}, x = -2}`. -/
def luaPv : Val := .tbl [(.str (nm "b"), .tbl [(.int 2, .bool true)]), (.str (nm "x"), .int (-2))]

theorem luaPv_shaped : Shaped (demo luaTagDemo).cdts 0x80000002 1 luaPv := by
  refine .struct _ _ _ ⟨by decide, by decide⟩ luaTagDemo_pv (fun m hm h _ => ?_) (fun m hm _ => ?_) <;> simp only [List.mem_cons, List.not_mem_nil, or_false] at hm <;> rcases hm with rfl | rfl
  · rfl
  · cases h
  · exact .base _ _ (fun h => absurd h.1 (by decide)) (.inr (.inl ⟨4, true, -2, by decide, .inl rfl, by decide, by decide⟩))
  · refine .arr _ 3 _ (by decide) fun i hi hne => ?_
    have hi : i = 0 ∨ i = 1 ∨ i = 2 := by omega
    rcases hi with rfl | rfl | rfl
    · exact absurd rfl hne
    · exact .base _ _ not_compound_bool (.inl ⟨rfl, fun h => by cases h⟩)
    · exact absurd rfl hne

/-- Instance of the hypotheses of `C69_write_partial`, `C69_accepted_partial` and `C69_read_partial`: `{b = {nil, true}, x = -2}` written to the second of two elements of compound type, what is sent,
and what is read afterwards. -/
example : Reachable (demo luaTagDemo) ∧ AttrAt (demo luaTagDemo) 16 0 ∧ LiveTag (demo luaTagDemo) 16 (nm "P") 0x80000002 2 ∧ Fits 248 (demo luaTagDemo) 0x80000002 ∧
    Shaped (demo luaTagDemo).cdts 0x80000002 1 luaPv ∧ ElemBits (demo luaTagDemo).cdts 0x80000002 40 ∧ (∃ M, Agrees M (demo luaTagDemo)) ∧
    (∀ i name, LiveAt (demo luaTagDemo) i name → NoMaps (demo luaTagDemo) i) ∧
    (luaTagWrite luaEnv (demo luaTagDemo) 5 [] ⟨16, 5, 0, 1, 5, 0x80000002⟩ luaPv (List.replicate 5 0xAA) >>= fun r => C.ok (r.2.2.1, r.2.2.2)) =
      .ok ([(.tagMWrite 16 5 [0xFE, 0xFF, 0xFF, 0xFF, 0xAA] [0xFF, 0xFF, 0xFF, 0xFF, 2], .resp [])], some (.done 0)) ∧
    (luaTagRead (demo (luaTagDemo ++ [.req 5 (.tagMWrite 16 5 [0xFE, 0xFF, 0xFF, 0xFF, 0xAA] [0xFF, 0xFF, 0xFF, 0xFF, 2])])) 6 [] ⟨16, 5, 0, 1, 5, 0x80000002⟩ >>=
      fun r => C.ok (r.2.2.2.1, r.2.2.2.2.map fun v => [valAt v [.str (nm "x")], valAt v [.str (nm "b"), .int 1], valAt v [.str (nm "b"), .int 2]])) =
      .ok (.done 0, some [.int (-2), .bool false, .bool true]) :=
  ⟨luaTagDemo_reachable, ⟨by decide, nm "P", 0x80000002, 2, fun fd => by kernel_rfl⟩, ⟨by decide, by decide, 0, fun fd => by kernel_rfl⟩, luaTagDemo_fits,
   luaPv_shaped, luaTagDemo_elem, agrees_exists luaTagDemo_reachable, noMaps_luaTag, by kernel_rfl, by kernel_rfl⟩

/-- Instance of the hypotheses of `C69_round_partial`: of the last three INTs of "Speed" the second is left out. -/
example : AttrAt (demo demoOps) 13 0 ∧ LiveTag (demo demoOps) 13 (nm "Speed") DAX_INT 4 ∧ ElemBits (demo demoOps).cdts DAX_INT 16 ∧
    Shaped (demo demoOps).cdts DAX_INT 3 (.tbl [(.int 1, .int (-5)), (.int 3, .int 300)]) ∧ (∀ ks off, ¬ At (demo demoOps).cdts DAX_INT 3 ks DAX_REAL 1 off) ∧
    (luaTagWrite luaEnv (demo demoOps) 5 [] ⟨13, 2, 0, 3, 6, DAX_INT⟩ (.tbl [(.int 1, .int (-5)), (.int 3, .int 300)]) (List.replicate 6 0xAA) >>= fun r => C.ok (r.2.2.1, r.2.2.2)) =
      .ok ([(.tagMWrite 13 2 [0xFB, 0xFF, 0xAA, 0xAA, 0x2C, 0x01] [0xFF, 0xFF, 0, 0, 0xFF, 0xFF], .resp [])], some (.done 0)) ∧
    (luaTagRead (demo (demoOps ++ [.req 5 (.tagMWrite 13 2 [0xFB, 0xFF, 0xAA, 0xAA, 0x2C, 0x01] [0xFF, 0xFF, 0, 0, 0xFF, 0xFF])])) 6 [] ⟨13, 2, 0, 3, 6, DAX_INT⟩ >>=
      fun r => C.ok (r.2.2.2.1, r.2.2.2.2.map fun v => [valAt v [.int 1], valAt v [.int 2], valAt v [.int 3]])) = .ok (.done 0, some [.int (-5), .int 0x0605, .int 300]) := by
  refine ⟨⟨by decide, nm "Speed", DAX_INT, 4, fun fd => by kernel_rfl⟩, ⟨by decide, by decide, 0, fun fd => by kernel_rfl⟩, .inr (.inl ⟨2, by decide, rfl⟩), .arr _ _ _ (by decide) fun i hi hne => ?_,
    fun ks off ha => ?_, by kernel_rfl, by kernel_rfl⟩
  · have hi : i = 0 ∨ i = 1 ∨ i = 2 := by omega
    rcases hi with rfl | rfl | rfl
    · exact .base _ _ (fun h => absurd h.1 (by decide)) (.inr (.inl ⟨2, true, -5, by decide, .inl rfl, by decide, by decide⟩))
    · exact absurd rfl hne
    · exact .base _ _ (fun h => absurd h.1 (by decide)) (.inr (.inl ⟨2, true, 300, by decide, .inl rfl, by decide, by decide⟩))
  · rcases ha.base (fun h => absurd h.1 (by decide)) with ⟨_, _, h, _⟩ | ⟨_, _, h, _⟩ | ⟨_, _, _, _, _, _, h, _⟩ <;> exact absurd h (by decide)

/-- Instance of the hypotheses of `C69_bools_partial` and `C69_read_bools`: two BOOLs from bit 7 of "Flags" on. -/
example : Bools ⟨14, 0, 7, 2, 2, DAX_BOOL⟩ ∧ shifted ⟨14, 0, 7, 2, 2, DAX_BOOL⟩ = true ∧ Shaped (demo demoOps).cdts DAX_BOOL 2 (.tbl [(.int 1, .bool true), (.int 2, .bool false)]) ∧
    Complete (demo demoOps).cdts DAX_BOOL 2 (.tbl [(.int 1, .bool true), (.int 2, .bool false)]) ∧
    (luaTagWrite luaEnv (demo demoOps) 5 [] ⟨14, 0, 7, 2, 2, DAX_BOOL⟩ (.tbl [(.int 1, .bool true), (.int 2, .bool false)]) [0xAA, 0xAA] >>= fun r => C.ok (r.2.2.1, r.2.2.2)) =
      .ok ([(.tagMWrite 14 0 [0x80, 0] [0x80, 1], .resp [])], some (.done 0)) := by
  refine ⟨⟨rfl, by decide, by decide, by decide⟩, rfl, .arr _ _ _ (by decide) fun i hi _ => ?_, fun ks ty off ha => ?_, by kernel_rfl⟩
  · have hi : i = 0 ∨ i = 1 := by omega
    rcases hi with rfl | rfl <;> exact .base _ _ not_compound_bool (.inl ⟨rfl, fun h => by cases h⟩)
  · rcases ha.base not_compound_bool with ⟨h, _⟩ | ⟨_, _, _, h, _⟩ | ⟨i, e, _, hi, _, rfl, -⟩
    · omega
    · omega
    · have hi : i = 0 ∨ i = 1 := by omega
      rcases hi with rfl | rfl <;> exact fun h => by cases h

/-! ## What does not hold -/

/-- **C69 fails**: of three BOOLs in the first byte of "Flags" only the first is given, but all are written: the others become what `malloc` left (first all bits set, then none). -/
theorem C69_bools_left_out : Reachable (demo demoOps) ∧ Shaped (demo demoOps).cdts DAX_BOOL 3 (.tbl [(.int 1, .bool true)]) ∧
    (luaTagWrite luaEnv (demo demoOps) 5 [] ⟨14, 0, 0, 3, 1, DAX_BOOL⟩ (.tbl [(.int 1, .bool true)]) [0xFF] >>= fun r => C.ok (r.2.2.1, r.2.2.2)) =
      .ok ([(.tagMWrite 14 0 [7] [7], .resp [])], some (.done 0)) ∧
    (luaTagWrite luaEnv (demo demoOps) 5 [] ⟨14, 0, 0, 3, 1, DAX_BOOL⟩ (.tbl [(.int 1, .bool true)]) [0x00] >>= fun r => C.ok (r.2.2.1, r.2.2.2)) =
      .ok ([(.tagMWrite 14 0 [1] [7], .resp [])], some (.done 0)) := by
  refine ⟨demoOps_reachable, .arr _ _ _ (by decide) fun i hi hne => ?_, by kernel_rfl, by kernel_rfl⟩
  have hi : i = 0 ∨ i = 1 ∨ i = 2 := by omega
  rcases hi with rfl | rfl | rfl
  · exact .base _ _ not_compound_bool (.inl ⟨rfl, fun h => by cases h⟩)
  · exact absurd rfl hne
  · exact absurd rfl hne

end Dax
