import Verif.Spec.Maps
import Verif.Lemmas.EventKinds
import Verif.Props.ReadOnly
/-!
# Lemmas about data mappings
-/
set_option autoImplicit false
namespace Dax

/-! ## Bits -/

theorem bitAt_replicate (n k : Nat) : bitAt (List.replicate n 0) k = false := by
  unfold bitAt bitOf
  rw [List.getElem?_replicate]
  split <;> rename_i h <;> split at h <;> simp_all
  subst h; simp

theorem maskLoop_bits : ∀ (r p : Nat) (mask : List Byte) {mask' : List Byte},
    maskLoop r p mask = .ok mask' → mask'.length = mask.length ∧ (0 < r → p + r ≤ 8 * mask.length) ∧
      ∀ k, bitAt mask' k = (bitAt mask k || decide (p ≤ k ∧ k < p + r)) := by
  intro r
  induction r with
  | zero =>
    intro p mask mask' h
    simp only [maskLoop, C.ok.injEq] at h
    subst h
    refine ⟨rfl, by omega, fun k => ?_⟩
    rw [decide_eq_false (by omega)]; simp
  | succ r ih =>
    intro p mask mask' h
    simp only [maskLoop] at h
    split at h
    · simp at h
    rename_i b hb
    have hl := (List.getElem?_eq_some_iff.mp hb).1
    obtain ⟨h1, h2, h3⟩ := ih _ _ h
    rw [List.length_set] at h1 h2
    refine ⟨h1, fun _ => ?_, fun k => ?_⟩
    · rcases Nat.eq_zero_or_pos r with h0 | h0
      · omega
      · have := h2 h0; omega
    · rw [h3, bitAt_set hb]
      by_cases he : k / 8 = p / 8
      · rw [← he] at hb
        rw [if_pos he, set_bit (Nat.mod_lt _ (by omega)), bitAt_get hb]
        by_cases hk : k = p
        · subst hk; simp
        · rw [if_neg (by omega)]
          congr 1
          apply decide_eq_decide.mpr
          omega
      · rw [if_neg he]
        congr 1
        apply decide_eq_decide.mpr
        constructor
        · omega
        · intro h
          have : k ≠ p := fun e => he (by rw [e])
          omega

theorem moveBits_bits {src : List Byte} {base : Nat} : ∀ (r p q : Nat) (out : List Byte) {out' : List Byte},
    moveBits src (base : Int) r p q out = .ok out' → out'.length = out.length ∧
      ∀ k, bitAt out' k = (bitAt out k || (decide (q ≤ k ∧ k < q + r) && bitAt src (8 * base + p + (k - q)))) := by
  intro r
  induction r with
  | zero =>
    intro p q out out' h
    simp only [moveBits, C.ok.injEq] at h
    subst h
    refine ⟨rfl, fun k => ?_⟩
    rw [decide_eq_false (by omega)]; simp
  | succ r ih =>
    intro p q out out' h
    simp only [moveBits] at h
    obtain ⟨b, hb, h⟩ := C.bind_eq_ok.mp h
    obtain ⟨-, hb⟩ := getB_ok hb
    have e2 : ((base : Int) + (p / 8 : Nat)).toNat = (8 * base + p) / 8 := by omega
    rw [e2] at hb
    have hm : (8 * base + p) % 8 = p % 8 := by omega
    have hk : p % 8 < 8 := Nat.mod_lt _ (by omega)
    have hpb := bitAt_get hb
    rw [hm] at hpb
    have hsh : ∀ k, q < k → 8 * base + (p + 1) + (k - (q + 1)) = 8 * base + p + (k - q) := by
      intro k hk; omega
    have hdec : ∀ k, k ≠ q → decide (q + 1 ≤ k ∧ k < q + 1 + r) = decide (q ≤ k ∧ k < q + (r + 1)) := by
      intro k hk; apply decide_eq_decide.mpr; omega
    split at h
    · rename_i hset
      have hbit : bitAt src (8 * base + p) = true := by
        rw [hpb]
        cases hx : b.getLsbD (p % 8)
        · exact absurd ((and_bitMask_zero hk).mpr hx) hset
        · rfl
      split at h
      · simp at h
      rename_i o ho
      obtain ⟨h1, h3⟩ := ih _ _ _ h
      rw [List.length_set] at h1
      refine ⟨h1, fun k => ?_⟩
      rw [h3, bitAt_set ho]
      by_cases hkq : k = q
      · subst hkq
        rw [if_pos rfl, set_bit (Nat.mod_lt _ (by omega)), if_pos rfl]
        simp [hbit]
      · rw [hdec k hkq]
        have hsame : (if k / 8 = q / 8 then (o ||| bitMask (q % 8)).getLsbD (k % 8) else bitAt out k) = bitAt out k := by
          by_cases he : k / 8 = q / 8
          · rw [if_pos he, set_bit (Nat.mod_lt _ (by omega)), if_neg (by omega)]
            rw [← he] at ho
            rw [bitAt_get ho]
          · rw [if_neg he]
        rw [hsame]
        by_cases hlt : q < k
        · rw [hsh k hlt]
        · rw [decide_eq_false (by omega)]; simp
    · rename_i hset
      have hbit : bitAt src (8 * base + p) = false := by
        rw [hpb]
        exact (and_bitMask_zero hk).mp (by simpa using hset)
      obtain ⟨h1, h3⟩ := ih _ _ _ h
      refine ⟨h1, fun k => ?_⟩
      rw [h3]
      by_cases hkq : k = q
      · subst hkq
        rw [decide_eq_false (by omega)]
        simp [hbit]
      · rw [hdec k hkq]
        by_cases hlt : q < k
        · rw [hsh k hlt]
        · rw [decide_eq_false (by omega)]; simp

theorem wr_bits {b : List Byte} {off : Int} {d b' : List Byte} (h : wr b off d = .ok b') (k : Nat) :
    bitAt b' k = if 8 * off.toNat ≤ k ∧ k < 8 * (off.toNat + d.length) then bitAt d (k - 8 * off.toNat) else bitAt b k := by
  unfold bitAt bitOf
  rw [wr_get h]
  by_cases hk : 8 * off.toNat ≤ k ∧ k < 8 * (off.toNat + d.length)
  · rw [if_pos hk, if_pos (by omega)]
    have e1 : (k - 8 * off.toNat) / 8 = k / 8 - off.toNat := by omega
    have e2 : (k - 8 * off.toNat) % 8 = k % 8 := by omega
    rw [e1, e2]
  · rw [if_neg hk, if_neg (by omega)]

theorem rd_bits {b : List Byte} {off n : Int} {d : List Byte} (h : rd b off n = .ok d) (k : Nat) (hk : k < 8 * n.toNat) :
    bitAt d k = bitAt b (8 * off.toNat + k) := by
  unfold bitAt bitOf
  rw [rd_get h, if_pos (by omega)]
  have e1 : (8 * off.toNat + k) / 8 = off.toNat + k / 8 := by omega
  have e2 : (8 * off.toNat + k) % 8 = k % 8 := by omega
  rw [e1, e2]

theorem merge_bits {a m o : List Byte} (h1 : m.length = a.length) (h2 : o.length = a.length) (k : Nat) :
    bitAt (maskMerge a m o) k = if bitAt m k then bitAt a k else bitAt o k := by
  by_cases hk : k / 8 < a.length
  · have ha := List.getElem?_eq_getElem hk
    have hm := List.getElem?_eq_getElem (l := m) (i := k / 8) (by omega)
    have ho := List.getElem?_eq_getElem (l := o) (i := k / 8) (by omega)
    have hg := maskMerge_get a m o _ _ _ _ ha hm ho
    rw [bitAt_get hg, bitAt_get ha, bitAt_get hm, bitAt_get ho]
    have hc : k % 8 < 8 := Nat.mod_lt _ (by omega)
    simp only [BitVec.getLsbD_or, BitVec.getLsbD_and, BitVec.getLsbD_not]
    cases (m[k / 8]).getLsbD (k % 8) <;> simp [hc]
  · have hl := maskMerge_length a m o
    have hn : ∀ x : List Byte, x.length ≤ a.length → bitAt x k = false := by
      intro x hx
      unfold bitAt bitOf
      rw [List.getElem?_eq_none (by omega)]
    rw [hn m (by omega), hn o (by omega), hn _ (by omega)]
    simp

/-! ## What a transfer does to the stored bytes -/

/-- Only bits satisfying `P` (tag, bit) change. -/
structure Bits (P : Nat → Nat → Prop) (s s' : Server) : Prop where
  cdts : s'.cdts = s.cdts
  len : s'.db.length = s.db.length
  tag : ∀ (j : Nat) (t : Tag), s.db[j]? = some t → ∃ t', s'.db[j]? = some t' ∧ t'.attr = t.attr ∧ t'.type = t.type ∧
    t'.count = t.count ∧ (∀ b, t.data = .mem b → ∃ b', t'.data = .mem b' ∧ b'.length = b.length ∧
      ∀ k, ¬ P j k → bitAt b' k = bitAt b k) ∧ (∀ b', t'.data = .mem b' → ∃ b, t.data = .mem b)

theorem Bits.refl (P : Nat → Nat → Prop) (s : Server) : Bits P s s :=
  ⟨rfl, rfl, fun _ t h => ⟨t, h, rfl, rfl, rfl, fun b hb => ⟨b, hb, rfl, fun _ _ => rfl⟩, fun b hb => ⟨b, hb⟩⟩⟩

theorem Bits.trans {P Q : Nat → Nat → Prop} {a b c : Server} (h1 : Bits P a b) (h2 : Bits Q b c) :
    Bits (fun j k => P j k ∨ Q j k) a c := by
  refine ⟨h2.cdts.trans h1.cdts, h2.len.trans h1.len, fun j t ht => ?_⟩
  obtain ⟨t1, ht1, a1, b1, c1, d1, e1⟩ := h1.tag j t ht
  obtain ⟨t2, ht2, a2, b2, c2, d2, e2⟩ := h2.tag j t1 ht1
  refine ⟨t2, ht2, a2.trans a1, b2.trans b1, c2.trans c1, fun x hx => ?_, fun x hx => ?_⟩
  · obtain ⟨y, hy, hl, hb⟩ := d1 x hx
    obtain ⟨z, hz, hl2, hb2⟩ := d2 y hy
    exact ⟨z, hz, hl2.trans hl, fun k hk => (hb2 k (fun h => hk (.inr h))).trans (hb k (fun h => hk (.inl h)))⟩
  · obtain ⟨y, hy⟩ := e2 x hx
    exact e1 y hy

theorem Bits.mono {P Q : Nat → Nat → Prop} {a b : Server} (h : Bits P a b) (hpq : ∀ j k, P j k → Q j k) : Bits Q a b := by
  refine ⟨h.cdts, h.len, fun j t ht => ?_⟩
  obtain ⟨t1, ht1, a1, b1, c1, d1, e1⟩ := h.tag j t ht
  refine ⟨t1, ht1, a1, b1, c1, fun x hx => ?_, e1⟩
  obtain ⟨y, hy, hl, hb⟩ := d1 x hx
  exact ⟨y, hy, hl, fun k hk => hb k (fun h => hk (hpq _ _ h))⟩

/-- Bits of a tag's data, before and after. -/
theorem Bits.fwd {P : Nat → Nat → Prop} {a b : Server} (h : Bits P a b) {j : Nat} {x : List Byte} (hx : TagData a j x) :
    ∃ y, TagData b j y ∧ y.length = x.length ∧ ∀ k, ¬ P j k → bitAt y k = bitAt x k := by
  obtain ⟨t, ht, hd⟩ := hx
  obtain ⟨t1, ht1, -, -, -, d1, -⟩ := h.tag j t ht
  obtain ⟨y, hy, hl, hb⟩ := d1 x hd
  exact ⟨y, ⟨t1, ht1, hy⟩, hl, hb⟩

theorem Bits.back {P : Nat → Nat → Prop} {a b : Server} (h : Bits P a b) {j : Nat} {y : List Byte} (hy : TagData b j y) :
    ∃ x, TagData a j x ∧ y.length = x.length ∧ ∀ k, ¬ P j k → bitAt y k = bitAt x k := by
  obtain ⟨t', ht', hd⟩ := hy
  have hlt : j < a.db.length := by rw [← h.len]; exact (List.getElem?_eq_some_iff.mp ht').1
  obtain ⟨t1, ht1, -, -, -, d1, e1⟩ := h.tag j _ (List.getElem?_eq_getElem hlt)
  rw [ht'] at ht1; cases ht1
  obtain ⟨x, hx⟩ := e1 y hd
  obtain ⟨y', hy', hl, hb⟩ := d1 x hx
  rw [hd] at hy'; cases hy'
  exact ⟨x, ⟨_, List.getElem?_eq_getElem hlt, hx⟩, hl, hb⟩

theorem Bits.open_back {P : Nat → Nat → Prop} {a b : Server} (h : Bits P a b) {j : Nat} {y : List Byte} (hy : OpenData b j y) :
    ∃ x, OpenData a j x ∧ y.length = x.length ∧ ∀ k, ¬ P j k → bitAt y k = bitAt x k := by
  obtain ⟨t', ht', hd, hv, hsp⟩ := hy
  have hlt : j < a.db.length := by rw [← h.len]; exact (List.getElem?_eq_some_iff.mp ht').1
  obtain ⟨t1, ht1, ha, -, -, d1, e1⟩ := h.tag j _ (List.getElem?_eq_getElem hlt)
  rw [ht'] at ht1; cases ht1
  obtain ⟨x, hx⟩ := e1 y hd
  obtain ⟨y', hy', hl, hb⟩ := d1 x hx
  rw [hd] at hy'; cases hy'
  exact ⟨x, ⟨_, List.getElem?_eq_getElem hlt, hx, by rw [← ha]; exact hv, by rw [← ha]; exact hsp⟩, hl, hb⟩

theorem TagData.uniq {s : Server} {i : Nat} {a b : List Byte} (h1 : TagData s i a) (h2 : TagData s i b) : a = b := by
  obtain ⟨t, ht, hd⟩ := h1
  obtain ⟨u, hu, he⟩ := h2
  rw [ht] at hu; cases hu
  rw [hd] at he; cases he; rfl

theorem OpenData.data {s : Server} {i : Nat} {a : List Byte} (h : OpenData s i a) : TagData s i a := by
  obtain ⟨t, ht, hd, -⟩ := h; exact ⟨t, ht, hd⟩

theorem setTag_bits {s s' : Server} {P : Nat → Nat → Prop} {idx : Int} {t t' : Tag} (ht : s.tag? idx = some t)
    (hdb : s'.db = (s.setTag idx t').db) (hc : s'.cdts = s.cdts)
    (ha : t'.attr = t.attr ∧ t'.type = t.type ∧ t'.count = t.count)
    (hd : (∀ b, t.data = .mem b → ∃ b', t'.data = .mem b' ∧ b'.length = b.length ∧
      ∀ k, ¬ P idx.toNat k → bitAt b' k = bitAt b k) ∧ (∀ b', t'.data = .mem b' → ∃ b, t.data = .mem b)) : Bits P s s' := by
  have hl := (List.getElem?_eq_some_iff.mp (tag?_eq.mp ht).2).1
  refine ⟨hc, by rw [hdb]; simp [Server.setTag], fun j u hu => ?_⟩
  rw [hdb]
  simp only [Server.setTag]
  by_cases hj : idx.toNat = j
  · subst hj
    rw [(tag?_eq.mp ht).2] at hu
    cases hu
    exact ⟨t', List.getElem?_set_self hl, ha.1, ha.2.1, ha.2.2, hd⟩
  · rw [List.getElem?_set_ne hj]
    exact ⟨u, hu, rfl, rfl, rfl, fun b hb => ⟨b, hb, rfl, fun _ _ => rfl⟩, fun b hb => ⟨b, hb⟩⟩

theorem WriteDone.bits {s s' : Server} {idx off : Int} {d : List Byte} {n : Nat} (h : WriteDone s idx off d n s') :
    Bits (fun j k => j = idx.toNat ∧ 8 * off.toNat ≤ k ∧ k < 8 * (off.toNat + d.length)) s s' := by
  obtain ⟨t, b, b', evs, ns, rt, ht, -, hb, hw, -, rfl⟩ := h.ex
  refine setTag_bits ht (t' := { t with data := .mem b', events := evs }) rfl rfl ⟨rfl, rfl, rfl⟩ ⟨fun x hx => ?_, fun x _ => ⟨b, hb⟩⟩
  rw [hb] at hx; cases hx
  refine ⟨b', rfl, wr_length hw, fun k hk => ?_⟩
  rw [wr_bits hw, if_neg (fun h => hk ⟨rfl, h⟩)]

theorem QueueDone.bits {s s' : Server} {idx off : Int} {d : List Byte} (h : QueueDone s idx off d s') (P : Nat → Nat → Prop) :
    Bits P s s' := by
  obtain ⟨t, q, q', evs, ns, ht, -, hb, -, -, rfl⟩ := h
  refine setTag_bits ht (t' := { t with data := .queue q', events := evs }) rfl rfl ⟨rfl, rfl, rfl⟩ ⟨fun x hx => ?_, fun x hx => ?_⟩
  · rw [hb] at hx; cases hx
  · cases hx

theorem mapDel_bits {s s' : Server} {idx id r : Int} (h : mapDel s idx id = .ok (s', r)) (P : Nat → Nat → Prop) : Bits P s s' := by
  unfold mapDel at h
  split at h
  · simp only [C.ok.injEq, Prod.mk.injEq] at h; rw [← h.1]; exact .refl _ _
  rename_i t ht
  split at h
  · simp at h
  split at h
  · simp at h
  have key : ∀ ms, Bits P s (s.setTag idx { t with maps := ms }) := fun ms =>
    setTag_bits ht (t' := { t with maps := ms }) rfl rfl ⟨rfl, rfl, rfl⟩
      ⟨fun x hx => ⟨x, hx, rfl, fun _ _ => rfl⟩, fun x hx => ⟨x, hx⟩⟩
  split at h
  · simp only [C.ok.injEq, Prod.mk.injEq] at h; rw [← h.1]; exact key _
  split at h
  · simp only [C.ok.injEq, Prod.mk.injEq] at h; rw [← h.1]; exact key _
  · simp only [C.ok.injEq, Prod.mk.injEq] at h; rw [← h.1]; exact .refl _ _

/-- The bits a mapping may change. -/
def mapPart (m : DMap) (j k : Nat) : Prop := j = m.dst.index.toNat ∧ inDest m.src m.dst k

theorem i32_nat {n : Nat} (hn : n < 4294967296) (h : 0 ≤ i32 n) : i32 (n : Int) = n ∧ n < 2147483648 := by
  unfold i32 at *
  split at h <;> rename_i h1
  · rw [if_pos h1]; omega
  · omega

/-- The transfer of one mapping. -/
theorem mapMove_inv {s s' : Server} {m : DMap} {blk : List Byte} {r : Int} (hk : MaskOK m) (hb : m.dst.byte < 4294967296)
    (h : mapMove s m blk = .ok (s', r)) : Bits (mapPart m) s s' ∧ ((s' = s ∧ r ≠ 0) ∨ r = 0) ∧
      (r = 0 → ∀ c, TagData s' m.dst.index.toNat c → ∀ k, k < mapBits m.src →
        bitAt c (mapStart m.src m.dst + k) = bitAt blk (mapStart m.src m.src + k)) := by
  unfold mapMove at h
  have hio : 0 ≤ i32 (m.dst.byte : Int) → (i32 (m.dst.byte : Int)).toNat = m.dst.byte := fun h0 => by
    rw [(i32_nat hb h0).1]; rfl
  generalize i32 (m.dst.byte : Int) = off at h hio
  rcases hk with ⟨hbool, hbit, mk, hml, hmk⟩ | ⟨hbool, hmk⟩
  · rw [hmk] at h
    dsimp only at h
    split at h
    · simp at h
    obtain ⟨d, hd, h⟩ := C.bind_eq_ok.mp h
    obtain ⟨hdl, hdb⟩ := moveBits_bits _ _ _ _ hd
    obtain ⟨hmll, hmr, hmb⟩ := maskLoop_bits _ _ _ hml
    simp only [bitAt_replicate, Bool.false_or, List.length_replicate] at hdb hdl hmb hmll hmr
    have e1 : mapBits m.src = m.src.count := by simp [mapBits, hbool]
    have e2 : ∀ x, mapStart m.src x = 8 * x.byte + x.bit := by simp [mapStart, hbool]
    rcases tagMaskWrite_inv h with ⟨rfl, hr⟩ | ⟨rfl, t, b, old, ht, hdat, hold, hw⟩
    · exact ⟨.refl _ _, .inl ⟨rfl, hr⟩, fun h0 => absurd h0 hr⟩
    obtain ⟨t0, b0, b', evs, ns, rt, ht0, -, hb0, hwr, -, hs'⟩ := hw.ex
    rw [ht] at ht0; cases ht0
    rw [hdat] at hb0; cases hb0
    have hol := rd_length hold
    have hoff := (rd_ok.mp hold).1.1
    have hoff2 := hio hoff
    have hlen : (maskMerge d mk old).length = m.src.size := by rw [maskMerge_length]; omega
    have hbits : ∀ k, bitAt b' k = if inDest m.src m.dst k then bitAt blk (mapStart m.src m.src + (k - mapStart m.src m.dst)) else bitAt b k := by
      intro k
      rw [wr_bits hwr, hoff2, hlen]
      have hid : inDest m.src m.dst k ↔ 8 * m.dst.byte + m.dst.bit ≤ k ∧ k < 8 * m.dst.byte + m.dst.bit + m.src.count := by
        unfold inDest; rw [e1, e2]
      rw [e2, e2]
      by_cases hin : 8 * m.dst.byte ≤ k ∧ k < 8 * (m.dst.byte + m.src.size)
      · rw [if_pos hin, merge_bits (by omega) (by omega), hmb, hdb]
        by_cases hd2 : 8 * m.dst.byte + m.dst.bit ≤ k ∧ k < 8 * m.dst.byte + m.dst.bit + m.src.count
        · rw [if_pos (hid.mpr hd2), decide_eq_true (by omega)]
          simp only [if_true, Bool.true_and]
          congr 1; omega
        · rw [if_neg (fun h => hd2 (hid.mp h)), decide_eq_false (by omega)]
          simp only [Bool.false_eq_true, if_false]
          rw [rd_bits hold _ (by omega), hoff2]
          congr 1; omega
      · rw [if_neg hin, if_neg]
        intro hd2
        rw [hid] at hd2
        have := hmr (by omega)
        omega
    refine ⟨?_, .inr rfl, fun _ c hc k hkl => ?_⟩
    · subst hs'
      refine setTag_bits ht (t' := { t with data := .mem b', events := evs }) rfl rfl ⟨rfl, rfl, rfl⟩ ⟨fun x hx => ?_, fun x _ => ⟨b, hdat⟩⟩
      rw [hdat] at hx; cases hx
      exact ⟨b', rfl, wr_length hwr, fun k hk => by rw [hbits, if_neg (fun h => hk ⟨rfl, h⟩)]⟩
    · have : TagData s' m.dst.index.toNat b' := by
        subst hs'
        have hl := (List.getElem?_eq_some_iff.mp (tag?_eq.mp ht).2).1
        exact ⟨_, by simp only [Server.setTag]; rw [List.getElem?_set_self hl], rfl⟩
      rw [hc.uniq this, hbits, if_pos ⟨by omega, by omega⟩]
      congr 1; omega
  · rw [hmk] at h
    dsimp only at h
    obtain ⟨d, hd, h⟩ := C.bind_eq_ok.mp h
    have e1 : mapBits m.src = 8 * m.src.size := by simp [mapBits, hbool]
    have e2 : ∀ x, mapStart m.src x = 8 * x.byte := by simp [mapStart, hbool]
    have hdl := rd_length hd
    rcases tagWrite_inv h with ⟨rfl, hr⟩ | ⟨rfl, hw⟩ | ⟨rfl, hw⟩
    · exact ⟨.refl _ _, .inl ⟨rfl, hr⟩, fun h0 => absurd h0 hr⟩
    · have hbs := hw.bits
      obtain ⟨t, b, b', evs, ns, rt, ht, -, hdat, hwr, -, hs'⟩ := hw.ex
      have hoff := (wr_ok.mp hwr).1.1
      have hoff2 := hio hoff
      refine ⟨hbs.mono fun j k hjk => ⟨hjk.1, ?_⟩, .inr rfl, fun _ c hc k hkl => ?_⟩
      · unfold inDest; rw [e1, e2]; omega
      · have : TagData s' m.dst.index.toNat b' := by
          subst hs'
          have hl := (List.getElem?_eq_some_iff.mp (tag?_eq.mp ht).2).1
          exact ⟨_, by simp only [Server.setTag]; rw [List.getElem?_set_self hl], rfl⟩
        rw [e1] at hkl
        rw [hc.uniq this, wr_bits hwr, e2, e2, hoff2, if_pos (by omega), rd_bits hd _ (by omega)]
        congr 1; omega
    · refine ⟨hw.bits _, .inr rfl, fun _ c hc => ?_⟩
      obtain ⟨t, q, q', evs, ns, ht, -, hb, -, -, rfl⟩ := hw
      obtain ⟨u, hu, hd⟩ := hc
      have hl := (List.getElem?_eq_some_iff.mp (tag?_eq.mp ht).2).1
      simp only [Server.setTag] at hu
      rw [List.getElem?_set_self hl] at hu
      cases hu
      cases hd

/-- A transfer whose destination lies in an ordinary tag is carried out. -/
theorem mapMove_zero {s s' : Server} {m : DMap} {blk c : List Byte} {r : Int} {j : Nat} {t : Tag} (hk : MaskOK m)
    (hj : m.dst.index = j) (ht : s.db[j]? = some t) (hd : t.data = .mem c) (hv : t.attr.virt = false)
    (hsp : t.attr.special = false) (hsz : tagGetSize s.cdts t = .ok (c.length : Int)) (hin : m.dst.byte + m.src.size ≤ c.length)
    (hsm : c.length < 2147483648) (h : mapMove s m blk = .ok (s', r)) : r = 0 := by
  have hoff : i32 (m.dst.byte : Int) = m.dst.byte := i32_of_range (by omega)
  unfold mapMove at h
  rw [hoff, hj] at h
  have hadd : ∀ n : Nat, n = m.src.size → addI32 (m.dst.byte : Int) n = .ok (m.dst.byte + n) := by
    intro n hn
    exact addI32_ok.mpr ⟨by omega, rfl⟩
  rcases hk with ⟨hbool, hbit, mk, hml, hmk⟩ | ⟨hbool, hmk⟩
  · rw [hmk] at h
    dsimp only at h
    split at h
    · simp at h
    obtain ⟨d, hmv, h⟩ := C.bind_eq_ok.mp h
    have hdl := (moveBits_bits _ _ _ _ hmv).1
    rw [List.length_replicate] at hdl
    unfold tagMaskWrite at h
    split at h
    · simp at h
    rw [tag?_natCast, ht] at h
    simp only [hv, Bool.false_eq_true, if_false, hadd _ hdl, C.ok_bind, hsz, hd, hsp] at h
    rw [if_neg (by omega)] at h
    simp only [ne_eq, not_true, if_false] at h
    obtain ⟨old, -, h⟩ := C.bind_eq_ok.mp h
    obtain ⟨b', -, h⟩ := C.bind_eq_ok.mp h
    exact (commitWrite_inv h).1
  · rw [hmk] at h
    dsimp only at h
    obtain ⟨d, hrd, h⟩ := C.bind_eq_ok.mp h
    have hdl : d.length = m.src.size := by have := rd_length hrd; omega
    unfold tagWrite at h
    rw [tag?_natCast, ht] at h
    simp only [hv, Bool.false_eq_true, if_false, hadd _ hdl, C.ok_bind, hsz, hd, hsp] at h
    rw [if_neg (by omega)] at h
    simp only [ne_eq, not_true, if_false] at h
    obtain ⟨b', -, h⟩ := C.bind_eq_ok.mp h
    exact (commitWrite_inv h).1

/-! ## The loop over the mappings -/

/-- The mappings the loop carries out. -/
def mapSome (ms : List DMap) (off size : Int) (j k : Nat) : Prop :=
  ∃ m ∈ ms, mapOverlap m off size = true ∧ mapPart m j k

/-- One round of the loop. -/
theorem mapLoop_cons {s s' : Server} {idx off size : Int} {m : DMap} {ms : List DMap}
    (h : mapLoop s idx off size (m :: ms) = .ok s') :
    (mapOverlap m off size = false ∧ mapLoop s idx off size ms = .ok s') ∨
    (mapOverlap m off size = true ∧ ∃ t s1 s2 r, s.tag? idx = some t ∧ mapMove s m t.data.block = .ok (s1, r) ∧
      (s2 = s1 ∨ ∃ r2, mapDel s1 m.src.index m.id = .ok (s2, r2)) ∧ (r = 0 → s2 = s1) ∧
      mapLoop s2 idx off size ms = .ok s') := by
  simp only [mapLoop] at h
  split at h
  · rename_i ho
    refine .inr ⟨ho, ?_⟩
    split at h
    · simp at h
    rename_i t ht
    obtain ⟨⟨s1, r⟩, h1, h⟩ := C.bind_eq_ok.mp h
    dsimp only at h
    split at h
    · rename_i hr
      split at h
      · obtain ⟨⟨s2, r2⟩, h2, h⟩ := C.bind_eq_ok.mp h
        exact ⟨t, s1, s2, r, ht, h1, .inr ⟨r2, h2⟩, fun h0 => by rw [hr] at h0; exact absurd h0 (by decide), h⟩
      · simp at h
    · exact ⟨t, s1, s1, r, ht, h1, .inl rfl, fun _ => rfl, h⟩
  · rename_i ho
    exact .inl ⟨by simpa using ho, h⟩

theorem mapLoop_bits {idx off size : Int} : ∀ {ms : List DMap} {s s' : Server},
    (∀ m ∈ ms, MaskOK m ∧ m.dst.byte < 4294967296) → mapLoop s idx off size ms = .ok s' →
    Bits (mapSome ms off size) s s' := by
  intro ms
  induction ms with
  | nil =>
    intro s s' _ h
    simp only [mapLoop, C.ok.injEq] at h
    subst h; exact .refl _ _
  | cons m ms ih =>
    intro s s' hok h
    have hok' : ∀ m ∈ ms, MaskOK m ∧ m.dst.byte < 4294967296 := fun x hx => hok x (List.mem_cons_of_mem _ hx)
    rcases mapLoop_cons h with ⟨-, h⟩ | ⟨ho, t, s1, s2, r, -, hm, hdel, -, h⟩
    · exact (ih hok' h).mono fun j k ⟨x, hx, h⟩ => ⟨x, List.mem_cons_of_mem _ hx, h⟩
    · obtain ⟨hk, hb⟩ := hok m (List.mem_cons_self ..)
      have b1 := (mapMove_inv hk hb hm).1
      have b2 : Bits (mapPart m) s1 s2 := by
        rcases hdel with rfl | ⟨r2, hdel⟩
        · exact .refl _ _
        · exact mapDel_bits hdel _
      refine ((b1.trans b2).trans (ih hok' h)).mono fun j k hjk => ?_
      rcases hjk with (hjk | hjk) | ⟨x, hx, hjk⟩
      · exact ⟨m, List.mem_cons_self .., ho, hjk⟩
      · exact ⟨m, List.mem_cons_self .., ho, hjk⟩
      · exact ⟨x, List.mem_cons_of_mem _ hx, hjk⟩

/-- Contents of destination and source at the end of the loop. -/
theorem mapLoop_copies {i j : Nat} {off size : Int} {src dst : Handle} :
    ∀ {ms : List DMap} {s s' : Server} {t' : Tag} {b c : List Byte},
    (∀ m ∈ ms, MaskOK m ∧ m.dst.byte < 4294967296) → mapLoop s i off size ms = .ok s' →
    (∃ m ∈ ms, mapOverlap m off size = true ∧ m.src = src ∧ m.dst = dst) → dst.index = j →
    TagData s' i b → s'.db[j]? = some t' → t'.data = .mem c → t'.attr.virt = false → t'.attr.special = false →
    tagGetSize s'.cdts t' = .ok (c.length : Int) → dst.byte + src.size ≤ c.length → c.length < 2147483648 →
    (∀ x ∈ ms, mapOverlap x off size = true → (∀ k, inDest src src k → ¬ mapPart x i k) ∧
      (¬ (x.src = src ∧ x.dst = dst) → ∀ k, inDest src dst k → ¬ mapPart x j k)) →
    ∀ k, k < mapBits src → bitAt c (mapStart src dst + k) = bitAt b (mapStart src src + k) := by
  intro ms
  induction ms with
  | nil => rintro s s' t' b c _ _ ⟨m, hm, _⟩; simp at hm
  | cons x ms ih =>
    intro s s' t' b c hok h hm hj hb ht' hc hv hsp hsz hin hsm hdis k hk
    have hok' : ∀ m ∈ ms, MaskOK m ∧ m.dst.byte < 4294967296 := fun x hx => hok x (List.mem_cons_of_mem _ hx)
    have hdis' := fun y (hy : y ∈ ms) => hdis y (List.mem_cons_of_mem _ hy)
    by_cases hin' : ∃ m ∈ ms, mapOverlap m off size = true ∧ m.src = src ∧ m.dst = dst
    · rcases mapLoop_cons h with ⟨-, h⟩ | ⟨ho, t, s1, s2, r, -, -, -, -, h⟩
      · exact ih hok' h hin' hj hb ht' hc hv hsp hsz hin hsm hdis' k hk
      · exact ih hok' h hin' hj hb ht' hc hv hsp hsz hin hsm hdis' k hk
    · obtain ⟨m, hmem, hov, rfl, rfl⟩ := hm
      have hx : m = x := by
        rcases List.mem_cons.mp hmem with h | h
        · exact h
        · exact absurd ⟨m, h, hov, rfl, rfl⟩ hin'
      subst hx
      rcases mapLoop_cons h with ⟨hno, h⟩ | ⟨ho, t, s1, s2, r, hti, hmv, -, hr2, h⟩
      · rw [hov] at hno; simp at hno
      obtain ⟨hmk, hmb⟩ := hok m (List.mem_cons_self ..)
      obtain ⟨b1, hor, hcopy⟩ := mapMove_inv hmk hmb hmv
      have b3 := mapLoop_bits hok' h
      have hball := mapLoop_bits hok (ms := m :: ms) (s := s) (s' := s') (by assumption)
      -- the destination tag at the time of the transfer
      have hlt : j < s.db.length := by rw [← hball.len]; exact (List.getElem?_eq_some_iff.mp ht').1
      obtain ⟨u, hu⟩ : ∃ u, s.db[j]? = some u := ⟨_, List.getElem?_eq_getElem hlt⟩
      obtain ⟨u', hu', ea, et, ec, ed, ee⟩ := hball.tag j u hu
      rw [ht'] at hu'; cases hu'
      obtain ⟨c0, hc0⟩ := ee c hc
      obtain ⟨c1, hc1, hl1, -⟩ := ed c0 hc0
      rw [hc] at hc1; cases hc1
      have hsz0 : tagGetSize s.cdts u = .ok (c0.length : Int) := by
        rw [← hl1, ← hsz]
        unfold tagGetSize
        rw [hball.cdts, et, ec]
      have hr : r = 0 := mapMove_zero hmk hj hu hc0 (by rw [← ea]; exact hv) (by rw [← ea]; exact hsp) hsz0
        (by omega) (by omega) hmv
      rw [hr2 hr] at h
      rw [hr2 hr] at b3
      obtain ⟨cm, hcm, -, hbit⟩ := b3.back (j := j) ⟨t', ht', hc⟩
      obtain ⟨bm, hbm, -, hbbit⟩ := b3.back hb
      obtain ⟨bs, hbs, -, hsbit⟩ := b1.back hbm
      have hjn : m.dst.index.toNat = j := by rw [hj]; rfl
      have hcp := hcopy hr cm (by rw [hjn]; exact hcm) k hk
      rw [hbit _ ?_, hcp, hbbit _ ?_, hsbit _ ?_]
      · have hti' := (tag?_eq.mp hti).2
        obtain ⟨w, hw, hwd⟩ := hbs
        have : ((i : Int)).toNat = i := rfl
        rw [this, hw] at hti'
        cases hti'
        rw [hwd]; rfl
      · exact fun hp => (hdis m (List.mem_cons_self ..) hov).1 _ ⟨by omega, by omega⟩ hp
      · rintro ⟨y, hy, hyo, hyp⟩
        exact (hdis' y hy hyo).1 _ ⟨by omega, by omega⟩ hyp
      · rintro ⟨y, hy, hyo, hyp⟩
        exact (hdis' y hy hyo).2 (fun e => hin' ⟨y, hy, hyo, e.1, e.2⟩) _ ⟨by omega, by omega⟩ hyp

theorem tagGetSize_small {tbl : List Cdt} {t : Tag} {b : List Byte} (h : TagOK tbl t)
    (hb : t.data = .mem b) (hl : b.length < 2147483648) : tagGetSize tbl t = .ok (b.length : Int) := by
  have ha := (h.mem b hb).1
  unfold allocSize at ha
  unfold tagGetSize
  split at ha
  · rename_i hbool
    rw [if_pos hbool]
    simp only [C.ok.injEq] at ha
    rw [ha]
  · rename_i hbool
    rw [if_neg hbool]
    obtain ⟨ts, hts, ha⟩ := C.bind_eq_ok.mp ha
    simp only [C.ok.injEq] at ha
    rw [hts]
    show C.ok (i32 (ts * t.count)) = _
    congr 1
    rw [← ha]
    rw [← ha] at hl
    unfold u32 at hl
    unfold i32 u32
    rw [if_pos (by omega)]
    omega

/-! ## Transfers that always succeed -/

/-- Unwatched ordinary tags stay that way. -/
def KeepQuiet (s s' : Server) : Prop := s'.cdts = s.cdts ∧ s'.dbsize = s.dbsize ∧
  ∀ j c, QuietData s j c → ∃ c', QuietData s' j c' ∧ c'.length = c.length

theorem KeepQuiet.trans {a b c : Server} (h1 : KeepQuiet a b) (h2 : KeepQuiet b c) : KeepQuiet a c := by
  refine ⟨h2.1.trans h1.1, h2.2.1.trans h1.2.1, fun j x hx => ?_⟩
  obtain ⟨y, hy, hl⟩ := h1.2.2 j x hx
  obtain ⟨z, hz, hl2⟩ := h2.2.2 j y hy
  exact ⟨z, hz, hl2.trans hl⟩

theorem WriteDone.keepQuiet {s s' : Server} {idx off : Int} {d : List Byte} {n : Nat} (h : WriteDone s idx off d n s') :
    KeepQuiet s s' := by
  obtain ⟨t, b, b', evs, ns, rt, ht, -, hb, hw, hev, rfl⟩ := h.ex
  refine ⟨rfl, rfl, fun j c hc => ?_⟩
  have hl := (List.getElem?_eq_some_iff.mp (tag?_eq.mp ht).2).1
  obtain ⟨u, hu, hd, h1, h2, h3, h4, h5⟩ := hc
  by_cases hj : idx.toNat = j
  · subst hj
    rw [(tag?_eq.mp ht).2] at hu; cases hu
    rw [hb] at hd; cases hd
    rw [h5] at hev
    simp only [eventCheck, C.ok.injEq, Prod.mk.injEq] at hev
    exact ⟨b', ⟨{ t with data := .mem b', events := evs }, by simp only [Server.setTag]; rw [List.getElem?_set_self hl],
      rfl, h1, h2, h3, h4, hev.1.symm⟩, wr_length hw⟩
  · exact ⟨c, ⟨u, by simp only [Server.setTag]; rw [List.getElem?_set_ne hj]; exact hu, hd, h1, h2, h3, h4, h5⟩, rfl⟩

/-- Writing to an unwatched ordinary tag. -/
theorem tagWrite_quietData {s : Server} {j : Nat} {c d : List Byte} {fd : Int} {off : Nat}
    (htag : ∀ t, s.db[j]? = some t → t.data = .mem c → tagGetSize s.cdts t = .ok (c.length : Int))
    (hq : QuietData s j c) (hin : off + d.length ≤ c.length) (hsm : c.length < 2147483648) :
    ∃ s', tagWrite s fd j off d = .ok (s', 0) ∧ KeepQuiet s s' := by
  obtain ⟨t, ht, hd, hv, hs, hro, hre, hev⟩ := hq
  obtain ⟨b', hb'⟩ := wr_total (b := c) (off := (off : Int)) (d := d) (by omega)
  have hadd : addI32 (off : Int) d.length = .ok (off + d.length) := addI32_ok.mpr ⟨by omega, rfl⟩
  have he : ∃ s', tagWrite s fd j off d = .ok (s', 0) := by
    unfold tagWrite
    rw [tag?_natCast, ht]
    simp only [hv, Bool.false_eq_true, if_false, hadd, C.ok_bind, htag t ht hd, hd, hs]
    rw [if_neg (by omega)]
    simp only [ne_eq, not_true, if_false, hb', C.ok_bind, commitWrite, hev, eventCheck, hre, Bool.false_eq_true]
    exact ⟨_, rfl⟩
  obtain ⟨s', h⟩ := he
  refine ⟨s', h, ?_⟩
  rcases tagWrite_inv h with ⟨-, h⟩ | ⟨-, h⟩ | ⟨-, t2, q, q', evs, ns, ht2, hv2, -⟩
  · exact absurd rfl h
  · exact h.keepQuiet
  · rw [tag?_natCast, ht] at ht2; cases ht2; rw [hv] at hv2; simp at hv2

theorem tagMaskWrite_quietData {s : Server} {j : Nat} {c d m : List Byte} {fd : Int} {off : Nat} (hdb : s.db.length ≤ s.dbsize)
    (htag : ∀ t, s.db[j]? = some t → t.data = .mem c → tagGetSize s.cdts t = .ok (c.length : Int))
    (hq : QuietData s j c) (hin : off + d.length ≤ c.length) (hsm : c.length < 2147483648) :
    ∃ s', tagMaskWrite s fd j off d m = .ok (s', 0) ∧ KeepQuiet s s' := by
  obtain ⟨t, ht, hd, hv, hs, hro, hre, hev⟩ := hq
  obtain ⟨old, hold⟩ := rd_total (b := c) (off := (off : Int)) (n := (d.length : Int)) (by omega)
  have hml := maskMerge_length d m old
  obtain ⟨b', hb'⟩ := wr_total (b := c) (off := (off : Int)) (d := maskMerge d m old) (by omega)
  have hadd : addI32 (off : Int) d.length = .ok (off + d.length) := addI32_ok.mpr ⟨by omega, rfl⟩
  have hl := (List.getElem?_eq_some_iff.mp ht).1
  have he : ∃ s', tagMaskWrite s fd j off d m = .ok (s', 0) := by
    unfold tagMaskWrite
    rw [if_neg (by omega), tag?_natCast, ht]
    simp only [hv, Bool.false_eq_true, if_false, hadd, C.ok_bind, htag t ht hd, hd, hs]
    rw [if_neg (by omega)]
    simp only [ne_eq, not_true, if_false, hold, hb', C.ok_bind, commitWrite, hev, eventCheck, hre, Bool.false_eq_true]
    exact ⟨_, rfl⟩
  obtain ⟨s', h⟩ := he
  refine ⟨s', h, ?_⟩
  rcases tagMaskWrite_inv h with ⟨-, h⟩ | ⟨-, t2, b2, old2, -, -, -, h⟩
  · exact absurd rfl h
  · exact h.keepQuiet

theorem moveBits_total {src : List Byte} {base : Nat} : ∀ (r p q : Nat) (out : List Byte),
    8 * base + p + r ≤ 8 * src.length → (0 < r → q + r ≤ 8 * out.length) → ∃ out', moveBits src (base : Int) r p q out = .ok out' := by
  intro r
  induction r with
  | zero => intro p q out _ _; exact ⟨out, rfl⟩
  | succ r ih =>
    intro p q out h1 h2
    have h2 := h2 (by omega)
    simp only [moveBits]
    have hlt : base + p / 8 < src.length := by omega
    have hg : getB src ((base : Int) + (p / 8 : Nat)) = .ok src[base + p / 8] := by
      unfold getB
      rw [if_pos (by omega)]
      have : ((base : Int) + (p / 8 : Nat)).toNat = base + p / 8 := by omega
      rw [this, List.getElem?_eq_getElem hlt]
    rw [hg]
    simp only [C.ok_bind]
    have hq : q / 8 < out.length := by omega
    split
    · rw [List.getElem?_eq_getElem hq]
      exact ih _ _ _ (by omega) (fun _ => by rw [List.length_set]; omega)
    · exact ih _ _ _ (by omega) (fun _ => by omega)

/-- Sizes of ordinary tags are computed without overflow. -/
def SizesOK (s : Server) : Prop := s.db.length ≤ s.dbsize ∧ ∀ (j : Nat) (t : Tag) (c : List Byte), s.db[j]? = some t → t.data = .mem c →
  c.length < 2147483648 → tagGetSize s.cdts t = .ok (c.length : Int)

theorem SizesOK.bits {P : Nat → Nat → Prop} {s s' : Server} (h : SizesOK s) (b : Bits P s s') (hd : s'.dbsize = s.dbsize) : SizesOK s' := by
  refine ⟨by rw [b.len, hd]; exact h.1, fun j t' c' ht' hc' hl => ?_⟩
  have hlt : j < s.db.length := by rw [← b.len]; exact (List.getElem?_eq_some_iff.mp ht').1
  have ht : s.db[j]? = some s.db[j] := List.getElem?_eq_getElem hlt
  obtain ⟨t1, ht1, -, et, ec, ed, ee⟩ := b.tag j _ ht
  rw [ht'] at ht1; cases ht1
  obtain ⟨c, hc⟩ := ee c' hc'
  obtain ⟨c1, hc1, hl1, -⟩ := ed c hc
  rw [hc'] at hc1; cases hc1
  have := h.2 j _ c ht hc (by omega)
  rw [hl1, ← this]
  unfold tagGetSize
  rw [b.cdts, et, ec]

theorem mapLoop_total {i : Nat} {off size : Int} : ∀ {ms : List DMap} {s : Server} {b : List Byte},
    (∀ m ∈ ms, MaskOK m ∧ 0 ≤ m.dst.index) → SizesOK s → TagData s i b →
    (∀ m ∈ ms, ∃ c, QuietData s m.dst.index.toNat c ∧ MapFits m.src m.dst b c) →
    ∃ s', mapLoop s i off size ms = .ok s' := by
  intro ms
  induction ms with
  | nil => intro s b _ _ _ _; exact ⟨s, rfl⟩
  | cons m ms ih =>
    intro s b hok hsz hb hfit
    have hok' : ∀ m ∈ ms, MaskOK m ∧ 0 ≤ m.dst.index := fun x hx => hok x (List.mem_cons_of_mem _ hx)
    have hfit' := fun x (hx : x ∈ ms) => hfit x (List.mem_cons_of_mem _ hx)
    simp only [mapLoop]
    split
    · obtain ⟨t, ht, htd⟩ := hb
      rw [tag?_natCast, ht]
      simp only [htd, Store.block]
      obtain ⟨c, hqd, hf1, hf2, hf3, hf4⟩ := hfit m (List.mem_cons_self ..)
      obtain ⟨hmk, hnn⟩ := hok m (List.mem_cons_self ..)
      have hoff : i32 (m.dst.byte : Int) = m.dst.byte := i32_of_range (by omega)
      have hjn : m.dst.index = (m.dst.index.toNat : Int) := by omega
      have hmv : ∃ s1, mapMove s m b = .ok (s1, 0) ∧ KeepQuiet s s1 := by
        unfold mapMove
        rw [hoff]
        rcases hmk with ⟨hbool, hbit, mk, hml, hmk⟩ | ⟨hbool, hmk⟩
        · rw [hmk]
          have hmr := (maskLoop_bits _ _ _ hml).2.1
          obtain ⟨d, hd⟩ := moveBits_total (src := b) (base := m.src.byte) m.src.count m.src.bit m.dst.bit
            (List.replicate m.src.size 0) (by have := hf4 hbool; omega) hmr
          dsimp only
          rw [if_neg (by have := hf4 hbool; omega), hd, C.ok_bind, hjn]
          have hdl := (moveBits_bits _ _ _ _ hd).1
          rw [List.length_replicate] at hdl
          exact tagMaskWrite_quietData hsz.1 (fun t ht hd => hsz.2 _ t c ht hd hf3) hqd (by omega) hf3
        · rw [hmk]
          obtain ⟨d, hd⟩ := rd_total (b := b) (off := (m.src.byte : Int)) (n := (m.src.size : Int)) (by omega)
          dsimp only
          rw [hd, C.ok_bind, hjn]
          have hdl := rd_length hd
          exact tagWrite_quietData (fun t ht hd => hsz.2 _ t c ht hd hf3) hqd (by omega) hf3
      obtain ⟨s1, hmv, hkq⟩ := hmv
      rw [hmv, C.ok_bind]
      dsimp only
      rw [if_neg (by decide)]
      have hb1 := (mapMove_inv hmk (by omega) hmv).1
      obtain ⟨b1, hbd1, hl1, -⟩ := hb1.fwd ⟨t, ht, htd⟩
      refine ih hok' (hsz.bits hb1 hkq.2.1) hbd1 ?_
      intro x hx
      obtain ⟨cx, hqx, hfx⟩ := hfit' x hx
      obtain ⟨cy, hqy, hly⟩ := hkq.2.2 _ _ hqx
      refine ⟨cy, hqy, ?_⟩
      unfold MapFits at *
      rw [hl1, hly]
      exact hfx
    · exact ih hok' hsz hb hfit'

/-! ## Notifications sent by the loop -/

/-- Event lists have different identifiers. -/
def EvIds (s : Server) : Prop := ∀ (j : Nat) (t : Tag), s.db[j]? = some t → t.events.Pairwise (fun a b => b.id < a.id)

/-- At most `n` notifications for subscription `id` of tag `j` are sent. -/
def SentAtMost (s s' : Server) (j id : Nat) (n : Nat) : Prop :=
  ∃ ns, s'.sent = s.sent ++ ns ∧ (ns.filter (fun x => x.idx = (j : Int) ∧ x.id = (id : Int))).length ≤ n

theorem SentAtMost.trans {a b c : Server} {j id n m : Nat} (h1 : SentAtMost a b j id n) (h2 : SentAtMost b c j id m) :
    SentAtMost a c j id (n + m) := by
  obtain ⟨x, hx, hxl⟩ := h1
  obtain ⟨y, hy, hyl⟩ := h2
  refine ⟨x ++ y, by rw [hy, hx, List.append_assoc], ?_⟩
  rw [List.filter_append, List.length_append]; omega

theorem SentAtMost.zero {s s' : Server} {j id n : Nat} (h : s'.sent = s.sent) : SentAtMost s s' j id n :=
  ⟨[], by simp [h], by simp⟩

theorem sendEvent_le {s : Server} {i : Int} {ev : Ev} {b : List Byte} {ns : List Notif} (h : sendEvent s i ev b = .ok ns) :
    ns.length ≤ 1 := by
  unfold sendEvent at h
  split at h
  · simp at h
  split at h
  · split at h
    · simp only [C.ok.injEq] at h; subst h; simp
    · obtain ⟨d, -, h⟩ := C.bind_eq_ok.mp h
      simp only [C.ok.injEq] at h; subst h; simp
  · simp only [C.ok.injEq] at h; subst h; simp

theorem eventCheck_le {s : Server} {i : Int} {b : List Byte} {off size : Int} {evs evs' : List Ev} {ns : List Notif}
    (h : eventCheck s i b off size evs = .ok (evs', ns)) (hp : evs.Pairwise (fun a b => b.id < a.id)) (j id : Nat) :
    (ns.filter (fun x => x.idx = (j : Int) ∧ x.id = (id : Int))).length ≤ if i = j then 1 else 0 := by
  obtain ⟨h1, h2⟩ := eventCheck_one h hp
  have hnil : (∀ n ∈ ns, ¬ (n.idx = (j : Int) ∧ n.id = (id : Int))) →
      (ns.filter (fun x => x.idx = (j : Int) ∧ x.id = (id : Int))).length ≤ if i = j then 1 else 0 := by
    intro hn
    have : ns.filter (fun x => x.idx = (j : Int) ∧ x.id = (id : Int)) = [] := by
      rw [List.filter_eq_nil_iff]
      intro n hnm
      simpa using hn n hnm
    rw [this]; simp
  by_cases hj : i = j
  · rw [if_pos hj]
    by_cases he : ∃ e ∈ evs, e.id = (id : Int)
    · obtain ⟨e, hem, hei⟩ := he
      rw [← hj, ← hei]
      obtain ⟨ha, hb⟩ := h2 e hem
      cases ho : evOverlap e off size
      · rw [(ha ho).2]; simp
      · obtain ⟨hit, test', -, -, hc, hd⟩ := hb ho
        cases hit
        · rw [hc rfl]; simp
        · obtain ⟨n0, hn0, he⟩ := hd rfl
          rw [he]; exact sendEvent_le hn0
    · rw [if_pos hj] at hnil
      refine hnil fun n hn hnn => ?_
      obtain ⟨-, e, he1, he2⟩ := h1 n hn
      exact he ⟨e, he1, by rw [← he2, hnn.2]⟩
  · refine hnil fun n hn hx => ?_
    exact hj (by rw [← (h1 n hn).1, hx.1])

theorem WriteDone.sent {s s' : Server} {idx off : Int} {d : List Byte} {n : Nat} (h : WriteDone s idx off d n s')
    (he : EvIds s) (j id : Nat) : SentAtMost s s' j id (if idx = j then 1 else 0) := by
  obtain ⟨t, b, b', evs, ns, rt, ht, -, hb, hw, hev, rfl⟩ := h.ex
  exact ⟨ns, rfl, eventCheck_le hev (he _ t (tag?_eq.mp ht).2) j id⟩

theorem QueueDone.sent {s s' : Server} {idx off : Int} {d : List Byte} (h : QueueDone s idx off d s')
    (he : EvIds s) (j id : Nat) : SentAtMost s s' j id (if idx = j then 1 else 0) := by
  obtain ⟨t, q, q', evs, ns, ht, -, hb, -, hev, rfl⟩ := h
  exact ⟨ns, rfl, eventCheck_le hev (he _ t (tag?_eq.mp ht).2) j id⟩

theorem tagWrite_sent {s s' : Server} {fd idx off : Int} {d : List Byte} {r : Int} (h : tagWrite s fd idx off d = .ok (s', r))
    (he : EvIds s) (j id : Nat) : SentAtMost s s' j id (if idx = j then 1 else 0) := by
  rcases tagWrite_inv h with ⟨rfl, -⟩ | ⟨-, h⟩ | ⟨-, h⟩
  · exact .zero rfl
  · exact h.sent he j id
  · exact h.sent he j id

theorem tagMaskWrite_sent {s s' : Server} {fd idx off : Int} {d m : List Byte} {r : Int}
    (h : tagMaskWrite s fd idx off d m = .ok (s', r)) (he : EvIds s) (j id : Nat) :
    SentAtMost s s' j id (if idx = j then 1 else 0) := by
  rcases tagMaskWrite_inv h with ⟨rfl, -⟩ | ⟨-, _, _, _, -, -, -, h⟩
  · exact .zero rfl
  · exact h.sent he j id

theorem mapMove_sent {s s' : Server} {m : DMap} {blk : List Byte} {r : Int} (h : mapMove s m blk = .ok (s', r))
    (he : EvIds s) (j id : Nat) : SentAtMost s s' j id (if m.dst.index = j then 1 else 0) := by
  unfold mapMove at h
  split at h
  · split at h
    · simp at h
    obtain ⟨d, -, h⟩ := C.bind_eq_ok.mp h
    exact tagMaskWrite_sent h he j id
  · obtain ⟨d, -, h⟩ := C.bind_eq_ok.mp h
    exact tagWrite_sent h he j id

theorem Path.evIds {fl : Kind → Bool} {s s' : Server} (p : Path fl s s')
    (h : ∀ (j : Nat) (t : Tag), s.db[j]? = some t → IdsOK j t) : ∀ (j : Nat) (t : Tag), s'.db[j]? = some t → IdsOK j t :=
  p.inv (I := fun s => ∀ (j : Nat) (t : Tag), s.db[j]? = some t → IdsOK j t)
    (fun a b ha m => Move.forall_tags (I := IdsOK) (fun e i fd name type count size => ⟨.nil, by simp [newTag], by simp [newTag], .nil, by simp [newTag], by simp [newTag], by simp [newTag]⟩)
      (fun _ _ _ _ h => h.move) a b ha m) h

theorem mapDel_sent {s s' : Server} {idx id r : Int} (h : mapDel s idx id = .ok (s', r)) : s'.sent = s.sent := by
  unfold mapDel at h
  split at h
  · simp only [C.ok.injEq, Prod.mk.injEq] at h; rw [← h.1]
  split at h
  · simp at h
  split at h
  · simp at h
  split at h
  · simp only [C.ok.injEq, Prod.mk.injEq] at h; rw [← h.1]; rfl
  split at h
  · simp only [C.ok.injEq, Prod.mk.injEq] at h; rw [← h.1]; rfl
  · simp only [C.ok.injEq, Prod.mk.injEq] at h; rw [← h.1]

theorem mapLoop_sent {i : Nat} {off size : Int} (j id : Nat) : ∀ {ms : List DMap} {s s' : Server},
    (∀ (j : Nat) (t : Tag), s.db[j]? = some t → IdsOK j t) → mapLoop s i off size ms = .ok s' →
    SentAtMost s s' j id (ms.countP (fun m => decide (m.dst.index = (j : Int)))) := by
  intro ms
  induction ms with
  | nil =>
    intro s s' _ h
    simp only [mapLoop, C.ok.injEq] at h
    subst h; exact .zero rfl
  | cons m ms ih =>
    intro s s' hid h
    rw [List.countP_cons]
    rcases mapLoop_cons h with ⟨-, h⟩ | ⟨ho, t, s1, s2, r, -, hm, hdel, -, h⟩
    · obtain ⟨ns, h1, h2⟩ := ih hid h
      exact ⟨ns, h1, by omega⟩
    · have h1 := mapMove_sent hm (fun j t ht => (hid j t ht).evLt) j id
      have hid1 := (mapMove_path (fl := fun _ => true) .refl _ hm).evIds hid
      have h2 : SentAtMost s1 s2 j id 0 ∧ ∀ (j : Nat) (t : Tag), s2.db[j]? = some t → IdsOK j t := by
        rcases hdel with rfl | ⟨r2, hdel⟩
        · exact ⟨.zero rfl, hid1⟩
        · exact ⟨.zero (mapDel_sent hdel), (mapDel_path (fl := fun _ => true) rfl .refl _ hdel).evIds hid1⟩
      have := (h1.trans h2.1).trans (ih h2.2 h)
      obtain ⟨ns, e1, e2⟩ := this
      refine ⟨ns, e1, ?_⟩
      have : (if decide (m.dst.index = (j : Int)) = true then 1 else 0) = if m.dst.index = (j : Int) then 1 else 0 := by simp
      rw [this]; omega

/-! ## Mappings in force -/

/-- A property of one tag kept by every change of it. -/
theorem Path.tag_inv {fl : Kind → Bool} {i : Nat} {J : Tag → Prop} (hJ : ∀ s t t', J t → TagMove fl s i t t' → J t')
    {s s' : Server} (p : Path fl s s') {t : Tag} (ht : s.db[i]? = some t) (h : J t) : ∃ t', s'.db[i]? = some t' ∧ J t' := by
  induction p with
  | refl => exact ⟨t, ht, h⟩
  | snoc _ m ih =>
    obtain ⟨u, hu, hj⟩ := ih
    have hlt := (List.getElem?_eq_some_iff.mp hu).1
    cases m with
    | @tag k v v' rt hv hm _ =>
      by_cases hik : k = i
      · subst hik
        rw [hu] at hv; cases hv
        exact ⟨v', by simp [hlt], hJ _ _ _ hj hm⟩
      · exact ⟨u, by rw [List.getElem?_set_ne hik]; exact hu, hj⟩
    | push => exact ⟨u, by rw [List.getElem?_append_left hlt]; exact hu, hj⟩
    | other h1 => exact ⟨u, by rw [h1]; exact hu, hj⟩
    | _ => exact ⟨u, hu, hj⟩

/-- What an identifier stands for. -/
def IdMeans (a : Int) (src dst : Handle) (t : Tag) : Prop :=
  a < t.nextmap ∧ ∀ m ∈ t.maps, m.id = a → m.src = src ∧ m.dst = dst

theorem IdMeans.move {fl : Kind → Bool} {a : Int} {src dst : Handle} {s : Server} {i : Nat} {t t' : Tag}
    (h : IdMeans a src dst t) (m : TagMove fl s i t t') : IdMeans a src dst t' := by
  cases m
  case mapAdd m u hid _ _ _ _ _ _ _ _ _ _ =>
    refine ⟨by have := h.1; dsimp only; omega, fun x hx hxa => ?_⟩
    rcases List.mem_cons.mp hx with rfl | hx
    · have := h.1; omega
    · exact h.2 x hx hxa
  case mapDel hs _ => exact ⟨h.1, fun x hx => h.2 x (hs.subset hx)⟩
  case clear => exact ⟨h.1, fun x hx => by simp at hx⟩
  all_goals exact h

/-- Different mappings have different ranges. -/
theorem Reachable.mapsDiffer {s : Server} (h : Reachable s) {i : Nat} {t : Tag} (ht : s.db[i]? = some t) :
    t.maps.Pairwise (fun a b => ¬ (b.src = a.src ∧ b.dst = a.dst)) := by
  refine h.forall_tags (I := fun _ t => t.maps.Pairwise (fun a b => ¬ (b.src = a.src ∧ b.dst = a.dst))) ?_ ?_ ?_ i t ht
  · intro e s0 h0 j u hu
    obtain ⟨-, -, -, h4, -⟩ := (init_mods h0).2 j u hu
    rw [h4]; exact .nil
  · intro e i fd name type count size
    exact .nil
  · intro s i t t' hI hm
    cases hm
    case mapAdd hn _ => exact List.pairwise_cons.mpr ⟨hn, hI⟩
    case mapDel hs _ => exact hI.sublist hs
    case clear => exact .nil
    all_goals exact hI

theorem mapAdd_inv {s s' : Server} {src dst : Handle} {r : Int} (h : mapAdd s src dst = .ok (s', r)) :
    (s' = s ∧ r < 0) ∨
    (s' = s ∧ ∃ t m, s.tag? src.index = some t ∧ t.wildMaps = false ∧ m ∈ t.maps ∧ m.src = src ∧ m.dst = dst ∧ r = m.id) ∨
    (∃ t m, s.tag? src.index = some t ∧ t.wildMaps = false ∧ t.nextmap < 2147483647 ∧ r = t.nextmap ∧ m.id = t.nextmap ∧
      m.src = src ∧ m.dst = dst ∧
      s' = s.setTag src.index { t with nextmap := t.nextmap + 1, maps := m :: t.maps, attr := { t.attr with mapping := true } }) := by
  unfold mapAdd at h
  have err : ∀ {e : Int}, e < 0 → C.ok (s, e) = C.ok (s', r) → s' = s ∧ r < 0 := by
    intro e he h
    simp only [C.ok.injEq, Prod.mk.injEq] at h
    exact ⟨h.1.symm, by rw [← h.2]; exact he⟩
  split at h
  · exact .inl (err (by decide) h)
  rename_i t ht
  split at h
  · exact .inl (err (by decide) h)
  split at h
  · exact .inl (err (by decide) h)
  split at h
  · exact .inl (err (by decide) h)
  split at h
  · exact .inl (err (by decide) h)
  obtain ⟨n, -, h⟩ := C.bind_eq_ok.mp h
  split at h
  · exact .inl (err (by decide) h)
  obtain ⟨n2, -, h⟩ := C.bind_eq_ok.mp h
  split at h
  · exact .inl (err (by decide) h)
  split at h
  · exact .inl (err (by decide) h)
  split at h
  · simp at h
  rename_i hw
  split at h
  · rename_i m hf
    simp only [C.ok.injEq, Prod.mk.injEq] at h
    have hp := List.find?_some hf
    simp only [Bool.and_eq_true, decide_eq_true_eq] at hp
    exact .inr (.inl ⟨h.1.symm, t, m, ht, by simpa using hw, List.mem_of_find?_eq_some hf, hp.1, hp.2, h.2.symm⟩)
  split at h
  · simp at h
  rename_i hlt
  have fin : ∀ mask, C.ok (s.setTag src.index
      { t with nextmap := t.nextmap + 1, maps := ⟨t.nextmap, src, dst, mask⟩ :: t.maps,
               attr := { t.attr with mapping := true } }, t.nextmap) = C.ok (s', r) →
      ∃ t m, s.tag? src.index = some t ∧ t.wildMaps = false ∧ t.nextmap < 2147483647 ∧ r = t.nextmap ∧ m.id = t.nextmap ∧
        m.src = src ∧ m.dst = dst ∧
        s' = s.setTag src.index { t with nextmap := t.nextmap + 1, maps := m :: t.maps, attr := { t.attr with mapping := true } } := by
    intro mask h
    simp only [C.ok.injEq, Prod.mk.injEq] at h
    exact ⟨t, ⟨t.nextmap, src, dst, mask⟩, ht, by simpa using hw, by omega, h.2.symm, rfl, rfl, rfl, h.1.symm⟩
  refine .inr (.inr ?_)
  dsimp only at h
  split at h
  · split at h
    · simp at h
    · obtain ⟨mk, -, h⟩ := C.bind_eq_ok.mp h
      exact fin _ h
  · exact fin _ h

/-- The list after a deletion. -/
theorem mapTail_mem {id : Int} : ∀ {ms r : List DMap}, ms.Pairwise (fun a b => b.id < a.id) → mapTail id ms = some r →
    (∃ m ∈ ms, m.id = id) ∧ ∀ x, x ∈ r ↔ x ∈ ms ∧ x.id < id := by
  intro ms
  induction ms with
  | nil => intro r _ h; simp [mapTail] at h
  | cons m ms ih =>
    intro r hp h
    obtain ⟨hp1, hp2⟩ := List.pairwise_cons.mp hp
    simp only [mapTail] at h
    split at h
    · rename_i hid
      simp only [Option.some.injEq] at h; subst h
      refine ⟨⟨m, List.mem_cons_self .., hid⟩, fun x => ?_⟩
      constructor
      · intro hx; exact ⟨List.mem_cons_of_mem _ hx, by have := hp1 x hx; omega⟩
      · rintro ⟨hx, hlt⟩
        rcases List.mem_cons.mp hx with rfl | hx
        · omega
        · exact hx
    · obtain ⟨⟨y, hy, hyid⟩, h2⟩ := ih hp2 h
      refine ⟨⟨y, List.mem_cons_of_mem _ hy, hyid⟩, fun x => ?_⟩
      rw [h2 x]
      constructor
      · rintro ⟨hx, hlt⟩; exact ⟨List.mem_cons_of_mem _ hx, hlt⟩
      · rintro ⟨hx, hlt⟩
        rcases List.mem_cons.mp hx with rfl | hx
        · have := hp1 y hy; omega
        · exact ⟨hx, hlt⟩

/-- What `map_del` leaves: the mappings older than the deleted one, and the newest one. -/
theorem mapDel_inv {s s' : Server} {idx id r : Int} (hp : ∀ t, s.tag? idx = some t → t.maps.Pairwise (fun a b => b.id < a.id))
    (h : mapDel s idx id = .ok (s', r)) : (s' = s ∧ r < 0) ∨ (r = 0 ∧ ∃ t ms, s.tag? idx = some t ∧ t.wildMaps = false ∧
      s' = s.setTag idx { t with maps := ms } ∧ (∃ m ∈ t.maps, m.id = id) ∧
      ∀ x, x ∈ ms ↔ x ∈ t.maps ∧ (x.id < id ∨ (x.id ≠ id ∧ ∀ y ∈ t.maps, y.id ≤ x.id))) := by
  unfold mapDel at h
  split at h
  · simp only [C.ok.injEq, Prod.mk.injEq] at h
    exact .inl ⟨h.1.symm, by rw [← h.2]; decide⟩
  rename_i t ht
  split at h
  · simp at h
  rename_i hw
  have hp := hp t ht
  split at h
  · simp at h
  rename_i m ms hms
  rw [hms] at hp
  obtain ⟨hp1, hp2⟩ := List.pairwise_cons.mp hp
  split at h
  · rename_i hid
    simp only [C.ok.injEq, Prod.mk.injEq] at h
    refine .inr ⟨h.2.symm, t, ms, ht, by simpa using hw, h.1.symm, ⟨m, by rw [hms]; exact List.mem_cons_self .., hid⟩, fun x => ?_⟩
    rw [hms]
    constructor
    · intro hx; exact ⟨List.mem_cons_of_mem _ hx, .inl (by have := hp1 x hx; omega)⟩
    · rintro ⟨hx, hlt⟩
      rcases List.mem_cons.mp hx with rfl | hx
      · omega
      · exact hx
  rename_i hid
  split at h
  · rename_i rest hrest
    simp only [C.ok.injEq, Prod.mk.injEq] at h
    obtain ⟨⟨y, hy, hyid⟩, hmem⟩ := mapTail_mem hp2 hrest
    refine .inr ⟨h.2.symm, t, m :: rest, ht, by simpa using hw, h.1.symm, ⟨y, by rw [hms]; exact List.mem_cons_of_mem _ hy, hyid⟩, fun x => ?_⟩
    rw [hms]
    constructor
    · intro hx
      rcases List.mem_cons.mp hx with rfl | hx
      · refine ⟨List.mem_cons_self .., .inr ⟨hid, fun z hz => ?_⟩⟩
        rcases List.mem_cons.mp hz with rfl | hz
        · omega
        · have := hp1 z hz; omega
      · obtain ⟨h1, h2⟩ := (hmem x).mp hx
        exact ⟨List.mem_cons_of_mem _ h1, .inl h2⟩
    · rintro ⟨hx, hlt⟩
      rcases List.mem_cons.mp hx with rfl | hx
      · exact List.mem_cons_self ..
      · rcases hlt with hlt | ⟨hne, hmax⟩
        · exact List.mem_cons_of_mem _ ((hmem x).mpr ⟨hx, hlt⟩)
        · have := hmax m (List.mem_cons_self ..)
          have := hp1 x hx
          omega
  · simp only [C.ok.injEq, Prod.mk.injEq] at h
    exact .inl ⟨h.1.symm, by rw [← h.2]; decide⟩

/-- Mappings stay when nothing deletes them. -/
theorem Path.mapAt {fl : Kind → Bool} {s s' : Server} (p : Path fl s s') (h1 : fl .mapDel = false) (h2 : fl .del = false)
    {i : Nat} {id : Int} {src dst : Handle} (h : MapAt s i id src dst) : MapAt s' i id src dst := by
  obtain ⟨t, m, ht, hw, hm, rfl, rfl, rfl⟩ := h
  obtain ⟨t', ht', hw', hm'⟩ := p.tag_inv (J := fun t => t.wildMaps = false ∧ m ∈ t.maps) (fun s t t' hJ hm => by
    cases hm
    case mapAdd => exact ⟨hJ.1, List.mem_cons_of_mem _ hJ.2⟩
    case mapDel hf => rw [h1] at hf; simp at hf
    case clear hf => rw [h2] at hf; simp at hf
    all_goals exact hJ) ht ⟨hw, hm⟩
  exact ⟨t', m, ht', hw', hm', rfl, rfl, rfl⟩

theorem Reachable.nextmap_le {s : Server} (h : Reachable s) {i : Nat} {t : Tag} (ht : s.db[i]? = some t) :
    t.nextmap ≤ 2147483647 := by
  refine h.forall_tags (I := fun _ t => t.nextmap ≤ 2147483647) ?_ ?_ ?_ i t ht
  · intro e s0 h0 j u hu
    obtain ⟨-, h4, -, -, -⟩ := (init_mods h0).2 j u hu
    rw [h4]; omega
  · intro e i fd name type count size
    simp [newTag]
  · intro s i t t' hI hm
    cases hm
    case mapAdd hlt => dsimp only; omega
    all_goals exact hI

end Dax
