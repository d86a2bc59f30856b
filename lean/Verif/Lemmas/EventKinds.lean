import Verif.Lemmas.EventHist
/-!
# What each kind of event remembers
-/
set_option autoImplicit false
namespace Dax

theorem i32_small {n : Nat} (h : 0 ≤ i32 (n : Int)) (hn : n < 4294967296) : i32 (n : Int) = n := by
  unfold i32 at h ⊢
  split <;> split at h <;> omega

theorem chain_look {S : Sub} {e : Env} {data : List Byte} {c : Look} {H : List Look} {test : List Byte}
    (h : Chain S e data (c :: H) test) : S.h.byte + S.h.size ≤ c.content.length := by
  cases h with
  | start _ hl => exact hl
  | look _ _ _ _ hr => exact hr

theorem bits_has {S : Sub} (hc : S.covers) {k : Nat} (h : S.bits k) : S.has (k / 8) := by
  unfold Sub.bits at h
  unfold Sub.has
  split at h
  · rename_i ht; have := hc ht; omega
  · omega

theorem bitAt_congr {a b : List Byte} {k : Nat} (h : a[k / 8]? = b[k / 8]?) : bitAt a k = bitAt b k := by
  unfold bitAt bitOf; rw [h]

theorem byte_ext {a b : List Byte} {k : Nat} (ha : k < a.length) (hb : k < b.length)
    (h : ∀ j, j < 8 → bitAt a (8 * k + j) = bitAt b (8 * k + j)) : a[k]? = b[k]? := by
  rw [List.getElem?_eq_getElem ha, List.getElem?_eq_getElem hb]
  congr 1
  apply BitVec.eq_of_getLsbD_eq
  intro i hi
  have h1 := h i hi
  have e : (8 * k + i) / 8 = k := by omega
  have e2 : (8 * k + i) % 8 = i := by omega
  simpa [bitAt, bitOf, e, e2, ha, hb] using h1

theorem Sub.ev_byte (S : Sub) (d t : List Byte) : (S.ev d t).byte = i32 (S.h.byte : Int) := by
  unfold Sub.ev; dsimp only
theorem Sub.ev_count (S : Sub) (d t : List Byte) : (S.ev d t).count = i32 (S.h.count : Int) := by
  unfold Sub.ev; dsimp only

theorem Sub.ev_etype (S : Sub) (d t : List Byte) : (S.ev d t).etype = S.et := by
  unfold Sub.ev; dsimp only
theorem Sub.ev_dtype (S : Sub) (d t : List Byte) : (S.ev d t).dtype = S.h.type := by
  unfold Sub.ev; dsimp only
theorem Sub.ev_bit (S : Sub) (d t : List Byte) : (S.ev d t).bit = S.h.bit := by
  unfold Sub.ev; dsimp only
theorem Sub.ev_test (S : Sub) (d t : List Byte) : (S.ev d t).test = t := by
  unfold Sub.ev; dsimp only
theorem Sub.ev_size (S : Sub) (d t : List Byte) : (S.ev d t).size = S.h.size := by
  unfold Sub.ev; dsimp only
theorem Sub.ev_data (S : Sub) (d t : List Byte) : (S.ev d t).data = d := by
  unfold Sub.ev; dsimp only

theorem bitLoop_len {step : Byte → Byte → Nat → Bool × Byte} {data : List Byte} {base : Int} :
    ∀ (r p : Nat) (test : List Byte) (hit : Bool) {hit' : Bool} {test' : List Byte},
    bitLoop step data base r p test hit = .ok (hit', test') →
    test'.length = test.length ∧ ∀ q, p ≤ q → q < p + r → q / 8 < test.length := by
  intro r
  induction r with
  | zero =>
    intro p test hit hit' test' h
    simp only [bitLoop, C.ok.injEq, Prod.mk.injEq] at h
    obtain ⟨rfl, rfl⟩ := h
    exact ⟨rfl, fun q _ _ => by omega⟩
  | succ r ih =>
    intro p test hit hit' test' h
    simp only [bitLoop] at h
    obtain ⟨a, ha, h⟩ := C.bind_eq_ok.mp h
    obtain ⟨b, hb, h⟩ := C.bind_eq_ok.mp h
    obtain ⟨-, ha⟩ := getB_ok ha
    have hl := (List.getElem?_eq_some_iff.mp ha).1
    obtain ⟨i1, i2⟩ := ih _ _ _ h
    rw [List.length_set] at i1 i2
    refine ⟨i1, fun q h1 h2 => ?_⟩
    by_cases hq : q = p
    · rw [hq]; omega
    · exact i2 q (by omega) (by omega)

/-- The bytes of the overlap of a subscription and a write. -/
theorem overlapLen_eq {S : Sub} {d t : List Byte} {off : Int} {len n : Nat} (ht : S.touched off len) (h0 : 0 ≤ off)
    (hl : off + len ≤ n) (hr : S.h.byte + S.h.size ≤ n) (hn : n < 2147483648) :
    overlapLen (S.ev d t) off len = min (S.h.byte + S.h.size : Int) (off + len) - max off S.h.byte ∧
      0 < overlapLen (S.ev d t) off len ∧ (S.ev d t).byte = S.h.byte := by
  have hb : (S.ev d t).byte = S.h.byte := by
    rw [Sub.ev_byte]; exact i32_of_range (by omega)
  have hs : (S.ev d t).size = S.h.size := Sub.ev_size ..
  obtain ⟨k, h1, h2, h3, h4⟩ := ht
  have e : overlapLen (S.ev d t) off len = min (S.h.byte + S.h.size : Int) (off + len) - max off S.h.byte := by
    unfold overlapLen
    rw [hb, hs]
    have e1 : u32 ((S.h.byte : Int) + S.h.size) = S.h.byte + S.h.size := by unfold u32; omega
    have e2 : u32 (off + len) = off.toNat + len := by unfold u32; omega
    rw [e1, e2, i32_of_range (by omega)]
    omega
  exact ⟨e, by omega, hb⟩

/-! ## Change -/

/-- The test block holds the subscribed bits as last seen. -/
def Remembers (S : Sub) (c test : List Byte) : Prop :=
  (S.h.type = DAX_BOOL → ∀ q, q / 8 < test.length → S.h.bit ≤ q → q < S.h.bit + S.h.count →
    bitAt test q = bitAt c (8 * S.h.byte + q)) ∧
  (S.h.type ≠ DAX_BOOL → ∀ k, k < test.length → k < S.h.size → test[k]? = c[S.h.byte + k]?)

theorem chain_change {S : Sub} {e : Env} {data : List Byte} {H : List Look} {test : List Byte}
    (hz : S.Sane) (hn : S.h.count < 2147483648) (het : S.et = EVENT_CHANGE)
    (h : Chain S e data H test) : ∃ c H', H = c :: H' ∧ Remembers S c.content test ∧
      ∀ c1 H1, H' = c1 :: H1 → (c.hit = true ↔ ∃ k, S.bits k ∧ bitAt c.content k ≠ bitAt c1.content k) := by
  induction h with
  | @start s b test h hl =>
    refine ⟨_, _, rfl, ?_, by simp⟩
    unfold setEventData at h
    rw [Sub.ev_etype, het, if_pos rfl, Sub.ev_dtype, Sub.ev_byte] at h
    split at h
    · rename_i hb
      obtain ⟨t, ht, h⟩ := C.bind_eq_ok.mp h
      simp only [C.ok.injEq, Prod.mk.injEq] at h
      obtain ⟨-, rfl⟩ := h
      refine ⟨fun _ q h0 h1 h2 => ?_, fun h => absurd hb h⟩
      have hr0 := (rd_ok.mp ht).1.1
      have hby := i32_small hr0 (by have := hz.1; omega)
      rw [hby] at ht
      generalize bitmapSize (S.ev [] []).count = m at ht
      clear hr0 hby
      have hl2 := rd_length ht
      have hg := rd_get ht (q / 8)
      rw [if_pos (by omega)] at hg
      unfold bitAt bitOf
      rw [hg]
      have : (8 * S.h.byte + q) / 8 = (S.h.byte : Int).toNat + q / 8 := by omega
      rw [this]
      have : (8 * S.h.byte + q) % 8 = q % 8 := by omega
      rw [this]
    · rename_i hb
      obtain ⟨ts, hts, h⟩ := C.bind_eq_ok.mp h
      obtain ⟨n, hn, h⟩ := C.bind_eq_ok.mp h
      obtain ⟨t, ht, h⟩ := C.bind_eq_ok.mp h
      simp only [C.ok.injEq, Prod.mk.injEq] at h
      obtain ⟨-, rfl⟩ := h
      refine ⟨fun h => absurd h hb, fun _ k hk1 hk2 => ?_⟩
      have h0 := (rd_ok.mp ht).1.1
      have hby := i32_small h0 (by have := hz.1; omega)
      rw [hby] at ht
      have hl2 := rd_length ht
      rw [rd_get ht, if_pos (by omega)]
      simp
  | @look H c test test' b hit off len p ht h0 hl hr hsm hf h ih =>
    obtain ⟨c', H', heq, hrem, -⟩ := ih
    simp only [List.cons.injEq] at heq
    obtain ⟨rfl, rfl⟩ := heq
    refine ⟨_, _, rfl, ?_⟩
    unfold evHit at h
    rw [Sub.ev_etype, het, if_neg (by decide), if_pos rfl] at h
    unfold evChange at h
    obtain ⟨ho, hpos, hby⟩ := overlapLen_eq (d := data) (t := test) ht h0 hl hr hsm
    have hlc := chain_look p
    rw [Sub.ev_dtype, Sub.ev_bit, Sub.ev_test, hby, ho] at h
    rw [ho] at hpos
    clear ho hby
    split at h
    · rename_i hb
      split at h
      · simp at h
      have hcnt : (S.ev data test).count.toNat = S.h.count := by
        rw [Sub.ev_count, i32_of_range (by omega)]; rfl
      rw [hcnt] at h
      clear hcnt
      obtain ⟨l1, l2⟩ := bitLoop_len _ _ _ _ h
      obtain ⟨i1, i2, -⟩ := bitLoop_change _ _ _ _ h
      refine ⟨⟨fun _ q _ h1 h2 => i2 q h1 h2, fun h => absurd hb h⟩, ?_⟩
      intro c1 H1 hh
      simp only [List.cons.injEq] at hh
      obtain ⟨rfl, rfl⟩ := hh
      dsimp only
      rw [i1]
      simp only [Bool.false_eq_true, false_or, Sub.bits, if_pos hb]
      constructor
      · rintro ⟨q, h1, h2, h3⟩
        rw [hrem.1 hb q (l2 q h1 h2) h1 h2] at h3
        exact ⟨8 * S.h.byte + q, by omega, fun e => h3 e.symm⟩
      · rintro ⟨k, h1, h2⟩
        refine ⟨k - 8 * S.h.byte, by omega, by omega, ?_⟩
        rw [hrem.1 hb _ (l2 _ (by omega) (by omega)) (by omega) (by omega)]
        have : 8 * S.h.byte + (k - 8 * S.h.byte) = k := by omega
        rw [this]
        exact fun e => h2 e.symm
    · rename_i hb
      rw [if_neg (by omega)] at h
      obtain ⟨a, ha, h⟩ := C.bind_eq_ok.mp h
      obtain ⟨d, hd, h⟩ := C.bind_eq_ok.mp h
      obtain ⟨t2, ht2, h⟩ := C.bind_eq_ok.mp h
      simp only [C.ok.injEq, Prod.mk.injEq] at h
      obtain ⟨rfl, rfl⟩ := h
      have hla := rd_length ha
      have hld := rd_length hd
      have hia := (rd_ok.mp ha).1
      refine ⟨⟨fun h => absurd h hb, fun _ k hk1 hk2 => ?_⟩, ?_⟩
      · have hlt := wr_length ht2
        rw [wr_get ht2]
        split
        · rename_i hk
          rw [rd_get hd, if_pos (by omega)]
          congr 1
          omega
        · rename_i hk
          rw [hrem.2 hb k (by omega) hk2]
          refine (hf _ ⟨by omega, by omega⟩ ?_).symm
          omega
      · intro c1 H1 hh
        simp only [List.cons.injEq] at hh
        obtain ⟨rfl, rfl⟩ := hh
        dsimp only
        simp only [decide_eq_true_eq, Sub.bits, if_neg hb]
        constructor
        · intro hne
          apply Classical.byContradiction
          intro hall
          apply hne
          apply List.ext_getElem?
          intro j
          rw [rd_get ha, rd_get hd]
          split
          · rename_i hj
            rw [hrem.2 hb _ (by omega) (by omega)]
            have e5 : S.h.byte + ((max 0 (off - ↑S.h.byte)).toNat + j) = (max off (S.h.byte : Int)).toNat + j := by omega
            rw [e5]
            refine byte_ext (by omega) (by omega) (fun i hi => ?_)
            apply Classical.byContradiction
            intro hbit
            exact hall ⟨_, ⟨by omega, by omega⟩, fun e => hbit e.symm⟩
          · rfl
        · rintro ⟨k, hk, hne⟩ heq
          apply hne
          apply bitAt_congr
          by_cases hin : off ≤ (k / 8 : Nat) ∧ ((k / 8 : Nat) : Int) < off + len
          · have h1 := congrArg (fun l => l[k / 8 - (max off (S.h.byte : Int)).toNat]?) heq
            rw [rd_get ha, rd_get hd, if_pos (by omega), if_pos (by omega), hrem.2 hb _ (by omega) (by omega)] at h1
            have e5 : S.h.byte + ((max 0 (off - ↑S.h.byte)).toNat + (k / 8 - (max off ↑S.h.byte).toNat)) = k / 8 := by omega
            have e6 : (max off ↑S.h.byte).toNat + (k / 8 - (max off ↑S.h.byte).toNat) = k / 8 := by omega
            rw [e5, e6] at h1
            exact h1.symm
          · exact hf _ ⟨by omega, by omega⟩ (by omega)

/-- Between notifications the subscribed bits do not change. -/
theorem change_ref {S : Sub} {e : Env} {data : List Byte} {H : List Look} {test : List Byte}
    (hz : S.Sane) (hn : S.h.count < 2147483648) (het : S.et = EVENT_CHANGE)
    (h : Chain S e data H test) {c r : Look} {H' : List Look} (hH : H = c :: H') (hr : lastNotified H = some r) :
    ∀ k, S.bits k → bitAt c.content k = bitAt r.content k := by
  induction h generalizing c H' with
  | start =>
    simp only [List.cons.injEq] at hH
    obtain ⟨rfl, rfl⟩ := hH
    simp only [lastNotified, Option.some.injEq] at hr
    subst hr
    intros; rfl
  | look p ht h0 hl hr' hsm hf h ih =>
    have hch := Chain.look p ht h0 hl hr' hsm hf h
    obtain ⟨c2, H2, h2, -, h3⟩ := chain_change hz hn het hch
    simp only [List.cons.injEq] at h2 hH
    obtain ⟨rfl, rfl⟩ := h2
    obtain ⟨rfl, rfl⟩ := hH
    simp only [lastNotified] at hr
    split at hr
    · simp only [Option.some.injEq] at hr
      subst hr
      intros; rfl
    · rename_i hnh
      have h4 := h3 _ _ rfl
      dsimp only at h4
      intro k hk
      rw [← ih rfl hr k hk]
      apply Classical.byContradiction
      intro hne
      exact hnh (h4.mpr ⟨k, hk, hne⟩)

/-! ## Set and reset -/

theorem bitAt_zero (n q : Nat) : bitAt (List.replicate n (0 : Byte)) q = false := by
  unfold bitAt bitOf
  rw [List.getElem?_replicate]
  split
  · rename_i x h
    split at h
    · simp only [Option.some.injEq] at h; subst h; simp
    · simp at h
  · rfl

theorem stepSet_fire (a b : Byte) (k : Nat) (hk : k < 8) :
    (stepSet a b k).1 = (b.getLsbD k && !a.getLsbD k) := by
  have h1 := and_bitMask_zero (a := a) hk
  have h2 := and_bitMask_zero (a := b) hk
  unfold stepSet
  cases ha : a.getLsbD k <;> cases hb : b.getLsbD k <;> rw [ha] at h1 <;> rw [hb] at h2 <;> simp_all

theorem stepSet_bit (a b : Byte) (k j : Nat) (hk : k < 8) (hj : j < 8) :
    (stepSet a b k).2.getLsbD j = if j = k then b.getLsbD k else a.getLsbD j := by
  have h1 := and_bitMask_zero (a := a) hk
  have h2 := and_bitMask_zero (a := b) hk
  unfold stepSet
  split
  · rename_i hb
    have hb' : b.getLsbD k = true := by
      cases hb' : b.getLsbD k with
      | true => rfl
      | false => exact absurd (h2.mpr hb') hb
    split
    · rw [set_bit hj, hb']
    · rename_i ha
      dsimp only
      by_cases hjk : j = k
      · subst hjk
        rw [if_pos rfl, hb']
        cases ha' : a.getLsbD j with
        | true => rfl
        | false => exact absurd (h1.mpr ha') ha
      · rw [if_neg hjk]
  · rename_i hb
    have hb' : b.getLsbD k = false := h2.mp (Decidable.not_not.mp hb)
    rw [clear_bit hj, hb']

theorem stepReset_fire (a b : Byte) (k : Nat) (hk : k < 8) :
    (stepReset a b k).1 = (!b.getLsbD k && !a.getLsbD k) := by
  have h1 := and_bitMask_zero (a := a) hk
  have h2 := and_bitMask_zero (a := b) hk
  unfold stepReset
  cases ha : a.getLsbD k <;> cases hb : b.getLsbD k <;> rw [ha] at h1 <;> rw [hb] at h2 <;> simp_all

theorem stepReset_bit (a b : Byte) (k j : Nat) (hk : k < 8) (hj : j < 8) :
    (stepReset a b k).2.getLsbD j = if j = k then !b.getLsbD k else a.getLsbD j := by
  have h1 := and_bitMask_zero (a := a) hk
  have h2 := and_bitMask_zero (a := b) hk
  unfold stepReset
  split
  · rename_i hb
    have hb' : b.getLsbD k = false := h2.mp hb
    split
    · rw [set_bit hj, hb']; rfl
    · rename_i ha
      dsimp only
      by_cases hjk : j = k
      · subst hjk
        rw [if_pos rfl, hb']
        cases ha' : a.getLsbD j with
        | true => rfl
        | false => exact absurd (h1.mpr ha') ha
      · rw [if_neg hjk]
  · rename_i hb
    have hb' : b.getLsbD k = true := by
      cases hb' : b.getLsbD k with
      | true => rfl
      | false => exact absurd (h2.mpr hb') hb
    rw [clear_bit hj, hb']; rfl

/-- The test block of a set or reset event: the last seen bits (mapped by `g`), zero before the first look. -/
theorem chain_edge {S : Sub} {e : Env} {data : List Byte} {H : List Look} {test : List Byte}
    {step : Byte → Byte → Nat → Bool × Byte} {f : Bool → Bool → Bool} {g : Bool → Bool}
    (hf : ∀ a b k, k < 8 → (step a b k).1 = f (a.getLsbD k) (b.getLsbD k))
    (hg : ∀ a b k j, k < 8 → j < 8 → (step a b k).2.getLsbD j = if j = k then g (b.getLsbD k) else a.getLsbD j)
    (hn : S.h.count < 2147483648) (het : S.et = EVENT_SET ∨ S.et = EVENT_RESET) (hty : S.h.type = DAX_BOOL)
    (hev : ∀ (ev : Ev) (b : List Byte) (o n : Int), ev.etype = S.et → evHit e ev b o n = evBits step ev b)
    (h : Chain S e data H test) : ∃ c H', H = c :: H' ∧
      (∀ q, S.h.bit ≤ q → q < S.h.bit + S.h.count →
        bitAt test q = if H' = [] then false else g (bitAt c.content (8 * S.h.byte + q))) ∧
      ∀ c1 H1, H' = c1 :: H1 → (c.hit = true ↔ ∃ k, S.bits k ∧
        f (if H1 = [] then false else g (bitAt c1.content k)) (bitAt c.content k) = true) := by
  induction h with
  | @start s b test h hl =>
    refine ⟨_, _, rfl, ?_, by simp⟩
    unfold setEventData at h
    rw [Sub.ev_etype, if_neg (by rcases het with h | h <;> rw [h] <;> decide),
      if_neg (by rcases het with h | h <;> rw [h] <;> decide), if_pos het] at h
    obtain ⟨t, ht, h⟩ := C.bind_eq_ok.mp h
    simp only [C.ok.injEq, Prod.mk.injEq] at h
    obtain ⟨-, rfl⟩ := h
    unfold zeroBlock at ht
    split at ht
    · simp at ht
    simp only [C.ok.injEq] at ht
    subst ht
    intro q _ _
    rw [bitAt_zero, if_pos rfl]
  | @look H c test test' b hit off len p ht h0 hl hr hsm hfr h ih =>
    obtain ⟨c', H', heq, hrem, -⟩ := ih
    simp only [List.cons.injEq] at heq
    obtain ⟨rfl, rfl⟩ := heq
    rw [hev _ _ _ _ (Sub.ev_etype ..)] at h
    unfold evBits at h
    obtain ⟨ho, hpos, hby⟩ := overlapLen_eq (d := data) (t := test) ht h0 hl hr hsm
    rw [Sub.ev_bit, Sub.ev_test, hby] at h
    split at h
    · simp at h
    have hcnt : (S.ev data test).count.toNat = S.h.count := by
      rw [Sub.ev_count, i32_of_range (by omega)]; rfl
    rw [hcnt] at h
    clear hcnt ho hpos hby
    obtain ⟨i1, i2⟩ := bitLoop_edge hf hg _ _ _ _ h
    refine ⟨_, _, rfl, fun q h1 h2 => ?_, ?_⟩
    · rw [i2, if_pos ⟨h1, h2⟩, if_neg (by simp)]
    · intro c1 H1 hh
      simp only [List.cons.injEq] at hh
      obtain ⟨rfl, rfl⟩ := hh
      dsimp only
      rw [i1]
      simp only [Bool.false_eq_true, false_or, Sub.bits, if_pos hty]
      constructor
      · rintro ⟨q, h1, h2, h3⟩
        rw [hrem q h1 h2] at h3
        exact ⟨8 * S.h.byte + q, by omega, h3⟩
      · rintro ⟨k, h1, h2⟩
        refine ⟨k - 8 * S.h.byte, by omega, by omega, ?_⟩
        have : 8 * S.h.byte + (k - 8 * S.h.byte) = k := by omega
        rw [hrem _ (by omega) (by omega), this]
        exact h2

/-! ## Values -/

theorem unsignedVal_eq (b : List Byte) : unsignedVal b = leNat b := by
  induction b with
  | nil => rfl
  | cons x b ih =>
    unfold unsignedVal at ih ⊢
    rw [List.foldr_cons, ih]; rfl

theorem msb_iff : ∀ (b : List Byte), leNat b < 2 ^ (8 * b.length - 1) ↔ b.getLast?.any (·.getLsbD 7) = false
  | [] => by simp [leNat]
  | [x] => by
    have : ∀ x : Byte, x.toNat < 128 ↔ x.getLsbD 7 = false := by decide +kernel
    simpa [leNat] using this x
  | x :: y :: ys => by
    have ih := msb_iff (y :: ys)
    have e1 : (x :: y :: ys).getLast? = (y :: ys).getLast? := by simp [List.getLast?_cons_cons]
    rw [e1, ← ih]
    have e2 : 2 ^ (8 * (x :: y :: ys).length - 1) = 256 * 2 ^ (8 * (y :: ys).length - 1) := by
      have : 8 * (x :: y :: ys).length - 1 = 8 + (8 * (y :: ys).length - 1) := by
        simp only [List.length_cons]; omega
      rw [this, Nat.pow_add]
    rw [e2]
    have e3 : leNat (x :: y :: ys) = x.toNat + 256 * leNat (y :: ys) := rfl
    have := x.isLt
    rw [e3]
    omega

theorem signedVal_eq (b : List Byte) : signedVal b = leInt b := by
  unfold signedVal leInt
  have h := msb_iff b
  rw [unsignedVal_eq]
  have e : (256 : Int) ^ b.length = 2 ^ (8 * b.length) := by
    rw [Int.pow_mul]; rfl
  by_cases hc : leNat b < 2 ^ (8 * b.length - 1)
  · have hc' : (leNat b : Int) < 2 ^ (8 * b.length - 1) := by exact_mod_cast hc
    rw [if_neg (by rw [h.mp hc]; simp), if_pos hc]
  · have hb : b.getLast?.any (·.getLsbD 7) = true := by
      cases hx : b.getLast?.any (·.getLsbD 7) with
      | true => rfl
      | false => exact absurd (h.mpr hx) hc
    rw [if_pos hb, if_neg hc, e]

theorem intTypes_facts : ∀ x ∈ intTypes, typeBits x.1 / 8 = x.2.1 ∧ cmpWidth x.1 = some x.2.1 ∧
    cmpSigned x.1 = x.2.2 ∧ x.1 ≠ DAX_REAL ∧ x.1 ≠ DAX_LREAL ∧ (x.2.1 = 1 ∨ x.2.1 = 2 ∨ x.2.1 = 4 ∨ x.2.1 = 8) ∧
    isCustom x.1 = false ∧ x.1 ∈ baseTypes := by decide

theorem cmpVal_eq {t w : Nat} {sg : Bool} (h : (t, w, sg) ∈ intTypes) (b : List Byte) : cmpVal t b = intVal sg b := by
  unfold cmpVal intVal
  rw [(intTypes_facts _ h).2.2.1, signedVal_eq, unsignedVal_eq]

/-! ## Comparison -/

theorem rd_elem {b d : List Byte} {off : Int} {w : Nat} (h : rd b off w = .ok d) : d = elemAt b off.toNat w := by
  have := (rd_ok.mp h).2
  simpa [elemAt] using this

theorem cmpLoop_spec {ev : Ev} {data a : List Byte} {w : Nat} {cmp : Int} (ha : rd ev.data 0 w = .ok a)
    {P : List Byte → Prop} (hP : ∀ d, genericCompare ev.dtype a d = cmp ↔ P d) :
    ∀ (k bit pos : Nat) (test : List Byte) (hit : Bool) {hit' : Bool} {test' : List Byte},
    cmpLoop ev data w w cmp k bit (pos : Int) test hit = .ok (hit', test') →
    (hit' = true ↔ hit = true ∨ ∃ j, j < k ∧ P (elemAt data (pos + w * j) w) ∧ bitAt test (bit + j) = false) ∧
    (∀ q, bitAt test' q = true ↔
      if bit ≤ q ∧ q < bit + k then P (elemAt data (pos + w * (q - bit)) w) else bitAt test q = true) := by
  intro k
  induction k with
  | zero =>
    intro bit pos test hit hit' test' h
    simp only [cmpLoop, C.ok.injEq, Prod.mk.injEq] at h
    obtain ⟨rfl, rfl⟩ := h
    refine ⟨⟨.inl, ?_⟩, fun q => by rw [if_neg (by omega)]⟩
    rintro (h | ⟨j, hj, _⟩)
    · exact h
    · omega
  | succ k ih =>
    intro bit pos test hit hit' test' h
    simp only [cmpLoop, ha, C.ok_bind] at h
    obtain ⟨d, hd, h⟩ := C.bind_eq_ok.mp h
    obtain ⟨f, hf, h⟩ := C.bind_eq_ok.mp h
    obtain ⟨-, hf⟩ := getB_ok hf
    have e1 : ((bit / 8 : Nat) : Int).toNat = bit / 8 := by omega
    rw [e1] at hf
    have hfb := bitAt_get hf
    have hk : bit % 8 < 8 := Nat.mod_lt _ (by omega)
    have hd' := rd_elem hd
    rw [Int.toNat_natCast] at hd'
    have e2 : ((pos : Int) + w) = ((pos + w : Nat) : Int) := by omega
    rw [e2] at h
    have esh : ∀ j, pos + w + w * j = pos + w * (j + 1) := by intro j; rw [Nat.mul_add]; omega
    -- common shape: the remaining loop runs on `test1` with bit `bit` set to `v`
    have key : ∀ (test1 : List Byte) (hit1 : Bool), (∀ q, q ≠ bit → bitAt test1 q = bitAt test q) →
        (bitAt test1 bit = true ↔ P d) → (hit1 = true ↔ hit = true ∨ (P d ∧ bitAt test bit = false)) →
        cmpLoop ev data w w cmp k (bit + 1) ((pos + w : Nat) : Int) test1 hit1 = .ok (hit', test') →
        (hit' = true ↔ hit = true ∨ ∃ j, j < k + 1 ∧ P (elemAt data (pos + w * j) w) ∧ bitAt test (bit + j) = false) ∧
        (∀ q, bitAt test' q = true ↔
          if bit ≤ q ∧ q < bit + (k + 1) then P (elemAt data (pos + w * (q - bit)) w) else bitAt test q = true) := by
      intro test1 hit1 ht1 hb1 hh1 hl
      obtain ⟨i1, i2⟩ := ih _ _ _ _ hl
      refine ⟨?_, ?_⟩
      · rw [i1, hh1]
        constructor
        · rintro ((h | ⟨h, h2⟩) | ⟨j, hj, hp, hb⟩)
          · exact .inl h
          · refine .inr ⟨0, by omega, ?_, h2⟩
            rw [hd'] at h; simpa using h
          · refine .inr ⟨j + 1, by omega, ?_, ?_⟩
            · rw [← esh]; exact hp
            · rw [ht1 _ (by omega)] at hb
              have : bit + (j + 1) = bit + 1 + j := by omega
              rw [this]; exact hb
        · rintro (h | ⟨j, hj, hp, hb⟩)
          · exact .inl (.inl h)
          · cases j with
            | zero =>
              refine .inl (.inr ⟨?_, hb⟩)
              rw [hd']; simpa using hp
            | succ j =>
              refine .inr ⟨j, by omega, ?_, ?_⟩
              · rw [esh]; exact hp
              · rw [ht1 _ (by omega)]
                have : bit + (j + 1) = bit + 1 + j := by omega
                rw [this] at hb; exact hb
      · intro q
        rw [i2]
        by_cases hq : q = bit
        · subst hq
          rw [if_neg (by omega), if_pos (by omega), hb1, hd']
          simp
        · by_cases hr : bit ≤ q ∧ q < bit + (k + 1)
          · rw [if_pos (by omega), if_pos hr, esh]
            have : q - (bit + 1) + 1 = q - bit := by omega
            rw [this]
          · rw [if_neg (by omega), if_neg hr, ht1 _ hq]
    have hother : ∀ (y : Byte), (∀ j, j < 8 → j ≠ bit % 8 → y.getLsbD j = f.getLsbD j) →
        ∀ q, q ≠ bit → bitAt (test.set (bit / 8) y) q = bitAt test q := by
      intro y hy q hq
      rw [bitAt_set hf]
      split
      · rename_i he
        rw [hy _ (Nat.mod_lt _ (by omega)) (by omega)]
        rw [← he] at hf
        rw [bitAt_get hf]
      · rfl
    have hself : ∀ (y : Byte), bitAt (test.set (bit / 8) y) bit = y.getLsbD (bit % 8) := by
      intro y; rw [bitAt_set hf, if_pos rfl]
    have hz := and_bitMask_zero (a := f) hk
    split at h
    · rename_i hc
      have hPd := (hP d).mp hc
      split at h
      · rename_i hb
        refine key _ _ (hother _ ?_) ?_ ?_ h
        · intro j hj hne; rw [set_bit hj, if_neg hne]
        · rw [hself, set_bit hk, if_pos rfl]; simp [hPd]
        · rw [hfb, hz.mp hb]; simp [hPd]
      · rename_i hb
        have hb' : bitAt test bit = true := by
          rw [hfb]
          cases hx : f.getLsbD (bit % 8) with
          | true => rfl
          | false => exact absurd (hz.mpr hx) hb
        exact key _ _ (fun _ _ => rfl) (by simp [hb', hPd]) (by simp [hb']) h
    · rename_i hc
      have hPd : ¬ P d := fun h => hc ((hP d).mpr h)
      refine key _ _ (hother _ ?_) ?_ ?_ h
      · intro j hj hne; rw [clear_bit hj, if_neg hne]
      · rw [hself, clear_bit hk, if_pos rfl]; simp [hPd]
      · simp [hPd]

/-- The elements a loop over an aligned write visits are those the write touches. -/
theorem visit_range {S : Sub} {w : Nat} (hw : w = 1 ∨ w = 2 ∨ w = 4 ∨ w = 8) {off : Int} {len : Nat}
    (hal : S.aligned w off) (hs : S.h.size = w * S.h.count) (ht : S.touched off len) (h0 : 0 ≤ off) :
    ∃ m k : Nat, (max 0 ((off - S.h.byte).tdiv w)).toNat = m ∧ (max 0 (off - S.h.byte)) = (w * m : Nat) ∧
      max off (S.h.byte : Int) = (S.h.byte + w * m : Nat) ∧
      ((min (S.h.byte + S.h.size : Int) (off + len) - max off S.h.byte).toNat + w - 1) / w = k ∧ m + k ≤ S.h.count ∧
      ∀ j, j < S.h.count → (S.elemTouched w j off len ↔ m ≤ j ∧ j < m + k) := by
  obtain ⟨kk, t1, t2, t3, t4⟩ := ht
  have tch : ∀ j, S.elemTouched w j off len ↔ off < S.h.byte + w * j + w ∧ (S.h.byte + w * j : Nat) < off + len := by
    intro j
    constructor
    · rintro ⟨k, h1, h2, h3, h4⟩; omega
    · rintro ⟨h1, h2⟩
      exact ⟨max off.toNat (S.h.byte + w * j), by omega, by omega, by omega, by omega⟩
  obtain ⟨m, hm⟩ : ∃ m : Nat, max off (S.h.byte : Int) = (S.h.byte + w * m : Nat) := by
    rcases hal with h | ⟨m, h⟩
    · exact ⟨0, by omega⟩
    · exact ⟨m, by omega⟩
  have hm2 : max 0 (off - S.h.byte) = (w * m : Nat) := by omega
  have hm1 : (max 0 ((off - S.h.byte).tdiv w)).toNat = m := by
    by_cases hneg : off ≤ S.h.byte
    · have h1 : (off - S.h.byte).tdiv w ≤ 0 := by
        have e : off - S.h.byte = - (S.h.byte - off) := by omega
        rw [e, Int.neg_tdiv]
        have : 0 ≤ ((S.h.byte : Int) - off).tdiv w := Int.tdiv_nonneg (by omega) (by omega)
        omega
      have : m = 0 := by rcases hw with rfl | rfl | rfl | rfl <;> omega
      omega
    · have e : off - S.h.byte = (w : Int) * m := by
        have : ((w * m : Nat) : Int) = (w : Int) * m := by simp
        omega
      rw [e, Int.mul_tdiv_cancel_left _ (by omega)]
      omega
  refine ⟨m, _, hm1, hm2, hm, rfl, ?_, ?_⟩
  · rcases hw with rfl | rfl | rfl | rfl <;> omega
  · intro j hj
    rw [tch]
    rcases hw with rfl | rfl | rfl | rfl <;> omega

theorem typeSize_int {tbl : List Cdt} {t w : Nat} {sg : Bool} (h : (t, w, sg) ∈ intTypes) :
    typeSize tbl t = .ok (w : Int) := by
  have hx : ∀ x ∈ intTypes, baseTypes.contains (stripQueue x.1) = true := by decide
  have h1 := hx _ h
  obtain ⟨h2, -, -, -, -, -, h3, -⟩ := intTypes_facts _ h
  dsimp only at h1 h2 h3
  unfold typeSize typeSizeF
  have hc : checkType tbl t = true := by unfold checkType; simp only [h1, Bool.true_or]
  rw [if_neg (by rw [hc]; simp), if_neg (by rw [h3]; simp), h2]

/-- The condition of the event, on the bytes of an element. -/
def Sub.cond (S : Sub) (w : Nat) (sg : Bool) (v : List Byte) : Prop :=
  relation S.et (intVal sg v) (intVal sg (S.arg.take w))

theorem compare_iff {S : Sub} {w : Nat} {sg : Bool} (hty : (S.h.type, w, sg) ∈ intTypes) {cmp : Int}
    (hc : (S.et = EVENT_EQUAL ∧ cmp = 0) ∨ (S.et = EVENT_GREATER ∧ cmp = -1) ∨ (S.et = EVENT_LESS ∧ cmp = 1))
    (v : List Byte) : genericCompare S.h.type (S.arg.take w) v = cmp ↔ S.cond w sg v := by
  obtain ⟨-, -, -, hr, hlr, -⟩ := intTypes_facts _ hty
  have hless : ∀ a b, cmpLess S.h.type a b = decide (intVal sg a < intVal sg b) := fun a b => by
    unfold cmpLess
    dsimp only at hr hlr
    rw [if_neg hr, if_neg hlr, cmpVal_eq hty, cmpVal_eq hty]
  unfold genericCompare Sub.cond relation
  rw [hless, hless]
  simp only [decide_eq_true_eq]
  generalize intVal sg (S.arg.take w) = x
  generalize intVal sg v = y
  have n1 : ¬ EVENT_EQUAL = EVENT_GREATER := by decide
  have n2 : ¬ EVENT_EQUAL = EVENT_LESS := by decide
  have n3 : ¬ EVENT_GREATER = EVENT_EQUAL := by decide
  have n4 : ¬ EVENT_GREATER = EVENT_LESS := by decide
  have n5 : ¬ EVENT_LESS = EVENT_GREATER := by decide
  have n6 : ¬ EVENT_LESS = EVENT_EQUAL := by decide
  rcases hc with ⟨h, rfl⟩ | ⟨h, rfl⟩ | ⟨h, rfl⟩ <;> rw [h]
  · simp only [n1, n2, true_and, false_and, or_false]
    split
    · omega
    · split <;> omega
  · simp only [n3, n4, true_and, false_and, or_false, false_or]
    split
    · omega
    · split <;> omega
  · simp only [n5, n6, true_and, false_and, false_or]
    split
    · omega
    · split <;> omega

/-- The bits remembered for the elements, and the outcome, for any type whose comparison is known. -/
theorem chain_compare_gen {S : Sub} {e : Env} {data : List Byte} {H : List Look} {test : List Byte} {w : Nat} {P : List Byte → Prop}
    (hinc : typeBits S.h.type / 8 = w) (hcw : cmpWidth S.h.type = some w) (hw : w = 1 ∨ w = 2 ∨ w = 4 ∨ w = 8) (hsz : ∀ tbl, typeSize tbl S.h.type = .ok (w : Nat))
    (hs : S.h.size = w * S.h.count) {cmp : Int} (hPc : ∀ d, genericCompare S.h.type (S.arg.take w) d = cmp ↔ P d)
    (hc : (S.et = EVENT_EQUAL ∧ cmp = 0) ∨ (S.et = EVENT_GREATER ∧ cmp = -1) ∨ (S.et = EVENT_LESS ∧ cmp = 1))
    (h : Chain S e data H test) (hal : ∀ c ∈ H, S.aligned w c.off) :
    ∃ c H', H = c :: H' ∧ rd data 0 w = .ok (S.arg.take w) ∧
      (∀ j, j < S.h.count → (bitAt test j = true ↔ S.heldBefore w P j H)) ∧
      ∀ c1 H1, H' = c1 :: H1 → (c.hit = true ↔ ∃ j, j < S.h.count ∧ S.elemTouched w j c.off c.len ∧
        P (S.elem w j c.content) ∧ ¬ S.heldBefore w P j H') := by
  have hwpos : 0 < w := by omega
  have hetne : S.et ≠ EVENT_WRITE ∧ S.et ≠ EVENT_CHANGE ∧ S.et ≠ EVENT_SET ∧ S.et ≠ EVENT_RESET ∧ S.et ≠ EVENT_DEADBAND := by
    rcases hc with ⟨h, -⟩ | ⟨h, -⟩ | ⟨h, -⟩ <;> rw [h] <;> decide
  obtain ⟨ne1, ne2, ne3, ne4, ne5⟩ := hetne
  have hetor : S.et = EVENT_EQUAL ∨ S.et = EVENT_GREATER ∨ S.et = EVENT_LESS := by
    rcases hc with ⟨h, -⟩ | ⟨h, -⟩ | ⟨h, -⟩ <;> simp [h]
  induction h with
  | @start s b test h hl =>
    refine ⟨_, _, rfl, ?_, ?_, by simp⟩
    · unfold setEventData at h
      rw [Sub.ev_etype, if_neg ne2, if_neg ne5, if_neg (by rintro (h | h); exact ne3 h; exact ne4 h), if_pos hetor,
        Sub.ev_dtype, hsz] at h
      simp only [C.ok_bind] at h
      obtain ⟨d, hd, h⟩ := C.bind_eq_ok.mp h
      obtain ⟨t, ht, h⟩ := C.bind_eq_ok.mp h
      simp only [C.ok.injEq, Prod.mk.injEq] at h
      obtain ⟨rfl, rfl⟩ := h
      have hd1 := (rd_ok.mp hd).1
      have hd2 := (rd_ok.mp hd).2
      have hd3 := rd_length hd
      have : d = S.arg.take w := by simpa using hd2
      rw [← this]
      rw [rd_ok]
      refine ⟨⟨by omega, by omega, by omega⟩, ?_⟩
      simp only [Int.toNat_zero, List.drop_zero, Int.toNat_natCast]
      rw [List.take_of_length_le (by omega)]
    · unfold setEventData at h
      rw [Sub.ev_etype, if_neg ne2, if_neg ne5, if_neg (by rintro (h | h); exact ne3 h; exact ne4 h), if_pos hetor,
        Sub.ev_dtype, hsz] at h
      simp only [C.ok_bind] at h
      obtain ⟨d, hd, h⟩ := C.bind_eq_ok.mp h
      obtain ⟨t, ht, h⟩ := C.bind_eq_ok.mp h
      simp only [C.ok.injEq, Prod.mk.injEq] at h
      obtain ⟨rfl, rfl⟩ := h
      unfold zeroBlock at ht
      split at ht
      · simp at ht
      simp only [C.ok.injEq] at ht
      subst ht
      intro j _
      rw [bitAt_zero]
      simp [Sub.heldBefore]
  | @look H c test test' b hit off len p ht h0 hl hr hsm hf h ih =>
    obtain ⟨c', H', heq, hdat, hrem, -⟩ := ih (fun x hx => hal x (List.mem_cons_of_mem _ hx))
    simp only [List.cons.injEq] at heq
    obtain ⟨rfl, rfl⟩ := heq
    have hal0 := hal _ List.mem_cons_self
    dsimp only at hal0
    obtain ⟨ho, hpos, hby⟩ := overlapLen_eq (d := data) (t := test) ht h0 hl hr hsm
    obtain ⟨m, k, v1, v2, v3, v4, v5, v6⟩ := visit_range hw hal0 hs ht h0
    have hhit : evCompare (S.ev data test) b off len cmp = .ok (hit, test') := by
      rw [← h]
      unfold evHit
      rw [Sub.ev_etype, if_neg ne1, if_neg ne2, if_neg ne3, if_neg ne4]
      rcases hc with ⟨h, rfl⟩ | ⟨h, rfl⟩ | ⟨h, rfl⟩ <;> rw [h]
      · rw [if_pos rfl]
      · rw [if_neg (by decide), if_pos rfl]
      · rw [if_neg (by decide), if_neg (by decide), if_pos rfl]
    unfold evCompare at hhit
    rw [Sub.ev_dtype, hinc, hcw] at hhit
    dsimp only at hhit
    rw [if_neg (Nat.ne_of_gt hwpos), if_neg (Int.not_le.mpr hpos), hby, ho, v1, v4, v3, Sub.ev_test] at hhit
    clear hpos hby ho
    have hdat' : rd (S.ev data test).data 0 w = .ok (S.arg.take w) := by rw [Sub.ev_data]; exact hdat
    have hP : ∀ d, genericCompare (S.ev data test).dtype (S.arg.take w) d = cmp ↔ P d := by
      rw [Sub.ev_dtype]; exact hPc
    obtain ⟨i1, i2⟩ := cmpLoop_spec hdat' hP _ _ _ _ _ hhit
    have eel : ∀ j, S.h.byte + w * m + w * j = S.h.byte + w * (m + j) := by intro j; rw [Nat.mul_add]; omega
    refine ⟨_, _, rfl, hdat, ?_, ?_⟩
    · intro j hj
      rw [i2]
      simp only [Sub.heldBefore]
      by_cases hin : m ≤ j ∧ j < m + k
      · have := (v6 j hj).mpr hin
        rw [if_pos hin, eel]
        have e5 : m + (j - m) = j := by omega
        rw [e5]
        simp only [this, true_and, not_true, false_and, or_false]
        exact Iff.rfl
      · have this : ¬ S.elemTouched w j off len := fun h => hin ((v6 j hj).mp h)
        rw [if_neg hin, hrem j hj]
        simp only [this, false_and, not_false_iff, true_and, false_or]
    · intro c1 H1 hh
      simp only [List.cons.injEq] at hh
      obtain ⟨rfl, rfl⟩ := hh
      dsimp only
      rw [i1]
      simp only [Bool.false_eq_true, false_or]
      constructor
      · rintro ⟨j, hj, hp, hb⟩
        refine ⟨m + j, by omega, (v6 _ (by omega)).mpr ⟨by omega, by omega⟩, ?_, ?_⟩
        · rw [eel] at hp; exact hp
        · rw [← hrem _ (by omega), hb]; simp
      · rintro ⟨j, hj, htj, hp, hb⟩
        have hin := (v6 j hj).mp htj
        refine ⟨j - m, by omega, ?_, ?_⟩
        · rw [eel]
          have e5 : m + (j - m) = j := by omega
          rw [e5]; exact hp
        · have e5 : m + (j - m) = j := by omega
          rw [e5]
          rw [← hrem j hj] at hb
          cases hx : bitAt test j with
          | false => rfl
          | true => exact absurd hx hb

theorem chain_compare {S : Sub} {e : Env} {data : List Byte} {H : List Look} {test : List Byte} {w : Nat} {sg : Bool}
    (hty : (S.h.type, w, sg) ∈ intTypes) (hs : S.h.size = w * S.h.count)
    {cmp : Int}
    (hc : (S.et = EVENT_EQUAL ∧ cmp = 0) ∨ (S.et = EVENT_GREATER ∧ cmp = -1) ∨ (S.et = EVENT_LESS ∧ cmp = 1))
    (h : Chain S e data H test) (hal : ∀ c ∈ H, S.aligned w c.off) :
    ∃ c H', H = c :: H' ∧ rd data 0 w = .ok (S.arg.take w) ∧
      (∀ j, j < S.h.count → (bitAt test j = true ↔ S.heldBefore w (S.cond w sg) j H)) ∧
      ∀ c1 H1, H' = c1 :: H1 → (c.hit = true ↔ ∃ j, j < S.h.count ∧ S.elemTouched w j c.off c.len ∧
        S.cond w sg (S.elem w j c.content) ∧ ¬ S.heldBefore w (S.cond w sg) j H') := by
  obtain ⟨hinc, hcw, -, -, -, hw, -⟩ := intTypes_facts _ hty
  exact chain_compare_gen hinc hcw hw (fun _ => typeSize_int hty) hs (compare_iff hty hc) hc h hal

/-! ## Deadband -/

theorem cabs_ge {d n : Int} : cabs d ≥ n ↔ n ≤ d ∨ n ≤ -d := by
  unfold cabs; split <;> omega

theorem wrapS_1 {x : Int} (h1 : -128 ≤ x) (h2 : x < 128) : wrapS 1 x = x := by
  have e1 : (2 : Int) ^ (8 * 1) = 256 := by decide
  have e2 : (2 : Int) ^ (8 * 1 - 1) = 128 := by decide
  unfold wrapS; rw [e1, e2]; split <;> omega

theorem wrapS_2 {x : Int} (h1 : -32768 ≤ x) (h2 : x < 32768) : wrapS 2 x = x := by
  have e1 : (2 : Int) ^ (8 * 2) = 65536 := by decide
  have e2 : (2 : Int) ^ (8 * 2 - 1) = 32768 := by decide
  unfold wrapS; rw [e1, e2]; split <;> omega

theorem wrapS_8 {x : Int} (h1 : -9223372036854775808 < x) (h2 : x < 9223372036854775808) : wrapS 8 x = x := by
  have e1 : (2 : Int) ^ (8 * 8) = 18446744073709551616 := by decide
  have e2 : (2 : Int) ^ (8 * 8 - 1) = 9223372036854775808 := by decide
  unfold wrapS; rw [e1, e2]; split <;> omega

theorem deadband_iff {e : Env} {t w : Nat} {sg : Bool} (hty : (t, w, sg) ∈ intTypes) {band old new : List Byte}
    (ho : old.length = w) (hn : new.length = w) (hf : diffFits t sg old new) {r : Bool}
    (h : genericDeadband e t band old new = .ok r) : r = true ↔ movedBy sg (intVal sg band) old new := by
  obtain ⟨hf1, hf2, hf3, hf4⟩ := hf
  have lo := leNat_lt old
  have ln := leNat_lt new
  rw [ho] at lo
  rw [hn] at ln
  unfold movedBy
  unfold genericDeadband at h
  simp only [intVal, unsignedVal_eq, signedVal_eq] at *
  generalize leInt old = so at *
  generalize leInt new = sn at *
  generalize leNat old = uo at *
  generalize leNat new = un at *
  simp only [intTypes, List.mem_cons, List.not_mem_nil, or_false, Prod.mk.injEq] at hty
  rcases hty with h1|h1|h1|h1|h1|h1|h1|h1|h1|h1|h1|h1 <;> obtain ⟨rfl, rfl, rfl⟩ := h1
  · rw [if_neg (by decide), if_pos rfl] at h
    simp only [C.ok.injEq] at h; subst h
    simp only [decide_eq_true_eq, cabs_ge, Bool.false_eq_true, if_false]; omega
  · have hb := hf1 (.inl rfl)
    simp only [if_true] at hb
    rw [if_neg (by decide), if_neg (by decide), if_pos (by decide), wrapS_1 hb.1 hb.2] at h
    simp only [C.ok.injEq] at h; subst h
    simp only [decide_eq_true_eq, cabs_ge, if_true]; omega
  · have hb := hf1 (.inr rfl)
    simp only [if_true] at hb
    rw [if_neg (by decide), if_neg (by decide), if_pos (by decide), wrapS_1 hb.1 hb.2] at h
    simp only [C.ok.injEq] at h; subst h
    simp only [decide_eq_true_eq, cabs_ge, if_true]; omega
  · rw [if_neg (by decide), if_neg (by decide), if_neg (by decide), if_pos (by decide)] at h
    simp only [C.ok.injEq] at h; subst h
    simp only [decide_eq_true_eq, cabs_ge, Bool.false_eq_true, if_false]; omega
  · have hb := hf2 rfl
    simp only [if_true] at hb
    rw [if_neg (by decide), if_neg (by decide), if_neg (by decide), if_neg (by decide), if_pos rfl,
      wrapS_2 hb.1 hb.2] at h
    simp only [C.ok.injEq] at h; subst h
    simp only [decide_eq_true_eq, cabs_ge, if_true]; omega
  · rw [if_neg (by decide), if_neg (by decide), if_neg (by decide), if_pos (by decide)] at h
    simp only [C.ok.injEq] at h; subst h
    simp only [decide_eq_true_eq, cabs_ge, Bool.false_eq_true, if_false]; omega
  · have hb := hf3 (.inr rfl)
    simp only [Bool.false_eq_true, if_false] at hb
    rw [if_neg (by decide), if_neg (by decide), if_neg (by decide), if_neg (by decide), if_neg (by decide),
      if_pos (by decide)] at h
    simp only [C.ok.injEq] at h; subst h
    simp only [decide_eq_true_eq, Bool.false_eq_true, if_false]
    have e1 : (256 : Nat) ^ 4 = 4294967296 := by decide
    omega
  · rw [if_neg (by decide), if_neg (by decide), if_neg (by decide), if_neg (by decide), if_neg (by decide),
      if_neg (by decide), if_pos rfl] at h
    split at h
    · simp only [C.ok.injEq] at h; subst h
      simp only [decide_eq_true_eq, cabs_ge, if_true]; omega
    · simp at h
  · have hb := hf3 (.inl rfl)
    simp only [Bool.false_eq_true, if_false] at hb
    rw [if_neg (by decide), if_neg (by decide), if_neg (by decide), if_neg (by decide), if_neg (by decide),
      if_pos (by decide)] at h
    simp only [C.ok.injEq] at h; subst h
    simp only [decide_eq_true_eq, Bool.false_eq_true, if_false]
    have e1 : (256 : Nat) ^ 4 = 4294967296 := by decide
    omega
  · have hb := hf4 (.inr rfl)
    simp only [Bool.false_eq_true, if_false] at hb
    rw [if_neg (by decide), if_neg (by decide), if_neg (by decide), if_neg (by decide), if_neg (by decide),
      if_neg (by decide), if_neg (by decide), if_pos (by decide), wrapS_8 hb.1 hb.2] at h
    split at h
    · simp at h
    simp only [C.ok.injEq] at h; subst h
    simp only [decide_eq_true_eq, cabs_ge, Bool.false_eq_true, if_false]; omega
  · rw [if_neg (by decide), if_neg (by decide), if_neg (by decide), if_neg (by decide), if_neg (by decide),
      if_neg (by decide), if_neg (by decide), if_neg (by decide), if_pos rfl] at h
    split at h
    · simp only [C.ok.injEq] at h; subst h
      simp only [decide_eq_true_eq, cabs_ge, if_true]; omega
    · simp at h
  · have hb := hf4 (.inl rfl)
    simp only [Bool.false_eq_true, if_false] at hb
    rw [if_neg (by decide), if_neg (by decide), if_neg (by decide), if_neg (by decide), if_neg (by decide),
      if_neg (by decide), if_neg (by decide), if_pos (by decide), wrapS_8 hb.1 hb.2] at h
    split at h
    · simp at h
    simp only [C.ok.injEq] at h; subst h
    simp only [decide_eq_true_eq, cabs_ge, Bool.false_eq_true, if_false]; omega

theorem elemAt_get (b : List Byte) (o w i : Nat) : (elemAt b o w)[i]? = if i < w then b[o + i]? else none := by
  simp [elemAt, List.getElem?_take]

theorem elemAt_length {b : List Byte} {o w : Nat} (h : o + w ≤ b.length) : (elemAt b o w).length = w := by
  simp [elemAt]; omega

theorem elemAt_wr {b d b' : List Byte} {w m : Nat} (hw : w = 1 ∨ w = 2 ∨ w = 4 ∨ w = 8) (hd : d.length = w)
    (h : wr b ((w * m : Nat) : Int) d = .ok b') (q : Nat) :
    elemAt b' (w * q) w = if q = m then d else elemAt b (w * q) w := by
  apply List.ext_getElem?
  intro i
  rw [elemAt_get]
  have hg := wr_get h (w * q + i)
  rw [Int.toNat_natCast] at hg
  by_cases hi : i < w
  · rw [if_pos hi, hg]
    by_cases hq : q = m
    · subst hq
      rw [if_pos (by omega), if_pos rfl]
      congr 1; omega
    · rw [if_neg hq, if_neg (by rcases hw with rfl | rfl | rfl | rfl <;> omega), elemAt_get, if_pos hi]
  · rw [if_neg hi]
    split
    · rw [List.getElem?_eq_none (by omega)]
    · rw [elemAt_get, if_neg hi]

theorem bandLoop_spec {e : Env} {ev : Ev} {data a : List Byte} {w : Nat} (hw : w = 1 ∨ w = 2 ∨ w = 4 ∨ w = 8)
    (ha : rd ev.data 0 w = .ok a) {M : List Byte → List Byte → Prop} :
    ∀ (k m pos : Nat) (test : List Byte) (hit : Bool) {hit' : Bool} {test' : List Byte},
    (∀ j r, j < k → w * (m + j) + w ≤ test.length → pos + w * j + w ≤ data.length →
      genericDeadband e ev.dtype a (elemAt test (w * (m + j)) w) (elemAt data (pos + w * j) w) = .ok r →
      (r = true ↔ M (elemAt test (w * (m + j)) w) (elemAt data (pos + w * j) w))) →
    bandLoop e ev data w w k ((w * m : Nat) : Int) (pos : Int) test hit = .ok (hit', test') →
    (hit' = true ↔ hit = true ∨ ∃ j, j < k ∧ M (elemAt test (w * (m + j)) w) (elemAt data (pos + w * j) w)) ∧
    (∀ j, j < k → M (elemAt test (w * (m + j)) w) (elemAt data (pos + w * j) w) →
      elemAt test' (w * (m + j)) w = elemAt data (pos + w * j) w) ∧
    (∀ q, (∀ j, j < k → q = m + j → ¬ M (elemAt test (w * (m + j)) w) (elemAt data (pos + w * j) w)) →
      elemAt test' (w * q) w = elemAt test (w * q) w) := by
  intro k
  induction k with
  | zero =>
    intro m pos test hit hit' test' _ h
    simp only [bandLoop, C.ok.injEq, Prod.mk.injEq] at h
    obtain ⟨rfl, rfl⟩ := h
    refine ⟨⟨.inl, ?_⟩, fun j hj => by omega, fun _ _ => rfl⟩
    rintro (h | ⟨j, hj, _⟩)
    · exact h
    · omega
  | succ k ih =>
    intro m pos test hit hit' test' hM h
    simp only [bandLoop, ha, C.ok_bind] at h
    obtain ⟨old, hold, h⟩ := C.bind_eq_ok.mp h
    obtain ⟨new, hnew, h⟩ := C.bind_eq_ok.mp h
    obtain ⟨r, hr, h⟩ := C.bind_eq_ok.mp h
    have ho := rd_elem hold
    have hn := rd_elem hnew
    rw [Int.toNat_natCast] at ho hn
    have hob := (rd_ok.mp hold).1
    have hnb := (rd_ok.mp hnew).1
    have hwl : new.length = w := by have := rd_length hnew; omega
    have e1 : ((w * m : Nat) : Int) + w = ((w * (m + 1) : Nat) : Int) := by rw [Nat.mul_add]; omega
    have e2 : (pos : Int) + w = ((pos + w : Nat) : Int) := by omega
    have esh : ∀ j, pos + w + w * j = pos + w * (j + 1) := by intro j; rw [Nat.mul_add]; omega
    have emh : ∀ j, m + 1 + j = m + (j + 1) := by intro j; omega
    have hM0 := hM 0 r (by omega) (by simp only [Nat.add_zero]; omega) (by simp; omega)
    simp only [Nat.add_zero, Nat.mul_zero] at hM0
    rw [← ho, ← hn] at hM0
    have hM0 := hM0 hr
    rw [e1, e2] at h
    have z1 : elemAt test (w * (m + 0)) w = old := by rw [ho]; rfl
    have z2 : elemAt data (pos + w * 0) w = new := by rw [hn]; rfl
    split at h
    · rename_i hrt
      have hm := hM0.mp hrt
      obtain ⟨src, hsrc, h9⟩ := C.bind_eq_ok.mp h
      obtain ⟨test1, hw1, h8⟩ := C.bind_eq_ok.mp h9
      rw [hnew] at hsrc
      simp only [C.ok.injEq] at hsrc
      subst hsrc
      have hel := elemAt_wr hw hwl hw1
      have hel' : ∀ j, elemAt test1 (w * (m + 1 + j)) w = elemAt test (w * (m + (j + 1))) w := by
        intro j; rw [hel, if_neg (by omega), emh]
      have hlt := wr_length hw1
      obtain ⟨i1, i2, i3⟩ := ih _ _ _ _ (by
        intro j r' hj hb1 hb2 hg
        rw [hel', esh] at hg ⊢
        rw [emh, hlt] at hb1
        exact hM (j + 1) r' (by omega) hb1 (by rw [← esh]; exact hb2) hg) h8
      refine ⟨?_, ?_, ?_⟩
      · rw [i1]
        refine ⟨fun _ => ?_, fun _ => .inl rfl⟩
        exact .inr ⟨0, by omega, by rw [z1, z2]; exact hm⟩
      · intro j hj hmj
        cases j with
        | zero =>
          rw [z2, Nat.add_zero, i3 m (fun j _ hjj => by omega), hel, if_pos rfl]
        | succ j =>
          rw [← emh, ← esh]
          refine i2 j (by omega) ?_
          rw [hel', esh]; exact hmj
      · intro q hq
        have hqm : q ≠ m := by
          intro e
          exact hq 0 (by omega) (by omega) (by rw [z1, z2]; exact hm)
        rw [i3 q ?_, hel, if_neg hqm]
        intro j hj hjq
        rw [hel', esh]
        exact hq (j + 1) (by omega) (by omega)
    · rename_i hrf
      have hm : ¬ M old new := fun hc => hrf (hM0.mpr hc)
      obtain ⟨i1, i2, i3⟩ := ih _ _ _ _ (by
        intro j r' hj hb1 hb2 hg
        rw [emh, esh] at hg ⊢
        rw [emh] at hb1
        exact hM (j + 1) r' (by omega) hb1 (by rw [← esh]; exact hb2) hg) h
      refine ⟨?_, ?_, ?_⟩
      · rw [i1]
        constructor
        · rintro (h | ⟨j, hj, hmj⟩)
          · exact .inl h
          · rw [emh, esh] at hmj
            exact .inr ⟨j + 1, by omega, hmj⟩
        · rintro (h | ⟨j, hj, hmj⟩)
          · exact .inl h
          · cases j with
            | zero => rw [z1, z2] at hmj; exact absurd hmj hm
            | succ j =>
              refine .inr ⟨j, by omega, ?_⟩
              rw [emh, esh]; exact hmj
      · intro j hj hmj
        cases j with
        | zero => rw [z1, z2] at hmj; exact absurd hmj hm
        | succ j =>
          rw [← emh, ← esh]
          refine i2 j (by omega) ?_
          rw [emh, esh]; exact hmj
      · intro q hq
        refine i3 q ?_
        intro j hj hjq
        rw [emh, esh]
        exact hq (j + 1) (by omega) (by omega)

theorem mulI32_count {w c : Nat} {n : Int} (h : mulI32 w (i32 (c : Int)) = .ok n) (h0 : 0 ≤ n) (hw : 0 < w)
    (hc : c < 4294967296) : n = ((w * c : Nat) : Int) := by
  have hn : (w : Int) * i32 (c : Int) = n := by
    unfold mulI32 at h
    split at h
    · exact C.ok.inj h
    · exact absurd h (by simp)
  have h3 : 0 ≤ i32 (c : Int) := by
    revert hn
    generalize i32 (c : Int) = cv
    intro hn
    apply Classical.byContradiction
    intro hneg
    have : (w : Int) * cv < 0 :=
      Int.mul_neg_of_pos_of_neg (Int.natCast_pos.mpr hw) (Int.not_le.mp hneg)
    rw [hn] at this
    exact absurd h0 (Int.not_le.mpr this)
  rw [i32_small h3 hc] at hn
  rw [← hn, Int.natCast_mul]

theorem chain_band {S : Sub} {e : Env} {data : List Byte} {H : List Look} {test : List Byte} {w : Nat} {sg : Bool}
    {M : List Byte → List Byte → Prop} (hz : S.Sane) (hMd : M = movedBy sg (intVal sg (S.arg.take w)))
    (hty : (S.h.type, w, sg) ∈ intTypes) (hs : S.h.size = w * S.h.count) (het : S.et = EVENT_DEADBAND)
    (h : Chain S e data H test) (hal : ∀ c ∈ H, S.aligned w c.off) (hex : S.exact w sg M H) :
    ∃ c H', H = c :: H' ∧ rd data 0 w = .ok (S.arg.take w) ∧
      (∀ j, j < S.h.count → elemAt test (w * j) w = S.refElem w M j H) ∧
      ∀ c1 H1, H' = c1 :: H1 → (c.hit = true ↔ ∃ j, j < S.h.count ∧ S.elemTouched w j c.off c.len ∧
        M (S.refElem w M j H') (S.elem w j c.content)) := by
  obtain ⟨hinc, hcw, -, -, -, hw, -⟩ := intTypes_facts _ hty
  dsimp only at hinc hcw hw
  have hwpos : 0 < w := by omega
  induction h with
  | @start s b test h hl =>
    refine ⟨_, _, rfl, ?_, ?_, by simp⟩ <;>
    · unfold setEventData at h
      rw [Sub.ev_etype, het, if_neg (by decide), if_pos rfl] at h
      obtain ⟨ts, hts, h⟩ := C.bind_eq_ok.mp h
      rw [Sub.ev_dtype, typeSize_int hty] at hts
      obtain rfl := C.ok.inj hts
      obtain ⟨n, hn, h⟩ := C.bind_eq_ok.mp h
      obtain ⟨d, hd, h⟩ := C.bind_eq_ok.mp h
      obtain ⟨t, ht, h⟩ := C.bind_eq_ok.mp h
      rw [Sub.ev_byte] at ht
      rw [Sub.ev_count] at hn
      simp only [C.ok.injEq, Prod.mk.injEq] at h
      obtain ⟨rfl, rfl⟩ := h
      first
      | have hd1 := (rd_ok.mp hd).1
        have hd2 := (rd_ok.mp hd).2
        have hd3 := rd_length hd
        have : d = S.arg.take w := by simpa using hd2
        rw [← this]
        rw [rd_ok]
        refine ⟨⟨by omega, by omega, by omega⟩, ?_⟩
        simp only [Int.toNat_zero, List.drop_zero, Int.toNat_natCast]
        rw [List.take_of_length_le (by omega)]
      | intro j hj
        have hby := i32_small (rd_ok.mp ht).1.1 (by have := hz.1; omega)
        have hc0 : S.h.count < 4294967296 := by
          have h1 := hz.1
          rw [hs] at h1
          rcases hw with rfl | rfl | rfl | rfl <;> omega
        have hn2 := mulI32_count hn (rd_ok.mp ht).1.2.1 hwpos hc0
        rw [hby, hn2] at ht
        clear hby hn2 hn
        simp only [Sub.refElem, Sub.elem]
        apply List.ext_getElem?
        intro i
        rw [elemAt_get, elemAt_get]
        split
        · rename_i hi
          rw [rd_get ht, if_pos (by rcases hw with rfl | rfl | rfl | rfl <;> omega)]
          have e9 : (S.h.byte : Int).toNat + (w * j + i) = S.h.byte + w * j + i := by rw [Int.toNat_natCast]; omega
          rw [e9]
        · rfl
  | @look H c test test' b hit off len p ht h0 hl hr hsm hf h ih =>
    have hex' := hex
    simp only [Sub.exact] at hex'
    obtain ⟨hex0, hex1⟩ := hex'
    obtain ⟨c', H', heq, hdat, hrem, -⟩ := ih (fun x hx => hal x (List.mem_cons_of_mem _ hx)) hex0
    simp only [List.cons.injEq] at heq
    obtain ⟨rfl, rfl⟩ := heq
    have hal0 := hal _ List.mem_cons_self
    dsimp only at hal0
    obtain ⟨ho, hpos, hby⟩ := overlapLen_eq (d := data) (t := test) ht h0 hl hr hsm
    obtain ⟨m, k, v1, v2, v3, v4, v5, v6⟩ := visit_range hw hal0 hs ht h0
    unfold evHit at h
    rw [Sub.ev_etype, het, if_neg (by decide), if_neg (by decide), if_neg (by decide), if_neg (by decide),
      if_neg (by decide), if_neg (by decide), if_neg (by decide), if_pos rfl] at h
    unfold evDeadband at h
    rw [Sub.ev_dtype, hinc, hcw] at h
    dsimp only at h
    rw [if_neg (Nat.ne_of_gt hwpos), if_neg (Int.not_le.mpr hpos), hby, ho, v2, v4, v3, Sub.ev_test] at h
    clear hpos hby ho
    have hdat' : rd (S.ev data test).data 0 w = .ok (S.arg.take w) := by rw [Sub.ev_data]; exact hdat
    have eel : ∀ j, S.h.byte + w * m + w * j = S.h.byte + w * (m + j) := by intro j; rw [Nat.mul_add]; omega
    obtain ⟨i1, i2, i3⟩ := bandLoop_spec (M := M) hw hdat' _ _ _ _ _ (by
      intro j r hj hb1 hb2 hg
      have hjc : m + j < S.h.count := by omega
      rw [Sub.ev_dtype] at hg
      have hfit := hex1 (m + j) hjc ((v6 _ hjc).mpr ⟨by omega, by omega⟩)
      rw [← hrem _ hjc] at hfit
      rw [hMd]
      refine deadband_iff hty (elemAt_length hb1) (elemAt_length hb2) ?_ hg
      rw [eel]
      exact hfit) h
    have hin : ∀ j, j < S.h.count → S.elemTouched w j off len → ∃ i, i < k ∧ m + i = j := by
      intro j hj htj
      have := (v6 j hj).mp htj
      exact ⟨j - m, by omega, by omega⟩
    refine ⟨_, _, rfl, hdat, ?_, ?_⟩
    · intro j hj
      simp only [Sub.refElem]
      split
      · rename_i hc
        obtain ⟨i, hi, rfl⟩ := hin j hj hc.1
        rw [i2 i hi (by rw [hrem _ hj, eel]; exact hc.2), eel]; rfl
      · rename_i hc
        rw [i3 j ?_, hrem j hj]
        intro i hi hij hm
        subst hij
        rw [hrem _ hj, eel] at hm
        exact hc ⟨(v6 _ hj).mpr ⟨by omega, by omega⟩, hm⟩
    · intro c1 H1 hh
      simp only [List.cons.injEq] at hh
      obtain ⟨rfl, rfl⟩ := hh
      dsimp only
      rw [i1]
      simp only [Bool.false_eq_true, false_or]
      constructor
      · rintro ⟨j, hj, hp⟩
        have hjc : m + j < S.h.count := by omega
        rw [hrem _ hjc, eel] at hp
        exact ⟨m + j, hjc, (v6 _ hjc).mpr ⟨by omega, by omega⟩, hp⟩
      · rintro ⟨j, hj, htj, hp⟩
        obtain ⟨i, hi, rfl⟩ := hin j hj htj
        refine ⟨i, hi, ?_⟩
        rw [hrem _ hj, eel]; exact hp

end Dax
