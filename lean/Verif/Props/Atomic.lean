import Verif.Lemmas.Atomic
import Verif.Lemmas.EventKinds
import Verif.Lemmas.Demo
import Verif.Props.Events
/-!
# Atomic operations: C41, C42
-/
set_option autoImplicit false
namespace Dax

/-- The other tags hold what they held. -/
theorem set_others {s s' : Server} {i : Nat} {t' : Tag} {ix : Int} (hi : ix = i) (hs : s'.db = (s.setTag ix t').db) (j : Nat) (c : List Byte) (hj : j ≠ i) :
    TagData s' j c ↔ TagData s j c := by
  unfold TagData
  rw [hs, hi]
  simp only [Server.setTag, Int.toNat_natCast]
  rw [List.getElem?_set_ne (fun e => hj e.symm)]

/-- **C41**: a logic operation that is not refused leaves each addressed bit equal to the named
function of its old value and the operand, every other bit of the tag unchanged, and all other tags
unchanged.  Missing from the full statement: the ranges excluded by `Handle.Works`, for which it is
false (`C41_offset`, `C41_byte_end`, `C41_negated`). -/
theorem C41_logic_partial {s s' : Server} {fd : Int} {h : Handle} {i op : Nat} {f : Bool → Bool → Bool} {buf b : List Byte} {d : List Byte}
    (hi : h.index = i) (hm : NoMaps s i) (ho : bitFn op = some f) (hf : h.Fitted) (hw : h.Works op)
    (hb : TagData s i b) (hh : handle s fd (.atomic h op buf) = .ok (s', .resp d)) :
    (∃ b', TagData s' i b' ∧ BitsDone f h buf b b') ∧ ∀ j c, j ≠ i → (TagData s' j c ↔ TagData s j c) := by
  rcases atomic_inv hi hm hh with ⟨-, e, he⟩ | ⟨-, t, block, b', evs, ns, rt, ht, hd, ha, rfl⟩
  · simp at he
  · obtain ⟨t0, h0, h1⟩ := hb
    rw [ht] at h0; cases h0
    rw [hd] at h1; cases h1
    refine ⟨⟨b', ⟨{ t with data := .mem b', events := evs }, ?_, rfl⟩, atomicApply_done ho hf hw ha⟩, fun j c hj => set_others hi rfl j c hj⟩
    have hlt := (List.getElem?_eq_some_iff.mp ht).1
    rw [hi]
    simp only [Server.setTag, Int.toNat_natCast]
    rw [List.getElem?_set_self hlt]

/-- **C41**, **C42**: a refused operation changes nothing. -/
theorem C41_refused {s s' : Server} {fd e : Int} {h : Handle} {i op : Nat} {buf : List Byte} (hi : h.index = i) (hm : NoMaps s i)
    (hh : handle s fd (.atomic h op buf) = .ok (s', .err e)) : s' = s := by
  rcases atomic_inv hi hm hh with ⟨rfl, -⟩ | ⟨h, -⟩
  · rfl
  · simp at h

/-- The value stored by increment and decrement. -/
theorem incValue_val {t w : Nat} {sg sub : Bool} (ht : (t, w, sg) ∈ intTypes) {a b v : List Byte} (ha : a.length = w) (hb : b.length = w)
    (h : incValue sub t a b = .ok v) : v.length = w ∧
      (unsignedVal v : Int) = (if sub then (unsignedVal a : Int) - unsignedVal b else unsignedVal a + unsignedVal b) % 256 ^ w := by
  have hv : v = toLE a.length ((if sub then cmpVal t a - cmpVal t b else cmpVal t a + cmpVal t b) % 2 ^ (8 * a.length)).toNat := by
    unfold incValue at h
    dsimp only at h
    generalize (if sub = true then cmpVal t a - cmpVal t b else cmpVal t a + cmpVal t b) = x at h ⊢
    split at h
    · simp at h
    · split at h
      · simp at h
      · simpa using h.symm
  subst hv
  rw [ha]
  refine ⟨toLE_length _ _, ?_⟩
  have hp : ((2 : Int) ^ (8 * w)) = 256 ^ w := by rw [Int.pow_mul]; rfl
  have hn : ((256 ^ w : Nat) : Int) = 256 ^ w := by simp
  have hpos : (0 : Int) < 256 ^ w := by rw [← hn]; exact_mod_cast Nat.pow_pos (by omega)
  rw [unsignedVal_eq, unsignedVal_eq, unsignedVal_eq, leNat_toLE, hp]
  have hc : ∀ x : List Byte, x.length = w → ∃ k : Int, cmpVal t x = leNat x + 256 ^ w * k := by
    intro x hx
    unfold cmpVal leInt
    rw [hx, hp]
    split
    · split
      · exact ⟨0, by simp⟩
      · exact ⟨-1, by rw [Int.mul_neg, Int.mul_one]; rfl⟩
    · exact ⟨0, by simp⟩
  obtain ⟨k1, e1⟩ := hc a ha
  obtain ⟨k2, e2⟩ := hc b hb
  rw [e1, e2]
  have hmod : ∀ (x y : Int) , x % 256 ^ w = y % 256 ^ w → (((x % 256 ^ w).toNat % 256 ^ w : Nat) : Int) = y % 256 ^ w := by
    intro x y hxy
    have h0 := Int.emod_nonneg x (Int.ne_of_gt hpos)
    rw [Int.natCast_emod, Int.toNat_of_nonneg h0, hn, Int.emod_emod, hxy]
  apply hmod
  cases sub
  · simp only [Bool.false_eq_true, if_false]
    rw [show (leNat a + 256 ^ w * k1 + (leNat b + 256 ^ w * k2) : Int) = leNat a + leNat b + 256 ^ w * (k1 + k2) by rw [Int.mul_add]; omega,
      Int.add_mul_emod_self_left]
  · simp only [if_true]
    rw [show (leNat a + 256 ^ w * k1 - (leNat b + 256 ^ w * k2) : Int) = leNat a - leNat b + 256 ^ w * (k1 - k2) by rw [Int.mul_sub]; omega,
      Int.add_mul_emod_self_left]

/-- **C42**: an increment (decrement) that is not refused adds (subtracts) the operand modulo the
width of the element, and changes no other byte of the tag and no other tag.  Missing from the full
statement: TIME, which is treated as a 32-bit value (`C42_time`), and DINT and LINT results out of
range, which are undefined behaviour rather than modular (`C42_overflow`). -/
theorem C42_add_partial {s s' : Server} {fd : Int} {h : Handle} {i op w : Nat} {sg : Bool} {buf b d : List Byte}
    (hi : h.index = i) (hm : NoMaps s i) (ht : (h.type, w, sg) ∈ intTypes) (ho : op = 1 ∨ op = 2) (hl : w ≤ buf.length)
    (hb : TagData s i b) (hh : handle s fd (.atomic h op buf) = .ok (s', .resp d)) :
    (∃ b', TagData s' i b' ∧ b'.length = b.length ∧ h.byte + w ≤ b.length ∧
      (unsignedVal (elemAt b' h.byte w) : Int) =
        (if op = 1 then (unsignedVal (elemAt b h.byte w) : Int) + unsignedVal (buf.take w)
         else unsignedVal (elemAt b h.byte w) - unsignedVal (buf.take w)) % 256 ^ w ∧
      ∀ k, k < h.byte ∨ h.byte + w ≤ k → b'[k]? = b[k]?) ∧
    ∀ j c, j ≠ i → (TagData s' j c ↔ TagData s j c) := by
  rcases atomic_inv hi hm hh with ⟨-, e, he⟩ | ⟨-, t, block, b', evs, ns, rt, htg, hd, ha, rfl⟩
  · simp at he
  · obtain ⟨t0, h0, h1⟩ := hb
    rw [htg] at h0; cases h0
    rw [hd] at h1; cases h1
    have hlt := (List.getElem?_eq_some_iff.mp htg).1
    refine ⟨⟨b', ⟨{ t with data := .mem b', events := evs }, ?_, rfl⟩, atomicApply_length ha, ?_⟩, fun j c hj => set_others hi rfl j c hj⟩
    · rw [hi]
      simp only [Server.setTag, Int.toNat_natCast]
      rw [List.getElem?_set_self hlt]
    obtain ⟨-, hcw, -, hr, hlr, -⟩ := intTypes_facts _ ht
    have hinc : ∃ sub : Bool, (sub = decide (op = 2)) ∧ atomicInc s.env sub h b buf = .ok (.ok b') := by
      unfold atomicApply at ha
      rcases ho with rfl | rfl
      · refine ⟨false, by decide, ?_⟩
        rw [if_pos (by decide)] at ha
        split at ha
        · simp at ha
        · exact ha
      · refine ⟨true, by decide, ?_⟩
        rw [if_neg (by decide), if_pos (by decide)] at ha
        split at ha
        · simp at ha
        · exact ha
    obtain ⟨sub, hsub, hinc⟩ := hinc
    unfold atomicInc at hinc
    split at hinc
    · simp at hinc
    simp only [] at hcw
    rw [hcw] at hinc
    dsimp only at hinc
    obtain ⟨x, hx, hinc⟩ := C.bind_eq_ok.mp hinc
    obtain ⟨y, hy, hinc⟩ := C.bind_eq_ok.mp hinc
    rw [if_neg (by simp only [not_or]; exact ⟨hr, hlr⟩)] at hinc
    obtain ⟨v, hv, hinc⟩ := C.bind_eq_ok.mp hinc
    obtain ⟨b1, hw, hinc⟩ := C.bind_eq_ok.mp hinc
    simp only [C.ok.injEq, Except.ok.injEq] at hinc
    subst hinc
    have hxl : x.length = w := by have := rd_length hx; simpa using this
    have hyl : y.length = w := by have := rd_length hy; simpa using this
    obtain ⟨hvl, hval⟩ := incValue_val ht hxl hyl hv
    obtain ⟨hxr, hxe⟩ := rd_ok.mp hx
    obtain ⟨-, hye⟩ := rd_ok.mp hy
    have hxe : x = elemAt b h.byte w := by simpa [elemAt] using hxe
    have hye : y = buf.take w := by simpa using hye
    have hve : v = elemAt b1 h.byte w := by
      have := (rd_ok.mp (rd_wr_same hw)).2
      rw [hvl] at this
      simpa [elemAt] using this
    refine ⟨by omega, ?_, fun k hk => ?_⟩
    · rw [← hve, hval, ← hxe, ← hye]
      rcases ho with rfl | rfl
      · subst hsub; simp
      · subst hsub; simp
    · rw [wr_get hw k, if_neg (by simp only [Int.toNat_natCast]; omega)]

/-! ## Examples and failures -/

theorem noMaps_of {s : Server} {i : Nat} (h : (s.db[i]?).any (fun t => !t.wildMaps && t.maps.isEmpty) = true) : NoMaps s i := by
  cases ht : s.db[i]? with
  | none => rw [ht] at h; simp at h
  | some t =>
    rw [ht] at h
    simp only [Option.any_some, Bool.and_eq_true, Bool.not_eq_true', List.isEmpty_iff] at h
    exact (noMaps_iff ht).mpr h

theorem notFitted {h : Handle} (ht : h.type ≠ DAX_BOOL) : h.Fitted := fun e => absurd e ht

/-- The hypotheses of `C41_logic_partial` are met: XOR on an INT. -/
example : ∃ b', TagData (demo (demoOps ++ [.req 5 (.atomic ⟨13, 0, 0, 1, 2, DAX_INT⟩ 8 [0xFF, 0x0F])])) 13 b' ∧
    BitsDone (fun a b => a != b) ⟨13, 0, 0, 1, 2, DAX_INT⟩ [0xFF, 0x0F] [1, 2, 3, 4, 5, 6, 7, 8] b' :=
  (C41_logic_partial (i := 13) rfl (noMaps_of (by decide +kernel)) (by rfl) (notFitted (by decide)) (.inr (.inl ⟨.inl (by decide), rfl⟩))
    (tagData_of (by decide +kernel)) (demo_handle (r := .resp []) (by decide +kernel) (by decide +kernel))).1

/-- The hypotheses of `C41_logic_partial` are met: OR on five bits in the middle of a BOOL tag. -/
example : ∃ b', TagData (demo (demoOps ++ [.req 5 (.atomic ⟨14, 1, 6, 5, 2, DAX_BOOL⟩ 4 [0x1F, 0])])) 14 b' ∧
    BitsDone (fun a b => a || b) ⟨14, 1, 6, 5, 2, DAX_BOOL⟩ [0x1F, 0] [0, 0, 0] b' :=
  (C41_logic_partial (i := 14) rfl (noMaps_of (by decide +kernel)) (by rfl) (fun _ => by decide) (.inr (.inr ⟨rfl, by decide, by decide⟩))
    (tagData_of (by decide +kernel)) (demo_handle (r := .resp []) (by decide +kernel) (by decide +kernel))).1

example : ∃ s', handle (demo (demoOps ++ [.req 5 (.atomic ⟨14, 1, 6, 5, 2, DAX_BOOL⟩ 4 [0x1F, 0])])) 6 (.tagRead 14 0 3) =
    .ok (s', .resp [0, 0xC0, 0x07]) := exists_reply (by decide +kernel)

/-- **C41** fails: for an element that is not at the start of its tag, the operand is taken from
beyond its place in the message. -/
theorem C41_offset : ∃ s s' b b' buf, Reachable s ∧ handle s 5 (.atomic ⟨13, 2, 0, 1, 2, DAX_INT⟩ 4 buf) = .ok (s', .resp []) ∧
    TagData s 13 b ∧ TagData s' 13 b' ∧ ¬ BitsDone (fun a b => a || b) ⟨13, 2, 0, 1, 2, DAX_INT⟩ buf b b' := by
  refine ⟨demo demoOps, _, [1, 2, 3, 4, 5, 6, 7, 8], [1, 2, 3, 4, 5, 6, 7, 8], [0xFF, 0xFF, 0, 0], demoOps_reachable,
    demo_handle (by decide +kernel) (by decide +kernel), tagData_of (by decide +kernel), tagData_of (by decide +kernel), ?_⟩
  intro h
  exact absurd (h.2 18) (by decide)

/-- **C41** fails: bits that end at a byte boundary are left as they are. -/
theorem C41_byte_end : ∃ s s' b b' buf, Reachable s ∧ handle s 5 (.atomic ⟨14, 0, 4, 4, 1, DAX_BOOL⟩ 4 buf) = .ok (s', .resp []) ∧
    TagData s 14 b ∧ TagData s' 14 b' ∧ ¬ BitsDone (fun a b => a || b) ⟨14, 0, 4, 4, 1, DAX_BOOL⟩ buf b b' := by
  refine ⟨demo demoOps, _, [0, 0, 0], [0, 0, 0], [0x0F], demoOps_reachable,
    demo_handle (by decide +kernel) (by decide +kernel), tagData_of (by decide +kernel), tagData_of (by decide +kernel), ?_⟩
  intro h
  exact absurd (h.2 4) (by decide)

/-- **C41** fails: NOR on bits within one byte changes the other bits of the byte, not the addressed ones. -/
theorem C41_negated : ∃ s s' b b' buf, Reachable s ∧ handle s 5 (.atomic ⟨14, 0, 0, 3, 1, DAX_BOOL⟩ 6 buf) = .ok (s', .resp []) ∧
    TagData s 14 b ∧ TagData s' 14 b' ∧ bitAt b 5 = false ∧ bitAt b' 5 = true ∧
    ¬ BitsDone (fun a b => !(a || b)) ⟨14, 0, 0, 3, 1, DAX_BOOL⟩ buf b b' := by
  refine ⟨demo demoOps, _, [0, 0, 0], [0xF8, 0, 0], [0], demoOps_reachable,
    demo_handle (by decide +kernel) (by decide +kernel), tagData_of (by decide +kernel), tagData_of (by decide +kernel), by decide, by decide, ?_⟩
  intro h
  exact absurd (h.2 5) (by decide)

/-- **C41** fails: a range past the end of the tag is not refused, since bytes are compared with
bits; the access is out of bounds. -/
theorem C41_overrun : ∃ s w, Reachable s ∧ handle s 5 (.atomic ⟨13, 8, 0, 1, 2, DAX_INT⟩ 3 []) = .ub w := by
  obtain ⟨w, h⟩ := isOk_false (c := handle (demo demoOps) 5 (.atomic ⟨13, 8, 0, 1, 2, DAX_INT⟩ 3 [])) (by decide +kernel)
  exact ⟨_, w, demoOps_reachable, h⟩

/-- The hypotheses of `C42_add_partial` are met: decrement of the second INT. -/
example : ∃ b', TagData (demo (demoOps ++ [.req 5 (.atomic ⟨13, 2, 0, 1, 2, DAX_INT⟩ 2 [4, 4])])) 13 b' ∧ b'.length = 8 ∧
    (unsignedVal (elemAt b' 2 2) : Int) = (1027 - 1028) % 65536 := by
  obtain ⟨⟨b', h1, h2, -, h3, -⟩, -⟩ := C42_add_partial (i := 13) (w := 2) (sg := true) (op := 2) rfl (noMaps_of (by decide +kernel)) (by decide) (.inr rfl) (by decide)
    (tagData_of (b := [1, 2, 3, 4, 5, 6, 7, 8]) (by decide +kernel))
    (demo_handle (os := demoOps) (e := {}) (fd := 5) (q := .atomic ⟨13, 2, 0, 1, 2, DAX_INT⟩ 2 [4, 4]) (r := .resp []) (by decide +kernel) (by decide +kernel))
  exact ⟨b', h1, h2, h3⟩

/-- A TIME tag and a DINT tag. -/
def timeOps : List Op := demoOps ++ [.req 5 (.tagAdd DAX_TIME 1 0 (nm "Clock")), .req 5 (.tagWrite 16 0 [0xFF, 0xFF, 0xFF, 0xFF, 0, 0, 0, 0]),
  .req 5 (.tagAdd DAX_DINT 1 0 (nm "Sum")), .req 5 (.tagWrite 17 0 [0xFF, 0xFF, 0xFF, 0x7F])]

/-- **C42** fails: a TIME, eight bytes wide, is incremented modulo 2³². -/
theorem C42_time : ∃ s s', Reachable s ∧ handle s 5 (.atomic ⟨16, 0, 0, 1, 8, DAX_TIME⟩ 1 [1, 0, 0, 0, 0, 0, 0, 0]) = .ok (s', .resp []) ∧
    TagData s 16 [0xFF, 0xFF, 0xFF, 0xFF, 0, 0, 0, 0] ∧ TagData s' 16 [0, 0, 0, 0, 0, 0, 0, 0] :=
  ⟨demo timeOps, _, demo_reachable (by decide +kernel), demo_handle (by decide +kernel) (by decide +kernel),
    tagData_of (by decide +kernel), tagData_of (by decide +kernel)⟩

/-- **C42** fails: incrementing the largest DINT is signed overflow, undefined in C. -/
theorem C42_overflow : ∃ s w, Reachable s ∧ TagData s 17 [0xFF, 0xFF, 0xFF, 0x7F] ∧
    handle s 5 (.atomic ⟨17, 0, 0, 1, 4, DAX_DINT⟩ 1 [1, 0, 0, 0]) = .ub w := by
  obtain ⟨w, h⟩ := isOk_false (c := handle (demo timeOps) 5 (.atomic ⟨17, 0, 0, 1, 4, DAX_DINT⟩ 1 [1, 0, 0, 0])) (by decide +kernel)
  exact ⟨_, w, demo_reachable (by decide +kernel), tagData_of (by decide +kernel), h⟩

end Dax
