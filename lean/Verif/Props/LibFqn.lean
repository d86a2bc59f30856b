import Verif.Lemmas.LibFqn
import Verif.Props.LibPath
/-!
# The name of a handle (C67)
-/
set_option autoImplicit false
namespace Dax
open Dax.LibPath

theorem place_lt {s : Server} (hr : Reachable s) {t : Nat} {gs : List Seg} {b : Option Nat} {ty n off : Nat} (hp : Place s.cdts t gs b ty n off) : ty < t := by
  induction hp with
  | last t d g m r e hc hd hb he hi =>
    have hc := hc.1
    rcases hr.wf.cdts.acyc _ _ hd m hb.mem with h | ⟨j, hj, h⟩
    · have hall : ∀ t ∈ baseTypes, t < 2147483648 := by decide
      exact Nat.lt_of_lt_of_le (hall _ h) hc
    · have : DAX_CUSTOM = 2147483648 := rfl
      rw [h]; unfold cdtToType; omega
  | bit t d g m r w b sg hc hd hb hit hi hone hbw => exact Nat.lt_of_lt_of_le (by decide) hc.1
  | step t d g gs b m r e ty n off hc hd hb hcm he hi hp ih =>
    have hc := hc.1
    rcases hr.wf.cdts.acyc _ _ hd m hb.mem with h | ⟨j, hj, h⟩
    · have hall : ∀ t ∈ baseTypes, t < 2147483648 := by decide
      exact absurd hcm.1 (Nat.not_le_of_lt (hall _ h))
    · have : DAX_CUSTOM = 2147483648 := rfl
      refine Nat.lt_trans ih ?_
      rw [h]; unfold cdtToType; omega

theorem i32_small_nat {a : Nat} (h : a < 2147483648) : i32 (a : Int) = a := by
  unfold i32; rw [if_pos (by omega)]; omega

/-- The text for the tag itself, with the index of the element. -/
theorem fqnTag_ok {h : Handle} {g : Seg} {count k : Nat} (hk : k < 2147483648) (hg : g.index.isSome ↔ 1 < count ∧ (0 < h.byte ∨ h.count ≠ count))
    (hlo : k * g.index.getD 0 ≤ h.byte) (hhi : h.byte < k * g.index.getD 0 + k) (hb : h.byte < 2147483648) :
    fqnTag h g.name count (k : Int) = (segText g, ((g.index.getD 0 : Nat) : Int)) := by
  unfold fqnTag
  cases hi : g.index with
  | none =>
    rw [hi] at hg
    simp only [Option.isSome_none, Bool.false_eq_true, false_iff] at hg
    rw [if_neg (by omega), segText_none hi]
    rfl
  | some i =>
    rw [hi] at hg hlo hhi
    simp only [Option.isSome_some, true_iff, Option.getD_some] at hg hlo hhi
    have hdiv : h.byte / k = i := div_index hlo hhi
    have hle : h.byte / k ≤ h.byte := Nat.div_le_self ..
    rw [if_pos (by omega), u32_nat (by omega), hdiv, i32_small_nat (by omega), segText_some hi]
    dsimp only
    rw [decInt_nat]
    rfl

theorem fqn_member_gen {s : Server} {fd : Int} {byindex : Int → Option (Name × TagFound)} {c c1 c2 : TypeCache} {h : Handle} {name str str2 : Name} {tag : TagFound} {ts i offset : Int}
    (h0 : byindex h.index = some (name, tag)) (h1 : tag.type ≠ DAX_BOOL) (h2 : ctypeSize s fd c tag.type = .ok (c1, ts)) (h3 : ts ≠ 0)
    (h4 : fqnTag h name tag.count ts = (str, i)) (h5 : mulI32 i ts = .ok offset) (h6 : isCustom tag.type ∧ h.type ≠ tag.type)
    (h7 : fqnCdtMember s fd FQN_TAG_SIZE c1 str tag.type { byte := offset, bit := 0, finalByte := i32 h.byte, finalBit := h.bit } = .ok (c2, str2)) :
    fqn s fd byindex c h = .ok (c2, some str2) := by
  unfold fqn
  rw [h0]
  dsimp only
  rw [if_neg h1, h2, C.ok_bind]
  dsimp only
  rw [if_neg h3, h4]
  dsimp only
  rw [h5, C.ok_bind, if_pos h6, h7, C.ok_bind]

theorem fqn_other_gen' {s : Server} {fd : Int} {byindex : Int → Option (Name × TagFound)} {c c1 : TypeCache} {h : Handle} {name str : Name} {tag : TagFound} {ts i offset : Int}
    (h0 : byindex h.index = some (name, tag)) (h1 : tag.type ≠ DAX_BOOL) (h2 : ctypeSize s fd c tag.type = .ok (c1, ts)) (h3 : ts ≠ 0)
    (h4 : fqnTag h name tag.count ts = (str, i)) (h5 : mulI32 i ts = .ok offset) (h6 : ¬ (isCustom tag.type ∧ h.type ≠ tag.type)) :
    fqn s fd byindex c h = .ok (c1, some (if h.type = DAX_BOOL then str ++ 46#8 :: decInt (i32 (u32 (h.bit + (h.byte - offset) * 8))) else str)) := by
  unfold fqn
  rw [h0]
  dsimp only
  rw [if_neg h1, h2, C.ok_bind]
  dsimp only
  rw [if_neg h3, h4]
  dsimp only
  rw [h5, C.ok_bind, if_neg h6]
  split <;> rfl

/-- **C67**, members, the text: the name made for a handle of something in a compound tag is the path to it.

Missing: places at the very beginning of a nested type and bit 0 of an integer (`Told`; `C67_first_member`, `C67_bit_zero`), types in which BOOLs that do not fill bytes come before
the member in more than one byte (`Upto`; `C67_no_carry`), the beginning of an array tag if the count is by chance the number of elements of the tag
(`C67_index_lost`), texts of 1024 characters or more, which do not fit the array they are made in. -/
theorem C67_member_partial {s : Server} (hr : Reachable s) {fd : Int} {byindex : Int → Option (Name × TagFound)} {c : TypeCache} {g : Seg} {gs : List Seg}
    {b : Option Nat} {tag : TagFound} {e ty n off cap : Nat} {h : Handle} (hf : Fits cap s tag.type) (hfc : Faithful s c) (ht : byindex h.index = some (g.name, tag))
    (hp : Place s.cdts tag.type gs b ty n off) (hcan : Canon s.cdts tag.type gs) (htold : Told s.cdts tag.type gs b) (he : ElemBits s.cdts tag.type e)
    (hg : g.index.isSome ↔ 1 < tag.count) (hfirst : 1 < tag.count → 0 < h.byte ∨ h.count ≠ tag.count) (hsm : e * (g.index.getD 0 + 1) ≤ 2147483600)
    (hpt : Points s.cdts h tag.idx ty h.count (e * g.index.getD 0 + off)) (hbit : h.bit ≤ 7 + carried gs b) (hlen : (segText g ++ pathText gs b).length < 1024) :
    ∃ c', fqn s fd byindex c h = .ok (c', some (segText g ++ pathText gs b)) ∧ Faithful s c' := by
  obtain ⟨d, q, K⟩ := hf.known hr.wf
  have hm := compound_notBool K.comp
  obtain ⟨c1, k, hk, hc1, hek, hk0⟩ := member_size hr (fun _ => hf) he hm hfc (fd := fd)
  have hkq := he.det K.elem
  obtain ⟨e2, w1, w2, w3⟩ := hp.within hr K
  have hpos := hp.pos hr K w1
  have hw4 : 0 < e2 * n := Nat.mul_pos hpos w2
  have hpat := hpt.at'
  subst hek
  rw [Nat.mul_add] at hsm
  have hki : 8 * k * g.index.getD 0 = 8 * (k * g.index.getD 0) := Nat.mul_assoc ..
  have hki2 : g.index.getD 0 * k = k * g.index.getD 0 := Nat.mul_comm ..
  rw [List.length_append] at hlen
  have hpl := pathText_length gs b
  obtain ⟨hB, c2, h2, hc2⟩ := fqnCdt_ok hr hp (fuel := FQN_TAG_SIZE) (c := c1) (str := segText g) (mem := none) (B := k * g.index.getD 0) (fb := h.byte) (fbit := h.bit) (fd := fd)
    K hcan htold hc1 (by omega) (by omega) hbit (fun hne => (hpt.other hne).1) (by unfold FQN_TAG_SIZE; omega) hlen
  refine ⟨c2, ?_, hc2⟩
  have hlt := place_lt hr hp
  have hnet : h.type ≠ tag.type := by rw [hpt.type]; omega
  refine fqn_member_gen ht hm hk (by omega) (fqnTag_ok (g := g) (k := k) (by omega) ?_ (by omega) (by omega) (by omega)) (offset := ((k * g.index.getD 0 : Nat) : Int)) ?_
    ⟨custom_iff _ K.comp, hnet⟩ ?_
  · exact hg.trans ⟨fun h => ⟨h, hfirst h⟩, fun h => h.1⟩
  · rw [mulI32_nat (by omega), hki2]
  · rw [i32_small_nat (by omega)]; exact h2

/-- **C67**, members: the name made for a handle leads back to the same items.

Missing: what is missing in `C67_member_partial` and in `C21_member_partial`. -/
theorem C67_inverse_partial {s : Server} (hr : Reachable s) {fd : Int} {byindex : Int → Option (Name × TagFound)} {byname : Name → Option TagFound} {c : TypeCache}
    {g : Seg} {gs : List Seg} {b : Option Nat} {tag : TagFound} {e ty n off : Nat} {h : Handle} (hf : Fits 248 s tag.type) (hfc : Faithful s c)
    (ht : byindex h.index = some (g.name, tag)) (hn : byname g.name = some tag) (hpn : ∀ x ∈ g :: gs, PlainName x.name)
    (hp : Place s.cdts tag.type gs b ty n off) (hcan : Canon s.cdts tag.type gs) (htold : Told s.cdts tag.type gs b) (he : ElemBits s.cdts tag.type e)
    (hcl : Clear s.cdts false tag.type gs b) (hroom : Room s.cdts h.count tag.type gs) (hcnt : 0 < h.count ∧ h.count ≤ n ∧ h.count < 1073741824)
    (hg : g.index.isSome ↔ 1 < tag.count) (hfirst : 1 < tag.count → 0 < h.byte ∨ h.count ≠ tag.count) (hsm : e * (g.index.getD 0 + 1) ≤ 2147483600)
    (hpt : Points s.cdts h tag.idx ty h.count (e * g.index.getD 0 + off)) (hbit : h.bit ≤ 7 + carried gs b) (hlen : (segText g ++ pathText gs b).length < 1024) :
    ∃ c1 txt c2 h', fqn s fd byindex c h = .ok (c1, some txt) ∧ tagHandle s fd byname c1 txt h.count = .ok (c2, h', 0) ∧
      Points s.cdts h' tag.idx ty h.count (e * g.index.getD 0 + off) := by
  obtain ⟨c1, h1, hc1⟩ := C67_member_partial hr hf hfc ht hp hcan htold he hg hfirst hsm hpt hbit hlen (fd := fd)
  have hz : h.count ≠ 0 := by omega
  obtain ⟨c2, h', r, h2, -, h3⟩ := C21_member_partial hr hf hc1 hn hpn hp hcl he (fun hx => by rw [hx] at hg; simp at hg; omega) hcnt.2.2 hsm (fd := fd)
  have hw : wanted (lastIdx gs b) h.count n = h.count := by unfold wanted; rw [if_neg hz]
  rw [hw, if_neg hz] at h3
  rcases h3 with ⟨rfl, _, h4⟩ | ⟨_, h4⟩
  · exact ⟨c1, _, c2, h', h1, h2, h4⟩
  · exact absurd ⟨hcnt.2.1, hroom⟩ h4

/-- The index that is written for elements of a tag. -/
def tagIndex (h : Handle) (tag : TagFound) (i : Nat) : Option Nat :=
  if tag.type = DAX_BOOL then (if i = 0 then none else some i) else if 1 < tag.count ∧ (0 < h.byte ∨ h.count ≠ tag.count) then some i else none

/-- **C67**, tags: the name made for a handle of elements of a tag leads back to the same elements. -/
theorem C67_tag {s : Server} (hr : Reachable s) {fd : Int} {byindex : Int → Option (Name × TagFound)} {byname : Name → Option TagFound} {c : TypeCache}
    {name : Name} {tag : TagFound} {e i cap : Nat} {h : Handle} (hf : Compound tag.type → Fits cap s tag.type) (hfc : Faithful s c)
    (ht : byindex h.index = some (name, tag)) (hn : byname name = some tag) (hpn : PlainName name) (he : ElemBits s.cdts tag.type e)
    (hsm : e * tag.count ≤ 2147483600) (hpt : Points s.cdts h tag.idx tag.type h.count (e * i)) (hcnt : 0 < h.count ∧ i + h.count ≤ tag.count)
    (htc : tag.count < 1073741824) :
    ∃ c1 txt c2 h', fqn s fd byindex c h = .ok (c1, some txt) ∧ tagHandle s fd byname c1 txt h.count = .ok (c2, h', 0) ∧
      Points s.cdts h' tag.idx tag.type h.count (e * i) := by
  have hpat := hpt.at'
  have hei : e * (i + 1) ≤ e * tag.count := Nat.mul_le_mul_left _ (by omega)
  rw [Nat.mul_add] at hei
  have hgi : (tagIndex h tag i).getD 0 = i := by
    unfold tagIndex
    split
    · split
      · rename_i hz; rw [hz]; rfl
      · rfl
    · rename_i hb
      split
      · rfl
      · rename_i hx
        obtain ⟨h0, -⟩ := hpt.other hb
        by_cases h1 : 1 < tag.count
        · have h2 : h.byte = 0 := by omega
          have h3 : e * i = 0 := by omega
          rcases Nat.mul_eq_zero.mp h3 with h4 | h4
          · exfalso
            have h5 : h.count = tag.count := by omega
            show False
            rcases he with ⟨a, rfl⟩ | ⟨w, a, rfl⟩ | ⟨a, k, ha, rfl⟩
            · omega
            · have := elem_pos a; omega
            · obtain ⟨d, q, K⟩ := (hf a).known hr.wf
              have hs := K.size
              have hq := K.pos
              rw [ha] at hs
              simp only [C.ok.injEq] at hs
              omega
          · rw [h4]; rfl
        · show 0 = i; omega
  have hfq : ∃ c1, fqn s fd byindex c h = .ok (c1, some (segText ⟨name, tagIndex h tag i⟩)) ∧ Faithful s c1 := by
    by_cases hb : tag.type = DAX_BOOL
    · have := he.bool hb; subst this
      refine ⟨c, ?_, hfc⟩
      unfold fqn
      rw [ht]
      dsimp only
      rw [if_pos hb]
      unfold tagIndex
      rw [if_pos hb]
      by_cases hz : i = 0
      · rw [if_neg (by omega), if_pos hz, segText_none rfl]
      · rw [if_pos (by omega), if_neg hz, segText_some rfl]
        have hx : h.byte * 8 + h.bit = i := by omega
        rw [hx, u32_nat (by omega), i32_small_nat (by omega), decInt_nat]
    · obtain ⟨h0, -⟩ := hpt.other hb
      obtain ⟨c1, k, hk, hc1, hek, hk0⟩ := member_size hr hf he hb hfc (fd := fd)
      subst hek
      have hki : 8 * k * i = 8 * (k * i) := Nat.mul_assoc ..
      have hki2 : i * k = k * i := Nat.mul_comm ..
      refine ⟨c1, ?_, hc1⟩
      have ht2 := fqnTag_ok (h := h) (g := ⟨name, tagIndex h tag i⟩) (count := tag.count) (k := k) (by omega)
        (by unfold tagIndex; dsimp only; rw [if_neg hb]; split <;> simp_all) (by dsimp only; rw [hgi]; omega) (by dsimp only; rw [hgi]; omega) (by omega)
      rw [hgi] at ht2
      have := fqn_other_gen' (byindex := byindex) ht hb hk (by omega) ht2 (mulI32_nat (by omega)) (fun hx => hx.2 hpt.type)
      rw [if_neg (by rw [hpt.type]; exact hb)] at this
      exact this
  obtain ⟨c1, h1, hc1⟩ := hfq
  obtain ⟨c2, h', r, h2, -, h3⟩ := C21_tag hr hf hc1 (g := ⟨name, tagIndex h tag i⟩) hn hpn he (by omega) (cnt := h.count) (by omega) (by rw [hgi]; omega) hsm (fd := fd)
  dsimp only at h2 h3
  have hw : wanted (tagIndex h tag i).isSome h.count tag.count = h.count := by unfold wanted; rw [if_neg (by omega)]
  rw [hw, hgi] at h3
  rcases h3 with ⟨rfl, _, h4⟩ | ⟨_, h4⟩
  · exact ⟨c1, _, c2, h', h1, h2, h4⟩
  · exact absurd hcnt.2 h4

/-- **C67**, bits of integer tags: the name made for a handle of bits leads back to the same bits.

Missing: the first byte of an array if the number of bits is by chance the number of elements of the tag (`C67_index_lost`). -/
theorem C67_bit_partial {s : Server} (hr : Reachable s) {fd : Int} {byindex : Int → Option (Name × TagFound)} {byname : Name → Option TagFound} {c : TypeCache}
    {g : Seg} {tag : TagFound} {w b : Nat} {sg : Bool} {h : Handle} (hfc : Faithful s c)
    (ht : byindex h.index = some (g.name, tag)) (hn : byname g.name = some tag) (hpn : PlainName g.name) (hit : (tag.type, w, sg) ∈ intTypes) (hb : b < 8 * w)
    (hg : g.index.isSome ↔ 1 < tag.count) (hfirst : 1 < tag.count → 0 < h.byte ∨ h.count ≠ tag.count) (hsm : 8 * w * (g.index.getD 0 + 1) ≤ 2147483600)
    (hpt : Points s.cdts h tag.idx DAX_BOOL h.count (8 * w * g.index.getD 0 + b)) (hbit : h.bit < 8) (hcnt : 0 < h.count ∧ h.count ≤ 8 * w - b) :
    ∃ c1 c2 h', fqn s fd byindex c h = .ok (c1, some (segText g ++ pathText [] (some b))) ∧
      tagHandle s fd byname c1 (segText g ++ pathText [] (some b)) h.count = .ok (c2, h', 0) ∧
      Points s.cdts h' tag.idx DAX_BOOL h.count (8 * w * g.index.getD 0 + b) := by
  have hpat := hpt.at'
  have he : ElemBits s.cdts tag.type (8 * w) := .inr (.inl ⟨w, (int_elem hit).1, rfl⟩)
  have hm : tag.type ≠ DAX_BOOL := elem_notBool (int_elem hit).1
  have hcu : isCustom tag.type = false := by
    have := (int_elem hit).2.2.2
    simp only [Bool.or_eq_false_iff] at this
    exact this.2
  have hncp : ¬ Compound tag.type := elem_notCompound (int_elem hit).1
  obtain ⟨c1, k, hk, hc1, hek, hk0⟩ := member_size hr (cap := 0) (fun hx => absurd hx hncp) he hm hfc (fd := fd)
  have : k = w := by omega
  subst this
  have hw8 := (int_elem hit).2.2.1
  rw [Nat.mul_add] at hsm
  have hki : 8 * k * g.index.getD 0 = 8 * (k * g.index.getD 0) := Nat.mul_assoc ..
  have hki2 : g.index.getD 0 * k = k * g.index.getD 0 := Nat.mul_comm ..
  have h1 := fqn_other_gen' ht hm hk (by omega) (fqnTag_ok (g := g) (k := k) (by omega) (hg.trans ⟨fun h => ⟨h, hfirst h⟩, fun h => h.1⟩) (by omega) (by omega) (by omega)) (mulI32_nat (a := g.index.getD 0) (b := k) (by omega))
    (fun hx => by rw [hcu] at hx; exact absurd hx.1 (by decide))
  have hx : (h.bit : Int) + ((h.byte : Int) - ((g.index.getD 0 * k : Nat) : Int)) * 8 = (b : Nat) := by rw [hki2]; omega
  rw [if_pos hpt.type, hx, u32_nat (by omega), i32_small_nat (by omega), decInt_nat] at h1
  obtain ⟨c2, h', r, h2, -, h3⟩ := C21_bit hc1 hn hpn hit hb (fun hx => by rw [hx] at hg; simp at hg; omega) (cnt := h.count) (by omega) (by omega) (fd := fd)
  have hw : wanted true h.count (8 * k - b) = h.count := by unfold wanted; rw [if_neg (by omega)]
  rw [hw] at h3
  rcases h3 with ⟨rfl, _, h4⟩ | ⟨_, h4⟩
  · exact ⟨c1, c2, h', h1, h2, h4⟩
  · exact absurd hcnt.2 h4

/-! ## Instances -/

/-- A type with an integer and two runs of BOOLs before another. -/
def fqnDemo : List Op := pathDemo ++ [.req 5 (.cdtCreate (nm "Reg:v,INT,1:k,BOOL,5:m,BOOL,5:w,INT,1"))]

def fqnDemoNames (n : Name) : Option TagFound := if n = nm "R" then some ⟨19, 0x80000007, 1⟩ else pathDemoTags n

def fqnDemoIndex (i : Int) : Option (Name × TagFound) :=
  if i = 13 then some (nm "Speed", ⟨13, DAX_INT, 4⟩) else if i = 14 then some (nm "Flags", ⟨14, DAX_BOOL, 20⟩) else if i = 16 then some (nm "L", ⟨16, 0x80000003, 2⟩)
  else if i = 19 then some (nm "R", ⟨19, 0x80000007, 1⟩) else none

/-- The handle a path gives, and the name made for a handle. -/
def handleOf (p : Name) (count : Int) : C (Handle × Int) := tagHandle (demo fqnDemo) 5 fqnDemoNames [] p count >>= fun x => C.ok x.2
def fqnOf (h : Handle) : C (Option Name) := fqn (demo fqnDemo) 5 fqnDemoIndex [] h >>= fun x => C.ok x.2

theorem fqnDemo_reachable : Reachable (demo fqnDemo) := demo_reachable (by decide +kernel)

theorem typeDemo_lineCanon : Canon (demo typeDemo).cdts 0x80000003 [⟨nm "a", some 1⟩, ⟨nm "y", some 1⟩] :=
  .step _ _ ⟨nm "a", some 1⟩ _ ⟨nm "a", 0x80000002, 2⟩ 0 typeDemo_line (.here _ _ _) (by decide) (.last _ _ ⟨nm "y", some 1⟩ ⟨nm "y", DAX_REAL, 2⟩ 32 typeDemo_pt
    (.later _ _ _ 32 _ _ _ (by decide) typeDemo_dint (.here _ _ _)) (by decide))

theorem typeDemo_lineTold : Told (demo typeDemo).cdts 0x80000003 [⟨nm "a", some 1⟩, ⟨nm "y", some 1⟩] none :=
  .step _ _ ⟨nm "a", some 1⟩ [⟨nm "y", some 1⟩] none ⟨nm "a", 0x80000002, 2⟩ 0 DAX_REAL 1 64 typeDemo_line ⟨by decide, .inl rfl⟩ (.here _ _ _)
    (.last _ _ ⟨nm "y", some 1⟩ ⟨nm "y", DAX_REAL, 2⟩ 32 32 ⟨by decide, by decide⟩ typeDemo_pt
      (.later _ _ _ 32 _ _ _ (by decide) typeDemo_dint (.here _ _ _)) typeDemo_real (by decide)) (by decide)
    (.last _ _ ⟨nm "y", some 1⟩ typeDemo_pt ⟨by decide, .inr ⟨by decide, .inl rfl⟩⟩)

theorem real_points {tbl : List Cdt} {byte count : Nat} : Points tbl ⟨16, byte, 0, count, 4 * count, DAX_REAL⟩ 16 DAX_REAL count (8 * byte) where
  index := rfl
  type := rfl
  at' := rfl
  count := rfl
  bool h := absurd h (by decide)
  other _ := ⟨rfl, fun e he => by
    have : e = 32 := he.det (.inr (.inl ⟨4, by decide, rfl⟩))
    subst this; dsimp only; omega⟩

/-- Instance: the handle of `L[1].a[1].y[1]` gets that name, which leads back to it. -/
example : ∃ c1 txt c2 h', fqn (demo typeDemo) 5 fqnDemoIndex [] ⟨16, 45, 0, 1, 4, DAX_REAL⟩ = .ok (c1, some txt) ∧
    tagHandle (demo typeDemo) 5 pathTags c1 txt 1 = .ok (c2, h', 0) ∧ Points (demo typeDemo).cdts h' 16 DAX_REAL 1 360 := by
  refine C67_inverse_partial (demo_reachable (by decide +kernel)) (g := ⟨nm "L", some 1⟩) (tag := ⟨16, 0x80000003, 2⟩) (e := 200) (off := 160) (n := 1) typeDemo_fits (faithful_nil _) rfl rfl ?_ typeDemo_place
    typeDemo_lineCanon typeDemo_lineTold typeDemo_lineElem ?_ ?_ (by decide) (by decide) (by decide) (by decide) (real_points (byte := 45) (count := 1)) (by decide) (by decide)
  · intro x hx
    simp only [List.mem_cons, List.not_mem_nil, or_false] at hx
    rcases hx with rfl | rfl | rfl <;> exact plain_demo (by decide)
  · exact .step _ _ _ _ _ _ ⟨nm "a", 0x80000002, 2⟩ 0 typeDemo_line (by simp) (.here _ _ _) (.last _ _ _ _ typeDemo_pt (by simp))
  · exact .step _ _ _ _ ⟨nm "a", 0x80000002, 2⟩ 0 typeDemo_line (.here _ _ _) (by intro i hi; cases hi; decide) (.last _ _)

theorem bit_points {tbl : List Cdt} {idx : Int} {byte bit count : Nat} :
    Points tbl ⟨idx, byte, bit, count, (bit + count - 1) / 8 - bit / 8 + 1, DAX_BOOL⟩ idx DAX_BOOL count (8 * byte + bit) where
  index := rfl
  type := rfl
  at' := rfl
  count := rfl
  bool _ := rfl
  other h := absurd rfl h

/-- Instance: five BOOLs of `Flags` from the tenth on, and bits 11 and 12 of `Speed[2]`. -/
example : (∃ c1 txt c2 h', fqn (demo typeDemo) 5 fqnDemoIndex [] ⟨14, 1, 2, 5, 1, DAX_BOOL⟩ = .ok (c1, some txt) ∧
      tagHandle (demo typeDemo) 5 pathTags c1 txt 5 = .ok (c2, h', 0) ∧ Points (demo typeDemo).cdts h' 14 DAX_BOOL 5 (1 * 10)) ∧
    ∃ c1 c2 h', fqn (demo typeDemo) 5 fqnDemoIndex [] ⟨13, 5, 3, 2, 1, DAX_BOOL⟩ = .ok (c1, some (nm "Speed[2].11")) ∧
      tagHandle (demo typeDemo) 5 pathTags c1 (nm "Speed[2].11") 2 = .ok (c2, h', 0) ∧ Points (demo typeDemo).cdts h' 13 DAX_BOOL 2 43 := by
  refine ⟨?_, ?_⟩
  · exact C67_tag (demo_reachable (by decide +kernel)) (cap := 0) (tag := ⟨14, DAX_BOOL, 20⟩) (i := 10) (fun hc => absurd hc.1 (by decide)) (faithful_nil _) rfl rfl (plain_demo (by decide))
      typeDemo_bool (by decide) (bit_points (byte := 1) (bit := 2) (count := 5)) (by decide) (by decide)
  · exact C67_bit_partial (demo_reachable (by decide +kernel)) (tag := ⟨13, DAX_INT, 4⟩) (g := ⟨nm "Speed", some 2⟩) (w := 2) (b := 11) (sg := true) (faithful_nil _) rfl rfl (plain_demo (by decide))
      (by decide) (by decide) (by decide) (by decide) (by decide) (bit_points (byte := 5) (bit := 3) (count := 2)) (by decide) (by decide)

/-! ## Where names go wrong -/

/-- **C67** fails: the name for the first member of a nested type is the name of the nested type, which leads to something else. -/
theorem C67_first_member : handleOf (nm "L[1].a[1].x") 1 = .ok (⟨16, 37, 0, 1, 4, DAX_DINT⟩, 0) ∧ fqnOf ⟨16, 37, 0, 1, 4, DAX_DINT⟩ = .ok (some (nm "L[1].a[1]")) ∧
    handleOf (nm "L[1].a[1]") 1 = .ok (⟨16, 37, 0, 1, 12, 0x80000002⟩, 0) := ⟨by kernel_rfl, by kernel_rfl, by kernel_rfl⟩

/-- **C67** fails: the name for bit 0 of an integer member is the name of the integer. -/
theorem C67_bit_zero : handleOf (nm "R.v.0") 1 = .ok (⟨19, 0, 0, 1, 1, DAX_BOOL⟩, 0) ∧ fqnOf ⟨19, 0, 0, 1, 1, DAX_BOOL⟩ = .ok (some (nm "R.v")) ∧
    handleOf (nm "R.v") 1 = .ok (⟨19, 0, 0, 1, 2, DAX_INT⟩, 0) := ⟨by kernel_rfl, by kernel_rfl, by kernel_rfl⟩

/-- **C67** fails: two members of five BOOLs take up two bytes, but the search counts one; the integer behind them is taken for one of its own bits. -/
theorem C67_no_carry : handleOf (nm "R.w") 1 = .ok (⟨19, 4, 0, 1, 2, DAX_INT⟩, 0) ∧ fqnOf ⟨19, 4, 0, 1, 2, DAX_INT⟩ = .ok (some (nm "R.w.8")) ∧
    handleOf (nm "R.w.8") 1 = .ok (⟨19, 4, 0, 1, 1, DAX_BOOL⟩, 0) := ⟨by kernel_rfl, by kernel_rfl, by kernel_rfl⟩

/-- **C67** fails: `Speed` has four elements.  The name for four bits of the first has no index, and is refused. -/
theorem C67_index_lost : handleOf (nm "Speed[0].3") 4 = .ok (⟨13, 0, 3, 4, 1, DAX_BOOL⟩, 0) ∧ fqnOf ⟨13, 0, 3, 4, 1, DAX_BOOL⟩ = .ok (some (nm "Speed.3")) ∧
    handleOf (nm "Speed.3") 4 = .ok (noHandle, ERR_ARG) := ⟨by kernel_rfl, by kernel_rfl, by kernel_rfl⟩

end Dax
