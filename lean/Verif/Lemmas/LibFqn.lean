import Verif.Lemmas.LibPath
import Verif.Model.LibFqn
import Verif.Spec.LibFqn
/-!
# Lemmas about the names of handles
-/
set_option autoImplicit false
namespace Dax.LibPath

theorem mul8_nat {a : Nat} (h : a * 8 < 2147483648) : mulI32 (a : Int) 8 = .ok ((a * 8 : Nat) : Int) := mulI32_nat (b := 8) h

theorem fqn_bool_gen {s : Server} {fd : Int} {c : TypeCache} {mem : Option Iter} {byte u fb fbit a b x x' y y' : Int} {m : Iter} (hm : m.type = DAX_BOOL)
    (h1 : addI32 byte (m.count / 8 : Nat) = .ok a) (h2 : addI32 u (m.count % 8 : Nat) = .ok b) (h3 : mulI32 a 8 = .ok x) (h4 : addI32 x b = .ok x')
    (h5 : mulI32 fb 8 = .ok y) (h6 : addI32 y fbit = .ok y') :
    fqnMember s fd c ⟨mem, byte, u, fb, fbit⟩ m =
      if x' > y' then .ok (c, ⟨some m, a - (m.count / 8 : Nat), b - (m.count % 8 : Nat), fb, fbit⟩, true) else .ok (c, ⟨mem, a, b, fb, fbit⟩, false) := by
  unfold fqnMember
  rw [if_pos hm]
  dsimp only
  rw [h1, C.ok_bind, h2, C.ok_bind, h3, C.ok_bind, h4, C.ok_bind, h5, C.ok_bind, h6, C.ok_bind]

theorem fqn_bool_steps {s : Server} {fd : Int} {c : TypeCache} {mem : Option Iter} {byte u fb fbit : Nat} {m : Iter} (hm : m.type = DAX_BOOL)
    (h1 : 8 * byte + u + m.count < 2147483648) (h2 : 8 * fb + fbit < 2147483648) :
    fqnMember s fd c ⟨mem, byte, u, fb, fbit⟩ m =
      if 8 * byte + u + m.count > 8 * fb + fbit then .ok (c, ⟨some m, byte, u, fb, fbit⟩, true)
      else .ok (c, ⟨mem, ((byte + m.count / 8 : Nat) : Int), ((u + m.count % 8 : Nat) : Int), fb, fbit⟩, false) := by
  rw [fqn_bool_gen hm (addI32_nat (by omega)) (addI32_nat (by omega)) (mul8_nat (by omega)) (addI32_nat (by omega)) (mul8_nat (by omega)) (addI32_nat (by omega))]
  have e1 : ((byte + m.count / 8 : Nat) : Int) - (m.count / 8 : Nat) = byte := by omega
  have e2 : ((u + m.count % 8 : Nat) : Int) - (m.count % 8 : Nat) = u := by omega
  rw [e1, e2]
  by_cases h : 8 * byte + u + m.count > 8 * fb + fbit
  · rw [if_pos h, if_pos (by omega)]
  · rw [if_neg h, if_neg (by omega)]

theorem fqnAlign_eq {mem : Option Iter} {byte u : Nat} {fb fbit : Int} (h : byte + 1 < 2147483648) :
    fqnAlign ⟨mem, byte, u, fb, fbit⟩ = .ok (((if u > 0 then byte + 1 else byte : Nat) : Int), 0) := by
  unfold fqnAlign
  dsimp only
  by_cases hu : u > 0
  · rw [if_pos (by omega), if_pos hu, show addI32 (byte : Int) 1 = .ok ((byte + 1 : Nat) : Int) from addI32_nat (b := 1) h]
    rfl
  · rw [if_neg (by omega), if_neg hu]
    have : (u : Int) = 0 := by omega
    rw [this]

theorem fqn_other_gen {s : Server} {fd : Int} {c c' : TypeCache} {d : FqnData} {b0 bit size y z : Int} {m : Iter} (hm : m.type ≠ DAX_BOOL)
    (h0 : fqnAlign d = .ok (b0, bit)) (hk : ctypeSize s fd c m.type = .ok (c', size)) (h1 : mulI32 m.count size = .ok y) (h2 : addI32 b0 y = .ok z) :
    fqnMember s fd c d m = if z > d.finalByte then .ok (c', { d with member := some m, byte := z - y, bit := bit }, true)
      else .ok (c', { d with byte := z, bit := bit }, false) := by
  unfold fqnMember
  rw [if_neg hm, h0, C.ok_bind]
  dsimp only
  rw [hk, C.ok_bind]
  dsimp only
  rw [h1, C.ok_bind, h2, C.ok_bind]

theorem fqn_other_steps {s : Server} {fd : Int} {c c' : TypeCache} {mem : Option Iter} {byte u fb fbit k b0 : Nat} {m : Iter} (hm : m.type ≠ DAX_BOOL)
    (hk : ctypeSize s fd c m.type = .ok (c', (k : Int))) (hb0 : b0 = if u > 0 then byte + 1 else byte) (h1 : byte + 1 + k * m.count < 2147483648) :
    fqnMember s fd c ⟨mem, byte, u, fb, fbit⟩ m =
      if b0 + k * m.count > fb then .ok (c', ⟨some m, b0, 0, fb, fbit⟩, true)
      else .ok (c', ⟨mem, ((b0 + k * m.count : Nat) : Int), 0, fb, fbit⟩, false) := by
  have hk' : m.count * k = k * m.count := Nat.mul_comm _ _
  have hb : b0 ≤ byte + 1 := by rw [hb0]; split <;> omega
  rw [fqn_other_gen hm (fqnAlign_eq (by omega)) hk (mulI32_nat (by omega)) (addI32_nat (a := if u > 0 then byte + 1 else byte) (by rw [← hb0]; omega)), ← hb0, hk']
  dsimp only
  have e1 : ((b0 + k * m.count : Nat) : Int) - (k * m.count : Nat) = b0 := by omega
  rw [e1]
  by_cases h : b0 + k * m.count > fb
  · rw [if_pos h, if_pos (by omega)]
  · rw [if_neg h, if_neg (by omega)]

theorem fqn_align {m : Member} {byte u B p : Nat} (hm : m.type ≠ DAX_BOOL) (hu : u ≤ 8) (hp : 8 * byte + u = 8 * B + p) :
    8 * (if u > 0 then byte + 1 else byte) = 8 * B + place m p := by
  unfold place align8
  rw [if_neg hm]
  split <;> omega

theorem fqnLoop_found {s : Server} {fd : Int} {m : Iter} {ms : List Iter} {c c' : TypeCache} {d d' : FqnData} (h : fqnMember s fd c d m = .ok (c', d', true)) :
    fqnLoop s fd (m :: ms) c d = .ok (c', d') := by
  unfold fqnLoop
  rw [h]; rfl

theorem fqnLoop_next {s : Server} {fd : Int} {m : Iter} {ms : List Iter} {c c' : TypeCache} {d d' : FqnData} {r : C (TypeCache × FqnData)}
    (h : fqnMember s fd c d m = .ok (c', d', false)) (h2 : fqnLoop s fd ms c' d' = r) : fqnLoop s fd (m :: ms) c d = r := by
  rw [← h2]
  conv => lhs; unfold fqnLoop
  rw [h]; rfl

/-- The search finds the member in which the position is, and stops where it begins. -/
theorem fqnLoop_ok {cap : Nat} {s : Server} (hr : Reachable s) {fd : Int} {B fb fbit : Nat} {ms : List Member} {p : Nat} {l : List Iter} (hL : Listed s.cdts ms p l) :
    ∀ {n : Name} {m : Member} {r u byte e q : Nat} {c : TypeCache} {mem : Option Iter}, Before s.cdts ms p n m r → Upto n ms u → Ends s.cdts ms p q →
      (∀ m ∈ ms, Compound m.type → Fits cap s m.type) → Faithful s c → 8 * byte + u = 8 * B + p → 8 * B + q ≤ 2147483600 → ElemBits s.cdts m.type e →
      8 * B + place m r ≤ 8 * fb + fbit → 8 * fb + fbit < 8 * B + place m r + e * m.count → B + place m r / 8 ≤ fb →
      ∃ c' y x byte' u', fqnLoop s fd l c ⟨mem, (byte : Nat), (u : Nat), (fb : Nat), (fbit : Nat)⟩ =
          .ok (c', ⟨some ⟨n, m.type, m.count, y, x⟩, (byte' : Nat), (u' : Nat), (fb : Nat), (fbit : Nat)⟩) ∧ Faithful s c' ∧
        8 * byte' + u' = 8 * B + place m r ∧ (m.type ≠ DAX_BOOL → u' = 0) := by
  induction hL with
  | nil p => intro n m r u byte e q c mem hb; cases hb
  | cons m0 ms0 p e0 y0 x0 l0 he0 hx0 hpos hrest ih =>
    intro n m r u byte e q c mem hb hu hE hf hc hp hq he hlo hhi hfb
    obtain ⟨hle1, hle2⟩ := hb.le hE he
    have hpg := place_ge m0 p
    cases hE with
    | cons _ _ _ e1 _ he1 hE1 =>
    have := he1.det he0; subst this
    have hge := hE1.ge
    cases hb with
    | here =>
      have := he.det he0; subst this
      by_cases hm : m0.type = DAX_BOOL
      · have h1 := he0.bool hm; subst h1
        have hpl : place m0 p = p := by unfold place; rw [if_pos hm]
        have hst := fqn_bool_steps (s := s) (fd := fd) (c := c) (mem := mem) (byte := byte) (u := u) (fb := fb) (fbit := fbit)
          (m := ⟨m0.name, m0.type, m0.count, y0, x0⟩) hm (by dsimp only; omega) (by omega)
        rw [if_pos (by dsimp only; omega)] at hst
        exact ⟨c, y0, x0, byte, u, fqnLoop_found hst, hc, by omega, fun h => absurd hm h⟩
      · obtain ⟨c', k, hk, hc', rfl, hk0⟩ := member_size hr (hf m0 (List.mem_cons_self ..)) he0 hm hc (fd := fd)
        have ha := fqn_align hm (hu.1 hm) hp
        have hkm : 8 * k * m0.count = 8 * (k * m0.count) := Nat.mul_assoc ..
        obtain ⟨b0, hb0⟩ : ∃ b0, b0 = if u > 0 then byte + 1 else byte := ⟨_, rfl⟩
        rw [← hb0] at ha
        have hbb : b0 ≥ byte := by rw [hb0]; split <;> omega
        have hst := fqn_other_steps (mem := mem) (fb := fb) (fbit := fbit) (m := ⟨m0.name, m0.type, m0.count, y0, x0⟩) hm hk hb0 (by dsimp only; omega)
        rw [if_pos (by dsimp only; omega)] at hst
        exact ⟨c', y0, x0, b0, 0, fqnLoop_found hst, hc', by omega, fun _ => rfl⟩
    | later _ _ _ e2 _ _ _ hn he2 hb2 =>
      have := he2.det he0; subst this
      obtain ⟨hr1, hr2⟩ := hb2.le hE1 he
      have hpr := place_ge m r
      have hu2 : Upto n ms0 (if m0.type = DAX_BOOL then u + m0.count % 8 else 0) := hu.2.resolve_left hn
      have hf2 : ∀ m ∈ ms0, Compound m.type → Fits cap s m.type := fun m hm => hf m (List.mem_cons_of_mem _ hm)
      by_cases hm : m0.type = DAX_BOOL
      · have h1 := he0.bool hm; subst h1
        have hpl : place m0 p = p := by unfold place; rw [if_pos hm]
        rw [if_pos hm] at hu2
        obtain ⟨c', y, x, byte', u', h1, h2⟩ := ih (byte := byte + m0.count / 8) (mem := mem) hb2 hu2 hE1 hf2 hc (by omega) hq he hlo hhi hfb
        refine ⟨c', y, x, byte', u', ?_, h2⟩
        have hst := fqn_bool_steps (s := s) (fd := fd) (c := c) (mem := mem) (byte := byte) (u := u) (fb := fb) (fbit := fbit)
          (m := ⟨m0.name, m0.type, m0.count, y0, x0⟩) hm (by dsimp only; omega) (by omega)
        rw [if_neg (by dsimp only; omega)] at hst
        exact fqnLoop_next hst h1
      · obtain ⟨c1, k, hk, hc1, rfl, hk0⟩ := member_size hr (hf m0 (List.mem_cons_self ..)) he0 hm hc (fd := fd)
        have ha := fqn_align hm (hu.1 hm) hp
        have hkm : 8 * k * m0.count = 8 * (k * m0.count) := Nat.mul_assoc ..
        obtain ⟨b0, hb0⟩ : ∃ b0, b0 = if u > 0 then byte + 1 else byte := ⟨_, rfl⟩
        rw [← hb0] at ha
        have hbb : b0 ≥ byte := by rw [hb0]; split <;> omega
        rw [if_neg hm] at hu2
        obtain ⟨c', y, x, byte', u', h1, h2⟩ := ih (byte := b0 + k * m0.count) (u := 0) (mem := mem) hb2 hu2 hE1 hf2 hc1 (by omega) hq he hlo hhi hfb
        refine ⟨c', y, x, byte', u', ?_, h2⟩
        have hst := fqn_other_steps (mem := mem) (fb := fb) (fbit := fbit) (m := ⟨m0.name, m0.type, m0.count, y0, x0⟩) hm hk hb0 (by dsimp only; omega)
        rw [if_neg (by dsimp only; omega)] at hst
        exact fqnLoop_next hst h1

theorem addI32_sub {a b : Nat} (h : b ≤ a) (h2 : a < 2147483648) : addI32 (a : Int) (-(b : Int)) = .ok ((a - b : Nat) : Int) := by
  unfold addI32; rw [if_pos (by omega)]; congr 1; omega

theorem addI32_int {a b r : Int} (h : a + b = r) (h1 : 0 ≤ r) (h2 : r < 2147483648) : addI32 a b = .ok r := by
  unfold addI32; rw [if_pos (by omega), h]

theorem fqnCat_ok {a b : Name} (h : a.length + b.length < 1024) : fqnCat a b = .ok (a ++ b) := by
  unfold fqnCat FQN_TAG_SIZE; rw [if_pos h]

theorem decInt_nat (i : Nat) : decInt (i : Int) = decNat i := by
  unfold decInt
  rw [if_neg (by omega)]
  rfl

/-- What is appended for a step of the path: the text between the dot and the next. -/
theorem segText_none {g : Seg} (h : g.index = none) : segText g = g.name := by
  unfold segText; rw [h]; simp

theorem segText_some {g : Seg} {i : Nat} (h : g.index = some i) : segText g = g.name ++ 91#8 :: decNat i ++ [93#8] := by
  unfold segText; rw [h]; simp

theorem fqnName_plain {s : Server} {fd : Int} {c : TypeCache} {str : Name} {d : FqnData} {g : Seg} {t n : Nat} {y x : Int} (hn : g.index = none) (h : n ≤ 1)
    (hl : str.length + (46#8 :: segText g).length < 1024) : fqnName s fd c str d ⟨g.name, t, n, y, x⟩ = .ok (c, str ++ 46#8 :: segText g, d) := by
  rw [segText_none hn] at hl ⊢
  unfold fqnName
  rw [if_neg (by dsimp only; omega), fqnCat_ok hl]
  rfl

theorem fqnName_bool_gen {s : Server} {fd : Int} {c : TypeCache} {str : Name} {d : FqnData} {m : Iter} {a b : Int} {i : Nat} (hm : m.type = DAX_BOOL) (hn : (m.count : Int) > 1)
    (h1 : addI32 d.finalByte (-d.byte) = .ok a) (h2 : mulI32 a 8 = .ok b) (h3 : addI32 b (d.finalBit - d.bit) = .ok (i : Int))
    (hl : str.length + (46#8 :: m.name ++ 91#8 :: decNat i ++ [93#8]).length < 1024) :
    fqnName s fd c str d m = .ok (c, str ++ (46#8 :: m.name ++ 91#8 :: decNat i ++ [93#8]), d) := by
  unfold fqnName
  rw [if_pos hn, if_pos hm, h1, C.ok_bind, h2, C.ok_bind, h3, C.ok_bind, decInt_nat, fqnCat_ok hl, C.ok_bind]

theorem fqnName_other_gen {s : Server} {fd : Int} {c c1 c2 : TypeCache} {str : Name} {d : FqnData} {m : Iter} {a sz b e : Int} {i : Nat} (hm : m.type ≠ DAX_BOOL)
    (hn : (m.count : Int) > 1) (h1 : addI32 d.finalByte (-d.byte) = .ok a) (h2 : ctypeSize s fd c m.type = .ok (c1, sz)) (hz : sz ≠ 0) (hi : a.tdiv sz = (i : Int))
    (h3 : ctypeSize s fd c1 m.type = .ok (c2, sz)) (h4 : mulI32 i sz = .ok b) (h5 : addI32 d.byte b = .ok e)
    (hl : str.length + (46#8 :: m.name ++ 91#8 :: decNat i ++ [93#8]).length < 1024) :
    fqnName s fd c str d m = .ok (c2, str ++ (46#8 :: m.name ++ 91#8 :: decNat i ++ [93#8]), { d with byte := e }) := by
  unfold fqnName
  rw [if_pos hn, if_neg hm, h1, C.ok_bind, h2, C.ok_bind]
  dsimp only
  rw [if_neg hz, hi, h3, C.ok_bind]
  dsimp only
  rw [h4, C.ok_bind, h5, C.ok_bind, decInt_nat, fqnCat_ok hl, C.ok_bind]

theorem fqnName_bool {s : Server} {fd : Int} {c : TypeCache} {str : Name} {mem : Option Iter} {byte u fb fbit : Nat} {g : Seg} {n : Nat} {y x : Int}
    (hidx : g.index.isSome ↔ 1 < n) (hb : byte ≤ fb) (hfb : 8 * fb + fbit < 2147483648) (hpos : 8 * fb + fbit = 8 * byte + u + g.index.getD 0)
    (hl : str.length + (46#8 :: segText g).length < 1024) :
    fqnName s fd c str ⟨mem, byte, u, fb, fbit⟩ ⟨g.name, DAX_BOOL, n, y, x⟩ = .ok (c, str ++ 46#8 :: segText g, ⟨mem, byte, u, fb, fbit⟩) := by
  cases hg : g.index with
  | none => exact fqnName_plain hg (by rw [hg] at hidx; simp at hidx; omega) hl
  | some i =>
    rw [hg] at hpos hidx
    simp only [Option.getD_some, Option.isSome_some, true_iff] at hpos hidx
    rw [segText_some hg] at hl ⊢
    exact fqnName_bool_gen rfl (by dsimp only; omega) (addI32_sub hb (by omega)) (mul8_nat (by omega))
      (addI32_int (by dsimp only; omega) (by omega) (by omega)) (by simpa using hl)

theorem div_index {a k i : Nat} (h1 : k * i ≤ a) (h2 : a < k * i + k) : a / k = i := by
  have hk : 0 < k := by omega
  refine Nat.div_eq_of_lt_le ?_ ?_
  · rw [Nat.mul_comm]; exact h1
  · rw [Nat.succ_mul, Nat.mul_comm]; exact h2

theorem fqnName_other {cap : Nat} {s : Server} (hr : Reachable s) {fd : Int} {c : TypeCache} {str : Name} {mem : Option Iter} {byte fb fbit k : Nat} {g : Seg} {t n : Nat} {y x : Int}
    (hm : t ≠ DAX_BOOL) (hf : Compound t → Fits cap s t) (he : ElemBits s.cdts t (8 * k)) (hc : Faithful s c)
    (hidx : g.index.isSome ↔ 1 < n) (hfb : fb < 2147483648) (hlo : byte + k * g.index.getD 0 ≤ fb) (hhi : fb < byte + k * g.index.getD 0 + k)
    (hl : str.length + (46#8 :: segText g).length < 1024) :
    ∃ c', fqnName s fd c str ⟨mem, byte, 0, fb, fbit⟩ ⟨g.name, t, n, y, x⟩ =
      .ok (c', str ++ 46#8 :: segText g, ⟨mem, ((byte + k * g.index.getD 0 : Nat) : Int), 0, fb, fbit⟩) ∧ Faithful s c' := by
  cases hg : g.index with
  | none => exact ⟨c, fqnName_plain hg (by rw [hg] at hidx; simp at hidx; omega) hl, hc⟩
  | some i =>
    rw [hg] at hlo hhi hidx
    simp only [Option.getD_some, Option.isSome_some, true_iff] at hlo hhi hidx
    rw [segText_some hg] at hl ⊢
    obtain ⟨c1, k1, hk1, hc1, hk, hk0⟩ := member_size hr hf he hm hc (fd := fd)
    obtain ⟨c2, k2, hk2, hc2, hkk, _⟩ := member_size hr hf he hm hc1 (fd := fd)
    have : k1 = k := by omega
    subst this
    have : k2 = k1 := by omega
    subst this
    have hmul : i * k2 = k2 * i := Nat.mul_comm ..
    refine ⟨c2, ?_, hc2⟩
    have hst := fqnName_other_gen (str := str) (d := ⟨mem, byte, 0, fb, fbit⟩) (m := ⟨g.name, t, n, y, x⟩) (i := i) hm (by dsimp only; omega)
      (addI32_sub (by omega) hfb) hk1 (by omega) (by rw [← Int.ofNat_tdiv, div_index (i := i) (by omega) (by omega)]) hk2 (mulI32_nat (by omega)) (addI32_nat (by omega))
      (by simpa using hl)
    rw [hmul] at hst
    simpa using hst

theorem cdtIter_ok {cap : Nat} {s : Server} (hr : Reachable s) {fd : Int} {c : TypeCache} {t : Nat} {d : Cdt} {q : Nat} (K : Known' cap s t d q) (hc : Faithful s c)
    (hq : q ≤ 2147483600) : ∃ c' l, cdtIter s fd c t = .ok (c', 0, l) ∧ Faithful s c' ∧ Listed s.cdts d.members 0 l := by
  obtain ⟨c1, h1, h2⟩ := cdtMembers_known hr K hc (fd := fd)
  obtain ⟨c2, l, h3, h4, h5⟩ := iter_ok hr K.ends hq K.sub h2 (byte := 0) (bit := 0) (fd := fd) (by omega) (fun m _ => by rw [place_of8 m rfl])
  refine ⟨c2, l, ?_, h4, h5⟩
  unfold cdtIter
  rw [h1]
  simp only [C.ok_bind]
  have h3 : iterLoop s fd d.members c1 0 0 = .ok (c2, l) := h3
  rw [h3]
  rfl

theorem fqnCdt_stop {s : Server} {fd : Int} {fuel : Nat} {c c1 c2 c3 : TypeCache} {str str3 : Name} {t : Nat} {d d2 d3 : FqnData} {l : List Iter} {m : Iter}
    (h1 : cdtIter s fd c t = .ok (c1, 0, l)) (h2 : fqnLoop s fd l c1 d = .ok (c2, d2)) (hm : d2.member = some m) (h3 : fqnName s fd c2 str d2 m = .ok (c3, str3, d3))
    (h4 : ¬ (d3.byte ≠ d3.finalByte ∨ d3.bit ≠ d3.finalBit) ∨ m.type = DAX_BOOL) : fqnCdtMember s fd (fuel + 1) c str t d = .ok (c3, str3) := by
  unfold fqnCdtMember
  rw [h1, C.ok_bind]
  dsimp only
  rw [h2, C.ok_bind]
  dsimp only
  rw [hm]
  dsimp only
  rw [h3, C.ok_bind]
  dsimp only
  rcases h4 with h4 | h4
  · rw [if_neg h4]
  · split
    · have h5 : isCustom m.type = false := by rw [h4]; rfl
      rw [h5, if_neg (by decide), if_neg (fun h => h h4)]
    · rfl

theorem fqnCdt_deep {s : Server} {fd : Int} {fuel : Nat} {c c1 c2 c3 : TypeCache} {str str3 : Name} {t : Nat} {d d2 d3 : FqnData} {l : List Iter} {m : Iter}
    (h1 : cdtIter s fd c t = .ok (c1, 0, l)) (h2 : fqnLoop s fd l c1 d = .ok (c2, d2)) (hm : d2.member = some m) (h3 : fqnName s fd c2 str d2 m = .ok (c3, str3, d3))
    (h4 : d3.byte ≠ d3.finalByte ∨ d3.bit ≠ d3.finalBit) (h5 : isCustom m.type = true) :
    fqnCdtMember s fd (fuel + 1) c str t d = fqnCdtMember s fd fuel c3 str3 m.type d3 := by
  conv => lhs; unfold fqnCdtMember
  rw [h1, C.ok_bind]
  dsimp only
  rw [h2, C.ok_bind]
  dsimp only
  rw [hm]
  dsimp only
  rw [h3, C.ok_bind]
  dsimp only
  rw [if_pos h4, if_pos h5]

theorem fqnCdt_bits {s : Server} {fd : Int} {fuel : Nat} {c c1 c2 c3 : TypeCache} {str str3 : Name} {t : Nat} {d d2 d3 : FqnData} {l : List Iter} {m : Iter} {a e : Int} {b : Nat}
    (h1 : cdtIter s fd c t = .ok (c1, 0, l)) (h2 : fqnLoop s fd l c1 d = .ok (c2, d2)) (hm : d2.member = some m) (h3 : fqnName s fd c2 str d2 m = .ok (c3, str3, d3))
    (h4 : d3.byte ≠ d3.finalByte ∨ d3.bit ≠ d3.finalBit) (h5 : isCustom m.type = false) (h6 : m.type ≠ DAX_BOOL)
    (h7 : addI32 d3.finalByte (-d3.byte) = .ok a) (h8 : mulI32 a 8 = .ok e) (h9 : addI32 e (d3.finalBit - d3.bit) = .ok (b : Int))
    (hl : str3.length + (46#8 :: decNat b).length < 1024) : fqnCdtMember s fd (fuel + 1) c str t d = .ok (c3, str3 ++ 46#8 :: decNat b) := by
  conv => lhs; unfold fqnCdtMember
  rw [h1, C.ok_bind]
  dsimp only
  rw [h2, C.ok_bind]
  dsimp only
  rw [hm]
  dsimp only
  rw [h3, C.ok_bind]
  dsimp only
  rw [if_pos h4, h5, if_neg (by decide), if_pos h6, h7, C.ok_bind, h8, C.ok_bind, h9, C.ok_bind, decInt_nat, fqnCat_ok hl, C.ok_bind]

theorem custom_iff (t : Nat) (h : Compound t) : isCustom t = true := by
  unfold isCustom Compound at *
  rw [Nat.testBit, Nat.shiftRight_eq_div_pow]
  have : t / 2 ^ 31 = 1 := by omega
  rw [this]; rfl

theorem int_det {t w w' : Nat} {sg sg' : Bool} (h : (t, w, sg) ∈ intTypes) (h' : (t, w', sg') ∈ intTypes) : w = w' :=
  elem_det (int_elem h).1 (int_elem h').1

/-- A path leads to one place only. -/
theorem Place.det {tbl : List Cdt} {t : Nat} {gs : List Seg} {b : Option Nat} {ty n off : Nat} (hp : Place tbl t gs b ty n off) :
    ∀ {ty' n' off' : Nat}, Place tbl t gs b ty' n' off' → ty = ty' ∧ n = n' ∧ off = off' := by
  induction hp with
  | last t d g m r e hc hd hb he hi =>
    intro ty' n' off' h
    cases h with
    | last _ d2 _ m2 r2 e2 _ hd2 hb2 he2 _ =>
      rw [hd] at hd2; cases hd2
      obtain ⟨rfl, rfl⟩ := hb.det hb2
      have := he.det he2; subst this
      exact ⟨rfl, rfl, rfl⟩
    | step _ _ _ _ _ _ _ _ _ _ _ _ _ _ _ _ _ h => exact absurd rfl h.ne
  | bit t d g m r w b sg hc hd hb hit hi ho hbw =>
    intro ty' n' off' h
    cases h with
    | bit _ d2 _ m2 r2 w2 _ sg2 _ hd2 hb2 hit2 _ _ _ =>
      rw [hd] at hd2; cases hd2
      obtain ⟨rfl, rfl⟩ := hb.det hb2
      have := int_det hit hit2; subst this
      exact ⟨rfl, rfl, rfl⟩
    | step _ _ _ _ _ _ _ _ _ _ _ _ _ _ _ _ _ h => exact absurd rfl h.ne
  | step t d g gs b m r e ty n off hc hd hb hcm he hi hp ih =>
    intro ty' n' off' h
    cases h with
    | last => exact absurd rfl hp.ne
    | bit => exact absurd rfl hp.ne
    | step _ d2 _ _ _ m2 r2 e2 ty2 n2 off2 _ hd2 hb2 _ he2 _ hp2 =>
      rw [hd] at hd2; cases hd2
      obtain ⟨rfl, rfl⟩ := hb.det hb2
      have := he.det he2; subst this
      obtain ⟨rfl, rfl, rfl⟩ := ih hp2
      exact ⟨rfl, rfl, rfl⟩

/-- What a path leads to has a size. -/
theorem Place.pos {cap : Nat} {s : Server} (hr : Reachable s) {t : Nat} {gs : List Seg} {b : Option Nat} {ty n off : Nat} (hp : Place s.cdts t gs b ty n off) :
    ∀ {d q e}, Known' cap s t d q → ElemBits s.cdts ty e → 0 < e := by
  induction hp with
  | last t d' g m r e hc hd hb he hi =>
    intro d q e2 K he2
    have := K.det hd; subst this
    obtain ⟨e', h1, h2, _⟩ := K.before hr hb
    rw [he2.det h1]; exact h2
  | bit t d' g m r w b sg hc hd hb hit hi hone hbw =>
    intro d q e2 K he2
    rw [he2.bool rfl]; exact Nat.one_pos
  | step t d' g gs b m r e ty n off hc hd hb hcm he hi hp ih =>
    intro d q e2 K he2
    have := K.det hd; subst this
    obtain ⟨d2, q2, K2⟩ := (K.sub m hb.mem hcm).known hr.wf
    exact ih K2 he2

/-- Below a position in an element of compound type is exactly the path to it. -/
theorem fqnCdt_ok {cap : Nat} {s : Server} (hr : Reachable s) {fd : Int} {t : Nat} {gs : List Seg} {b : Option Nat} {ty n off : Nat} (hp : Place s.cdts t gs b ty n off) :
    ∀ {fuel : Nat} {c : TypeCache} {str : Name} {mem : Option Iter} {B fb fbit : Nat} {d : Cdt} {q : Nat}, Known' cap s t d q → Canon s.cdts t gs → Told s.cdts t gs b →
      Faithful s c → 8 * B + q ≤ 2147483600 → 8 * fb + fbit = 8 * B + off → fbit ≤ 7 + carried gs b → (ty ≠ DAX_BOOL → fbit = 0) → gs.length ≤ fuel →
      str.length + (pathText gs b).length < 1024 →
      B ≤ fb ∧ ∃ c', fqnCdtMember s fd fuel c str t ⟨mem, (B : Nat), ((0 : Nat) : Int), (fb : Nat), (fbit : Nat)⟩ = .ok (c', str ++ pathText gs b) ∧ Faithful s c' := by
  induction hp with
  | last t d' g m r e hcp hd hb he hi =>
    intro fuel c str mem B fb fbit d q K hcan htold hc hB hpos hcar hfbit hfuel hlen
    have := K.det hd; subst this
    obtain ⟨fuel, rfl⟩ : ∃ f, fuel = f + 1 := ⟨fuel - 1, by simp at hfuel; omega⟩
    have hgidx : g.index.isSome ↔ 1 < m.count := by
      cases hcan with
      | last _ d2 _ m2 r2 hd2 hb2 h =>
        have := K.det hd2; subst this
        obtain ⟨rfl, _⟩ := hb.det hb2
        exact h
      | step _ _ _ _ _ _ _ _ _ h => cases h
    have hup : Upto g.name d'.members 0 := by
      cases htold with
      | last _ d2 _ hd2 hu => have := K.det hd2; subst this; exact hu
      | step _ _ _ _ _ _ _ _ _ _ _ _ _ _ _ h => cases h
    have hcar' : carried [g] none = g.index.getD 0 := rfl
    rw [hcar'] at hcar
    have hi1 : e * (g.index.getD 0 + 1) ≤ e * m.count := Nat.mul_le_mul_left _ (by omega)
    rw [Nat.mul_add] at hi1
    obtain ⟨e', he', he0, hend, _⟩ := K.before hr hb
    have := he'.det he; subst this
    have hBf : B + place m r / 8 ≤ fb := by
      by_cases hm : m.type = DAX_BOOL
      · have := he.bool hm; subst this; omega
      · have := hfbit hm; omega
    refine ⟨by omega, ?_⟩
    obtain ⟨c1, l, h1, hc1, hL⟩ := cdtIter_ok hr K hc (by omega) (fd := fd)
    obtain ⟨c2, y, x, byte, u, h2, hc2, h3, h4⟩ := fqnLoop_ok hr hL hb hup K.ends K.sub hc1 (byte := B) (B := B) (mem := mem) (fd := fd) (fb := fb) (fbit := fbit)
      (by omega) (by omega) he (by omega) (by omega) hBf
    have htxt : pathText [g] none = 46#8 :: segText g := by simp [pathText]
    rw [htxt] at hlen ⊢
    by_cases hm : m.type = DAX_BOOL
    · have := he.bool hm; subst this
      have h5 := fqnName_bool (s := s) (fd := fd) (c := c2) (mem := some ⟨g.name, m.type, m.count, y, x⟩) (byte := byte) (u := u) (fb := fb) (fbit := fbit) (y := y) (x := x)
        hgidx (by omega) (by omega) (by omega) hlen
      rw [← hm] at h5
      exact ⟨c2, fqnCdt_stop h1 h2 rfl h5 (.inr hm), hc2⟩
    · have hu := h4 hm; subst hu
      have h8 := he.bytes hm
      obtain ⟨k, rfl⟩ : ∃ k, e' = 8 * k := ⟨e' / 8, by omega⟩
      have hk : 8 * k * g.index.getD 0 = 8 * (k * g.index.getD 0) := Nat.mul_assoc ..
      have hz := hfbit hm
      obtain ⟨c3, h5, hc3⟩ := fqnName_other hr (fd := fd) (c := c2) (mem := some ⟨g.name, m.type, m.count, y, x⟩) (byte := byte) (fb := fb) (fbit := fbit) (y := y) (x := x)
        hm (K.sub m hb.mem) he hc2 hgidx (by omega) (by omega) (by omega) hlen
      exact ⟨c3, fqnCdt_stop h1 h2 rfl h5 (.inl (by dsimp only; omega)), hc3⟩
  | bit t d' g m r w bn sg hcp hd hb hit hi hone hbw =>
    intro fuel c str mem B fb fbit d q K hcan htold hc hB hpos hcar hfbit hfuel hlen
    have := K.det hd; subst this
    obtain ⟨fuel, rfl⟩ : ∃ f, fuel = f + 1 := ⟨fuel - 1, by simp at hfuel; omega⟩
    have hgidx : g.index.isSome ↔ 1 < m.count := by
      cases hcan with
      | last _ d2 _ m2 r2 hd2 hb2 h =>
        have := K.det hd2; subst this
        obtain ⟨rfl, _⟩ := hb.det hb2
        exact h
      | step _ _ _ _ _ _ _ _ _ h => cases h
    obtain ⟨hup, hb0⟩ : Upto g.name d'.members 0 ∧ 0 < bn := by
      cases htold with
      | bit _ d2 _ _ hd2 hu h0 => have := K.det hd2; subst this; exact ⟨hu, h0⟩
      | step _ _ _ _ _ _ _ _ _ _ _ _ _ _ _ h => cases h
    have hcar' : carried [g] (some bn) = 0 := rfl
    rw [hcar'] at hcar
    have he : ElemBits s.cdts m.type (8 * w) := .inr (.inl ⟨w, (int_elem hit).1, rfl⟩)
    have hm : m.type ≠ DAX_BOOL := elem_notBool (int_elem hit).1
    have hi1 : 8 * w * (g.index.getD 0 + 1) ≤ 8 * w * m.count := Nat.mul_le_mul_left _ (by omega)
    rw [Nat.mul_add] at hi1
    have hend := (hb.le K.ends he).2
    have hk : 8 * w * g.index.getD 0 = 8 * (w * g.index.getD 0) := Nat.mul_assoc ..
    have hpl8 : place m r % 8 = 0 := by unfold place; rw [if_neg hm]; exact (align8_ge r).2.2
    refine ⟨by omega, ?_⟩
    obtain ⟨c1, l, h1, hc1, hL⟩ := cdtIter_ok hr K hc (by omega) (fd := fd)
    obtain ⟨c2, y, x, byte, u, h2, hc2, h3, h4⟩ := fqnLoop_ok hr hL hb hup K.ends K.sub hc1 (byte := B) (B := B) (mem := mem) (fd := fd) (fb := fb) (fbit := fbit)
      (by omega) (by omega) he (by omega) (by omega) (by omega)
    have hu := h4 hm; subst hu
    have htxt : pathText [g] (some bn) = (46#8 :: segText g) ++ 46#8 :: decNat bn := by simp [pathText]
    rw [htxt] at hlen ⊢
    rw [List.length_append] at hlen
    obtain ⟨c3, h5, hc3⟩ := fqnName_other hr (fd := fd) (c := c2) (str := str) (mem := some ⟨g.name, m.type, m.count, y, x⟩) (byte := byte) (fb := fb) (fbit := fbit) (y := y) (x := x)
      hm (K.sub m hb.mem) he hc2 hgidx (by omega) (by omega) (by omega) (by omega)
    have hcu : isCustom m.type = false := by
      have := (int_elem hit).2.2.2
      simp only [Bool.or_eq_false_iff] at this
      exact this.2
    refine ⟨c3, ?_, hc3⟩
    rw [← List.append_assoc]
    exact fqnCdt_bits h1 h2 rfl h5 (by dsimp only; omega) hcu hm (addI32_sub (by omega) (by omega)) (mul8_nat (by omega))
      (addI32_int (by dsimp only; omega) (by omega) (by omega)) (by rw [List.length_append]; omega)
  | step t d' g gs b m r e ty n off hcp hd hb hcm he hi hp ih =>
    intro fuel c str mem B fb fbit d q K hcan htold hc hB hpos hcar hfbit hfuel hlen
    have := K.det hd; subst this
    obtain ⟨fuel, rfl⟩ : ∃ f, fuel = f + 1 := ⟨fuel - 1, by simp at hfuel; omega⟩
    have hne := hp.ne
    obtain ⟨hgidx, hcan2⟩ : (g.index.isSome ↔ 1 < m.count) ∧ Canon s.cdts m.type gs := by
      cases hcan with
      | last _ d2 _ m2 r2 hd2 hb2 h => exact absurd rfl hne
      | step _ d2 _ _ m2 r2 hd2 hb2 h h' =>
        have := K.det hd2; subst this
        obtain ⟨rfl, _⟩ := hb.det hb2
        exact ⟨h, h'⟩
    obtain ⟨hup, hoff, htold2⟩ : Upto g.name d'.members 0 ∧ 0 < off ∧ Told s.cdts m.type gs b := by
      cases htold with
      | last _ d2 _ hd2 hu => exact absurd rfl hne
      | bit _ d2 _ _ hd2 hu h0 => exact absurd rfl hne
      | step _ d2 _ _ _ m2 r2 ty2 n2 off2 hd2 hu hb2 hp2 h0 h' =>
        have := K.det hd2; subst this
        obtain ⟨rfl, _⟩ := hb.det hb2
        exact ⟨hu, by rw [(hp.det hp2).2.2]; exact h0, h'⟩
    have hcar' : carried (g :: gs) b = carried gs b := by
      unfold carried
      cases gs with
      | nil => exact absurd rfl hne
      | cons g2 gs2 => rfl
    rw [hcar'] at hcar
    have hm := compound_notBool hcm
    obtain ⟨d2, q2, K2⟩ := (K.sub m hb.mem hcm).known hr.wf
    obtain ⟨e2, h3, h4, h5⟩ := hp.within hr K2
    have h6 := he.det K2.elem
    have hend := (hb.le K.ends he).2
    have hi1 : e * (g.index.getD 0 + 1) ≤ e * m.count := Nat.mul_le_mul_left _ (by omega)
    rw [Nat.mul_add] at hi1
    obtain ⟨k, hk⟩ : ∃ k, k = (q2 + 7) / 8 := ⟨_, rfl⟩
    rw [← hk] at h6
    subst h6
    have hki : 8 * k * g.index.getD 0 = 8 * (k * g.index.getD 0) := Nat.mul_assoc ..
    have he2 : 0 < e2 * n := Nat.mul_pos (hp.pos hr K2 h3) h4
    have hpl8 : place m r % 8 = 0 := by unfold place; rw [if_neg hm]; exact (align8_ge r).2.2
    have htxt : pathText (g :: gs) b = (46#8 :: segText g) ++ pathText gs b := by simp [pathText]
    rw [htxt] at hlen ⊢
    rw [List.length_append] at hlen
    have hin := fun (c : TypeCache) (hc : Faithful s c) (mem : Option Iter) => ih (fuel := fuel) (c := c) (str := str ++ 46#8 :: segText g) (mem := mem) (B := B + place m r / 8 + k * g.index.getD 0)
      (fb := fb) (fbit := fbit) K2 hcan2 htold2 hc (by omega) (by omega) hcar hfbit (by simp at hfuel; omega) (by rw [List.length_append]; omega)
    have hBf := (hin c hc mem).1
    refine ⟨by omega, ?_⟩
    obtain ⟨c1, l, h1, hc1, hL⟩ := cdtIter_ok hr K hc (by omega) (fd := fd)
    obtain ⟨c2, y, x, byte, u, h2, hc2, h7, h8⟩ := fqnLoop_ok hr hL hb hup K.ends K.sub hc1 (byte := B) (B := B) (mem := mem) (fd := fd) (fb := fb) (fbit := fbit)
      (by omega) (by omega) he (by omega) (by omega) (by omega)
    have hu := h8 hm; subst hu
    have hbyte : byte = B + place m r / 8 := by omega
    subst hbyte
    obtain ⟨c3, h9, hc3⟩ := fqnName_other hr (fd := fd) (c := c2) (str := str) (mem := some ⟨g.name, m.type, m.count, y, x⟩) (byte := B + place m r / 8) (fb := fb) (fbit := fbit) (y := y) (x := x)
      hm (K.sub m hb.mem) he hc2 hgidx (by omega) (by omega) (by omega) (by omega)
    obtain ⟨_, c4, h10, hc4⟩ := hin c3 hc3 (some ⟨g.name, m.type, m.count, y, x⟩)
    refine ⟨c4, ?_, hc4⟩
    rw [← List.append_assoc, ← h10]
    exact fqnCdt_deep h1 h2 rfl h9 (by dsimp only; omega) (custom_iff _ hcm)

end Dax.LibPath
