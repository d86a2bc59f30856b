import Verif.Lemmas.Daxc
import Verif.Props.LuaTag
/-!
# The command-line client (C92, C93, C94)
-/
set_option autoImplicit false
namespace Dax
open Dax.LibPath Dax.LibData Dax.Lua Dax.Wire Dax.Conv Dax.Daxc

/-! ## C92: lines and values -/

/-- **C92**, lines: a line made of words with one space between them is divided into these words. -/
theorem C92_words {ws : List Name} (h0 : ws ≠ []) (hw : ∀ w ∈ ws, Word w) (hl : ws.length = 1 ∨ ws.getLast? ≠ some []) : words (line ws) = ws := words_line ws h0 hw hl

/-- A line with a quoted word that has a space in it. -/
example : words (nm "write s \"a b\"") = [nm "write", nm "s", nm "\"a b\""] := by
  have h := C92_words (ws := [nm "write", nm "s", nm "\"a b\""]) (by decide) (fun w hw => ?_) (.inr (by decide))
  · exact h
  · simp only [List.mem_cons, List.not_mem_nil, or_false] at hw
    rcases hw with rfl | rfl | rfl
    · exact .char (by decide) (by decide) (.char (by decide) (by decide) (.char (by decide) (by decide) (.char (by decide) (by decide) (.char (by decide) (by decide) .nil))))
    · exact .char (by decide) (by decide) .nil
    · refine Word.quoted (b := nm "a b") ⟨fun k hk => ?_, by decide⟩ .nil
      match k with
      | 0 => exact absurd hk (by decide)
      | 1 => exact absurd hk (by decide)
      | 2 => exact absurd hk (by decide)
      | k + 3 => cases hk

/-- **C92** fails: a second space between two words is a word of its own, and it is taken for the value 0. -/
theorem C92_spaces (e : TextEnv) : words (nm "write x  5") = [nm "write", nm "x", [], nm "5"] ∧
    values e DAX_INT [[], nm "5"] 0 [1, 1, 1, 1] [0, 0, 0, 0] = .ok ([0, 0, 5, 0], [255, 255, 255, 255], false) := by
  refine ⟨?_, by kernel_rfl⟩
  have h := C92_words (ws := [nm "write", nm "x", [], nm "5"]) (by decide) (fun w hw => ?_) (.inr (by decide))
  · exact h
  · simp only [List.mem_cons, List.not_mem_nil, or_false] at hw
    rcases hw with rfl | rfl | rfl | rfl
    · exact .char (by decide) (by decide) (.char (by decide) (by decide) (.char (by decide) (by decide) (.char (by decide) (by decide) (.char (by decide) (by decide) .nil))))
    · exact .char (by decide) (by decide) .nil
    · exact .nil
    · exact .char (by decide) (by decide) .nil

/-- **C92** fails: whatever the line is, unless it is empty or a comment, the end of the list of words is stored outside of the block it was allocated for. -/
theorem C92_overflow {l : Name} (h0 : l ≠ []) (hc : l.head? ≠ some 35#8) : ∃ w, runcmd l = .ub w := by
  unfold runcmd
  split
  · exact absurd rfl h0
  · exact absurd rfl hc
  · dsimp only
    rw [storeWords_ok _ _ _ (by omega)]
    refine ⟨"write outside block", ?_⟩
    show (store8 _ _ >>= _) = _
    unfold store8
    rw [if_neg (by omega)]
    rfl

/-- The type is one whose elements have `n` bytes. -/
theorem intType_elem {tbl : List Cdt} {ty n : Nat} {lo hi : Int} (h : IntType ty n lo hi) : ElemBits tbl ty (8 * n) ∧ ty ≠ DAX_BOOL ∧ 0 < n ∧ n ≤ 8 ∧ ty < 2147483648 := by
  cases h <;> exact ⟨.inr (.inl ⟨_, by decide, rfl⟩), by decide, by decide, by decide, by decide⟩

theorem byte_masked (x y : Byte) : (x &&& 255#8) ||| (y &&& ~~~ 255#8) = x := full_byte x y

theorem byte_kept (x y : Byte) : (x &&& 0#8) ||| (y &&& ~~~ 0#8) = y := by
  rw [BitVec.and_zero, BitVec.not_zero, BitVec.and_allOnes, BitVec.zero_or]

/-- What a masked store does to the items. -/
theorem items_stored {M : Mem} {i p n cnt : Nat} {b m : List Byte} (hb : b.length = n * cnt) (hm : m.length = n * cnt) {k : Nat} (hk : k < cnt) :
    (∀ x, Holds b n k x → item m n k = List.replicate n 255#8 → ItemIs (M.storeMasked i p b m) i p n k x) ∧
    (item m n k = List.replicate n 0#8 → ItemSame M (M.storeMasked i p b m) i p n k) := by
  have hlt : ∀ j < n, n * k + j < n * cnt := by
    intro j hj
    have : n * (k + 1) ≤ n * cnt := Nat.mul_le_mul_left n hk
    rw [Nat.mul_add, Nat.mul_one] at this
    omega
  have get : ∀ (a : Byte) j, j < n → item m n k = List.replicate n a → m[n * k + j]? = some a := by
    intro a j hj h
    rw [← item_get hj, h, List.getElem?_replicate, if_pos hj]
  refine ⟨fun x hx hmk => ?_, fun hmk j hj => ?_⟩
  · unfold ItemIs
    have : (List.range n).map (fun j => M.storeMasked i p b m i (p + n * k + j)) = item b n k := by
      apply List.ext_getElem?
      intro j
      by_cases hj : j < n
      · obtain ⟨y, hy⟩ : ∃ y, b[n * k + j]? = some y := ⟨_, List.getElem?_eq_getElem (by rw [hb]; exact hlt j hj)⟩
        rw [List.getElem?_map, List.getElem?_range hj, item_get hj, hy]
        simp only [Option.map_some, Mem.storeMasked]
        rw [if_pos ⟨trivial, by omega⟩, show p + n * k + j - p = n * k + j by omega, hy, get _ j hj hmk]
        dsimp only
        rw [byte_masked]
      · rw [List.getElem?_eq_none (by simp; omega), List.getElem?_eq_none]
        unfold item
        simp; omega
    rw [this]
    exact hx.2
  · obtain ⟨y, hy⟩ : ∃ y, b[n * k + j]? = some y := ⟨_, List.getElem?_eq_getElem (by rw [hb]; exact hlt j hj)⟩
    unfold Mem.storeMasked
    rw [if_pos ⟨rfl, by omega⟩, show p + n * k + j - p = n * k + j by omega, hy, get _ j hj hmk]
    exact byte_kept _ _

theorem storeMasked_outside (M : Mem) {i p N : Nat} {b m : List Byte} (hb : b.length = N) {j q : Nat} (h : ¬ (j = i ∧ p ≤ q ∧ q < p + N)) :
    M.storeMasked i p b m j q = M j q := by
  unfold Mem.storeMasked
  split
  · rw [List.getElem?_eq_none (by omega)]
  · rfl

theorem item_zeros {n k N : Nat} (h : n * k + n ≤ N) : item (zeros N) n k = List.replicate n 0#8 := by
  unfold item zeros
  rw [List.drop_replicate, List.take_replicate, Nat.min_eq_left (by omega)]
  rfl

theorem writeValues_inv {e : TextEnv} {s : Server} {fd : Int} {c : TypeCache} {h : Handle} {ws : List Name} {b m : List Byte} {sk : Bool} {x : Server × TypeCache × Log × Outcome}
    (hv : values e h.type (ws.take h.count) 0 (zeros h.size) (zeros h.size) = .ok (b, m, sk)) (hh : writeValues e s fd c h ws = .ok x) :
    ((h.type = DAX_BOOL ∨ sk = true) ∧ ∃ d, daxTagMask s fd c h b m = .ok (x.1, x.2.1, x.2.2.1, x.2.2.2, d)) ∨
    (¬ (h.type = DAX_BOOL ∨ sk = true) ∧ ∃ d, daxTagWrite s fd c h b = .ok (x.1, x.2.1, x.2.2.1, x.2.2.2, d)) := by
  unfold writeValues at hh
  rw [hv] at hh
  replace hh : (if h.type = DAX_BOOL ∨ sk = true then _ else _) = _ := hh
  by_cases hb : h.type = DAX_BOOL ∨ sk = true
  · rw [if_pos hb] at hh
    obtain ⟨⟨a1, a2, a3, a4, a5⟩, h1, h2⟩ := C.bind_eq_ok.mp hh
    simp only [C.ok.injEq] at h2
    subst h2
    exact .inl ⟨hb, a5, h1⟩
  · rw [if_neg hb] at hh
    obtain ⟨⟨a1, a2, a3, a4, a5⟩, h1, h2⟩ := C.bind_eq_ok.mp hh
    simp only [C.ok.injEq] at h2
    subst h2
    exact .inr ⟨hb, a5, h1⟩

/-- The items after a command: the ones that were given have their numbers, the ones left out and everything else are as before. -/
def ItemsSet (lo hi : Int) (M M' : Mem) (i p n : Nat) (ws : List Name) : Prop :=
  (∀ (k : Nat) w, ws[k]? = some w → (w = nm "~" → ItemSame M M' i p n k) ∧ ∀ v, IsDec w v → ∃ r x, Saturates lo hi v r x ∧ ItemIs M' i p n k x) ∧
  ∀ j q, ¬ (j = i ∧ p ≤ q ∧ q < p + n * ws.length) → M' j q = M j q

/-- **C92**, values of the integer types: when the write ends with success, every item has the number given for it or the limit of the type the number exceeds, items given as `~` are as they were,
and so is everything else.

Missing: `BOOL` and the floating types, and the numbers excluded by `Given`. -/
theorem C92_values_partial {e : TextEnv} {s s' : Server} {fd : Int} {c c' : TypeCache} {h : Handle} {i ty n q : Nat} {lo hi : Int} {ws : List Name} {l : Log} {o : Outcome} {M : Mem}
    (hr : Reachable s) (hm : ∀ i name, LiveAt s i name → NoMaps s i) (hM : Agrees M s) (hfc : Faithful s c) (hty : IntType ty n lo hi) (P : Points s.cdts h i ty ws.length q)
    (h0 : ws ≠ []) (hsm : h.byte + h.size ≤ 2147483647) (hg : ∀ w ∈ ws, Given ty w) (hh : writeValues e s fd c h ws = .ok (s', c', l, o)) :
    ∃ code, o = .done code ∧ (code = 0 → ∃ M', Agrees M' s' ∧ ItemsSet lo hi M M' i (q / 8) n ws) := by
  obtain ⟨he, hnb, hn0, hn8, htl⟩ := intType_elem (tbl := s.cdts) hty
  obtain ⟨hbit, hsz⟩ := P.other hnb
  have hsz := hsz _ he
  have hsz : h.size = n * ws.length := by
    rw [Nat.mul_assoc] at hsz
    omega
  have hat := P.at'
  have hq : q / 8 = h.byte := by omega
  have hpos : 0 < ws.length := List.length_pos_iff.mpr h0
  have hcnt := P.count
  have htake : ws.take h.count = ws := List.take_of_length_le (by omega)
  have hzl : (zeros h.size).length = n * ws.length := by unfold zeros; rw [List.length_replicate, hsz]
  obtain ⟨b, m, sk, a1, a2, a3, -, a5, a6⟩ := values_ok e hty ws 0 (zeros h.size) (zeros h.size) hg (by rw [hzl, Nat.zero_add]; exact Nat.le_refl _) rfl
  rw [hzl] at a2 a3
  have hsh : shifted h = false := by
    unfold shifted
    rw [P.type]
    simp [hnb]
  have hnc : Compound h.type → Fits 0 s h.type := fun hc => by
    have := hc.1
    rw [P.type] at this
    omega
  have he' : ElemBits s.cdts h.type (8 * n) := by rw [P.type]; exact he
  have w : ∀ lim, 2040 ≤ lim → ∀ c3 r, format s fd true b.length c h.type h.count = .ok (c3, r) → Whole s fd c3 h lim (luaUnit h.type (8 * n)) := fun lim hlm c3 r hfm =>
    whole_unit hr hnc (format_faithful hr hnc he' (by rw [P.type]; omega) hfc hfm).1 he' (by omega) (by rw [hcnt, hsz, Nat.mul_assoc]) hsm (by omega) (by omega)
  have hv : values e h.type (ws.take h.count) 0 (zeros h.size) (zeros h.size) = .ok (b, m, sk) := by rw [htake, P.type]; exact a1
  have fin : Agrees (M.storeMasked i h.byte b m) s' → ∃ M', Agrees M' s' ∧ ItemsSet lo hi M M' i (q / 8) n ws := by
    intro hag
    rw [hq]
    refine ⟨_, hag, fun k w hk => ?_, fun j q' hj => storeMasked_outside M a2 hj⟩
    have hkl : k < ws.length := by
      apply Classical.byContradiction
      intro hc
      rw [List.getElem?_eq_none (by omega)] at hk
      cases hk
    obtain ⟨f1, f2⟩ := a5 k w hk
    rw [Nat.zero_add] at f1 f2
    obtain ⟨g1, g2⟩ := items_stored (M := M) (i := i) (p := h.byte) a2 a3 hkl
    refine ⟨fun hw => g2 ?_, fun v hvv => ?_⟩
    · rw [(f1 hw).2.1]
      apply item_zeros
      rw [hsz]
      have : n * (k + 1) ≤ n * ws.length := Nat.mul_le_mul_left n hkl
      rw [Nat.mul_add, Nat.mul_one] at this
      exact this
    · obtain ⟨r, x, t1, t2, t3⟩ := f2 v hvv
      exact ⟨r, x, t1, g1 x t2 t3⟩
  rcases writeValues_inv hv hh with ⟨-, d, hh⟩ | ⟨hb, d, hh⟩
  · dsimp only at hh
    have hdone : ∃ code, o = .done code := by
      rcases C25_mask_partial hsh (w 2040 (Nat.le_refl _)) hh with ⟨-, -, e, he, h0⟩ | ⟨code, h0, -⟩
      · exact ⟨_, h0⟩
      · exact ⟨_, h0⟩
    obtain ⟨code, rfl⟩ := hdone
    refine ⟨code, rfl, fun h0 => ?_⟩
    subst h0
    have := C25_masked hr hm hM P.index hsh (by omega) (by omega) (w 2040 (Nat.le_refl _)) hh
    rw [List.take_of_length_le (by omega), List.take_of_length_le (by omega)] at this
    exact fin this
  · dsimp only at hh
    have hdone : ∃ code, o = .done code := by
      rcases C25_write_partial hsh (w 4080 (by decide)) hh with ⟨-, -, e, he, h0⟩ | ⟨code, h0, -⟩
      · exact ⟨_, h0⟩
      · exact ⟨_, h0⟩
    obtain ⟨code, rfl⟩ := hdone
    refine ⟨code, rfl, fun h0 => ?_⟩
    subst h0
    have := C25_written hr hm hM P.index hsh (by omega) (w 4080 (by decide)) hh
    have hall : ∀ x ∈ m, x = 0xFF := by
      intro x hx
      obtain ⟨j, hj, rfl⟩ := List.getElem_of_mem hx
      have hk : j / n < ws.length := Nat.div_lt_of_lt_mul (by omega)
      have hmod : j % n < n := Nat.mod_lt _ hn0
      have hg1 := hg _ (List.getElem_mem hk)
      rcases hg1 with hg1 | ⟨v, hvv, -⟩
      · exact absurd (.inr ((a5 _ _ (List.getElem?_eq_getElem hk)).1 hg1).2.2) hb
      · obtain ⟨r, x, -, -, t3⟩ := (a5 _ _ (List.getElem?_eq_getElem hk)).2 v hvv
        rw [Nat.zero_add] at t3
        have := item_get (b := m) (n := n) (k := j / n) hmod
        rw [t3, List.getElem?_replicate, if_pos hmod, Nat.div_add_mod, List.getElem?_eq_getElem hj] at this
        simpa using this.symm
    rw [List.take_of_length_le (by omega), ← storeMasked_full M i h.byte (m := m) (by omega) hall] at this
    exact fin this

theorem given_plain {ty : Nat} {w : Name} (h : Given ty w) : w.contains 34#8 = false := by
  have key : ∀ t : Name, (∀ b ∈ t, b ≠ 34#8) → t.contains 34#8 = false := by
    intro t ht
    rw [List.contains_eq_mem, decide_eq_false_iff_not]
    exact fun hm => ht _ hm rfl
  rcases h with rfl | ⟨v, ⟨ds, hd, hh⟩, -⟩
  · decide
  · have hds : ∀ b ∈ ds, b ≠ 34#8 := by
      intro b hb hc
      have := hd.digit b hb
      rw [hc] at this
      revert this
      decide
    rcases hh with ⟨rfl | rfl, -⟩ | ⟨rfl, -⟩
    · exact key _ hds
    · exact key _ (fun b hb => by
        rcases List.mem_cons.mp hb with rfl | hb
        · decide
        · exact hds b hb)
    · exact key _ (fun b hb => by
        rcases List.mem_cons.mp hb with rfl | hb
        · decide
        · exact hds b hb)

/-- **C92**, the command: `write` with the name of a tag and values of an integer type.  What the function returns says nothing: it is 0 whether the server has accepted the values or not.  That the handle points to
as many items as there are values is C22 and C23. -/
theorem C92_write_partial {e : TextEnv} {s s' : Server} {fd : Int} {byname : Name → Option TagFound} {c c1 c' : TypeCache} {name : Name} {h : Handle} {i ty n q : Nat} {lo hi : Int} {ws : List Name}
    {l : Log} {r : Int} {o : Option Outcome} {M : Mem} (hr : Reachable s) (hm : ∀ i name, LiveAt s i name → NoMaps s i) (hM : Agrees M s)
    (hth : tagHandle s fd byname c name ws.length = .ok (c1, h, 0)) (hfc : Faithful s c1) (hty : IntType ty n lo hi) (P : Points s.cdts h i ty ws.length q)
    (h0 : ws ≠ []) (hsm : h.byte + h.size ≤ 2147483647) (hg : ∀ w ∈ ws, Given ty w) (hh : Daxc.tagWrite e s fd byname c (name :: ws) = .ok (s', c', l, r, o)) :
    r = 0 ∧ ∃ code, o = some (.done code) ∧ (code = 0 → ∃ M', Agrees M' s' ∧ ItemsSet lo hi M M' i (q / 8) n ws) := by
  obtain ⟨w, t, rfl⟩ : ∃ w t, ws = w :: t := by
    cases ws with
    | nil => exact absurd rfl h0
    | cons w t => exact ⟨w, t, rfl⟩
  unfold Daxc.tagWrite at hh
  dsimp only at hh
  rw [given_plain (hg w (List.mem_cons_self ..)), if_neg (by decide), hth] at hh
  replace hh : (writeValues e s fd c1 h (w :: t) >>= fun x => C.ok (x.1, x.2.1, x.2.2.1, (0 : Int), some x.2.2.2)) = .ok (s', c', l, r, o) := hh
  obtain ⟨⟨x1, x2, x3, x4⟩, h1, h2⟩ := C.bind_eq_ok.mp hh
  simp only [C.ok.injEq, Prod.mk.injEq] at h2
  obtain ⟨rfl, rfl, rfl, rfl, rfl⟩ := h2
  obtain ⟨code, rfl, hc⟩ := C92_values_partial hr hm hM hfc hty P (by simp) hsm hg h1
  exact ⟨rfl, code, rfl, hc⟩

/-- **C92**, `BOOL`s at any bit, all given: when the write ends with success, each has the value given, and no other bit of any tag has changed.

Missing: `BOOL`s given as `~`; see `C92_bools_left_out`. -/
theorem C92_bools_partial {e : TextEnv} {s s' : Server} {fd : Int} {c c' : TypeCache} {h : Handle} {i : Nat} {ws : List Name} {l : Log} {M : Mem}
    (hr : Reachable s) (hm : ∀ i name, LiveAt s i name → NoMaps s i) (hM : Agrees M s) (hi : h.index = i) (hb : Bools h) (hcnt : h.count = ws.length)
    (hsm : h.byte + h.size + 1 ≤ 2147483647) (hg : ∀ w ∈ ws, ∃ v, IsDec w v) (hh : writeValues e s fd c h ws = .ok (s', c', l, .done 0)) :
    ∃ M', Agrees M' s' ∧ (∀ (k : Nat) w v, ws[k]? = some w → IsDec w v → memBit M' i (8 * h.byte + h.bit + k) = decide (v ≠ 0)) ∧
      ∀ j q, ¬ (j = i ∧ 8 * h.byte + h.bit ≤ q ∧ q < 8 * h.byte + h.bit + h.count) → memBit M' j q = memBit M j q := by
  have hsz := hb.size
  have hp := hb.pos
  have hbt := hb.bit
  have hzl : (zeros h.size).length = h.size := by unfold zeros; rw [List.length_replicate]
  obtain ⟨b, m, a1, a2, a3, a4, a5⟩ := values_bools e ws 0 (zeros h.size) (zeros h.size) hg (by rw [hzl]; omega) rfl
  have hv : values e h.type (ws.take h.count) 0 (zeros h.size) (zeros h.size) = .ok (b, m, false) := by
    rw [List.take_of_length_le (by omega), hb.type]; exact a1
  have klt : ∀ (k : Nat) w, ws[k]? = some w → k < ws.length := by
    intro k w hk
    apply Classical.byContradiction
    intro hc
    rw [List.getElem?_eq_none (by omega)] at hk
    cases hk
  rcases writeValues_inv hv hh with ⟨-, d, hh⟩ | ⟨hn, -⟩
  · dsimp only at hh
    cases hs : shifted h with
    | true =>
      obtain ⟨M', h1, h2, h3⟩ := C24_masked hr hm hM hi hb hs (by omega) hsm hh
      refine ⟨M', h1, fun k w v hk hvv => ?_, h3⟩
      have := a5 k w v hk hvv
      rw [Nat.zero_add] at this
      rw [h2 k (by have := klt k w hk; omega)]
      exact this.1
    | false =>
      have hs' := hs
      unfold shifted at hs'
      rw [hb.type] at hs'
      simp only [beq_self_eq_true, Bool.true_and, Bool.or_eq_false_iff, decide_eq_false_iff_not, bne_eq_false_iff_eq] at hs'
      obtain ⟨hb0, hc8⟩ := hs'
      have w : ∀ c1 r, format s fd true b.length c h.type h.count = .ok (c1, r) → Whole s fd c1 h 2040 1 := fun c1 r _ =>
        ⟨by omega, by omega, fun _ => ⟨c1, by rw [hb.type]; exact ctypeSize_bool⟩, by decide, by decide, Nat.one_dvd _⟩
      have hag := C25_masked hr hm hM hi hs (by omega) (by omega) w hh
      rw [List.take_of_length_le (by omega), List.take_of_length_le (by omega)] at hag
      refine ⟨_, hag, fun k w v hk hvv => ?_, fun j q hj => ?_⟩
      · have := a5 k w v hk hvv
        rw [Nat.zero_add] at this
        rw [memBit_masked _ _ _ _ _ (by omega), show 8 * h.byte + h.bit + k - 8 * h.byte = k by omega, if_pos ⟨rfl, by omega, this.2⟩]
        exact this.1
      · rw [memBit_masked _ _ _ _ _ (by omega)]
        apply if_neg
        rintro ⟨h1, h2, h3⟩
        apply hj
        refine ⟨h1, by omega, ?_⟩
        apply Classical.byContradiction
        intro hq
        have := (a4 (q - 8 * h.byte) (.inr (by omega))).2
        rw [h3] at this
        have hz := bitAt_zeros h.size (q - 8 * h.byte)
        unfold bitAt at hz
        unfold zeros at this
        rw [hz] at this
        cases this
  · exact absurd (.inl hb.type) hn

/-- **C92**, a text for a tag of 8-bit items: when the write ends with success the tag has the text from its first byte on and zeros after it, and nothing else has changed. -/
theorem C92_text {s s' : Server} {fd : Int} {c c' : TypeCache} {h : Handle} {i n q : Nat} {ty : Nat} {lo hi : Int} {t : Name} {l : Log} {M : Mem} (hr : Reachable s)
    (hm : ∀ i name, LiveAt s i name → NoMaps s i) (hM : Agrees M s) (hfc : Faithful s c) (hty : IntType ty 1 lo hi) (P : Points s.cdts h i ty n q) (h0 : 0 < n)
    (hsm : h.byte + h.size ≤ 2147483647) (hh : writeText s fd c h t = .ok (s', c', l, .done 0)) :
    ∃ M', Agrees M' s' ∧ (∀ k < n, M' i (q / 8 + k) = t.getD k 0) ∧ ∀ j p, ¬ (j = i ∧ q / 8 ≤ p ∧ p < q / 8 + n) → M' j p = M j p := by
  obtain ⟨he, hnb, -, -, htl⟩ := intType_elem (tbl := s.cdts) hty
  obtain ⟨hbit, hsz⟩ := P.other hnb
  have hsz := hsz _ he
  have hat := P.at'
  have hq : q / 8 = h.byte := by omega
  have hsz : h.size = n := by omega
  have hcnt := P.count
  have hsh : shifted h = false := by
    unfold shifted
    rw [P.type]
    simp [hnb]
  have hnc : Compound h.type → Fits 0 s h.type := fun hc => by
    have := hc.1
    rw [P.type] at this
    omega
  have he' : ElemBits s.cdts h.type (8 * 1) := by rw [P.type]; exact he
  unfold writeText at hh
  obtain ⟨⟨x1, x2, x3, x4, x5⟩, h1, h2⟩ := C.bind_eq_ok.mp hh
  simp only [C.ok.injEq, Prod.mk.injEq] at h2
  obtain ⟨rfl, rfl, rfl, rfl⟩ := h2
  have hlen : (t.take h.size ++ zeros (h.size - (t.take h.size).length)).length = h.size := by
    unfold zeros
    rw [List.length_append, List.length_replicate, List.length_take]
    omega
  have := C25_written hr hm hM P.index hsh (by omega) (fun c3 r hfm =>
    whole_unit hr hnc (format_faithful hr hnc he' (by rw [P.type]; omega) hfc hfm).1 he' (by omega) (by omega) hsm (by omega) (by omega)) h1
  rw [List.take_of_length_le (by omega)] at this
  refine ⟨_, this, fun k hk => ?_, fun j p hj => ?_⟩
  · rw [hq]
    unfold Mem.store
    rw [if_pos ⟨rfl, Nat.le_add_right _ _⟩]
    simp only [List.getD_eq_getElem?_getD, show h.byte + k - h.byte = k by omega]
    by_cases hkt : k < t.length
    · rw [List.getElem?_append_left (by rw [List.length_take]; omega), List.getElem?_take, if_pos (by omega), List.getElem?_eq_getElem hkt]
      rfl
    · have htl : (t.take h.size).length ≤ t.length := by rw [List.length_take]; omega
      rw [List.getElem?_append_right (by omega), List.getElem?_eq_none (by omega : t.length ≤ k)]
      unfold zeros
      rw [List.getElem?_replicate, if_pos (by omega)]
      rfl
  · unfold Mem.store
    by_cases hc : j = i ∧ h.byte ≤ p
    · rw [if_pos hc, List.getElem?_eq_none]
      · rfl
      · rw [hlen]
        apply Classical.byContradiction
        intro hl
        exact hj ⟨hc.1, by omega, by omega⟩
    · rw [if_neg hc]

/-- **C92** fails: the second of three `BOOL`s is to be left alone, but it is written. -/
theorem C92_bools_left_out (e : TextEnv) : Reachable (demo demoOps) ∧
    (writeValues e (demo demoOps) 5 [] ⟨14, 0, 0, 3, 1, DAX_BOOL⟩ [nm "1", nm "~", nm "1"] >>= fun r => C.ok (r.2.2.1, r.2.2.2)) =
      .ok ([(.tagMWrite 14 0 [5] [7], .resp [])], .done 0) := ⟨demoOps_reachable, by kernel_rfl⟩

/-- **C92** fails: a negative number for an unsigned type of 64 bits becomes 0, but if another value is left out its item is left alone too. -/
theorem C92_negative (e : TextEnv) : values e DAX_ULINT [nm "-5", nm "~"] 0 (zeros 16) (zeros 16) = .ok (zeros 16, zeros 16, true) := by kernel_rfl

/-- Instance of the hypotheses of `C92_values_partial`: of the last three `INT`s of "Speed" the second is left out, the third is too large. -/
example (e : TextEnv) : Reachable (demo demoOps) ∧ (∃ M, Agrees M (demo demoOps)) ∧ IntType DAX_INT 2 (-32768) 32767 ∧ Points (demo demoOps).cdts ⟨13, 2, 0, 3, 6, DAX_INT⟩ 13 DAX_INT 3 16 ∧
    (∀ w ∈ [nm "-5", nm "~", nm "70000"], Given DAX_INT w) ∧
    (writeValues e (demo demoOps) 5 [] ⟨13, 2, 0, 3, 6, DAX_INT⟩ [nm "-5", nm "~", nm "70000"] >>= fun r => C.ok (r.2.2.1, r.2.2.2)) =
      .ok ([(.tagMWrite 13 2 [0xFB, 0xFF, 0, 0, 0xFF, 0x7F] [0xFF, 0xFF, 0, 0, 0xFF, 0xFF], .resp [])], .done 0) := by
  refine ⟨demoOps_reachable, agrees_exists demoOps_reachable, .int, ⟨rfl, rfl, rfl, rfl, fun h => absurd h (by decide), fun _ => ⟨rfl, fun e he => ?_⟩⟩, fun w hw => ?_, by kernel_rfl⟩
  · rcases he with ⟨h, -⟩ | ⟨w, h, rfl⟩ | ⟨h, -⟩
    · exact absurd h (by decide)
    · have : w = 2 := by revert h; simp [elemBytes, DAX_BOOL, DAX_BYTE, DAX_SINT, DAX_CHAR, DAX_WORD, DAX_INT, DAX_UINT, DAX_DWORD, DAX_DINT, DAX_UDINT, DAX_REAL, DAX_LWORD, DAX_LINT, DAX_ULINT, DAX_TIME, DAX_LREAL]
      subst this; rfl
    · exact absurd h.1 (by decide)
  · simp only [List.mem_cons, List.not_mem_nil, or_false] at hw
    rcases hw with rfl | rfl | rfl
    · exact .inr ⟨-5, ⟨nm "5", ⟨by decide, by decide, by decide⟩, .inr ⟨rfl, by decide⟩⟩, by decide, by decide, by decide⟩
    · exact .inl rfl
    · exact .inr ⟨70000, ⟨nm "70000", ⟨by decide, by decide, by decide⟩, .inl ⟨.inl rfl, by decide⟩⟩, by decide, by decide, by decide⟩

/-! ## C93: overrides and atomic operations -/

/-- **C93** fails: an override is set up for every byte of the handle, also for the items given as `~`, and for these it is 0. -/
theorem C93_override {e : TextEnv} {h : Handle} {ty n : Nat} {lo hi : Int} {ws : List Name} (hty : IntType ty n lo hi) (ht : h.type = ty) (hcnt : h.count = ws.length) (hsz : h.size = n * ws.length)
    (hg : ∀ w ∈ ws, Given ty w) : ∃ b, overrideValues e h ws = .ok (.ovrAdd h b) ∧ shiftedBits h b = .ok (b, List.replicate h.size 255) ∧
      ∀ (k : Nat) w, ws[k]? = some w → (∀ v, IsDec w v → ∃ r x, Saturates lo hi v r x ∧ Holds b n k x) ∧ (w = nm "~" → Holds b n k 0) := by
  obtain ⟨-, hnb, hn0, -, -⟩ := intType_elem (tbl := []) hty
  have hzl : (zeros h.size).length = n * ws.length := by unfold zeros; rw [List.length_replicate, hsz]
  obtain ⟨b, m, sk, a1, a2, a3, -, a5, -⟩ := values_ok e hty ws 0 (zeros h.size) (zeros h.size) hg (by rw [hzl, Nat.zero_add]; exact Nat.le_refl _) rfl
  rw [hzl] at a2
  refine ⟨b, ?_, ?_, fun k w hk => ⟨fun v hv => ?_, fun hw => ?_⟩⟩
  · unfold overrideValues
    rw [List.take_of_length_le (by omega), ht, a1]
    rfl
  · unfold shiftedBits
    have hsh : shifted h = false := by
      unfold shifted
      rw [ht]
      simp [hnb]
    rw [if_neg (by rw [hsh]; decide)]
    unfold rd
    rw [if_pos (by omega)]
    show C.ok ((b.drop 0).take h.size, _) = _
    rw [List.drop_zero, List.take_of_length_le (by omega)]
  · obtain ⟨r, x, t1, t2, -⟩ := (a5 k w hk).2 v hv
    rw [Nat.zero_add] at t2
    exact ⟨r, x, t1, t2⟩
  · have hkl : k < ws.length := by
      apply Classical.byContradiction
      intro hc
      rw [List.getElem?_eq_none (by omega)] at hk
      cases hk
    have hle : n * k + n ≤ n * ws.length := by
      have : n * (k + 1) ≤ n * ws.length := Nat.mul_le_mul_left n hkl
      rw [Nat.mul_add, Nat.mul_one] at this
      exact this
    have f1 := ((a5 k w hk).1 hw).1
    rw [Nat.zero_add, item_zeros (by omega)] at f1
    refine ⟨by omega, ?_⟩
    show (leNat (item b n k) : Int) = _
    rw [f1]
    have : ∀ n, leNat (List.replicate n 0#8) = 0 := by
      intro n
      induction n with
      | zero => rfl
      | succ n ih => rw [List.replicate_succ]; simp [leNat, ih]
    rw [this]
    simp

/-- **C93** fails: if the name is not that of a tag, the override of the tag with index 0 is switched on, off or deleted. -/
theorem C93_unknown {mk : Handle → Wire.Call} {s : Server} {fd : Int} {byname : Name → Option TagFound} {c c1 : TypeCache} {name : Name} {h : Handle} {r : Int}
    (hth : tagHandle s fd byname c name 0 = .ok (c1, h, r)) : ∃ h', overrideName mk s fd byname c name = .ok (c1, mk h') ∧ (r ≠ 0 → h'.index = 0 ∧ h'.size = 0) := by
  refine ⟨h, ?_, fun hr => ?_⟩
  · unfold overrideName
    rw [hth]
    rfl
  · unfold tagHandle at hth
    obtain ⟨⟨x1, x2, x3⟩, -, h2⟩ := C.bind_eq_ok.mp hth
    simp only [C.ok.injEq, Prod.mk.injEq] at h2
    obtain ⟨-, h3, rfl⟩ := h2
    rw [if_pos hr] at h3
    rw [← h3]
    exact ⟨rfl, rfl⟩

/-- The request that is sent for a tag that does not exist. -/
example (junk : List Byte) : (overrideName .ovrSet (demo demoOps) 5 (fun _ => none) [] (nm "nosuch") >>= fun r => encode junk r.2) = .ok (.ok (0x1B, [0, 0, 0, 0, 255])) := by kernel_rfl

/-- **C93** fails: to increment or decrement without a value does nothing, and the function says that all is well. -/
theorem C93_inc (e : TextEnv) {h : Handle} {op : Name} (hop : opType op = 1 ∨ opType op = 2) (ht : h.type ∈ baseTypes) (hb : h.type ≠ DAX_BOOL) : Daxc.atomicOp e h op [] = .ok (.error 0) := by
  unfold Daxc.atomicOp
  rw [if_neg (by omega), if_pos rfl, if_pos hop, if_pos ⟨by simpa using ht, hb⟩]

/-- The name of an operation and its number, as in `src/opendax.h`. -/
def opName : Nat → Name
  | 1 => nm "inc"
  | 2 => nm "dec"
  | 3 => nm "not"
  | 4 => nm "or"
  | 5 => nm "and"
  | 6 => nm "nor"
  | 7 => nm "nand"
  | 8 => nm "xor"
  | 9 => nm "xnor"
  | _ => []

theorem opType_name {k : Nat} (h1 : 1 ≤ k) (h2 : k ≤ 8) : opType (opName k) = k ∧ skipped (opName k) = false := by
  have : k = 1 ∨ k = 2 ∨ k = 3 ∨ k = 4 ∨ k = 5 ∨ k = 6 ∨ k = 7 ∨ k = 8 := by omega
  rcases this with rfl | rfl | rfl | rfl | rfl | rfl | rfl | rfl <;> exact ⟨by decide, by decide⟩

/-- **C93**, operations with an operand for every item: the operation sent is the one named, and the operands are the numbers given.

Missing: `xnor` (`C93_xnor`), operands left out (`C93_operand_lost`), operations without operands (`C93_inc`). -/
theorem C93_operands_partial {e : TextEnv} {h : Handle} {ty n k : Nat} {lo hi : Int} {ws : List Name} (hty : IntType ty n lo hi) (ht : h.type = ty) (hcnt : h.count = ws.length)
    (hsz : h.size = n * ws.length) (h0 : ws ≠ []) (hg : ∀ w ∈ ws, Given ty w ∧ w ≠ nm "~") (h1 : 1 ≤ k) (h2 : k ≤ 8) :
    ∃ b, Daxc.atomicOp e h (opName k) ws = .ok (.ok (.atomic h (some b) k)) ∧ b.length = h.size ∧
      ∀ (j : Nat) w v, ws[j]? = some w → IsDec w v → ∃ r x, Saturates lo hi v r x ∧ Holds b n j x := by
  obtain ⟨k1, k2⟩ := opType_name h1 h2
  have hzl : (zeros h.size).length = n * ws.length := by unfold zeros; rw [List.length_replicate, hsz]
  obtain ⟨b, m, sk, a1, a2, a3, -, a5, -⟩ := values_ok e hty ws 0 (zeros h.size) (zeros h.size) (fun w hw => (hg w hw).1) (by rw [hzl, Nat.zero_add]; exact Nat.le_refl _) rfl
  rw [hzl] at a2
  refine ⟨b, ?_, by omega, fun j w v hj hv => ?_⟩
  · unfold Daxc.atomicOp
    rw [k1, if_neg (by omega), if_neg h0, List.take_of_length_le (by omega), ht, opValues_values e ty ws _ 0 _ _ k2 (fun w hw => ?_), a1]
    · rfl
    · obtain ⟨hgw, hne⟩ := hg w hw
      rcases hgw with h | ⟨v, hv, -⟩
      · exact absurd h hne
      · exact not_skipped_dec hv
  · obtain ⟨r, x, t1, t2, -⟩ := (a5 j w hj).2 v hv
    rw [Nat.zero_add] at t2
    exact ⟨r, x, t1, t2⟩

/-- **C93** fails: `xnor` is sent as `xor`. -/
theorem C93_xnor (e : TextEnv) : Daxc.atomicOp e ⟨13, 0, 0, 1, 2, DAX_WORD⟩ (opName 9) [nm "3"] = .ok (.ok (.atomic ⟨13, 0, 0, 1, 2, DAX_WORD⟩ (some [3, 0]) 8)) := by kernel_rfl

/-- **C93** fails: if the first operand is left out, the second one is lost. -/
theorem C93_operand_lost (e : TextEnv) :
    Daxc.atomicOp e ⟨13, 0, 0, 2, 4, DAX_WORD⟩ (nm "or") [nm "~", nm "5"] = .ok (.ok (.atomic ⟨13, 0, 0, 2, 4, DAX_WORD⟩ (some [0, 0, 0, 0]) 4)) := by kernel_rfl

/-- Instance of the hypotheses of `C93_operands_partial` and `C93_override`. -/
example : IntType DAX_WORD 2 0 65535 ∧ ∀ w ∈ [nm "3", nm "5"], Given DAX_WORD w ∧ w ≠ nm "~" := by
  refine ⟨.word, fun w hw => ?_⟩
  simp only [List.mem_cons, List.not_mem_nil, or_false] at hw
  rcases hw with rfl | rfl
  · exact ⟨.inr ⟨3, ⟨nm "3", ⟨by decide, by decide, by decide⟩, .inl ⟨.inl rfl, by decide⟩⟩, by decide, by decide, by decide⟩, by decide⟩
  · exact ⟨.inr ⟨5, ⟨nm "5", ⟨by decide, by decide, by decide⟩, .inl ⟨.inl rfl, by decide⟩⟩, by decide, by decide, by decide⟩, by decide⟩

/-- **C93** fails: to delete a tag whose name is too long deletes the tag whose index happens to be in memory. -/
theorem C93_delete (junk : Int) : Daxc.tagDel (.error ERR_2BIG) junk = some junk := rfl

/-! ## C94: files of commands -/

/-- **C94**, a file whose last line has no newline: every line is run once, in order.

Missing: files that end with a newline, as text files do (`C94_twice`). -/
theorem C94_once_partial {ls : List Name} {l junk : Name} (h : ∀ x ∈ ls, x.length + 2 ≤ 256 ∧ 10#8 ∉ x ∧ 0#8 ∉ x) (hl : FileLine l) : runfile (fileOf ls ++ l) junk = .ok (ls ++ [l]) := by
  obtain ⟨h0, h1, h2, h3⟩ := hl
  have hn := fileOf_length ls
  unfold runfile
  rw [show (fileOf ls ++ l).length + 1 = ((fileOf ls ++ l).length - ls.length) + 1 + ls.length by rw [List.length_append]; omega, runLoop_file ls _ _ _ h,
    runLoop_end h3 h2 h1, if_neg h0, chop_plain h0 h2]
  rfl

/-- **C94** fails: if the file ends with a newline, its last line is run twice. -/
theorem C94_twice {ls : List Name} {l junk : Name} (h : ∀ x ∈ ls, x.length + 2 ≤ 256 ∧ 10#8 ∉ x ∧ 0#8 ∉ x) (hl : FileLine l) : runfile (fileOf (ls ++ [l])) junk = .ok (ls ++ [l, l]) := by
  obtain ⟨h0, h1, h2, h3⟩ := hl
  have hn := fileOf_length (ls ++ [l])
  unfold runfile
  have := runLoop_file (ls ++ [l]) ((fileOf (ls ++ [l])).length - (ls ++ [l]).length + 1) [] junk (fun x hx => by
    rcases List.mem_append.mp hx with hx | hx
    · exact h x hx
    · rw [List.mem_singleton.mp hx]; exact ⟨h1, h2, h3⟩)
  rw [List.append_nil, show (fileOf (ls ++ [l])).length - (ls ++ [l]).length + 1 + (ls ++ [l]).length = (fileOf (ls ++ [l])).length + 1 by omega] at this
  rw [this, runLoop_end (by simp) (by simp) (by simp), if_pos rfl, List.getLast?_append]
  simp only [List.getLast?_singleton, Option.some_or, Option.getD_some]
  rw [chop_plain h0 h2]
  show C.ok (ls ++ [l] ++ [l]) = _
  rw [List.append_assoc]
  rfl

/-- **C94** fails: if the last line is empty, memory before the array is read. -/
theorem C94_blank {ls : List Name} {junk : Name} (h : ∀ x ∈ ls, x.length + 2 ≤ 256 ∧ 10#8 ∉ x ∧ 0#8 ∉ x) : ∃ w, runfile (fileOf (ls ++ [([] : Name)])) junk = .ub w := by
  have hn := fileOf_length (ls ++ [([] : Name)])
  unfold runfile
  have := runLoop_file (ls ++ [([] : Name)]) ((fileOf (ls ++ [([] : Name)])).length - (ls ++ [([] : Name)]).length + 1) [] junk (fun x hx => by
    rcases List.mem_append.mp hx with hx | hx
    · exact h x hx
    · rw [List.mem_singleton.mp hx]; exact ⟨by simp, by simp, by simp⟩)
  rw [List.append_nil, show (fileOf (ls ++ [([] : Name)])).length - (ls ++ [([] : Name)]).length + 1 + (ls ++ [([] : Name)]).length = (fileOf (ls ++ [([] : Name)])).length + 1 by omega] at this
  rw [this, runLoop_end (by simp) (by simp) (by simp), if_pos rfl, List.getLast?_append]
  exact ⟨_, rfl⟩

/-- **C94** fails: an empty file runs what happens to be in the array. -/
theorem C94_empty {junk : Name} (h0 : junk ≠ []) (hn : 10#8 ∉ junk) : runfile [] junk = .ok [junk] := by
  unfold runfile
  rw [runLoop_end (by simp) (by simp) (by simp), if_pos rfl, chop_plain h0 hn]
  rfl

/-- Instance of the hypotheses of `C94_once_partial` and `C94_twice`. -/
example : FileLine (nm "op Speed inc 1") := ⟨by decide, by decide, by decide, by decide⟩

/-! ## C95: lists of tags -/

/-- **C95**, all tags: the list without arguments has every tag that is not deleted once, in the order of the indices. -/
theorem C95_all {look : Nat → Daxc.Look} {last : Nat} (h : ∀ i ≤ last, look i ≠ .other) : (listAll look last).1 = liveIn (fun i => look i == .live) 0 (last + 1) :=
  listLoop_ok _ _ fun i _ hi => h i (by omega)

/-- **C95**, from a number on: the first `k` tags from there on that are not deleted. -/
theorem C95_from {look : Nat → Daxc.Look} {last start k : Nat} (h : ∀ i ≤ last, look i ≠ .other) :
    (listFrom look last start k).1 = (liveIn (fun i => look i == .live) start (last + 1 - start)).take k :=
  (showLoop_ok _ _ _ fun i h1 h2 => h i (by omega)).1

/-- **C95**, the next ones: the list goes on where the last one has ended, and the next will go on where it ends, unless the tag it would begin with is the last one.

Missing: that case; see `C95_last`. -/
theorem C95_next_partial {look : Nat → Daxc.Look} {last k next : Nat} (h : ∀ i ≤ last, look i ≠ .other) (hn : next < last) :
    (listNext look last k next).1 = (liveIn (fun i => look i == .live) next (last + 1 - next)).take k ∧ next ≤ (listNext look last k next).2 ∧
      (listNext look last k next).1 = liveIn (fun i => look i == .live) next ((listNext look last k next).2 - next) := by
  unfold listNext
  rw [if_neg (by omega)]
  obtain ⟨a1, a2, -, a4⟩ := showLoop_ok (look := look) (last + 1 - next) k next fun i h1 h2 => h i (by omega)
  exact ⟨a1, a2, a4⟩

theorem pages_below {look : Nat → Daxc.Look} {last k : Nat} (h : ∀ i ≤ last, look i = .live) (hk : 0 < k) (hd : k ∣ last) (hl : 0 < last) :
    ∀ (t next : Nat), k ∣ next → ∀ p ∈ pages look last k t next, ∀ i ∈ p, i < last := by
  intro t
  induction t with
  | zero => intro next _ p hp; cases hp
  | succ t ih =>
    intro next hn p hp
    unfold pages at hp
    have key : ∃ a, k ∣ a ∧ a < last ∧ listNext look last k next = showLoop look (last + 1 - a) k a := by
      unfold listNext
      by_cases hc : next ≥ last
      · exact ⟨0, Nat.dvd_zero k, hl, by rw [if_pos hc]⟩
      · exact ⟨next, hn, by omega, by rw [if_neg hc]⟩
    obtain ⟨a, h1, h2, h3⟩ := key
    have hak : a + k ≤ last := by
      obtain ⟨x, rfl⟩ := h1
      obtain ⟨y, rfl⟩ := hd
      have : x < y := Nat.lt_of_mul_lt_mul_left h2
      have := Nat.mul_le_mul_left k this
      rw [Nat.mul_succ] at this
      exact this
    have h4 := showLoop_all (look := look) (last + 1 - a) k a (fun i _ hi => h i (by omega)) (by omega)
    rw [h3, h4] at hp
    dsimp only at hp
    rcases List.mem_cons.mp hp with rfl | hp
    · intro i hi
      have := (List.mem_range'_1.mp hi).2
      omega
    · exact ih (a + k) (Nat.dvd_add h1 (Nat.dvd_refl k)) p hp

/-- **C95** fails: when the number of the last tag is a multiple of the number of tags shown at once, the last tag is never shown, however often the command is given. -/
theorem C95_last {look : Nat → Daxc.Look} {last k : Nat} (h : ∀ i ≤ last, look i = .live) (hk : 0 < k) (hd : k ∣ last) (hl : 0 < last) (t : Nat) : ∀ p ∈ pages look last k t 0, last ∉ p :=
  fun p hp hi => Nat.lt_irrefl _ (pages_below h hk hd hl t 0 (Nat.dvd_zero k) p hp last hi)

/-- Twenty-one tags, ten at a time. -/
example : pages (fun _ => .live) 20 10 3 0 = [List.range' 0 10, List.range' 10 10, List.range' 0 10] := by decide

/-- **C92**, the command `read`, integer types but `TIME` and `CHAR`: every item of the data is shown, in order, as a text that is read back, by `write` among others, as this item.

Missing: `CHAR`, `TIME`, the types with a fraction (C62), custom types. -/
theorem C92_read_partial (e : TextEnv) {ty n : Nat} {lo hi : Int} (hty : IntType ty n lo hi) (htm : ty ≠ DAX_TIME) (hch : ty ≠ DAX_CHAR) (data : List Byte) :
    ∀ (k a : Nat), n * (a + k) ≤ data.length → ∃ ts, readTexts ty data k a = .ok ts ∧ ts.length = k ∧ ∀ (j : Nat) t, ts[j]? = some t → ∀ (buff : List Byte) (i : Nat), n * i + n ≤ buff.length →
      ∃ b, stringToVal e t ty buff none i = .ok (0, b, none) ∧ (b.drop (n * i)).take n = (data.drop (n * (a + j))).take n := by
  intro k
  induction k with
  | zero => intro a _; exact ⟨[], rfl, rfl, fun j t h => by cases h⟩
  | succ k ih =>
    intro a h
    have hle : n * a + n ≤ data.length := by
      have : n * (a + 1) ≤ n * (a + (k + 1)) := Nat.mul_le_mul_left n (by omega)
      rw [Nat.mul_add n a 1, Nat.mul_one] at this
      omega
    obtain ⟨ts, h1, h2, h3⟩ := ih (a + 1) (by rw [show a + 1 + k = a + (k + 1) by omega]; exact h)
    obtain ⟨t0, -, g1, -⟩ := C62_round_trip_partial e hty htm 32 (by omega) data data a a hle hle (fun hc => absurd hc hch)
    refine ⟨t0 :: ts, ?_, by rw [List.length_cons, h2], ?_⟩
    · unfold readTexts
      rw [g1, h1]
      rfl
    · intro j t ht buff i hi
      match j with
      | 0 =>
        have : t0 = t := by simpa using ht
        subst this
        obtain ⟨t', b, g2, g3, g4, -⟩ := C62_round_trip_partial e hty htm 32 (by omega) data buff a i hle hi (fun hc => absurd hc hch)
        rw [g1] at g2
        obtain rfl := C.ok.inj g2
        exact ⟨b, g3, g4⟩
      | j + 1 =>
        obtain ⟨b, g3, g4⟩ := h3 j t (by simpa using ht) buff i hi
        exact ⟨b, g3, by rw [g4, show a + 1 + j = a + (j + 1) by omega]⟩

example : readTexts DAX_INT [5, 0, 0xFF, 0xFF] 2 0 = .ok [nm "5", nm "-1"] := by kernel_rfl

/-- **C92**, the command with a text in quotation marks, for a tag of 8-bit items: the text without the marks is written. -/
theorem C92_write_text {e : TextEnv} {s s' : Server} {fd : Int} {byname : Name → Option TagFound} {c c1 c' : TypeCache} {name t : Name} {h : Handle} {i ty n q : Nat} {lo hi : Int} {ws : List Name}
    {l : Log} {r : Int} {o : Option Outcome} {M : Mem} (hr : Reachable s) (hm : ∀ i name, LiveAt s i name → NoMaps s i) (hM : Agrees M s)
    (hth : tagHandle s fd byname c name 0 = .ok (c1, h, 0)) (hfc : Faithful s c1) (hty : IntType ty 1 lo hi) (P : Points s.cdts h i ty n q)
    (h0 : 0 < n) (hsm : h.byte + h.size ≤ 2147483647) (ht : t ≠ []) (hh : Daxc.tagWrite e s fd byname c (name :: (34#8 :: (t ++ [34#8])) :: ws) = .ok (s', c', l, r, o)) :
    r = 0 ∧ ∃ out, o = some out ∧ (out = .done 0 → ∃ M', Agrees M' s' ∧ (∀ k < n, M' i (q / 8 + k) = t.getD k 0) ∧ ∀ j p, ¬ (j = i ∧ q / 8 ≤ p ∧ p < q / 8 + n) → M' j p = M j p) := by
  have hu : unquote (34#8 :: (t ++ [34#8])) = t := by
    unfold unquote
    simp
  have htb : typeBits h.type = 8 := by
    rw [P.type]
    cases hty <;> rfl
  unfold Daxc.tagWrite at hh
  dsimp only at hh
  rw [if_pos (by simp), hu, if_neg ht, hth] at hh
  dsimp only [Bind.bind, C.bind] at hh
  rw [if_neg (by simp), if_neg (by rw [htb]; simp)] at hh
  replace hh : (writeText s fd c1 h t >>= fun x => C.ok (x.1, x.2.1, x.2.2.1, (0 : Int), some x.2.2.2)) = .ok (s', c', l, r, o) := hh
  obtain ⟨⟨x1, x2, x3, x4⟩, h1, h2⟩ := C.bind_eq_ok.mp hh
  simp only [C.ok.injEq, Prod.mk.injEq] at h2
  obtain ⟨rfl, rfl, rfl, rfl, rfl⟩ := h2
  refine ⟨rfl, x4, rfl, fun hx => ?_⟩
  subst hx
  exact C92_text hr hm hM hfc hty P h0 hsm h1

/-- **C92**, refusals: no word at all, a name without values, an empty text, a name for which there is no handle, or a text for items that have not 8 bits.  Nothing is sent, and the function says so. -/
theorem C92_refused {e : TextEnv} {s s' : Server} {fd : Int} {byname : Name → Option TagFound} {c c' : TypeCache} {toks : List Name} {l : Log} {r : Int} {o : Option Outcome}
    (hbad : toks.length < 2 ∨ ∃ name w ws, toks = name :: w :: ws ∧
      ((w.contains 34#8 = true ∧ (w = [34#8, 34#8] ∨ ∃ c1 h x, tagHandle s fd byname c name 0 = .ok (c1, h, x) ∧ (x ≠ 0 ∨ typeBits h.type ≠ 8))) ∨
        (w.contains 34#8 = false ∧ ∃ c1 h x, tagHandle s fd byname c name (w :: ws).length = .ok (c1, h, x) ∧ x ≠ 0)))
    (hh : Daxc.tagWrite e s fd byname c toks = .ok (s', c', l, r, o)) : s' = s ∧ l = [] ∧ o = none ∧ r = ERR_ARG := by
  have fin : ∀ c1, (C.ok (s, c1, [], ERR_ARG, none) : C (Server × TypeCache × Log × Int × Option Outcome)) = .ok (s', c', l, r, o) → s' = s ∧ l = [] ∧ o = none ∧ r = ERR_ARG := by
    intro c1 h
    simp only [C.ok.injEq, Prod.mk.injEq] at h
    obtain ⟨rfl, -, rfl, rfl, rfl⟩ := h
    exact ⟨rfl, rfl, rfl, rfl⟩
  rcases hbad with hl | ⟨name, w, ws, rfl, ⟨hq, hb⟩ | ⟨hq, c1, h, x, hth, hx⟩⟩
  · match toks, hl with
    | [], _ => exact fin c hh
    | [_], _ => exact fin c hh
  · unfold Daxc.tagWrite at hh
    dsimp only at hh
    rw [if_pos hq] at hh
    rcases hb with rfl | ⟨c1, h, x, hth, hx⟩
    · exact fin c hh
    · by_cases hu : unquote w = []
      · rw [if_pos hu] at hh
        exact fin c hh
      · rw [if_neg hu, hth] at hh
        dsimp only [Bind.bind, C.bind] at hh
        by_cases hx0 : x = 0
        · rw [if_neg (by simpa using hx0), if_pos (hx.resolve_left (by simpa using hx0))] at hh
          exact fin c1 hh
        · rw [if_pos hx0] at hh
          exact fin c1 hh
  · unfold Daxc.tagWrite at hh
    dsimp only at hh
    rw [if_neg (by rw [hq]; decide), hth] at hh
    dsimp only [Bind.bind, C.bind] at hh
    rw [if_pos hx] at hh
    exact fin c1 hh

end Dax
