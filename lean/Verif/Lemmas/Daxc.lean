import Verif.Model.Daxc
import Verif.Spec.Daxc
import Verif.Props.Conv
/-!
# Words, files and values of the command-line client
-/
set_option autoImplicit false
namespace Dax.Daxc
open LibPath LibData Conv

/-! ## Words -/

theorem scan_false_last : ∀ (t : Name) (a b : Byte), scan false a t = scan false b t := by
  intro t
  induction t with
  | nil => intro a b; rfl
  | cons x xs ih =>
    intro a b
    unfold scan
    rw [ih a b]

theorem scan_body : ∀ (b : Name) (last : Byte) (t : Name), (∀ (k : Nat), b[k]? = some 34#8 → (last :: b)[k]? = some 92#8) → (last :: b).getLast? ≠ some 92#8 →
    scan true last (b ++ 34#8 :: t) = (b ++ 34#8 :: (scan false 34#8 t).1, (scan false 34#8 t).2) := by
  intro b
  induction b with
  | nil =>
    intro last t _ h2
    have : last ≠ 92#8 := fun h => h2 (by rw [h]; rfl)
    rw [List.nil_append]
    conv => lhs; unfold scan
    have e : (!((34#8 : Byte) == 34#8 && last != 92#8)) = false := by simp [this]
    rw [e]
    rfl
  | cons x xs ih =>
    intro last t h1 h2
    rw [List.cons_append]
    conv => lhs; unfold scan
    have e : (!(x == 34#8 && last != 92#8)) = true := by
      by_cases hx : x = 34#8
      · have := h1 0 (by rw [hx]; rfl)
        simp only [List.getElem?_cons_zero, Option.some.injEq] at this
        simp [this]
      · simp [hx]
    rw [e]
    have := ih x t (fun k hk => by
      have := h1 (k + 1) (by simpa using hk)
      simpa using this) (by simpa [List.getLast?_cons_cons] using h2)
    rw [this]
    rfl

theorem body_scan {b : Name} (hb : Body b) (t : Name) : scan true 34#8 (b ++ 34#8 :: t) = (b ++ 34#8 :: (scan false 34#8 t).1, (scan false 34#8 t).2) := by
  refine scan_body b 34#8 t (fun k hk => ?_) (fun h => ?_)
  · obtain ⟨h1, h2⟩ := hb.1 k hk
    cases k with
    | zero => omega
    | succ k => simpa using h2
  · cases hq : b with
    | nil => rw [hq] at h; simp at h
    | cons x xs =>
      rw [hq, List.getLast?_cons_cons] at h
      exact hb.2 (by rw [hq]; exact h)

theorem scan_word {w : Name} (hw : Word w) : ∀ (a : Byte) (t : Name), scan false a (w ++ 32#8 :: t) = (w, t) := by
  induction hw with
  | nil => intro a t; rfl
  | @char c w hs hq _ ih =>
    intro a t
    rw [List.cons_append]
    unfold scan
    rw [if_neg hq, if_neg hs, ih]
  | @quoted b w hb _ ih =>
    intro a t
    rw [List.cons_append, List.append_assoc, List.cons_append]
    unfold scan
    rw [if_pos rfl, body_scan hb, ih]

theorem scan_word_end {w : Name} (hw : Word w) : ∀ (a : Byte), scan false a w = (w, []) := by
  induction hw with
  | nil => intro a; rfl
  | @char c w hs hq _ ih =>
    intro a
    unfold scan
    rw [if_neg hq, if_neg hs, ih]
  | @quoted b w hb _ ih =>
    intro a
    unfold scan
    rw [if_pos rfl, body_scan hb, ih]

theorem later_nil : later [] = [] := by
  unfold later
  rw [dif_pos rfl]

theorem later_cons {t : Name} (h : t ≠ []) : later t = words t := by
  unfold later
  rw [dif_neg h]
  rfl

theorem line_ne {ws : List Name} (h0 : ws ≠ []) (hl : ws.getLast? ≠ some []) : line ws ≠ [] := by
  match ws, h0, hl with
  | [w], _, hl =>
    intro h
    apply hl
    unfold line at h
    rw [h]; rfl
  | w :: x :: ws, _, _ =>
    unfold line
    simp

theorem words_line : ∀ (ws : List Name), ws ≠ [] → (∀ w ∈ ws, Word w) → ws.length = 1 ∨ ws.getLast? ≠ some [] → words (line ws) = ws := by
  intro ws
  induction ws with
  | nil => intro h; exact absurd rfl h
  | cons w ws ih =>
    intro _ hw hl
    unfold words
    match ws, ih, hw, hl with
    | [], _, hw, _ =>
      unfold line
      rw [scan_word_end (hw w (List.mem_cons_self ..)), later_nil]
    | x :: xs, ih, hw, hl =>
      have hl' : (x :: xs).getLast? ≠ some [] := by
        rcases hl with h | h
        · simp at h
        · rwa [List.getLast?_cons_cons] at h
      have e : line (w :: x :: xs) = w ++ 32#8 :: line (x :: xs) := by
        conv => lhs; unfold line
      rw [e, scan_word (hw w (List.mem_cons_self ..)), later_cons (line_ne (by simp) hl'),
        ih (by simp) (fun v hv => hw v (List.mem_cons_of_mem _ hv)) (.inr hl')]

theorem storeWords_ok (size : Nat) : ∀ (k n : Nat), 8 * (n + k) ≤ size → storeWords size k n = .ok () := by
  intro k
  induction k with
  | zero => intro n _; rfl
  | succ k ih =>
    intro n h
    unfold storeWords store8
    rw [if_pos (by omega)]
    exact ih (n + 1) (by omega)

/-! ## Files -/

theorem fgets_line : ∀ (l t : Name) (k : Nat), 10#8 ∉ l → l.length < k → fgets k (l ++ 10#8 :: t) = (l ++ [10#8], t, false) := by
  intro l
  induction l with
  | nil =>
    intro t k _ hk
    match k with
    | k + 1 => rfl
  | cons x xs ih =>
    intro t k hn hk
    match k with
    | k + 1 =>
      rw [List.cons_append]
      unfold fgets
      rw [if_neg (show ¬ x = 10#8 from fun h => hn (h ▸ List.mem_cons_self ..)), ih t k (fun h => hn (List.mem_cons_of_mem _ h)) (by simpa using hk)]
      rfl

theorem fgets_end : ∀ (l : Name) (k : Nat), 10#8 ∉ l → l.length < k → fgets k l = (l, [], true) := by
  intro l
  induction l with
  | nil =>
    intro k _ hk
    match k with
    | k + 1 => rfl
  | cons x xs ih =>
    intro k hn hk
    match k with
    | k + 1 =>
      unfold fgets
      rw [if_neg (show ¬ x = 10#8 from fun h => hn (h ▸ List.mem_cons_self ..)), ih k (fun h => hn (List.mem_cons_of_mem _ h)) (by simpa using hk)]

theorem takeWhile_all {l : Name} (h : 0#8 ∉ l) : l.takeWhile (· ≠ 0#8) = l := by
  induction l with
  | nil => rfl
  | cons x xs ih =>
    rw [List.takeWhile_cons]
    have hx : x ≠ 0#8 := fun h' => h (h' ▸ List.mem_cons_self ..)
    rw [if_pos (by simpa using hx), ih (fun h' => h (List.mem_cons_of_mem _ h'))]

theorem chop_nl (l : Name) : chop (l ++ [10#8]) = .ok l := by
  unfold chop
  rw [List.getLast?_append]
  simp

theorem chop_plain {l : Name} (h0 : l ≠ []) (hn : 10#8 ∉ l) : chop l = .ok l := by
  unfold chop
  obtain ⟨x, hx⟩ : ∃ x, l.getLast? = some x := by
    cases h : l.getLast? with
    | none => exact absurd (List.getLast?_eq_none_iff.mp h) h0
    | some x => exact ⟨x, rfl⟩
  rw [hx]
  dsimp only
  have : x ≠ 10#8 := fun h => hn (h ▸ List.mem_of_getLast? hx)
  rw [if_neg this]

/-- One line with its newline. -/
theorem runLoop_line {l : Name} (h0 : 0#8 ∉ l) (hn : 10#8 ∉ l) (hl : l.length + 2 ≤ 256) (k : Nat) (t str : Name) :
    runLoop (k + 1) (l ++ 10#8 :: t) str = (runLoop k t l >>= fun r => .ok (l :: r)) := by
  conv => lhs; unfold runLoop
  rw [fgets_line l t _ hn (by show l.length < 256 - 1; omega)]
  dsimp only
  have e : gotLine str (l ++ [10#8]) = l ++ [10#8] := by
    unfold gotLine
    rw [if_neg (by simp), takeWhile_all (by simp [h0])]
  rw [e, chop_nl]
  rfl

/-- The end of the file. -/
theorem runLoop_end {l : Name} (h0 : 0#8 ∉ l) (hn : 10#8 ∉ l) (hl : l.length + 2 ≤ 256) (k : Nat) (str : Name) :
    runLoop (k + 1) l str = (chop (if l = [] then str else l) >>= fun r => .ok [r]) := by
  conv => lhs; unfold runLoop
  rw [fgets_end l _ hn (by show l.length < 256 - 1; omega)]
  dsimp only
  have e : gotLine str l = if l = [] then str else l := by
    unfold gotLine
    rw [takeWhile_all h0]
  rw [e]
  rfl

theorem runLoop_file : ∀ (ls : List Name) (k : Nat) (tail str : Name), (∀ l ∈ ls, l.length + 2 ≤ 256 ∧ 10#8 ∉ l ∧ 0#8 ∉ l) →
    runLoop (k + ls.length) (fileOf ls ++ tail) str = (runLoop k tail (ls.getLast?.getD str) >>= fun r => .ok (ls ++ r)) := by
  intro ls
  induction ls with
  | nil =>
    intro k tail str _
    show runLoop k tail str = (runLoop k tail str >>= fun r => .ok r)
    cases runLoop k tail str <;> rfl
  | cons l ls ih =>
    intro k tail str h
    obtain ⟨h1, h2, h3⟩ := h l (List.mem_cons_self ..)
    have e : fileOf (l :: ls) ++ tail = l ++ 10#8 :: (fileOf ls ++ tail) := by
      show (l ++ 10#8 :: fileOf ls) ++ tail = _
      simp
    rw [e, List.length_cons, ← Nat.add_assoc, runLoop_line h3 h2 h1, ih k tail l (fun x hx => h x (List.mem_cons_of_mem _ hx))]
    have e2 : (l :: ls).getLast?.getD str = ls.getLast?.getD l := by
      cases ls with
      | nil => rfl
      | cons x xs => rw [List.getLast?_cons_cons]; rw [List.getLast?_eq_some_getLast (by simp)]; rfl
    rw [e2]
    cases runLoop k tail (ls.getLast?.getD l) <;> rfl

theorem fileOf_length : ∀ (ls : List Name), ls.length ≤ (fileOf ls).length := by
  intro ls
  induction ls with
  | nil => simp
  | cons l ls ih =>
    show _ ≤ (l ++ 10#8 :: fileOf ls).length
    simp
    omega

/-! ## Values -/

/-- The bytes of item `k`. -/
def item (b : List Byte) (n k : Nat) : List Byte := (b.drop (n * k)).take n

theorem item_get {b : List Byte} {n k j : Nat} (h : j < n) : (item b n k)[j]? = b[n * k + j]? := by
  unfold item
  rw [List.getElem?_take, if_pos h, List.getElem?_drop]

theorem item_congr {b b' : List Byte} {n k : Nat} (h : ∀ j < n, b'[n * k + j]? = b[n * k + j]?) : item b' n k = item b n k := by
  apply List.ext_getElem?
  intro j
  by_cases hj : j < n
  · rw [item_get hj, item_get hj, h j hj]
  · unfold item
    rw [List.getElem?_take, if_neg hj, List.getElem?_take, if_neg hj]

theorem onlyElem_item {b b' : List Byte} {n i k : Nat} (h : OnlyElem b b' n i) (hk : k ≠ i) : item b' n k = item b n k := by
  apply item_congr
  intro j hj
  apply h.2
  rcases Nat.lt_or_gt_of_ne hk with h1 | h1
  · left
    have : n * (k + 1) ≤ n * i := Nat.mul_le_mul_left n h1
    rw [Nat.mul_add] at this; omega
  · right
    have : n * (i + 1) ≤ n * k := Nat.mul_le_mul_left n h1
    rw [Nat.mul_add] at this; omega

/-- Conversion of a number to an integer type stores one item, and fills the item of the mask, but for negative numbers and unsigned types of 64 bits. -/
theorem stringToVal_put (e : TextEnv) {ty n : Nat} {lo hi : Int} (hty : IntType ty n lo hi) {t : Name} {v : Int} (ht : IsDec t v)
    (hz : ty = DAX_LWORD ∨ ty = DAX_ULINT → t.head? ≠ some 45#8) (hc : ty = DAX_CHAR → t.length ≠ 1) (buff : List Byte) (mask : Option (List Byte)) (i : Nat) :
    ∃ (ret : Int) (d : List Byte), d.length = n ∧ stringToVal e t ty buff mask i = put buff mask n i ret d := by
  cases hty
  case char =>
    have h0 := dec_ne_nil ht
    match t, h0, hc rfl with
    | [a], _, h => exact absurd rfl h
    | a :: b :: r, _, _ => exact ⟨_, _, intLE_length _ _, rfl⟩
  case time =>
    have hd := dec_noT ht e
    refine ⟨if strtolRange t then (if t.head? = some 45#8 then ERR_UNDERFLOW else ERR_OVERFLOW) else 0, intLE 8 (strtol0 t), intLE_length 8 _, ?_⟩
    show (match dateOf e t with | none => putLint t buff mask i | some ms => put buff mask 8 i 0 (intLE 8 ms)) = _
    rw [hd]
    rfl
  case lword =>
    have h1 := hz (.inl rfl)
    refine ⟨if strtoulRange t then ERR_OVERFLOW else 0, intLE 8 (strtoul0 t), intLE_length 8 _, ?_⟩
    show (if t.head? = some 45#8 then _ else _) = _
    rw [if_neg h1]
  case ulint =>
    have h1 := hz (.inr rfl)
    refine ⟨if strtoulRange t then ERR_OVERFLOW else 0, intLE 8 (strtoul0 t), intLE_length 8 _, ?_⟩
    show (if t.head? = some 45#8 then _ else _) = _
    rw [if_neg h1]
  all_goals exact ⟨_, _, intLE_length _ _, rfl⟩

/-- One value. -/
theorem stringToVal_item (e : TextEnv) {ty n : Nat} {lo hi : Int} (hty : IntType ty n lo hi) {t : Name} {v : Int} (ht : IsDec t v)
    (hw : ty = DAX_WORD ∨ ty = DAX_UINT → -9223372036854775808 ≤ v ∧ v < 9223372036854775808)
    (hz : ty = DAX_LWORD ∨ ty = DAX_ULINT → t.head? ≠ some 45#8) (hc : ty = DAX_CHAR → t.length ≠ 1)
    {b m : List Byte} {i : Nat} (hb : n * i + n ≤ b.length) (hm : m.length = b.length) :
    ∃ ret b' m' x, stringToVal e t ty b (some m) i = .ok (ret, b', some m') ∧ Saturates lo hi v ret x ∧ Holds b' n i x ∧ OnlyElem b b' n i ∧ OnlyElem m m' n i ∧
      item m' n i = List.replicate n 255#8 := by
  obtain ⟨ret, b', mm, x, h1, h2, h3, h4⟩ := C51_saturates_partial e ht hty hw (fun h _ => hz h) hc b (some m) i hb (fun m0 h0 => by
    simp only [Option.some.injEq] at h0; subst h0; omega)
  obtain ⟨ret2, d, k1, k2⟩ := stringToVal_put e hty ht hz hc b (some m) i
  obtain ⟨b2, m2, g1, -, -, -, g5, -⟩ := put_elem (buff := b) (mask := some m) ret2 k1 hb (fun m0 h0 => by
    simp only [Option.some.injEq] at h0; subst h0; omega)
  rw [k2, g1] at h1
  simp only [C.ok.injEq, Prod.mk.injEq] at h1
  obtain ⟨rfl, rfl, rfl⟩ := h1
  obtain ⟨m1, rfl, f1, f2⟩ := g5 m rfl
  exact ⟨_, _, m1, x, by rw [k2, g1], h2, h3, h4, f1, f2⟩

theorem not_skipped_dec {t : Name} {v : Int} (h : IsDec t v) : skipped t = false := by
  obtain ⟨ds, hd, hh⟩ := h
  have key : ∀ c r, t = c :: r → c ≠ 126#8 → skipped t = false := by
    intro c r h1 h2
    unfold skipped
    rw [h1]
    simpa using h2
  obtain ⟨c, r, hc⟩ : ∃ c r, ds = c :: r := by
    cases hq : ds with
    | nil => exact absurd hq hd.ne
    | cons c r => exact ⟨c, r, rfl⟩
  have h9 := hd.digit c (by rw [hc]; exact List.mem_cons_self ..)
  have hc1 : c ≠ 126#8 := by
    intro h
    rw [h] at h9
    revert h9
    decide
  rcases hh with ⟨h1 | h1, -⟩ | ⟨h1, -⟩
  · exact key c r (h1.trans hc) hc1
  · exact key _ _ h1 (by decide)
  · exact key _ _ h1 (by decide)

theorem skipped_tilde : skipped (nm "~") = true := by decide

/-- What the loop makes of the values of an integer type. -/
theorem values_ok (e : TextEnv) {ty n : Nat} {lo hi : Int} (hty : IntType ty n lo hi) : ∀ (ws : List Name) (k0 : Nat) (b m : List Byte),
    (∀ w ∈ ws, Given ty w) → n * (k0 + ws.length) ≤ b.length → m.length = b.length →
    ∃ b' m' sk, values e ty ws k0 b m = .ok (b', m', sk) ∧ b'.length = b.length ∧ m'.length = m.length ∧
      (∀ k, k < k0 ∨ k0 + ws.length ≤ k → item b' n k = item b n k ∧ item m' n k = item m n k) ∧
      (∀ k w, ws[k]? = some w → (w = nm "~" → item b' n (k0 + k) = item b n (k0 + k) ∧ item m' n (k0 + k) = item m n (k0 + k) ∧ sk = true) ∧
        ∀ v, IsDec w v → ∃ r x, Saturates lo hi v r x ∧ Holds b' n (k0 + k) x ∧ item m' n (k0 + k) = List.replicate n 255#8) ∧
      (sk = true → ∃ k : Nat, ws[k]? = some (nm "~")) := by
  intro ws
  induction ws with
  | nil =>
    intro k0 b m _ _ _
    exact ⟨b, m, false, rfl, rfl, rfl, fun _ _ => ⟨rfl, rfl⟩, fun k w h => by simp at h, fun h => by simp at h⟩
  | cons w ws ih =>
    intro k0 b m hg hb hm
    rw [List.length_cons] at hb
    have hg' : ∀ x ∈ ws, Given ty x := fun x hx => hg x (List.mem_cons_of_mem _ hx)
    have hbb : n * k0 + n ≤ b.length := by
      have : n * (k0 + 1) ≤ n * (k0 + (ws.length + 1)) := Nat.mul_le_mul_left n (by omega)
      rw [Nat.mul_add, Nat.mul_one] at this; omega
    have e1 : k0 + (ws.length + 1) = k0 + 1 + ws.length := by omega
    rcases hg w (List.mem_cons_self ..) with rfl | ⟨v, hv, c1, c2, c3⟩
    · obtain ⟨b', m', sk, a1, a2, a3, a4, a5, a6⟩ := ih (k0 + 1) b m hg' (by rw [← e1]; exact hb) hm
      refine ⟨b', m', true, ?_, a2, a3, fun k hk => a4 k (by rw [List.length_cons] at hk; omega), fun k w hk => ?_, fun _ => ⟨0, rfl⟩⟩
      · unfold values
        rw [if_pos skipped_tilde, a1]
        rfl
      · cases k with
        | zero =>
          simp only [List.getElem?_cons_zero, Option.some.injEq] at hk
          subst hk
          refine ⟨fun _ => ⟨(a4 k0 (by omega)).1, (a4 k0 (by omega)).2, rfl⟩, fun v hv => ?_⟩
          have := not_skipped_dec hv
          rw [skipped_tilde] at this
          exact absurd this (by decide)
        | succ k =>
          have := a5 k w (by simpa using hk)
          rw [show k0 + 1 + k = k0 + (k + 1) by omega] at this
          exact ⟨fun h => ⟨(this.1 h).1, (this.1 h).2.1, rfl⟩, this.2⟩
    · obtain ⟨ret, b1, m1, x, g1, g2, g3, g4, g5, g6⟩ := stringToVal_item e hty hv c1 c2 c3 hbb hm
      have l1 := g4.1
      have l2 := g5.1
      obtain ⟨b', m', sk, a1, a2, a3, a4, a5, a6⟩ := ih (k0 + 1) b1 m1 hg' (by rw [← e1, l1]; exact hb) (by rw [l1, l2]; exact hm)
      refine ⟨b', m', sk, ?_, a2.trans l1, a3.trans l2, fun k hk => ?_, fun k w' hk => ?_, fun h => ?_⟩
      · unfold values
        rw [if_neg (by rw [not_skipped_dec hv]; decide), g1]
        exact a1
      · rw [List.length_cons] at hk
        obtain ⟨f1, f2⟩ := a4 k (by omega)
        exact ⟨f1.trans (onlyElem_item g4 (by omega)), f2.trans (onlyElem_item g5 (by omega))⟩
      · cases k with
        | zero =>
          simp only [List.getElem?_cons_zero, Option.some.injEq] at hk
          subst hk
          obtain ⟨f1, f2⟩ := a4 k0 (by omega)
          refine ⟨fun h => ?_, fun v' hv' => ?_⟩
          · have := not_skipped_dec hv
            rw [h, skipped_tilde] at this
            exact absurd this (by decide)
          · have : v' = v := (signed0_dec hv').symm.trans (signed0_dec hv)
            subst this
            refine ⟨ret, x, g2, ⟨by rw [a2, l1]; exact hbb, ?_⟩, f2.trans g6⟩
            have := g3.2
            show (leNat (item b' n k0) : Int) = _
            rw [f1]; exact this
        | succ k =>
          have := a5 k w' (by simpa using hk)
          rw [show k0 + 1 + k = k0 + (k + 1) by omega] at this
          refine ⟨fun h => ?_, this.2⟩
          obtain ⟨f1, f2, f3⟩ := this.1 h
          exact ⟨f1.trans (onlyElem_item g4 (by omega)), f2.trans (onlyElem_item g5 (by omega)), f3⟩
      · obtain ⟨k, hk⟩ := a6 h
        exact ⟨k + 1, by simpa using hk⟩

/-! ## Values of `BOOL` -/

theorem strtol0_zero {t : Name} {v : Int} (h : IsDec t v) : (strtol0 t != 0) = decide (v ≠ 0) := by
  rw [strtol0_dec h]
  unfold clampLong
  by_cases hv : v = 0
  · subst hv; rfl
  · have : ∀ x : Int, x ≠ 0 → (x != 0) = decide (v ≠ 0) := by
      intro x hx
      simp [hx, hv]
    split
    · exact this _ (by decide)
    · split
      · exact this _ (by decide)
      · exact this _ hv

theorem bit_set (x : Byte) (b c k : Nat) (v : Bool) (l : List Byte) (hx : l[b]? = some x) (hc : c < 8) (q : Nat) (hq : q % 8 = k) :
    bitOf (l.set b (if v then x ||| BitVec.ofNat 8 (2 ^ c) else x &&& ~~~BitVec.ofNat 8 (2 ^ c))) (q / 8) k = if q = 8 * b + c then v else bitOf l (q / 8) k := by
  have hk : k < 8 := by omega
  have hbl : b < l.length := by
    apply Classical.byContradiction
    intro hn
    rw [List.getElem?_eq_none (by omega)] at hx
    cases hx
  unfold bitOf
  rw [List.getElem?_set]
  by_cases h1 : b = q / 8
  · rw [if_pos h1, if_pos (by omega)]
    dsimp only
    rw [← h1, hx]
    dsimp only
    by_cases h2 : q = 8 * b + c
    · have : c = k := by omega
      rw [if_pos h2]
      cases v
      · rw [if_neg (by decide), bit_andnot _ _ _ hc hk]; simp [this]
      · rw [if_pos rfl, bit_or _ _ _ hc hk]; simp [this]
    · have : c ≠ k := by omega
      rw [if_neg h2]
      cases v
      · rw [if_neg (by decide), bit_andnot _ _ _ hc hk]; simp [this]
      · rw [if_pos rfl, bit_or _ _ _ hc hk]; simp [this]
  · rw [if_neg h1, if_neg (by omega)]

/-- What the loop makes of values for `BOOL` when none is skipped. -/
theorem values_bools (e : TextEnv) : ∀ (ws : List Name) (k0 : Nat) (b m : List Byte), (∀ w ∈ ws, ∃ v, IsDec w v) → k0 + ws.length ≤ 8 * b.length → m.length = b.length →
    ∃ b' m', values e DAX_BOOL ws k0 b m = .ok (b', m', false) ∧ b'.length = b.length ∧ m'.length = m.length ∧
      (∀ q, q < k0 ∨ k0 + ws.length ≤ q → bitOf b' (q / 8) (q % 8) = bitOf b (q / 8) (q % 8) ∧ bitOf m' (q / 8) (q % 8) = bitOf m (q / 8) (q % 8)) ∧
      ∀ (k : Nat) w v, ws[k]? = some w → IsDec w v → bitOf b' ((k0 + k) / 8) ((k0 + k) % 8) = decide (v ≠ 0) ∧ bitOf m' ((k0 + k) / 8) ((k0 + k) % 8) = true := by
  intro ws
  induction ws with
  | nil =>
    intro k0 b m _ _ _
    exact ⟨b, m, rfl, rfl, rfl, fun _ _ => ⟨rfl, rfl⟩, fun k w v h => by simp at h⟩
  | cons w ws ih =>
    intro k0 b m hw hb hm
    rw [List.length_cons] at hb
    obtain ⟨v, hv⟩ := hw w (List.mem_cons_self ..)
    obtain ⟨x, hx⟩ : ∃ x, b[k0 / 8]? = some x := ⟨_, List.getElem?_eq_getElem (by omega)⟩
    obtain ⟨y, hy⟩ : ∃ y, m[k0 / 8]? = some y := ⟨_, List.getElem?_eq_getElem (by omega)⟩
    have hc : k0 % 8 < 8 := Nat.mod_lt _ (by decide)
    have hk0 : 8 * (k0 / 8) + k0 % 8 = k0 := Nat.div_add_mod ..
    have h1 : stringToVal e w DAX_BOOL b (some m) k0 = .ok (0, b.set (k0 / 8) (if decide (v ≠ 0) then x ||| BitVec.ofNat 8 (2 ^ (k0 % 8)) else x &&& ~~~BitVec.ofNat 8 (2 ^ (k0 % 8))),
        some (m.set (k0 / 8) (if true then y ||| BitVec.ofNat 8 (2 ^ (k0 % 8)) else y &&& ~~~BitVec.ofNat 8 (2 ^ (k0 % 8))))) := by
      unfold stringToVal
      rw [if_pos rfl, strtol0_zero hv]
      unfold putBit
      rw [if_neg (by omega)]
      dsimp only
      rw [Int.toNat_natCast, hx]
      dsimp only
      rw [hy]
      rfl
    obtain ⟨b', m', a1, a2, a3, a4, a5⟩ := ih (k0 + 1) _ _ (fun w' hw' => hw w' (List.mem_cons_of_mem _ hw')) (by rw [List.length_set]; omega)
      (show (m.set (k0 / 8) (if true then y ||| BitVec.ofNat 8 (2 ^ (k0 % 8)) else y &&& ~~~BitVec.ofNat 8 (2 ^ (k0 % 8)))).length =
        (b.set (k0 / 8) (if decide (v ≠ 0) then x ||| BitVec.ofNat 8 (2 ^ (k0 % 8)) else x &&& ~~~BitVec.ofNat 8 (2 ^ (k0 % 8)))).length by rw [List.length_set, List.length_set, hm])
    rw [List.length_set] at a2 a3
    refine ⟨b', m', ?_, a2, a3, fun q hq => ?_, fun k w' v' hk hv' => ?_⟩
    · unfold values
      rw [if_neg (by rw [not_skipped_dec hv]; decide), h1]
      exact a1
    · rw [List.length_cons] at hq
      obtain ⟨f1, f2⟩ := a4 q (by omega)
      rw [f1, f2, bit_set _ _ _ _ _ _ hx hc q rfl, bit_set _ _ _ _ _ _ hy hc q rfl, if_neg (by omega), if_neg (by omega)]
      exact ⟨rfl, rfl⟩
    · cases k with
      | zero =>
        simp only [List.getElem?_cons_zero, Option.some.injEq] at hk
        subst hk
        have : v' = v := (signed0_dec hv').symm.trans (signed0_dec hv)
        subst this
        obtain ⟨f1, f2⟩ := a4 k0 (by omega)
        rw [Nat.add_zero, f1, f2, bit_set _ _ _ _ _ _ hx hc k0 rfl, bit_set _ _ _ _ _ _ hy hc k0 rfl, if_pos hk0.symm, if_pos hk0.symm]
        exact ⟨rfl, rfl⟩
      | succ k =>
        have := a5 k w' v' (by simpa using hk) hv'
        rw [show k0 + 1 + k = k0 + (k + 1) by omega] at this
        exact this

/-! ## Operands of atomic operations -/

/-- Without `~` the operands are the values. -/
theorem opValues_values (e : TextEnv) (ty : Nat) : ∀ (ws : List Name) (prev : Name) (n : Nat) (b m : List Byte), skipped prev = false → (∀ w ∈ ws, skipped w = false) →
    opValues e ty prev ws n b m = (values e ty ws n b m >>= fun r => .ok r.1) := by
  intro ws
  induction ws with
  | nil => intro prev n b m _ _; rfl
  | cons w ws ih =>
    intro prev n b m h1 h2
    have h3 := h2 w (List.mem_cons_self ..)
    unfold opValues values
    rw [if_neg (by rw [h1]; decide), if_neg (by rw [h3]; decide)]
    cases hs : stringToVal e w ty b (some m) n with
    | ub y => rfl
    | ok r =>
      obtain ⟨r1, r2, r3⟩ := r
      exact ih w (n + 1) r2 (r3.getD m) h3 (fun x hx => h2 x (List.mem_cons_of_mem _ hx))

/-! ## Lists of tags -/

theorem showLoop_ok {look : Nat → Look} : ∀ (room k next : Nat), (∀ i, next ≤ i → i < next + room → look i ≠ .other) →
    (showLoop look room k next).1 = (liveIn (fun i => look i == .live) next room).take k ∧
    next ≤ (showLoop look room k next).2 ∧ (showLoop look room k next).2 ≤ next + room ∧
    (showLoop look room k next).1 = liveIn (fun i => look i == .live) next ((showLoop look room k next).2 - next) := by
  intro room
  induction room with
  | zero =>
    intro k next _
    unfold showLoop liveIn
    simp
  | succ room ih =>
    intro k next h
    cases k with
    | zero =>
      unfold showLoop liveIn
      simp
    | succ k =>
      unfold showLoop
      have hh : ∀ i, next + 1 ≤ i → i < next + 1 + room → look i ≠ .other := fun i h1 h2 => h i (by omega) (by omega)
      have hl : ∀ m, liveIn (fun i => look i == .live) next (m + 1) = if look next = .live then next :: liveIn (fun i => look i == .live) (next + 1) m
          else liveIn (fun i => look i == .live) (next + 1) m := by
        intro m
        unfold liveIn
        rw [List.range'_succ, List.filter_cons]
        by_cases hq : look next = .live
        · rw [if_pos hq, if_pos (by simp [hq])]
        · rw [if_neg hq, if_neg (by simpa using hq)]
      cases hn : look next with
      | other => exact absurd hn (h next (Nat.le_refl _) (by omega))
      | live =>
        obtain ⟨a1, a2, a3, a4⟩ := ih k (next + 1) hh
        dsimp only
        have e : ∀ x, next + 1 ≤ x → x - next = (x - (next + 1)) + 1 := fun x hx => by omega
        refine ⟨?_, by omega, by omega, ?_⟩
        · rw [hl room, if_pos hn, a1]; rfl
        · rw [e _ a2, hl, if_pos hn, ← a4]
      | deleted =>
        obtain ⟨a1, a2, a3, a4⟩ := ih (k + 1) (next + 1) hh
        dsimp only
        have e : ∀ x, next + 1 ≤ x → x - next = (x - (next + 1)) + 1 := fun x hx => by omega
        have hne : ¬ look next = .live := by rw [hn]; decide
        refine ⟨?_, by omega, by omega, ?_⟩
        · rw [hl room, if_neg hne, a1]
        · rw [e _ a2, hl, if_neg hne, ← a4]

theorem listLoop_ok {look : Nat → Look} : ∀ (room n : Nat), (∀ i, n ≤ i → i < n + room → look i ≠ .other) →
    listLoop look room n = liveIn (fun i => look i == .live) n room := by
  intro room
  induction room with
  | zero => intro n _; rfl
  | succ room ih =>
    intro n h
    unfold listLoop liveIn
    rw [List.range'_succ, List.filter_cons, ih (n + 1) (fun i h1 h2 => h i (by omega) (by omega))]
    cases hn : look n with
    | other => exact absurd hn (h n (Nat.le_refl _) (by omega))
    | live => rfl
    | deleted => rfl

theorem showLoop_all {look : Nat → Look} : ∀ (room k next : Nat), (∀ i, next ≤ i → i < next + room → look i = .live) → k ≤ room →
    showLoop look room k next = (List.range' next k, next + k) := by
  intro room
  induction room with
  | zero =>
    intro k next _ hk
    have : k = 0 := by omega
    subst this
    rfl
  | succ room ih =>
    intro k next h hk
    cases k with
    | zero => rfl
    | succ k =>
      unfold showLoop
      rw [h next (Nat.le_refl _) (by omega)]
      dsimp only
      rw [ih k (next + 1) (fun i h1 h2 => h i (by omega) (by omega)) (by omega), List.range'_succ]
      show (_, next + 1 + k) = (_, next + (k + 1))
      rw [show next + 1 + k = next + (k + 1) by omega]

end Dax.Daxc
