import Verif.Model.HistPlugin
import Verif.Spec.HistPlugin
import Verif.Lemmas.Conv
import Verif.Lemmas.Text
/-!
# Lemmas on the plugins of the logger of histories
-/
set_option autoImplicit false
namespace Dax.HistPlugin
open Conv

theorem valToString_int {ty n : Nat} {lo hi : Int} (hty : IntType ty n lo hi) (htm : ty ≠ DAX_TIME) (hch : ty ≠ DAX_CHAR) {size : Nat} (hs : 22 ≤ size) {val : List Byte} (hl : n ≤ val.length) :
    ∃ x, valToString size ty val 0 = .ok (decInt x) ∧ lo ≤ x ∧ x ≤ hi ∧ Holds val n 0 x := by
  have hrd : rd val 0 n = .ok (val.take n) := by
    unfold rd
    rw [if_pos (by omega)]
    rfl
  have hh : ∀ x : Int, (leNat (val.take n) : Int) = x % (256 ^ n : Nat) → Holds val n 0 x := by
    intro x hx
    refine ⟨by omega, ?_⟩
    rw [Nat.mul_zero, List.drop_zero]
    exact hx
  generalize hd : val.take n = d at hrd hh
  have hdl : d.length = n := by rw [← hd]; simp; omega
  have hlt := leNat_lt d
  rw [hdl] at hlt
  have sg : sintOf d = if 2 * leNat d < 256 ^ n then (leNat d : Int) else (leNat d : Int) - (256 ^ n : Nat) := by rw [sintOf, hdl]
  have sm : (leNat d : Int) = sintOf d % (256 ^ n : Nat) ∧ -(256 ^ n : Nat) ≤ 2 * sintOf d ∧ 2 * sintOf d < (256 ^ n : Nat) := by
    rw [sg]
    generalize hk : 256 ^ n = k at *
    split
    · rw [Int.emod_eq_of_lt (by omega) (by omega)]; omega
    · have : ((leNat d : Int) - (k : Int)) % (k : Int) = leNat d := by
        rw [Int.sub_emod_right, Int.emod_eq_of_lt (by omega) (by omega)]
      rw [this]; omega
  clear sg
  obtain ⟨sm1, sm2, sm3⟩ := sm
  have um : (leNat d : Int) = (leNat d : Int) % (256 ^ n : Nat) := by
    rw [Int.emod_eq_of_lt (by omega) (by omega)]
  have un : ∀ {ty : Nat}, valToString size ty val 0 = (rd val 0 n >>= fun d => printed size (decInt (leNat d))) → (256 ^ n : Nat) ≤ 18446744073709551616 →
      valToString size ty val 0 = .ok (decInt (leNat d)) := by
    intro ty h h2
    rw [h, hrd]
    exact printed_dec hs (by omega) (by omega)
  have sn : ∀ {ty : Nat}, valToString size ty val 0 = (rd val 0 n >>= fun d => printed size (decInt (sintOf d))) → (256 ^ n : Nat) ≤ 18446744073709551616 →
      valToString size ty val 0 = .ok (decInt (sintOf d)) := by
    intro ty h h2
    rw [h, hrd]
    exact printed_dec hs (by omega) (by omega)
  cases hty with
  | byte => exact ⟨_, un rfl (by decide), by omega, by omega, hh _ um⟩
  | sint => exact ⟨_, sn rfl (by decide), by omega, by omega, hh _ sm1⟩
  | char => exact absurd rfl hch
  | word => exact ⟨_, un rfl (by decide), by omega, by omega, hh _ um⟩
  | uint => exact ⟨_, un rfl (by decide), by omega, by omega, hh _ um⟩
  | int => exact ⟨_, sn rfl (by decide), by omega, by omega, hh _ sm1⟩
  | dword => exact ⟨_, un rfl (by decide), by omega, by omega, hh _ um⟩
  | udint => exact ⟨_, un rfl (by decide), by omega, by omega, hh _ um⟩
  | dint => exact ⟨_, sn rfl (by decide), by omega, by omega, hh _ sm1⟩
  | lword => exact ⟨_, un rfl (by decide), by omega, by omega, hh _ um⟩
  | ulint => exact ⟨_, un rfl (by decide), by omega, by omega, hh _ um⟩
  | lint => exact ⟨_, sn rfl (by decide), by omega, by omega, hh _ sm1⟩
  | time => exact absurd rfl htm

theorem intType_unique {ty n n' : Nat} {lo hi lo' hi' : Int} (h : IntType ty n lo hi) (h' : IntType ty n' lo' hi') : n' = n ∧ lo' = lo ∧ hi' = hi := by
  generalize hty : ty = t at h'
  cases h <;> cases h' <;> first | exact ⟨rfl, rfl, rfl⟩ | exact absurd hty (by decide)

theorem digit_range {b : Byte} (h : DigitByte b) : 48 ≤ b.toNat ∧ b.toNat ≤ 57 := by
  obtain ⟨k, hk, rfl⟩ := h
  rw [BitVec.toNat_ofNat]
  omega

theorem dec_chars (x : Int) : ∀ b ∈ decInt x, b = 45#8 ∨ (48 ≤ b.toNat ∧ b.toNat ≤ 57) := by
  have key : ∀ n, ∀ b ∈ decNat n, 48 ≤ b.toNat ∧ b.toNat ≤ 57 := fun n b hb => digit_range (decNat_digits n b hb)
  intro b hb
  unfold decInt at hb
  split at hb
  · rcases List.mem_cons.mp hb with rfl | hb
    · exact .inl rfl
    · exact .inr (key _ b hb)
  · exact .inr (key _ b hb)

theorem literal_dec (x : Int) : literal (decInt x) = true := by
  have key : ∀ n, literal (decNat n) = true ∧ literal (45#8 :: decNat n) = true := by
    intro n
    have h0 := decNat_ne_nil n
    have hd : (decNat n).all (fun c => (48 ≤ c.toNat && c.toNat ≤ 57) || c == 46#8) = true := by
      rw [List.all_eq_true]
      intro b hb
      have := decNat_digits n b hb
      have h1 := digit_range this
      simp [h1.1, h1.2]
    constructor
    · unfold literal
      have : (decNat n).head? ≠ some 45#8 := by
        intro hc
        have := decNat_digits n 45#8 (List.mem_of_mem_head? hc)
        revert this
        unfold DigitByte
        decide
      rw [if_neg this]
      simp only [hd, Bool.and_true]
      simpa using h0
    · unfold literal
      simp only [List.head?_cons, if_true, List.drop_succ_cons, List.drop_zero, hd, Bool.and_true]
      simpa using h0
  unfold decInt
  split
  · exact (key _).2
  · exact (key _).1

/-- The text of a plain value. -/
theorem plain_text {type : Nat} {v : List Byte} (h : Plain type v) {size : Nat} (hs : 22 ≤ size) :
    ∃ x, valToString size type v 0 = .ok (decInt x) ∧ -9223372036854775808 ≤ x ∧ x ≤ 18446744073709551615 ∧ TextOf type v (decInt x) := by
  rcases h with ⟨n, lo, hi, hty, htm, hch, hl⟩ | ⟨rfl, hl⟩
  · obtain ⟨x, h1, h2, h3, h4⟩ := valToString_int hty htm hch hs hl
    refine ⟨x, h1, ?_, ?_, fun n' lo' hi' h' => ?_, fun hb => ?_⟩
    · cases hty <;> omega
    · cases hty <;> omega
    · obtain ⟨rfl, rfl, rfl⟩ := intType_unique hty h'
      exact ⟨x, isDec_decInt x, h2, h3, h4⟩
    · subst hb
      generalize hb : DAX_BOOL = t at hty
      cases hty <;> exact absurd hb (by decide)
  · obtain ⟨b, hb⟩ : ∃ b, v[0]? = some b := ⟨_, List.getElem?_eq_getElem hl⟩
    refine ⟨if b.getLsbD 0 then 1 else 0, ?_, by split <;> omega, by split <;> omega, ⟨fun n lo hi h => by generalize hb : DAX_BOOL = t at h; cases h <;> exact absurd hb (by decide), fun _ b' hb' => ?_⟩⟩
    · unfold valToString
      rw [if_pos rfl, if_neg (by omega)]
      show (match v[0]? with | none => _ | some x => _) = _
      rw [hb]
      show printed size (if b.getLsbD 0 then nm "1" else nm "0") = _
      unfold printed
      rw [if_neg (by omega)]
      split
      · rw [List.take_of_length_le (by show 1 ≤ size - 1; omega)]; rfl
      · rw [List.take_of_length_le (by show 1 ≤ size - 1; omega)]; rfl
    · rw [hb] at hb'
      obtain rfl := Option.some.inj hb'
      split <;> rfl

/-! ## Text files -/

theorem IsLog.append {a b : Name} {es fs : List (Name × Name × Name)} (ha : IsLog a es) (hb : IsLog b fs) : IsLog (a ++ b) (es ++ fs) := by
  induction ha with
  | nil => exact hb
  | cons hn hn' ht ht' hv hr ih =>
    have := IsLog.cons hn hn' ht ht' hv ih
    simpa using this

theorem split_unique {c : Byte} {a b x y : Name} (ha : c ∉ a) (hb : c ∉ b) (h : a ++ c :: x = b ++ c :: y) : a = b ∧ x = y := by
  induction a generalizing b with
  | nil =>
    cases b with
    | nil => simpa using h
    | cons z b =>
      have : c = z := by simpa using (List.cons.inj h).1
      exact absurd (by rw [this]; exact List.mem_cons_self ..) hb
  | cons w a ih =>
    cases b with
    | nil =>
      have : w = c := by simpa using (List.cons.inj h).1
      exact absurd (by rw [this]; exact List.mem_cons_self ..) ha
    | cons z b =>
      obtain ⟨h1, h2⟩ := List.cons.inj h
      obtain ⟨h3, h4⟩ := ih (fun hc => ha (List.mem_cons_of_mem _ hc)) (fun hc => hb (List.mem_cons_of_mem _ hc)) h2
      exact ⟨by rw [h1, h3], h4⟩

theorem IsLog.unique {t : Name} {a b : List (Name × Name × Name)} (ha : IsLog t a) (hb : IsLog t b) : a = b := by
  induction ha generalizing b with
  | nil =>
    generalize ht : ([] : Name) = t at hb
    cases hb with
    | nil => rfl
    | cons _ _ _ _ _ _ => simp at ht
  | @cons n t v rest es hn hn' ht ht' hv hr ih =>
    generalize hx : n ++ 44#8 :: (t ++ 44#8 :: (v ++ 10#8 :: rest)) = x at hb
    cases hb with
    | nil => simp at hx
    | cons gn gn' gt gt' gv gr =>
      obtain ⟨rfl, h2⟩ := split_unique hn gn hx
      obtain ⟨rfl, h3⟩ := split_unique ht gt h2
      obtain ⟨rfl, rfl⟩ := split_unique hv gv h3
      rw [ih gr]

/-- All that is in the files, in the order of their opening. -/
def content (x : Files) : Name := (x.segs.map (·.2)).flatten

theorem append_content {segs : List (Name × Name)} (h : segs ≠ []) (t : Name) : ((append segs t).map (·.2)).flatten = (segs.map (·.2)).flatten ++ t ∧ append segs t ≠ [] := by
  obtain ⟨pre, g, rfl⟩ : ∃ pre g, segs = pre ++ [g] := ⟨segs.dropLast, segs.getLast h, (List.dropLast_concat_getLast h).symm⟩
  unfold append
  simp

/-! ## SQLite -/

theorem after_append (p t : Name) : after p (p ++ t) = some t := by
  induction p with
  | nil => rfl
  | cons x p ih => simp [after, ih]

theorem quoted_append {name rest : Name} (h : 39#8 ∉ name) (hr : rest.head? ≠ some 39#8) : quoted (name ++ 39#8 :: rest) = some (name, rest) := by
  induction name with
  | nil => simp [quoted, hr]
  | cons x name ih =>
    have h1 : x ≠ 39#8 := fun hc => h (by rw [hc]; exact List.mem_cons_self ..)
    rw [List.cons_append]
    unfold quoted
    rw [if_neg h1, ih fun hc => h (List.mem_cons_of_mem _ hc)]
    rfl

theorem quoted_none {t : Name} (h : 39#8 ∉ t) : quoted t = none := by
  induction t with
  | nil => rfl
  | cons x t ih =>
    have h1 : x ≠ 39#8 := fun hc => h (by rw [hc]; exact List.mem_cons_self ..)
    unfold quoted
    rw [if_neg h1, ih fun hc => h (List.mem_cons_of_mem _ hc)]
    rfl

theorem upTo_append {c : Byte} {w rest : Name} (h : c ∉ w) : upTo c (w ++ c :: rest) = some (w, rest) := by
  induction w with
  | nil => simp [upTo]
  | cons x w ih =>
    have h1 : x ≠ c := fun hc => h (by rw [hc]; exact List.mem_cons_self ..)
    rw [List.cons_append]
    unfold upTo
    rw [if_neg h1, ih fun hc => h (List.mem_cons_of_mem _ hc)]
    rfl

theorem row_last {w : Name} (h : 41#8 ∉ w) : row 0 (w ++ nm ");") = some [w] := by
  show row 0 (w ++ 41#8 :: nm ";") = _
  unfold row
  rw [upTo_append h]
  dsimp only
  rw [if_pos (.inl rfl)]

theorem row_more {k : Nat} {w rest : Name} {r : List Name} (h : 44#8 ∉ w) (hr : row k rest = some r) : row (k + 1) (w ++ (nm ", " ++ rest)) = some (w :: r) := by
  show row (k + 1) (w ++ 44#8 :: (32#8 :: rest)) = _
  unfold row
  rw [upTo_append h]
  dsimp only
  rw [if_pos rfl, hr]
  rfl

end Dax.HistPlugin
