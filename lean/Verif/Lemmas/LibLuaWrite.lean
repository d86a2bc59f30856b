import Verif.Lemmas.LibLua
/-!
# Lemmas for the Lua library: writing
-/
set_option autoImplicit false
namespace Dax.Lua
open LibPath LibData

theorem one_shift {j k : Nat} (hj : j < 8) (hk : k < 8) : (1#8 <<< j).getLsbD k = decide (k = j) := by
  have : ∀ j k : Fin 8, (1#8 <<< j.val).getLsbD k.val = decide (k.val = j.val) := by decide
  exact this ⟨j, hj⟩ ⟨k, hk⟩

theorem putBit_get (x : Byte) {j k : Nat} (hj : j < 8) (hk : k < 8) (b : Bool) : (putBit x j b).getLsbD k = if k = j then b else x.getLsbD k := by
  unfold putBit
  cases b
  · simp only [Bool.false_eq_true, if_false, BitVec.getLsbD_and, BitVec.getLsbD_not, one_shift hj hk, hk, decide_true, Bool.true_and]
    by_cases h : k = j <;> simp [h]
  · simp only [if_true, BitVec.getLsbD_or, one_shift hj hk]
    by_cases h : k = j <;> simp [h]

theorem toBoolean_false {v : Val} (h : v ≠ .nil) : toBoolean v = false ↔ v = .bool false := by
  cases v with
  | nil => exact absurd rfl h
  | bool b => cases b <;> simp [toBoolean]
  | _ => simp [toBoolean]

theorem put_ok {d : List Byte} {o j : Nat} (h : o < d.length) (hj : j < 8) (b : Bool) :
    ∃ d' x, rd d (o : Int) 1 = .ok [x] ∧ wr d (o : Int) [putBit x j b] = .ok d' ∧ d'.length = d.length ∧
      ∀ k, bitAt d' k = if k = 8 * o + j then b else bitAt d k := by
  have hr := rd_slice (data := d) (off := o) (w := 1) (by omega)
  have hs : slice d o 1 = [d[o]] := by
    unfold slice
    rw [List.drop_eq_getElem_cons h]
    rfl
  obtain ⟨d', a1, a2, a3⟩ := wr_nat (b := d) (d := [putBit d[o] j b]) (off := o) (by simp; omega)
  refine ⟨d', d[o], by rw [← hs]; exact hr, a1, a2, fun k => ?_⟩
  simp only [List.length_singleton] at a3
  by_cases hk : k / 8 = o
  · have h1 : d'[k / 8]? = some (putBit d[o] j b) := by
      rw [a3, if_pos (by omega), hk]; simp
    have h2 : d[k / 8]? = some d[o] := by rw [hk]; exact List.getElem?_eq_getElem h
    rw [bitAt_get h1, bitAt_get h2, putBit_get _ hj (Nat.mod_lt _ (by omega))]
    by_cases h3 : k % 8 = j
    · rw [if_pos h3, if_pos (by omega)]
    · rw [if_neg h3, if_neg (by omega)]
  · rw [if_neg (by omega)]
    exact bitAt_congr (by rw [a3, if_neg (by omega)])

theorem bool_notCompound : ¬ Compound DAX_BOOL := fun h => compound_notBool h rfl

theorem writeBit_ok {env : LuaEnv} {tbl : List Cdt} {w : W} {v : Val} {r : List Val} (hs : w.stack = v :: r) (hv : v ≠ .nil) {off bit : Nat}
    (h1 : 8 * off + bit < 8 * w.data.length) (h2 : w.mask.length = w.data.length) :
    ∃ w', writeBit w off bit = .ok w' ∧ w'.stack = w.stack ∧ Done env (Items tbl DAX_BOOL 1 (8 * off + bit) v) w w' := by
  have e1 : (off : Int) + (bit : Int).tdiv 8 = ((off + bit / 8 : Nat) : Int) := by
    rw [Int.tdiv_eq_ediv_of_nonneg (by omega)]; omega
  have e2 : ((bit : Int).tmod 8).toNat = bit % 8 := by
    rw [Int.tmod_eq_emod_of_nonneg (by omega)]; omega
  have hj : bit % 8 < 8 := Nat.mod_lt _ (by omega)
  obtain ⟨d', x, a1, a2, a3, a4⟩ := put_ok (d := w.data) (o := off + bit / 8) (j := bit % 8) (by omega) hj (toBoolean v)
  obtain ⟨m', y, b1, b2, b3, b4⟩ := put_ok (d := w.mask) (o := off + bit / 8) (j := bit % 8) (by omega) hj true
  have e3 : 8 * (off + bit / 8) + bit % 8 = 8 * off + bit := by omega
  rw [e3] at a4 b4
  have hw : writeBit w off bit = .ok { w with data := d', mask := m' } := by
    unfold writeBit
    rw [top_ok hs, e1, e2]
    simp only [C.ok_bind]
    rw [a1]; simp only [C.ok_bind, List.headD_cons]
    rw [a2]; simp only [C.ok_bind]
    rw [b1]; simp only [C.ok_bind, List.headD_cons]
    rw [b2]; rfl
  refine ⟨_, hw, rfl, a3, b3, fun b hb => ?_, fun p ty u hq => ?_⟩
  · refine ⟨8 * off + bit, DAX_BOOL, v, 1, ⟨[], 0, .one _ bool_notCompound, rfl, rfl⟩, hv, .inl ⟨rfl, rfl⟩, ?_⟩
    have : b = 8 * off + bit := by
      apply Classical.byContradiction
      intro hn
      unfold Changed at hb
      have c1 := a4 b
      have c2 := b4 b
      rw [if_neg hn] at c1 c2
      rcases hb with hb | hb
      · exact hb c1
      · exact hb c2
    omega
  · obtain ⟨ks, o, ha, rfl, rfl⟩ := hq
    rcases ha.base bool_notCompound with ⟨_, rfl, rfl, _, rfl⟩ | ⟨h, _⟩ | ⟨_, _, h, _⟩
    · refine ⟨fun e => absurd e hv, fun _ e hw' b h3 h4 => ?_, fun _ _ => ?_, fun w2 sg x hi => absurd hi (not_int (by decide)), fun _ ht => absurd ht (by decide), fun _ ht => absurd ht (by decide)⟩
      · have : e = 1 := width_det hw' (.inl ⟨rfl, rfl⟩)
        subst this
        have : b = 8 * off + bit := by omega
        show bitAt m' b = true
        rw [b4, if_pos this]
      · show bitAt d' (8 * off + bit + 0) = false ↔ v = .bool false
        rw [a4, if_pos (Nat.add_zero _)]
        exact toBoolean_false hv
    · omega
    · omega

theorem suits_bool {v : Val} (h : Suits DAX_BOOL v) : v ≠ .nil := by
  rcases h with ⟨_, h⟩ | ⟨_, _, _, h, _⟩ | ⟨h | h, _⟩
  · exact h
  · exact absurd h (not_int (by decide))
  · cases h
  · cases h

theorem writeElem_ok {env : LuaEnv} {tbl : List Cdt} {w : W} {v : Val} {r : List Val} (hs : w.stack = v :: r) {t e : Nat} (hb : ¬ Compound t) (he : ElemBits tbl t e) (hv : Suits t v) {off bit i : Nat}
    (hbit : t ≠ DAX_BOOL → bit = 0) (h1 : 8 * off + bit + e * i + e ≤ 8 * w.data.length) (h2 : w.mask.length = w.data.length) :
    ∃ w', writeElem env w t bit off i = .ok w' ∧ w'.stack = w.stack ∧ Done env (Items tbl t 1 (8 * off + bit + e * i) v) w w' := by
  unfold writeElem
  rcases id he with ⟨rfl, rfl⟩ | ⟨k, hk, rfl⟩ | ⟨a, _⟩
  · rw [if_pos rfl]
    obtain ⟨w', a1, a2, a3⟩ := writeBit_ok (env := env) (tbl := tbl) hs (suits_bool hv) (off := off) (bit := i + bit) (by omega) h2
    refine ⟨w', a1, a2, ?_⟩
    have : 8 * off + bit + 1 * i = 8 * off + (i + bit) := by omega
    rw [this]
    exact a3
  · obtain rfl := hbit (elem_notBool hk)
    rw [if_neg (elem_notBool hk)]
    rw [Nat.mul_assoc] at h1 ⊢
    obtain ⟨w', a1, a2, a3⟩ := writeFromStack_ok (env := env) (tbl := tbl) hs hk hv (off := off) (i := i) (by omega) h2
    refine ⟨w', a1, a2, ?_⟩
    have : 8 * off + 0 + 8 * (k * i) = 8 * (off + k * i) := by omega
    rw [this]
    exact a3
  · exact absurd a hb

theorem rawget_ok {w : W} {l : List (Key × Val)} {r : List Val} {k : Key} (h : w.stack = .tbl l :: r) : rawget k w = .ok (push (get l k) w) := by
  unfold rawget
  rw [top_ok h]
  rfl

theorem pop_ok {w : W} {v : Val} {r : List Val} (h : w.stack = v :: r) : pop w = .ok { w with stack := r } := by
  unfold pop
  rw [h]

/-- The items of the elements from `n` on of an array. -/
def ItemsFrom (tbl : List Cdt) (t e N n pos : Nat) (l : List (Key × Val)) (p ty : Nat) (u : Val) : Prop :=
  ∃ i : Nat, n ≤ i ∧ i < N ∧ Items tbl t 1 (pos + e * i) (get l (.int (i + 1))) p ty u

theorem itemsFrom_lie {cap : Nat} {s : Server} (hr : Reachable s) {t N n pos e : Nat} {l : List (Key × Val)} (hf : Compound t → Fits cap s t) (he : ElemBits s.cdts t e) (hp : t ≠ DAX_BOOL → pos % 8 = 0) :
    Lies (ItemsFrom s.cdts t e N n pos l) (pos + e * n) (pos + e * N) := by
  have hal : ∀ i, t ≠ DAX_BOOL → (pos + e * i) % 8 = 0 := fun i hb => by
    have h8 := he.bytes hb
    have := hp hb
    have : e * i % 8 = 0 := by rw [Nat.mul_mod, h8]; simp
    omega
  refine ⟨fun p ty u h => ?_, fun p ty u h hty => ?_⟩ <;> obtain ⟨i, h1, h2, h⟩ := h
  · obtain ⟨e', h3, h4, h5⟩ := (items_lie hr hf he (hal i)).width p ty u h
    have a1 : e * n ≤ e * i := Nat.mul_le_mul_left _ h1
    have a2 : e * (i + 1) ≤ e * N := Nat.mul_le_mul_left _ h2
    rw [Nat.mul_add] at a2
    exact ⟨e', h3, by omega, by omega⟩
  · exact (items_lie hr hf he (hal i)).align p ty u h hty

theorem itemsFrom_all {tbl : List Cdt} {t e N pos : Nat} {l : List (Key × Val)} (he : ElemBits tbl t e) (hN : 1 < N) (p ty : Nat) (u : Val) :
    Items tbl t N pos (.tbl l) p ty u ↔ ItemsFrom tbl t e N 0 pos l p ty u := by
  constructor
  · rintro ⟨ks, off, ha, rfl, rfl⟩
    cases ha with
    | one => omega
    | all => omega
    | elem _ _ i e' ks _ _ off _ hi he' ha =>
      have := he'.det he
      subst this
      exact ⟨i, by omega, hi, ks, off, ha, by omega, rfl⟩
    | member => omega
  · rintro ⟨i, _, hi, ks, off, ha, rfl, rfl⟩
    exact ⟨.int (i + 1) :: ks, e * i + off, .elem t N i e ks ty 1 off hN hi he ha, by omega, rfl⟩

theorem itemsFrom_step {tbl : List Cdt} {t e N n pos : Nat} {l : List (Key × Val)} (hn : n < N) (p ty : Nat) (u : Val) :
    ItemsFrom tbl t e N n pos l p ty u ↔ Items tbl t 1 (pos + e * n) (get l (.int (n + 1))) p ty u ∨ ItemsFrom tbl t e N (n + 1) pos l p ty u := by
  constructor
  · rintro ⟨i, h1, h2, h⟩
    rcases Nat.eq_or_lt_of_le h1 with rfl | h1
    · exact .inl h
    · exact .inr ⟨i, h1, h2, h⟩
  · rintro (h | ⟨i, h1, h2, h⟩)
    · exact ⟨n, Nat.le_refl _, hn, h⟩
    · exact ⟨i, by omega, h2, h⟩

theorem isNil_iff {v : Val} : isNil v = true ↔ v = .nil := by
  cases v <;> simp [isNil]

theorem isNil_false {v : Val} (h : v ≠ .nil) : isNil v = false := by
  cases v <;> first | rfl | exact absurd rfl h

theorem items_nil {tbl : List Cdt} {t n pos p ty : Nat} {u : Val} (h : Items tbl t n pos .nil p ty u) : u = .nil := by
  obtain ⟨ks, off, _, _, rfl⟩ := h
  exact valAt_nil ks

theorem item_lie {cap : Nat} {s : Server} (hr : Reachable s) {t N n pos e : Nat} {v : Val} (hf : Compound t → Fits cap s t) (he : ElemBits s.cdts t e) (hp : t ≠ DAX_BOOL → pos % 8 = 0) (hn : n < N) :
    Lies (Items s.cdts t 1 (pos + e * n) v) (pos + e * n) (pos + e * (n + 1)) := by
  have := items_lie hr (v := v) (n := 1) (pos := pos + e * n) hf he (fun hb => by
    have h8 := he.bytes hb
    have := hp hb
    have : e * n % 8 = 0 := by rw [Nat.mul_mod, h8]; simp
    omega)
  rw [Nat.mul_add]
  rw [Nat.add_assoc] at this
  exact this

theorem writeArray_gen {env : LuaEnv} {t : Nat} {bit off : Int} {k n : Nat} {w w1 w2 w3 : W} {r : C W} (h1 : rawget (.int (n + 1)) w = .ok w1) (h2 : writeSome env w1 t bit off n = .ok w2) (h3 : pop w2 = .ok w3)
    (h4 : writeArray env t bit off k (n + 1) w3 = r) : writeArray env t bit off (k + 1) n w = r := by
  conv => lhs; unfold writeArray
  rw [h1]; simp only [C.ok_bind]
  rw [h2]; simp only [C.ok_bind]
  rw [h3]; simp only [C.ok_bind]
  exact h4

theorem writeArray_ok {env : LuaEnv} {s : Server} (hr : Reachable s) {l : List (Key × Val)} {r : List Val} {t e N : Nat} (hb : ¬ Compound t) (he : ElemBits s.cdts t e) {off bit : Nat}
    (hbit : t ≠ DAX_BOOL → bit = 0) (hv : ∀ i : Nat, i < N → get l (.int (i + 1)) ≠ .nil → Suits t (get l (.int (i + 1)))) :
    ∀ {k n : Nat} {w : W}, n + k = N → w.stack = .tbl l :: r → 8 * off + bit + e * N ≤ 8 * w.data.length → w.mask.length = w.data.length →
    ∃ w', writeArray env t bit off k n w = .ok w' ∧ w'.stack = w.stack ∧ Done env (ItemsFrom s.cdts t e N n (8 * off + bit) l) w w'
  | 0, n, w, hk, hs, _, _ => ⟨w, rfl, rfl, .none rfl rfl fun p ty v h => by obtain ⟨i, h1, h2, _⟩ := h; omega⟩
  | k + 1, n, w, hk, hs, hl, hm => by
    have hlt : e * (n + 1) ≤ e * N := Nat.mul_le_mul_left _ (by omega)
    rw [Nat.mul_add] at hlt
    have hstep : ∃ w2, writeSome env (push (get l (.int (n + 1))) w) t bit off n = .ok w2 ∧ w2.stack = get l (.int (n + 1)) :: w.stack ∧
        Done env (Items s.cdts t 1 (8 * off + bit + e * n) (get l (.int (n + 1)))) w w2 := by
      unfold writeSome
      rw [top_ok (r := w.stack) rfl]
      simp only [C.ok_bind]
      by_cases hn : get l (.int (n + 1)) = .nil
      · rw [hn]
        refine ⟨push .nil w, rfl, rfl, .none rfl rfl fun p ty v h => items_nil h⟩
      · rw [isNil_false hn]
        simp only [Bool.false_eq_true, if_false]
        obtain ⟨w', a1, a2, a3⟩ := writeElem_ok (env := env) (tbl := s.cdts) (w := push (get l (.int (n + 1))) w) (r := w.stack) rfl hb he (hv n (by omega) hn) (off := off) (bit := bit) (i := n) hbit
          (show _ ≤ 8 * w.data.length by omega) hm
        exact ⟨w', a1, a2, a3.stack rfl rfl rfl rfl⟩
    obtain ⟨w2, a1, a2, a3⟩ := hstep
    have hl2 := a3.dlen
    have hm2 := a3.mlen
    obtain ⟨w', b1, b2, b3⟩ := writeArray_ok hr hb he (off := off) hbit hv (env := env) (r := r) (k := k) (n := n + 1) (w := { w2 with stack := w.stack }) (by omega) hs (by show _ ≤ 8 * w2.data.length; omega) (by show w2.mask.length = w2.data.length; omega)
    refine ⟨w', writeArray_gen (rawget_ok hs) a1 (pop_ok a2) b1, b2, ?_⟩
    have hp : t ≠ DAX_BOOL → (8 * off + bit) % 8 = 0 := fun h => by have := hbit h; omega
    exact a3.seq (b3.stack rfl rfl rfl rfl) (item_lie (cap := 0) hr (fun h => absurd h hb) he hp (by omega : n < N)) (itemsFrom_lie (cap := 0) hr (fun h => absurd h hb) he hp)
      (itemsFrom_step (n := n) (N := N) (by omega))


/-! ## Writing compound types -/

theorem shaped_arr {tbl : List Cdt} {t N : Nat} {v : Val} (h : Shaped tbl t N v) (hN : 1 < N) :
    ∃ l, v = .tbl l ∧ ∀ i : Nat, i < N → get l (.int (i + 1)) ≠ .nil → Shaped tbl t 1 (get l (.int (i + 1))) := by
  cases h with
  | base => omega
  | arr _ _ l _ h => exact ⟨l, rfl, h⟩
  | struct => omega

theorem shaped_base {tbl : List Cdt} {t : Nat} {v : Val} (h : Shaped tbl t 1 v) (hb : ¬ Compound t) : Suits t v := by
  cases h with
  | base _ _ _ h => exact h
  | arr _ _ _ h => omega
  | struct _ _ _ h => exact absurd h hb

theorem shaped_struct {tbl : List Cdt} {t : Nat} {v : Val} (h : Shaped tbl t 1 v) (hc : Compound t) :
    ∃ l d, v = .tbl l ∧ tbl[t - 2147483648]? = some d ∧ (∀ m ∈ d.members, get l (.str m.name) = .nil → Compound m.type → m.count = 1) ∧
      (∀ m ∈ d.members, get l (.str m.name) ≠ .nil → Shaped tbl m.type m.count (get l (.str m.name))) := by
  cases h with
  | base _ _ h => exact absurd hc h
  | arr _ _ _ h => omega
  | struct _ d l _ h1 h2 h3 => exact ⟨l, d, rfl, h1, h2, h3⟩

theorem suits_ne {t : Nat} {v : Val} (h : Suits t v) : v ≠ .nil := by
  rintro rfl
  rcases h with ⟨_, h⟩ | ⟨_, _, _, _, h, _⟩ | ⟨_, _, h | ⟨_, _, h, _⟩⟩
  · exact h rfl
  · exact not_num_nil h
  · cases h
  · cases h

theorem popBase_ok {env : LuaEnv} {s : Server} (hr : Reachable s) {v : Val} {r : List Val} {t e N : Nat} (hb : ¬ Compound t) (he : ElemBits s.cdts t e) (hN : 0 < N) {off bit : Nat}
    (hbit : t ≠ DAX_BOOL → bit = 0) (hv : Shaped s.cdts t N v) {w : W} (hs : w.stack = v :: r) (hl : 8 * off + bit + e * N ≤ 8 * w.data.length) (hm : w.mask.length = w.data.length) :
    ∃ w', popBase env w t N bit off = .ok (w', 0) ∧ w'.stack = w.stack ∧ Done env (Items s.cdts t N (8 * off + bit) v) w w' := by
  unfold popBase
  by_cases h1 : 1 < N
  · obtain ⟨l, rfl, hl2⟩ := shaped_arr hv h1
    obtain ⟨w', a1, a2, a3⟩ := writeArray_ok (env := env) hr hb he (off := off) (bit := bit) hbit (fun i hi hn => shaped_base (hl2 i hi hn) hb) (k := N) (n := 0) (w := w) (by omega) hs hl hm
    simp only [gt_iff_lt, h1, if_true]
    rw [top_ok hs]
    simp only [C.ok_bind]
    rw [a1]
    exact ⟨w', rfl, a2, a3.iff (itemsFrom_all he h1)⟩
  · have : N = 1 := by omega
    subst this
    obtain ⟨w', a1, a2, a3⟩ := writeElem_ok (env := env) hs hb he (shaped_base hv hb) (off := off) (bit := bit) (i := 0) hbit (by omega) hm
    simp only [gt_iff_lt, h1, if_false]
    have a1 : writeElem env w t bit off 0 = .ok w' := a1
    rw [a1]
    exact ⟨w', rfl, a2, a3⟩

/-- Writing an element of type `t` does what it should. -/
def RecWrites (env : LuaEnv) (s : Server) (rec : WriteRec) (t : Nat) : Prop :=
  ∀ (c : TypeCache) (w : W) (off e : Nat) (l : List (Key × Val)) (r : List Val), Faithful s c → ElemBits s.cdts t e → 8 * off + e ≤ 8 * w.data.length → w.mask.length = w.data.length →
    w.stack = .tbl l :: r → Shaped s.cdts t 1 (.tbl l) →
    ∃ c' w', rec c w t off = .ok (c', w', 0) ∧ Faithful s c' ∧ w'.stack = w.stack ∧ Done env (Items s.cdts t 1 (8 * off) (.tbl l)) w w'

theorem writeTable_ok {env : LuaEnv} {s : Server} {rec : WriteRec} {t e : Nat} (hct : Compound t) (he : ElemBits s.cdts t e) (hrec : RecWrites env s rec t) {c : TypeCache} {w : W} {off : Nat} {v : Val} {r : List Val}
    (hc : Faithful s c) (hl : 8 * off + e ≤ 8 * w.data.length) (hm : w.mask.length = w.data.length) (hs : w.stack = v :: r) (hv : v ≠ .nil → Shaped s.cdts t 1 v) :
    ∃ c' w', writeTable rec c w t off = .ok (c', w', 0, false) ∧ Faithful s c' ∧ w'.stack = w.stack ∧ Done env (Items s.cdts t 1 (8 * off) v) w w' := by
  unfold writeTable
  rw [top_ok hs]
  simp only [C.ok_bind]
  by_cases hn : v = .nil
  · subst hn
    exact ⟨c, w, rfl, hc, rfl, .none rfl rfl fun p ty u h => items_nil h⟩
  · have hv := hv hn
    obtain ⟨l, d, rfl, -⟩ := shaped_struct hv hct
    obtain ⟨c', w', a1, a2, a3, a4⟩ := hrec c w off e l r hc he hl hm hs hv
    simp only
    rw [a1]
    exact ⟨c', w', rfl, a2, a3, a4⟩

theorem writeElems_gen {rec : WriteRec} {s : Server} {fd : Int} {t : Nat} {off byte : Int} {k n : Nat} {c c1 c2 : TypeCache} {w w1 w2 w3 : W} {l : List (Key × Val)} {size x y : Int} {q : C (TypeCache × W × Int)}
    {rest : List Val} (hs : w.stack = .tbl l :: rest)
    (h1 : ctypeSize s fd c t = .ok (c1, size)) (h2 : mulI32 n size = .ok x) (h3 : addI32 byte x = .ok y) (h4 : rawget (.int (n + 1)) w = .ok w1)
    (h5 : writeTable rec c1 w1 t (off + y) = .ok (c2, w2, 0, false)) (h6 : pop w2 = .ok w3) (h7 : writeElems rec s fd t off byte k (n + 1) c2 w3 = q) :
    writeElems rec s fd t off byte (k + 1) n c w = q := by
  conv => lhs; unfold writeElems
  rw [h1]; simp only [C.ok_bind]
  rw [h2]; simp only [C.ok_bind]
  rw [h3]; simp only [C.ok_bind]
  rw [top_ok hs]; simp only [C.ok_bind]
  rw [h4]; simp only [C.ok_bind]
  rw [h5]; simp only [C.ok_bind]
  rw [h6]; simp only [C.ok_bind]
  exact h7

theorem writeElems_ok {env : LuaEnv} {cap : Nat} {s : Server} (hr : Reachable s) {fd : Int} {rec : WriteRec} {t e : Nat} (hf : Fits cap s t) (hct : Compound t) (he : ElemBits s.cdts t e) (hrec : RecWrites env s rec t)
    {l : List (Key × Val)} {r : List Val} {off byte N : Nat} (hN : byte + e / 8 * N < 2147483648) (hv : ∀ i : Nat, i < N → get l (.int (i + 1)) ≠ .nil → Shaped s.cdts t 1 (get l (.int (i + 1)))) :
    ∀ {k n : Nat} {c : TypeCache} {w : W}, n + k = N → Faithful s c → w.stack = .tbl l :: r → 8 * (off + byte) + e * N ≤ 8 * w.data.length → w.mask.length = w.data.length →
    ∃ c' w', writeElems rec s fd t (off : Int) (byte : Int) k n c w = .ok (c', w', 0) ∧ Faithful s c' ∧ w'.stack = w.stack ∧
      Done env (ItemsFrom s.cdts t e N n (8 * (off + byte)) l) w w'
  | 0, n, c, w, hk, hc, _, _, _ => ⟨c, w, rfl, hc, rfl, .none rfl rfl fun p ty v h => by obtain ⟨i, h1, h2, _⟩ := h; omega⟩
  | k + 1, n, c, w, hk, hc, hs, hl, hm => by
    obtain ⟨c1, z, h2, h3, h4, h5⟩ := hf.csize hr he hc (fd := fd)
    subst h4
    have ez : 8 * z / 8 = z := by omega
    rw [ez] at hN
    have hle : z * n + z ≤ z * N := by
      have : z * (n + 1) ≤ z * N := Nat.mul_le_mul_left _ (by omega)
      rw [Nat.mul_add] at this; omega
    have e1 : 8 * (off + byte) + 8 * z * n = 8 * (off + (byte + n * z)) := by rw [Nat.mul_assoc, Nat.mul_comm n z]; omega
    have hmu : mulI32 n z = .ok ((n * z : Nat) : Int) := mulI32_nat (by rw [Nat.mul_comm]; omega)
    have ha : addI32 byte ((n * z : Nat) : Int) = .ok ((byte + n * z : Nat) : Int) := addI32_nat (by rw [Nat.mul_comm n z]; omega)
    have hl' := hl
    rw [Nat.mul_assoc] at hl'
    obtain ⟨c2, w2, a1, a2, a3, a4⟩ := writeTable_ok hct he hrec (c := c1) (w := push (get l (.int (n + 1))) w) (off := off + (byte + n * z)) (r := w.stack) h3
      (by show _ ≤ 8 * w.data.length; rw [Nat.mul_comm n z]; omega) hm rfl (hv n (by omega))
    have hl2 := a4.dlen
    have hm2 := a4.mlen
    have hl3 : (push (get l (.int (n + 1))) w).data.length = w.data.length := rfl
    have hm3 : (push (get l (.int (n + 1))) w).mask.length = w.mask.length := rfl
    rw [← e1] at a4
    obtain ⟨c', w', b1, b2, b3, b4⟩ := writeElems_ok hr hf hct he hrec (r := r) (off := off) (byte := byte) (by rw [ez]; exact hN) hv (k := k) (n := n + 1) (c := c2) (w := { w2 with stack := w.stack }) (by omega) a2 hs
      (by show _ ≤ 8 * w2.data.length; omega) (by show w2.mask.length = w2.data.length; omega) (fd := fd)
    have ey : (off : Int) + ((byte + n * z : Nat) : Int) = ((off + (byte + n * z) : Nat) : Int) := by omega
    refine ⟨c', w', writeElems_gen hs h2 hmu ha (rawget_ok hs) (by rw [ey]; exact a1) (pop_ok a3) b1, b2, b3, ?_⟩
    have hp : t ≠ DAX_BOOL → (8 * (off + byte)) % 8 = 0 := fun _ => by omega
    have a5 : Done env (Items s.cdts t 1 (8 * (off + byte) + 8 * z * n) (get l (.int (n + 1)))) w w2 := a4.stack rfl rfl rfl rfl
    exact a5.seq (b4.stack rfl rfl rfl rfl) (item_lie hr (fun _ => hf) he hp (by omega : n < N)) (itemsFrom_lie hr (fun _ => hf) he hp) (itemsFrom_step (n := n) (N := N) (by omega))

/-- Writing one member. -/
theorem writeMember_ok {env : LuaEnv} {cap : Nat} {s : Server} (hr : Reachable s) {fd : Int} {rec : WriteRec} {nm : Name} {t n e : Nat} (hf : Compound t → Fits cap s t) (he : ElemBits s.cdts t e)
    (hrec : Compound t → RecWrites env s rec t) (hn : 0 < n) {off byte bit : Nat} (hbit : t ≠ DAX_BOOL → bit = 0) (hN : byte + e / 8 * n < 2147483648) {l : List (Key × Val)} {r : List Val}
    (h0 : get l (.str nm) = .nil → Compound t → n = 1) (hv : get l (.str nm) ≠ .nil → Shaped s.cdts t n (get l (.str nm))) {c : TypeCache} (hc : Faithful s c) {w : W}
    (hs : w.stack = .tbl l :: r) (hl : 8 * (off + byte) + bit + e * n ≤ 8 * w.data.length) (hm : w.mask.length = w.data.length) :
    ∃ c' w', writeMember env rec s fd off c w ⟨nm, t, n, byte, bit⟩ = .ok (c', w', 0) ∧ Faithful s c' ∧ w'.stack = w.stack ∧
      Done env (Items s.cdts t n (8 * (off + byte) + bit) (get l (.str nm))) w w' := by
  unfold writeMember
  have eo : (off : Int) + (byte : Int) = ((off + byte : Nat) : Int) := by omega
  rw [rawget_ok hs]
  simp only [C.ok_bind]
  by_cases hct : Compound t
  · obtain rfl := hbit (compound_notBool hct)
    simp only [custom_iff t hct, if_true]
    by_cases h1 : 1 < n
    · have hnn : get l (.str nm) ≠ .nil := fun h => by have := h0 h hct; omega
      obtain ⟨l2, h2, h3⟩ := shaped_arr (hv hnn) h1
      obtain ⟨c', w', a1, a2, a3, a4⟩ := writeElems_ok hr (hf hct) hct he (hrec hct) (off := off) (byte := byte) (r := w.stack) hN h3 (k := n) (n := 0) (c := c) (w := push (get l (.str nm)) w) (by omega) hc
        (by rw [h2]; rfl) (by show _ ≤ 8 * w.data.length; omega) hm (fd := fd)
      simp only [gt_iff_lt, h1, if_true]
      rw [a1]
      simp only [C.ok_bind, ne_eq, not_true_eq_false, if_false]
      rw [pop_ok a3]
      refine ⟨c', _, rfl, a2, rfl, ?_⟩
      have a5 := a4.iff (itemsFrom_all he h1)
      rw [← h2] at a5
      exact a5.stack rfl rfl rfl rfl
    · have : n = 1 := by omega
      subst this
      obtain ⟨c', w', a1, a2, a3, a4⟩ := writeTable_ok hct he (hrec hct) (c := c) (w := push (get l (.str nm)) w) (off := off + byte) (r := w.stack) hc (by show _ ≤ 8 * w.data.length; omega) hm rfl hv
      simp only [gt_iff_lt, h1, if_false]
      rw [eo, a1]
      simp only [C.ok_bind, ne_eq, not_true_eq_false, if_false, Bool.false_eq_true]
      rw [pop_ok a3]
      exact ⟨c', _, rfl, a2, rfl, a4.stack rfl rfl rfl rfl⟩
  · simp only [custom_base he hct, Bool.false_eq_true, if_false]
    rw [top_ok (r := w.stack) rfl]
    simp only [C.ok_bind]
    by_cases hnil : get l (.str nm) = .nil
    · rw [hnil]
      simp only [isNil, if_true]
      rw [pop_ok (r := w.stack) rfl]
      exact ⟨c, _, rfl, hc, rfl, .none rfl rfl fun p ty u h => items_nil h⟩
    · simp only [isNil_false hnil, Bool.false_eq_true, if_false]
      obtain ⟨w', a1, a2, a3⟩ := popBase_ok (env := env) hr hct he hn hbit (hv hnil) (w := push (get l (.str nm)) w) (r := w.stack) rfl hl hm
      rw [eo, a1]
      simp only [C.ok_bind]
      rw [pop_ok a2]
      exact ⟨c, _, rfl, hc, rfl, a3.stack rfl rfl rfl rfl⟩

/-- The items of members. -/
def ItemsOf (tbl : List Cdt) (ms : List Member) (p0 pos : Nat) (l : List (Key × Val)) (p ty : Nat) (u : Val) : Prop :=
  ∃ n m r, Before tbl ms p0 n m r ∧ Items tbl m.type m.count (pos + place m r) (get l (.str n)) p ty u

theorem place_align {m : Member} {r : Nat} (h : m.type ≠ DAX_BOOL) : place m r % 8 = 0 := by
  unfold place
  rw [if_neg h]
  exact (align8_ge r).2.2

theorem itemsOf_lie {cap : Nat} {s : Server} (hr : Reachable s) {ms : List Member} {p0 q pos : Nat} {l : List (Key × Val)} (hE : Ends s.cdts ms p0 q) (hf : ∀ m ∈ ms, Compound m.type → Fits cap s m.type)
    (hp : pos % 8 = 0) : Lies (ItemsOf s.cdts ms p0 pos l) (pos + p0) (pos + q) := by
  refine ⟨fun p ty u h => ?_, fun p ty u h hty => ?_⟩ <;> obtain ⟨n, m, r, hb, h⟩ := h <;> obtain ⟨e, he, -⟩ := hE.elem m hb.mem <;>
    have hle := hb.le hE he <;> have hge := place_ge m r <;>
    have hi := items_lie (n := m.count) (v := get l (.str n)) hr (hf m hb.mem) he (pos := pos + place m r) (fun hb2 => by have := place_align (r := r) hb2; omega)
  · obtain ⟨e', h3, h4, h5⟩ := hi.width p ty u h
    exact ⟨e', h3, by omega, by omega⟩
  · exact hi.align p ty u h hty

theorem writeMembers_gen {env : LuaEnv} {rec : WriteRec} {s : Server} {fd off : Int} {m : Iter} {ms : List Iter} {c c1 : TypeCache} {w w1 : W} {q : C (TypeCache × W × Int)}
    (h1 : writeMember env rec s fd off c w m = .ok (c1, w1, 0)) (h2 : writeMembers env rec s fd off ms c1 w1 0 = q) : writeMembers env rec s fd off (m :: ms) c w 0 = q := by
  conv => lhs; unfold writeMembers
  rw [h1]
  exact h2

theorem writeMembers_ok {env : LuaEnv} {cap : Nat} {s : Server} (hr : Reachable s) {fd : Int} {rec : WriteRec} {off : Nat} {l : List (Key × Val)} {r : List Val} {ms : List Member} {p : Nat} {its : List Iter}
    (hL : Listed s.cdts ms p its) : ∀ {q : Nat} {c : TypeCache} {w : W}, Ends s.cdts ms p q → q ≤ 2147483600 → 8 * off + q ≤ 8 * w.data.length → w.mask.length = w.data.length →
    ms.Pairwise (fun a b => a.name ≠ b.name) → (∀ m ∈ ms, 0 < m.count) → (∀ m ∈ ms, Compound m.type → Fits cap s m.type) → (∀ m ∈ ms, Compound m.type → RecWrites env s rec m.type) →
    (∀ m ∈ ms, get l (.str m.name) = .nil → Compound m.type → m.count = 1) → (∀ m ∈ ms, get l (.str m.name) ≠ .nil → Shaped s.cdts m.type m.count (get l (.str m.name))) →
    Faithful s c → w.stack = .tbl l :: r →
    ∃ c' w', writeMembers env rec s fd off its c w 0 = .ok (c', w', 0) ∧ Faithful s c' ∧ w'.stack = w.stack ∧ Done env (ItemsOf s.cdts ms p (8 * off) l) w w' := by
  induction hL with
  | nil p => exact fun {q c w} _ _ _ _ _ _ _ _ _ _ hc _ => ⟨c, w, rfl, hc, rfl, .none rfl rfl fun p ty v h => by obtain ⟨_, _, _, h, _⟩ := h; cases h⟩
  | cons m ms p e byte bit its he hbit hpos hL ih =>
    intro q c w hE hq hl hm hu hcnt hf hrec h0 hv hc hs
    cases hE with
    | cons _ _ _ e' _ he' hE =>
      have := he'.det he
      subst this
      have hge := hE.ge
      have hu' := List.pairwise_cons.mp hu
      have hbit0 : m.type ≠ DAX_BOOL → bit = 0 := fun hb => by
        have := place_align (r := p) hb
        omega
      have hsz : byte + e' / 8 * m.count < 2147483648 := by
        by_cases hb : m.type = DAX_BOOL
        · have := he.bool hb
          subst this
          simp only [Nat.reduceDiv, Nat.zero_mul]; omega
        · have h8 := he.bytes hb
          have : e' * m.count = 8 * (e' / 8 * m.count) := by
            have : e' = 8 * (e' / 8) := by omega
            rw [← Nat.mul_assoc, ← this]
          omega
      have e1 : 8 * (off + byte) + bit = 8 * off + place m p := by omega
      obtain ⟨c1, w1, a1, a2, a3, a4⟩ := writeMember_ok (env := env) hr (nm := m.name) (hf m (.head _)) he (hrec m (.head _)) (hcnt m (.head _)) (off := off) (byte := byte) (bit := bit) hbit0 hsz
        (h0 m (.head _)) (hv m (.head _)) hc hs (by omega) hm (fd := fd)
      rw [e1] at a4
      have hl2 := a4.dlen
      have hm2 := a4.mlen
      obtain ⟨c', w', b1, b2, b3, b4⟩ := ih (c := c1) (w := w1) hE hq (by omega) (by omega) hu'.2 (fun x hx => hcnt x (.tail _ hx)) (fun x hx => hf x (.tail _ hx)) (fun x hx => hrec x (.tail _ hx))
        (fun x hx => h0 x (.tail _ hx)) (fun x hx => hv x (.tail _ hx)) a2 (by rw [a3]; exact hs)
      refine ⟨c', w', writeMembers_gen a1 b1, b2, b3.trans a3, ?_⟩
      have l1 := items_lie (n := m.count) (v := get l (.str m.name)) hr (hf m (.head _)) he (pos := 8 * off + place m p) (fun hb2 => by have := place_align (r := p) hb2; omega)
      have l2 := itemsOf_lie (l := l) (pos := 8 * off) hr hE (fun x hx => hf x (.tail _ hx)) (by omega)
      rw [← Nat.add_assoc] at l2
      refine a4.seq b4 l1 l2 fun p' ty u => ?_
      constructor
      · rintro ⟨n, x, r, hb, h⟩
        cases hb with
        | here => exact .inl h
        | later _ _ _ e2 _ _ _ hn he2 hb =>
          have := he2.det he
          subst this
          exact .inr ⟨n, x, r, hb, h⟩
      · rintro (h | ⟨n, x, r, hb, h⟩)
        · exact ⟨m.name, m, p, .here m ms p, h⟩
        · exact ⟨n, x, r, .later m ms p e' n x r (by rw [hb.name]; exact (hu'.1 x hb.mem).symm) he hb, h⟩

theorem writeStruct_ok {env : LuaEnv} {cap : Nat} {s : Server} (hr : Reachable s) {fd : Int} {fuel : Nat} : ∀ {t : Nat}, t - 2147483648 < fuel → Fits cap s t →
    (∀ e, ElemBits s.cdts t e → e ≤ 2147483600) → RecWrites env s (writeStruct env s fd fuel) t := by
  induction fuel with
  | zero => exact fun h => absurd h (Nat.not_lt_zero _)
  | succ fuel ih =>
    intro t hfu hf hsm c w off e l r hc he hl hm hs hv
    obtain ⟨d, q, K⟩ := hf.known hr.wf
    have heq : e = 8 * ((q + 7) / 8) := he.det K.elem
    have hq := hsm e he
    obtain ⟨c1, its, h1, h2, h3⟩ := cdtIter_ok hr K hc (fd := fd) (by omega)
    have hu := members_uniq hr K.ent
    have hin : ∀ m ∈ d.members, Compound m.type → RecWrites env s (writeStruct env s fd fuel) m.type := fun m hm hcm => by
      have hlt := member_type_lt hr K.comp K.ent hm
      have hlt2 : m.type - 2147483648 < fuel := fuel_step hfu hlt hcm.1
      refine ih hlt2 (K.sub m hm hcm) fun e' he' => ?_
      obtain ⟨e2, he2, hle⟩ := K.ends.elem m hm
      have := he2.det he'
      subst this
      have := (K.counts m hm).1
      have : e2 * 1 ≤ e2 * m.count := Nat.mul_le_mul_left _ this
      omega
    obtain ⟨l', d', hl', hd', g1, g2⟩ := shaped_struct hv K.comp
    cases hl'
    have := K.det hd'
    subst this
    obtain ⟨c', w', h4, h5, h6, h7⟩ := writeMembers_ok (env := env) hr h3 (fd := fd) (rec := writeStruct env s fd fuel) (off := off) (l := l) (r := r) (c := c1) (w := w) K.ends (by omega) (by omega) hm hu
      (fun m hm => (K.counts m hm).1) K.sub hin g1 g2 h2 hs
    refine ⟨c', w', ?_, h5, h6, h7.iff fun p ty u => ?_⟩
    · conv => lhs; unfold writeStruct
      rw [h1]
      exact h4
    · constructor
      · rintro ⟨ks, o, ha, rfl, rfl⟩
        cases ha with
        | one _ h => exact absurd K.comp h
        | all _ _ h => exact absurd K.comp h
        | elem _ _ _ _ _ _ _ _ h => omega
        | member _ d2 n m r ks _ _ o hc' hd hb ha =>
          have := K.det hd
          subst this
          exact ⟨n, m, r, hb, ks, o, ha, by omega, rfl⟩
      · rintro ⟨n, m, r, hb, ks, o, ha, rfl, rfl⟩
        exact ⟨.str n :: ks, place m r + o, .member t _ n m r ks ty 1 o K.comp K.ent hb ha, by omega, rfl⟩

end Dax.Lua
