import Verif.Model.Basic
/-!
# Lemmas about strings, buffers and fixed-width numbers
-/
namespace Dax

/-! ## `strcmp` is a strict total order -/

theorem strcmp_refl (a : Name) : strcmp a a = .eq := by
  induction a with
  | nil => rfl
  | cons x xs ih => simp [strcmp, ih]

theorem strcmp_eq_iff {a b : Name} : strcmp a b = .eq ↔ a = b := by
  constructor
  · induction a generalizing b with
    | nil => cases b <;> simp [strcmp]
    | cons x xs ih =>
      cases b with
      | nil => simp [strcmp]
      | cons y ys =>
        simp only [strcmp]
        split
        · simp
        · split
          · simp
          · intro h
            have : x.toNat = y.toNat := by omega
            rw [BitVec.eq_of_toNat_eq this, ih h]
  · rintro rfl; exact strcmp_refl _

theorem strcmp_gt_iff {a b : Name} : strcmp a b = .gt ↔ strcmp b a = .lt := by
  induction a generalizing b with
  | nil => cases b <;> simp [strcmp]
  | cons x xs ih =>
    cases b with
    | nil => simp [strcmp]
    | cons y ys =>
      simp only [strcmp]
      by_cases h1 : x.toNat < y.toNat
      · have : ¬ y.toNat < x.toNat := by omega
        simp [h1, this]
      · by_cases h2 : y.toNat < x.toNat
        · simp [h1, h2]
        · simp [h1, h2, ih]

theorem strcmp_lt_trans {a b c : Name} (h1 : strcmp a b = .lt) (h2 : strcmp b c = .lt) :
    strcmp a c = .lt := by
  induction a generalizing b c with
  | nil =>
    cases c with
    | nil => cases b <;> simp [strcmp] at h1 h2
    | cons z zs => rfl
  | cons x xs ih =>
    cases b with
    | nil => simp [strcmp] at h1
    | cons y ys =>
      cases c with
      | nil => simp [strcmp] at h2
      | cons z zs =>
        simp only [strcmp] at h1 h2 ⊢
        split at h1
        · split at h2
          · rw [if_pos (by omega)]
          · split at h2
            · simp at h2
            · rw [if_pos (by omega)]
        · split at h1
          · simp at h1
          · split at h2
            · rw [if_pos (by omega)]
            · split at h2
              · simp at h2
              · rw [if_neg (by omega), if_neg (by omega)]
                exact ih h1 h2

theorem strcmp_lt_irrefl (a : Name) : strcmp a a ≠ .lt := by
  rw [strcmp_refl]; simp

/-! ## Buffers -/

theorem rd_ok {b : List Byte} {off n : Int} {d : List Byte} :
    rd b off n = .ok d ↔
      (0 ≤ off ∧ 0 ≤ n ∧ off + n ≤ b.length) ∧ d = (b.drop off.toNat).take n.toNat := by
  unfold rd
  split
  next h => simp [h, eq_comm]
  next h => simp [h]

theorem wr_ok {b : List Byte} {off : Int} {d b' : List Byte} :
    wr b off d = .ok b' ↔
      (0 ≤ off ∧ off + d.length ≤ b.length) ∧
        b' = b.take off.toNat ++ d ++ b.drop (off.toNat + d.length) := by
  unfold wr
  split
  next h => simp [h, eq_comm]
  next h => simp [h]

theorem rd_length {b : List Byte} {off n : Int} {d : List Byte} (h : rd b off n = .ok d) :
    d.length = n.toNat := by
  obtain ⟨h, rfl⟩ := rd_ok.mp h
  simp; omega

theorem wr_length {b : List Byte} {off : Int} {d b' : List Byte} (h : wr b off d = .ok b') :
    b'.length = b.length := by
  obtain ⟨h, rfl⟩ := wr_ok.mp h
  simp; omega

/-- Byte by byte description of a store. -/
theorem wr_get {b : List Byte} {off : Int} {d b' : List Byte} (h : wr b off d = .ok b') (i : Nat) :
    b'[i]? = if off.toNat ≤ i ∧ i < off.toNat + d.length then d[i - off.toNat]? else b[i]? := by
  obtain ⟨h, rfl⟩ := wr_ok.mp h
  by_cases h1 : i < off.toNat
  · rw [if_neg (by omega), List.append_assoc, List.getElem?_append_left (by simp; omega)]
    simp [h1]
  · by_cases h2 : i < off.toNat + d.length
    · rw [if_pos (by omega), List.getElem?_append_left (by simp; omega),
        List.getElem?_append_right (by simp; omega)]
      simp
      congr 1; omega
    · rw [if_neg (by omega), List.getElem?_append_right (by simp; omega)]
      simp
      congr 1; omega

/-- Byte by byte description of a load. -/
theorem rd_get {b : List Byte} {off n : Int} {d : List Byte} (h : rd b off n = .ok d) (i : Nat) :
    d[i]? = if i < n.toNat then b[off.toNat + i]? else none := by
  obtain ⟨h, rfl⟩ := rd_ok.mp h
  simp [List.getElem?_take]

/-- Loading a range just stored gives the stored bytes. -/
theorem rd_wr_same {b : List Byte} {off : Int} {d b' : List Byte} (h : wr b off d = .ok b') :
    rd b' off d.length = .ok d := by
  have hl := wr_length h
  have hg := wr_get h
  obtain ⟨h, -⟩ := wr_ok.mp h
  rw [rd_ok]
  refine ⟨⟨h.1, by omega, by omega⟩, ?_⟩
  apply List.ext_getElem?
  intro i
  rw [List.getElem?_take, List.getElem?_drop]
  simp only [Int.toNat_natCast]
  split
  · rw [hg, if_pos (by omega)]; congr 1; omega
  · rw [List.getElem?_eq_none (by omega)]

/-- Loading a range disjoint from the stored one is unaffected. -/
theorem rd_wr_disjoint {b : List Byte} {off : Int} {d b' : List Byte} (h : wr b off d = .ok b')
    {o n : Int} (hd : o + n ≤ off ∨ off + d.length ≤ o) : rd b' o n = rd b o n := by
  have hl := wr_length h
  have hg := wr_get h
  obtain ⟨h, -⟩ := wr_ok.mp h
  unfold rd
  rw [hl]
  split
  · congr 1
    apply List.ext_getElem?
    intro i
    simp only [List.getElem?_take, List.getElem?_drop]
    split
    · rw [hg, if_neg (by omega)]
    · rfl
  · rfl

theorem rd_total {b : List Byte} {off n : Int} (h : 0 ≤ off ∧ 0 ≤ n ∧ off + n ≤ b.length) :
    ∃ d, rd b off n = .ok d := ⟨_, rd_ok.mpr ⟨h, rfl⟩⟩

theorem wr_total {b : List Byte} {off : Int} {d : List Byte}
    (h : 0 ≤ off ∧ off + d.length ≤ b.length) : ∃ b', wr b off d = .ok b' :=
  ⟨_, wr_ok.mpr ⟨h, rfl⟩⟩

/-! ## Numbers -/

theorem toLE_length (n v : Nat) : (toLE n v).length = n := by
  induction n generalizing v with
  | zero => rfl
  | succ n ih => simp [toLE, ih]

theorem le4_length (v : Int) : (le4 v).length = 4 := toLE_length _ _

theorem leNat_toLE (n v : Nat) : leNat (toLE n v) = v % 256 ^ n := by
  induction n generalizing v with
  | zero => simp [toLE, leNat, Nat.mod_one]
  | succ n ih =>
    simp only [toLE, leNat, ih, BitVec.toNat_ofNat]
    rw [show 256 ^ (n + 1) = 256 * 256 ^ n by rw [Nat.pow_succ]; omega, Nat.mod_mul]

theorem leNat_lt (b : List Byte) : leNat b < 256 ^ b.length := by
  induction b with
  | nil => simp [leNat]
  | cons x xs ih =>
    simp only [leNat, List.length_cons, Nat.pow_succ]
    have := x.isLt
    omega

theorem toLE_leNat (b : List Byte) : toLE b.length (leNat b) = b := by
  induction b with
  | nil => rfl
  | cons x xs ih =>
    simp only [List.length_cons, toLE, leNat]
    have hx := x.isLt
    congr 1
    · apply BitVec.eq_of_toNat_eq
      simp; omega
    · rw [show (x.toNat + 256 * leNat xs) / 256 = leNat xs by omega, ih]

theorem u32_lt (x : Int) : u32 x < 4294967296 := by unfold u32; omega

theorem i32_range (x : Int) : -2147483648 ≤ i32 x ∧ i32 x < 2147483648 := by
  unfold i32; split <;> omega

theorem i32_of_range {x : Int} (h : -2147483648 ≤ x ∧ x < 2147483648) : i32 x = x := by
  unfold i32; split <;> omega

theorem u32_of_range {x : Int} (h : 0 ≤ x ∧ x < 4294967296) : (u32 x : Int) = x := by
  unfold u32; omega

theorem i32_u32 (x : Int) : i32 (u32 x) = i32 x := by
  unfold i32 u32; split <;> split <;> omega

theorem addI32_ok {a b c : Int} :
    addI32 a b = .ok c ↔ (-2147483648 ≤ a + b ∧ a + b < 2147483648) ∧ c = a + b := by
  unfold addI32
  split
  next h => simp [h, eq_comm]
  next h => simp [h]

/-- Sending an `int` and reading it back. -/
theorem i32_leNat_le4 {v : Int} (h : -2147483648 ≤ v ∧ v < 2147483648) :
    i32 (leNat (le4 v)) = v := by
  unfold le4
  rw [leNat_toLE]
  have := u32_lt v
  rw [Nat.mod_eq_of_lt (by simpa using this), i32_u32, i32_of_range h]

end Dax
