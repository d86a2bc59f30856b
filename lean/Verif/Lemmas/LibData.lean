import Verif.Spec.LibData
import Verif.Lemmas.Wire
import Verif.Lemmas.Access
/-!
# Lemmas about transfers that are broken up
-/
set_option autoImplicit false
namespace Dax.LibData
open Wire (shifted shiftSize shiftLoop)

/-- What one step of a transfer does. -/
def Sends (fd : Int) (send : Server → Nat → Nat → C (Server × Log × Int × List Byte)) (mk : Nat → Nat → Req) (base lim size : Nat) : Prop :=
  ∀ s n k s' l e d, 0 < k → k ≤ lim → n + k ≤ size → send s n k = .ok (s', l, e, d) →
    ∃ r, handle s fd (mk (base + n) k) = .ok (s', r) ∧ l = [(mk (base + n) k, r)] ∧
      ((r = .resp d ∧ e = 0) ∨ (r = .err e ∧ e ≠ 0 ∧ d = []))

theorem Happened.cons {s s1 s' : Server} {fd : Int} {q : Req} {r : Reply} {l : Log} (h : handle s fd q = .ok (s1, r))
    (hl : Happened s1 fd l s') : Happened s fd ((q, r) :: l) s' := by
  unfold Happened at hl ⊢
  simp only [List.map_cons, runR]
  rw [h, C.ok_bind]
  dsimp only
  rw [hl]; rfl

theorem chunk_ok {fd : Int} {send : Server → Nat → Nat → C (Server × Log × Int × List Byte)} {mk : Nat → Nat → Req}
    {base lim size ts : Nat} (hs : Sends fd send mk base lim size) (h0 : 0 < ts) (h1 : ts ≤ lim) (hd : ts ∣ size) :
    ∀ (fuel n : Nat) (s s' : Server) (l : Log) (o : Outcome) (d : List Byte), n ≤ size → ts ∣ n → size - n < fuel →
    chunkLoop send lim ts fuel s ((size : Int) - n) n = .ok (s', l, o, d) →
    ∃ code, o = .done code ∧ Split mk lim ts (base + n) (size - n) l code ∧ Happened s fd l s' ∧ d = answers l := by
  intro fuel
  induction fuel with
  | zero => intro n s s' l o d _ _ hf _; omega
  | succ fuel ih =>
    intro n s s' l o d hn hdn hf hc
    rw [chunkLoop] at hc
    split at hc
    · simp only [C.ok.injEq, Prod.mk.injEq] at hc
      obtain ⟨rfl, rfl, rfl, rfl⟩ := hc
      have : size - n = 0 := by omega
      rw [this]
      exact ⟨0, rfl, .done _, rfl, rfl⟩
    · rw [if_neg (by omega)] at hc
      have hdd : ts ∣ size - n := Nat.dvd_sub hd hdn
      obtain ⟨r, hr, hr0, hrl, hrn, hrd⟩ : ∃ r : Nat, ((if ((size : Int) - n) < lim then ((size : Int) - n) else lim) -
          (if ((size : Int) - n) < lim then ((size : Int) - n) else lim).tmod ts) = (r : Int) ∧ 0 < r ∧ r ≤ lim ∧ n + r ≤ size ∧ ts ∣ r := by
        split
        · refine ⟨size - n, ?_, by omega, by omega, by omega, hdd⟩
          have e : ((size : Int) - n) = ((size - n : Nat) : Int) := by omega
          rw [e, ← Int.ofNat_tmod, Nat.mod_eq_zero_of_dvd hdd]; omega
        · have hlt := Nat.mod_lt lim h0
          have hle := Nat.mod_le lim ts
          refine ⟨lim - lim % ts, ?_, by omega, by omega, by omega, Nat.dvd_sub_mod lim⟩
          rw [← Int.ofNat_tmod]; omega
      simp only [hr, Int.toNat_natCast] at hc
      obtain ⟨⟨s1, l1, e, d1⟩, h2, hc⟩ := C.bind_eq_ok.mp hc
      obtain ⟨rep, g1, rfl, g3⟩ := hs s n r s1 l1 e d1 hr0 hrl hrn h2
      dsimp only at hc
      rcases g3 with ⟨rfl, rfl⟩ | ⟨rfl, g4, rfl⟩
      · rw [if_neg (by simp), if_neg (by omega)] at hc
        obtain ⟨⟨s2, l2, o2, d2⟩, h3, hc⟩ := C.bind_eq_ok.mp hc
        simp only [C.ok.injEq, Prod.mk.injEq] at hc
        obtain ⟨rfl, rfl, rfl, rfl⟩ := hc
        have e : ((size : Int) - n - r) = (size : Int) - ((n + r : Nat) : Int) := by omega
        rw [e] at h3
        obtain ⟨code, i1, i2, i3, i4⟩ := ih (n + r) s1 _ _ _ _ hrn (Nat.dvd_add hdn hrd) (by omega) h3
        refine ⟨code, i1, ?_, i3.cons g1, ?_⟩
        · rw [List.cons_append, List.nil_append]
          refine .step _ _ r _ _ _ hr0 hrl (by omega) hrd ?_
          rw [Nat.add_assoc, Nat.sub_sub]; exact i2
        · rw [List.cons_append, List.nil_append, answers, i4]
      · rw [if_pos g4] at hc
        simp only [C.ok.injEq, Prod.mk.injEq] at hc
        obtain ⟨rfl, rfl, rfl, rfl⟩ := hc
        refine ⟨e, rfl, .stop _ _ r e hr0 hrl (by omega) hrd g4, ?_, rfl⟩
        exact Happened.cons g1 rfl

theorem i32_id {n : Nat} (h : n ≤ 2147483647) : i32 (n : Int) = n := i32_of_range ⟨by omega, by omega⟩

/-- A transfer of `size` bytes for a handle of `hsize`. -/
theorem transfer_ok {fd : Int} {send : Server → Nat → Nat → C (Server × Log × Int × List Byte)} {mk : Nat → Nat → Req}
    {base lim tlim size hsize type ts : Nat} {c : TypeCache} {s : Server} (hs : Sends fd send mk base lim size) (h0 : 0 < ts) (h1 : ts ≤ lim)
    (hd : ts ∣ size) (ht : ts ≤ tlim) (hu : lim < hsize → ∃ c', ctypeSize s fd c type = .ok (c', (ts : Int))) (hsz : 0 < size)
    (hsm : size ≤ 2147483647) (hle : hsize ≤ lim → size ≤ lim)
    {s' : Server} {c' : TypeCache} {l : Log} {o : Outcome} {d : List Byte}
    (hh : transfer send lim tlim s fd c type hsize size = .ok (s', c', l, o, d)) :
    ∃ code, o = .done code ∧ Split mk lim ts base size l code ∧ Happened s fd l s' ∧ d = answers l := by
  unfold transfer at hh
  split at hh
  · rename_i hgt
    obtain ⟨c1, hc1⟩ := hu hgt
    rw [hc1, C.ok_bind] at hh
    dsimp only at hh
    rw [if_neg (by omega)] at hh
    obtain ⟨⟨s1, l1, o1, d1⟩, h2, hh⟩ := C.bind_eq_ok.mp hh
    simp only [C.ok.injEq, Prod.mk.injEq] at hh
    obtain ⟨rfl, rfl, rfl, rfl, rfl⟩ := hh
    rw [i32_id hsm] at h2
    have e : ((size : Nat) : Int) = (size : Int) - ((0 : Nat) : Int) := by omega
    rw [e] at h2
    have := chunk_ok hs h0 h1 hd (size + 1) 0 s _ _ _ _ (by omega) (Nat.dvd_zero _) (by omega) h2
    simpa using this
  · rename_i hgt
    obtain ⟨⟨s1, l1, e, d1⟩, h2, hh⟩ := C.bind_eq_ok.mp hh
    simp only [C.ok.injEq, Prod.mk.injEq] at hh
    obtain ⟨rfl, rfl, rfl, rfl, rfl⟩ := hh
    obtain ⟨rep, g1, rfl, g3⟩ := hs s 0 size s1 l1 e d1 hsz (hle (by omega)) (by omega) h2
    rw [Nat.add_zero] at g1 ⊢
    rcases g3 with ⟨rfl, rfl⟩ | ⟨rfl, g4, rfl⟩
    · refine ⟨0, rfl, ?_, Happened.cons g1 rfl, ?_⟩
      · refine .step _ _ size _ _ _ hsz (hle (by omega)) (Nat.le_refl _) hd ?_
        rw [Nat.sub_self]; exact .done _
      · simp [answers]
    · exact ⟨e, rfl, .stop _ _ size e hsz (hle (by omega)) (Nat.le_refl _) hd g4, Happened.cons g1 rfl, rfl⟩


/-! ## The three kinds of steps -/

/-- Data, or an error that is not 0. -/
def Answered (r : Reply) : Prop := (∃ d, r = .resp d) ∨ ∃ e, r = .err e ∧ e ≠ 0

theorem read_answered {s s' : Server} {fd i o n : Int} {r : Reply} (hn : n ≤ 4088) (h : handle s fd (.tagRead i o n) = .ok (s', r)) :
    Answered r := by
  simp only [handle, hTagRead] at h
  obtain ⟨⟨s1, x⟩, hx, h⟩ := C.bind_eq_ok.mp h
  cases x with
  | ok d =>
    dsimp only at h
    split at h
    · simp at h
    · rw [if_neg (by have : (MSG_DATA_SIZE : Int) = 4088 := rfl; omega)] at h
      simp only [C.ok.injEq, Prod.mk.injEq] at h
      exact .inl ⟨_, h.2.symm⟩
  | error e =>
    simp only [C.ok.injEq, Prod.mk.injEq] at h
    refine .inr ⟨e, h.2.symm, ?_⟩
    unfold tagRead at hx
    split at hx
    · simp only [C.ok.injEq, Prod.mk.injEq, Except.error.injEq] at hx
      rw [← hx.2]; decide
    · split at hx
      · unfold virtRead at hx
        split at hx
        · obtain ⟨d, -, hx⟩ := C.bind_eq_ok.mp hx
          simp at hx
        · repeat' split at hx
          all_goals simp only [C.ok.injEq, Prod.mk.injEq, Except.error.injEq, reduceCtorEq, and_false] at hx
          all_goals (rw [← hx.2]; decide)
        · obtain ⟨q, -, hx⟩ := C.bind_eq_ok.mp hx
          split at hx
          · simp only [C.ok.injEq, Prod.mk.injEq, Except.error.injEq] at hx
            rw [← hx.2]; decide
          · simp at hx
        · simp at hx
      · obtain ⟨a, -, hx⟩ := C.bind_eq_ok.mp hx
        obtain ⟨b, -, hx⟩ := C.bind_eq_ok.mp hx
        split at hx
        · simp only [C.ok.injEq, Prod.mk.injEq, Except.error.injEq] at hx
          rw [← hx.2]; decide
        · split at hx
          · simp only [C.ok.injEq, Prod.mk.injEq, Except.error.injEq] at hx
            rw [← hx.2]; decide
          · obtain ⟨d, -, hx⟩ := C.bind_eq_ok.mp hx
            split at hx
            · obtain ⟨d', -, hx⟩ := C.bind_eq_ok.mp hx
              simp at hx
            · simp at hx
          · simp at hx

theorem write_answered {s s' : Server} {fd i o : Int} {d : List Byte} {r : Reply} (h : handle s fd (.tagWrite i o d) = .ok (s', r)) :
    Answered r := by
  simp only [handle, hTagWrite] at h
  obtain ⟨b, -, h⟩ := C.bind_eq_ok.mp h
  split at h
  · simp only [C.ok.injEq, Prod.mk.injEq] at h
    exact .inr ⟨_, h.2.symm, by decide⟩
  · obtain ⟨⟨s1, x⟩, -, h⟩ := C.bind_eq_ok.mp h
    split at h
    · rename_i hne
      simp only [C.ok.injEq, Prod.mk.injEq] at h
      exact .inr ⟨_, h.2.symm, hne⟩
    · obtain ⟨s2, -, h⟩ := C.bind_eq_ok.mp h
      simp only [C.ok.injEq, Prod.mk.injEq] at h
      exact .inl ⟨_, h.2.symm⟩

theorem mwrite_answered {s s' : Server} {fd i o : Int} {d m : List Byte} {r : Reply} (h : handle s fd (.tagMWrite i o d m) = .ok (s', r)) :
    Answered r := by
  simp only [handle, hTagMWrite] at h
  obtain ⟨b, -, h⟩ := C.bind_eq_ok.mp h
  split at h
  · simp only [C.ok.injEq, Prod.mk.injEq] at h
    exact .inr ⟨_, h.2.symm, by decide⟩
  · obtain ⟨⟨s1, x⟩, -, h⟩ := C.bind_eq_ok.mp h
    split at h
    · rename_i hne
      simp only [C.ok.injEq, Prod.mk.injEq] at h
      exact .inr ⟨_, h.2.symm, hne⟩
    · obtain ⟨s2, -, h⟩ := C.bind_eq_ok.mp h
      simp only [C.ok.injEq, Prod.mk.injEq] at h
      exact .inl ⟨_, h.2.symm⟩

theorem transact_inv {s s' : Server} {fd : Int} {q : Req} {l : Log} {e : Int} {d : List Byte}
    (ha : ∀ s' r, handle s fd q = .ok (s', r) → Answered r) (h : transact s fd q = .ok (s', l, e, d)) :
    ∃ r, handle s fd q = .ok (s', r) ∧ l = [(q, r)] ∧ ((r = .resp d ∧ e = 0) ∨ (r = .err e ∧ e ≠ 0 ∧ d = [])) := by
  unfold transact at h
  obtain ⟨⟨s1, r⟩, h1, h⟩ := C.bind_eq_ok.mp h
  rcases ha _ _ h1 with ⟨d', rfl⟩ | ⟨e', rfl, he⟩
  · simp only [C.ok.injEq, Prod.mk.injEq] at h
    obtain ⟨rfl, rfl, rfl, rfl⟩ := h
    exact ⟨_, h1, rfl, .inl ⟨rfl, rfl⟩⟩
  · simp only [C.ok.injEq, Prod.mk.injEq] at h
    obtain ⟨rfl, rfl, rfl, rfl⟩ := h
    exact ⟨_, h1, rfl, .inr ⟨rfl, he, rfl⟩⟩

theorem part_inv {d x : List Byte} {n k : Nat} (h : part d n k = .ok x) : x = slice d n k ∧ x.length = k ∧ n + k ≤ d.length := by
  unfold part at h
  have hl := rd_length h
  rw [rd_ok] at h
  refine ⟨?_, by omega, by omega⟩
  rw [h.2]; unfold slice; simp

theorem off_ok {a n k size : Nat} (h : a + size ≤ 2147483647) (hn : n + k ≤ size) :
    i32 (((a + n) % 4294967296 : Nat) : Int) = ((a + n : Nat) : Int) := by
  rw [Nat.mod_eq_of_lt (by omega), i32_id (by omega)]

theorem sends_read {fd idx : Int} {base lim size : Nat} (hb : base + size ≤ 2147483647) (hl : lim ≤ 4088) :
    Sends fd (fun s n k => daxRead s fd idx ((base + n) % 4294967296) k) (readOf idx) base lim size := by
  intro s n k s' l e d h0 hk hn h
  dsimp only at h
  unfold daxRead at h
  rw [if_neg (by have : MSG_DATA_SIZE = 4088 := rfl; omega), off_ok hb hn] at h
  exact transact_inv (fun s' r => read_answered (by omega)) h

theorem sends_write {fd idx : Int} {base lim size : Nat} {data : List Byte} (hb : base + size ≤ 2147483647) (hl : lim ≤ 4080) :
    Sends fd (fun s n k => do
      let d ← part data n k
      daxWrite s fd idx ((base + n) % 4294967296) d) (writeOf idx base data) base lim size := by
  intro s n k s' l e d h0 hk hn h
  obtain ⟨x, hx, h⟩ := C.bind_eq_ok.mp h
  obtain ⟨rfl, hxl, -⟩ := part_inv hx
  unfold daxWrite at h
  rw [if_neg (by have : MSG_DATA_SIZE = 4088 := rfl; omega), off_ok hb hn] at h
  unfold writeOf
  rw [show base + n - base = n by omega]
  exact transact_inv (fun s' r => write_answered) h

theorem sends_mask {fd idx : Int} {base lim size : Nat} {data mask : List Byte} (hb : base + size ≤ 2147483647) (hl : lim ≤ 2040) :
    Sends fd (fun s n k => do
      let d ← part data n k
      let m ← part mask n k
      daxMask s fd idx ((base + n) % 4294967296) d m) (maskOf idx base data mask) base lim size := by
  intro s n k s' l e d h0 hk hn h
  obtain ⟨x, hx, h⟩ := C.bind_eq_ok.mp h
  obtain ⟨y, hy, h⟩ := C.bind_eq_ok.mp h
  obtain ⟨rfl, hxl, -⟩ := part_inv hx
  obtain ⟨rfl, hyl, -⟩ := part_inv hy
  unfold daxMask at h
  rw [if_neg (by have : MSG_DATA_SIZE = 4088 := rfl; omega), off_ok hb hn] at h
  unfold maskOf
  rw [show base + n - base = n by omega]
  exact transact_inv (fun s' r => mwrite_answered) h

end Dax.LibData
