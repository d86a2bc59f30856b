import Verif.Spec.LibRecv
import Verif.Lemmas.Basic
/-!
# Lemmas for the reading of messages
-/
set_option autoImplicit false
namespace Dax.LibRecv
open LibEv (Msg be4)

theorem upTo_le (cut : Nat → Bool) (n p : Nat) : upTo cut n p ≤ n := by
  induction n generalizing p with
  | zero => simp [upTo]
  | succ n ih =>
    unfold upTo
    split
    · omega
    · have := ih (p + 1); omega

theorem upTo_pos (cut : Nat → Bool) {n : Nat} (p : Nat) (h : 0 < n) : 0 < upTo cut n p := by
  cases n with
  | zero => omega
  | succ n => unfold upTo; split <;> omega

theorem upTo_cut {cut : Nat → Bool} {n p q : Nat} (hc : cut q = true) (h : p < q) :
    upTo cut n p ≤ q - p := by
  induction n generalizing p with
  | zero => simp [upTo]
  | succ n ih =>
    unfold upTo
    split
    · omega
    · rename_i hn
      have : p + 1 ≠ q := by rintro rfl; exact hn hc
      have := ih (p := p + 1) (by omega)
      omega

theorem upTo_whole {cut : Nat → Bool} {n p : Nat} (h : ∀ k, 0 < k → k < n → cut (p + k) = false) :
    upTo cut n p = n := by
  induction n generalizing p with
  | zero => rfl
  | succ n ih =>
    unfold upTo
    by_cases hn : n = 0
    · subst hn
      split
      · rfl
      · simp [upTo]
    · rw [if_neg (by rw [h 1 (by omega) (by omega)]; simp), ih]
      · omega
      · intro k h1 h2
        have := h (1 + k) (by omega) (by omega)
        rw [← this]; congr 1; omega

theorem read_ok {w : Net} {n : Nat} {a b : List Byte} (hs : w.pos ∉ w.stalls)
    (hd : w.stream.drop w.pos = a ++ b) (ha : 0 < a.length) (hn : 0 < n) (hle : upTo w.cut n w.pos ≤ a.length) :
    read w n = (some (a.take (upTo w.cut n w.pos)), { w with pos := w.pos + upTo w.cut n w.pos }) := by
  unfold read
  rw [if_neg hs]
  have : (w.stream.drop w.pos).take (upTo w.cut n w.pos) = a.take (upTo w.cut n w.pos) := by
    rw [hd, List.take_append_of_le_length hle]
  simp only [this, List.length_take, Nat.min_eq_left hle]

/-- Storing the next piece of `a` where it belongs. -/
theorem wr_piece {buff a : List Byte} {i k : Nat} (hb : a.length ≤ buff.length) (hi : buff.take i = a.take i)
    (hk : i + k ≤ a.length) :
    ∃ buff', wr buff i ((a.drop i).take k) = .ok buff' ∧ buff'.length = buff.length ∧
      buff'.take (i + k) = a.take (i + k) := by
  have hl : ((a.drop i).take k).length = k := by simp; omega
  obtain ⟨b', hb'⟩ := wr_total (b := buff) (d := (a.drop i).take k) (off := i) (by omega)
  refine ⟨b', hb', wr_length hb', ?_⟩
  apply List.ext_getElem?
  intro j
  rw [List.getElem?_take, List.getElem?_take]
  split
  · rename_i hj
    rw [wr_get hb', hl]
    split
    · rename_i hr
      rw [List.getElem?_take, if_pos (by omega), List.getElem?_drop]
      congr 1; omega
    · rename_i hr
      have hji : j < i := by omega
      have := congrArg (·[j]?) hi
      simpa [List.getElem?_take, hji] using this
  · rfl

theorem hdrLoop_ok {f : Nat} : ∀ {w : Net} {buff h rest : List Byte} {p i : Nat}, h.length = 8 → i < 8 →
    8 - i < f → 8 ≤ buff.length → w.stream.drop p = h ++ rest → w.pos = p + i →
    (∀ j, i ≤ j → j < 8 → p + j ∉ w.stalls) →
    (i = 0 ∧ (∀ k, 0 < k → k < 8 → w.cut (p + k) = false) ∨ w.cut (p + 8) = true) →
    buff.take i = h.take i →
    ∃ buff', hdrLoop f w buff i = .ok (.ok buff', { w with pos := p + 8 }) ∧
      buff'.length = buff.length ∧ buff'.take 8 = h := by
  induction f with
  | zero => intros; omega
  | succ f ih =>
    intro w buff h rest p i hh hi hf hb hd hp hst hcut hbi
    have hd' : w.stream.drop w.pos = h.drop i ++ rest := by
      rw [hp, ← List.drop_drop, hd, List.drop_append_of_le_length (by omega)]
    have hle : upTo w.cut 8 w.pos ≤ 8 - i := by
      rcases hcut with ⟨rfl, -⟩ | hc
      · exact upTo_le _ _ _
      · have := upTo_cut (n := 8) hc (p := w.pos) (by omega)
        omega
    have hpos := upTo_pos w.cut (n := 8) w.pos (by decide)
    have hr := read_ok (w := w) (n := 8) (by rw [hp]; exact hst i (Nat.le_refl _) hi) hd' (by simp; omega)
      (by decide) (by simp; omega)
    obtain ⟨b', hw, hl, ht⟩ := wr_piece (buff := buff) (a := h) (i := i) (k := upTo w.cut 8 w.pos) (by omega) hbi (by omega)
    have hlen : ((h.drop i).take (upTo w.cut 8 w.pos)).length = upTo w.cut 8 w.pos := by simp; omega
    simp only [hdrLoop, if_pos hi, hr, hlen, hw, C.ok_bind]
    rw [if_neg (by omega)]
    by_cases hfin : i + upTo w.cut 8 w.pos = 8
    · rw [hfin]
      refine ⟨b', ?_, hl, ?_⟩
      · cases f with
        | zero => omega
        | succ f =>
          simp only [hdrLoop]
          rw [if_neg (by omega)]
          have : w.pos + upTo w.cut 8 w.pos = p + 8 := by omega
          rw [this]
      · rw [hfin] at ht
        rw [ht, List.take_of_length_le (by omega)]
    · have hcut8 : w.cut (p + 8) = true := by
        rcases hcut with ⟨rfl, hc⟩ | hc
        · have := upTo_whole (n := 8) (p := w.pos) (by rw [hp]; exact hc)
          omega
        · exact hc
      obtain ⟨b2, h1, h2, h3⟩ := ih (w := { w with pos := w.pos + upTo w.cut 8 w.pos }) (buff := b') (h := h)
        (rest := rest) (p := p) (i := i + upTo w.cut 8 w.pos) hh (by omega) (by omega) (by omega) hd
        (by dsimp only; omega) (fun j h1 h2 => hst j (by omega) h2) (.inr hcut8) ht
      exact ⟨b2, h1, by omega, h3⟩

theorem bodyLoop_ok {f : Nat} : ∀ {w : Net} {buff d rest : List Byte} {p i : Nat}, i ≤ d.length →
    d.length - i < f → d.length ≤ buff.length → w.stream.drop p = d ++ rest → w.pos = p + i →
    (∀ j, i ≤ j → j < d.length → p + j ∉ w.stalls) → buff.take i = d.take i →
    ∃ buff', bodyLoop f w buff d.length i = .ok (.ok buff', { w with pos := p + d.length }) ∧
      buff'.length = buff.length ∧ buff'.take d.length = d := by
  induction f with
  | zero => intros; omega
  | succ f ih =>
    intro w buff d rest p i hi hf hb hd hp hst hbi
    unfold bodyLoop
    by_cases hlt : i < d.length
    · have hd' : w.stream.drop w.pos = d.drop i ++ rest := by
        rw [hp, ← List.drop_drop, hd, List.drop_append_of_le_length (by omega)]
      have hle := upTo_le w.cut (d.length - i) w.pos
      have hpos := upTo_pos w.cut (n := d.length - i) w.pos (by omega)
      have hr := read_ok (w := w) (n := d.length - i) (by rw [hp]; exact hst i (Nat.le_refl _) hlt) hd'
        (by simp; omega) (by omega) (by simp; omega)
      obtain ⟨b', hw, hl, ht⟩ := wr_piece (buff := buff) (a := d) (i := i) (k := upTo w.cut (d.length - i) w.pos)
        (by omega) hbi (by omega)
      have hlen : ((d.drop i).take (upTo w.cut (d.length - i) w.pos)).length = upTo w.cut (d.length - i) w.pos := by
        simp; omega
      simp only [if_pos hlt, hr, hlen, hw, C.ok_bind]
      rw [if_neg (by omega)]
      obtain ⟨b2, h1, h2, h3⟩ := ih (w := { w with pos := w.pos + upTo w.cut (d.length - i) w.pos }) (buff := b')
        (d := d) (rest := rest) (p := p) (i := i + upTo w.cut (d.length - i) w.pos) (by omega) (by omega) (by omega)
        hd (by dsimp only; omega) (fun j h1 h2 => hst j (by omega) h2) ht
      exact ⟨b2, h1, by omega, h3⟩
    · rw [if_neg hlt]
      have : i = d.length := by omega
      subst this
      refine ⟨buff, ?_, rfl, ?_⟩
      · rw [← hp]
      · rw [hbi, List.take_of_length_le (Nat.le_refl _)]

theorem be4_be32 {v : Nat} (h : v < 4294967296) : be4 (be32 v) = v := by
  simp only [be4, be32, List.reverse_cons, List.reverse_nil, List.nil_append, List.cons_append, leNat,
    BitVec.toNat_ofNat]
  omega

theorem be32_length (v : Nat) : (be32 v).length = 4 := rfl

theorem frame_length (m : Msg) : (frame m).length = 8 + m.data.length := by
  simp only [frame, be32_length, List.length_append]

/-- One message read. -/
theorem messageGet_ok {w : Net} {buff rest : List Byte} {m : Msg} (hf : Fits m) (hb : buff.length = 4096)
    (hd : w.stream.drop w.pos = frame m ++ rest) (hs : ∀ j, j < (frame m).length → w.pos + j ∉ w.stalls)
    (hc : HeaderWhole w.cut w.pos) :
    messageGet buff w = .ok (.ok m, { w with pos := w.pos + (frame m).length }) := by
  obtain ⟨ht, hl⟩ := hf
  rw [frame_length] at hs ⊢
  have hd1 : w.stream.drop w.pos = (be32 m.data.length ++ be32 m.type) ++ (m.data ++ rest) := by
    rw [hd]; simp [frame]
  obtain ⟨b1, h1, l1, t1⟩ := hdrLoop_ok (f := 9) (w := w) (buff := buff) (h := be32 m.data.length ++ be32 m.type)
    (rest := m.data ++ rest) (p := w.pos) (i := 0) rfl (by decide) (by decide) (by omega) hd1 rfl
    (fun j _ h2 => hs j (by omega)) (hc.elim .inr (fun h => .inl ⟨rfl, h⟩)) (by simp)
  have hd2 : w.stream.drop (w.pos + 8) = m.data ++ rest := by
    rw [← List.drop_drop, hd1]; rfl
  have e1 : b1.take 4 = be32 m.data.length := by
    have := congrArg (List.take 4) t1
    rw [List.take_take] at this
    exact this
  have e2 : (b1.drop 4).take 4 = be32 m.type := by
    have := congrArg (List.drop 4) t1
    rw [List.drop_take] at this
    exact this
  obtain ⟨b2, h2, l2, t2⟩ := bodyLoop_ok (f := m.data.length + 1) (w := { w with pos := w.pos + 8 }) (buff := b1)
    (d := m.data) (rest := rest) (p := w.pos + 8) (i := 0) (by omega) (by omega) (by omega) hd2 rfl
    (fun j _ h2 => by have := hs (8 + j) (by omega); rw [Nat.add_assoc]; exact this) (by simp)
  unfold messageGet
  rw [h1]
  simp only [C.ok_bind, e1, e2, be4_be32 (show m.data.length < 4294967296 by omega), be4_be32 ht, h2]
  rw [if_neg (by omega)]
  have hr : rd b2 0 m.data.length = .ok m.data := by
    unfold rd
    rw [if_pos (by omega)]
    simp [t2]
  rw [hr]
  simp only [C.ok_bind]
  have : w.pos + 8 + m.data.length = w.pos + (8 + m.data.length) := by omega
  rw [this]

theorem messageGet_stall {w : Net} {buff : List Byte} (h : w.pos ∈ w.stalls) :
    messageGet buff w = .ok (.error ERR_TIMEOUT, { w with stalls := w.stalls.erase w.pos }) := by
  have hl : hdrLoop 9 w buff 0 = .ok (.error ERR_TIMEOUT, { w with stalls := w.stalls.erase w.pos }) := by
    rw [hdrLoop, if_pos (by decide)]
    simp only [read, if_pos h]
  unfold messageGet
  rw [hl]; rfl

theorem messageGet_end {w : Net} {buff : List Byte} (h : w.pos ∉ w.stalls) (he : w.stream.drop w.pos = []) :
    messageGet buff w = .ok (.error ERR_DISCONNECTED, w) := by
  have hr : read w 8 = (some [], w) := by simp [read, h, he]
  have hl : hdrLoop 9 w buff 0 = .ok (.error ERR_DISCONNECTED, w) := by
    rw [hdrLoop, if_pos (by decide), hr]; rfl
  unfold messageGet
  rw [hl]; rfl

theorem starts_ge {ms : List Msg} : ∀ {p q : Nat}, q ∈ starts p ms → p ≤ q := by
  induction ms with
  | nil => intro p q h; simp [starts] at h; omega
  | cons m ms ih =>
    intro p q h
    simp only [starts, List.mem_cons] at h
    rcases h with rfl | h
    · omega
    · have := ih h; omega

theorem starts_head (p : Nat) (ms : List Msg) : p ∈ starts p ms := by
  cases ms <;> simp [starts]

theorem connLoop_ok {junk : Nat → List Byte} (hj : ∀ k, (junk k).length = 4096) {k : Nat} :
    ∀ {ms : List Msg} {w : Net}, (∀ m ∈ ms, Fits m) → w.stream.drop w.pos = ms.flatMap frame →
    (∀ q ∈ w.stalls, q ∈ starts w.pos ms) → (∀ q ∈ starts w.pos ms, HeaderWhole w.cut q) →
    ms.length + w.stalls.length < k →
    ∃ w', connLoop junk k w = .ok (ms, w') := by
  induction k with
  | zero => intros; omega
  | succ k ih =>
    intro ms w hf hd hs hc hk
    unfold connLoop
    by_cases hp : w.pos ∈ w.stalls
    · rw [messageGet_stall hp]
      simp only [C.ok_bind]
      rw [if_neg (by decide)]
      have hl := List.length_erase_of_mem hp
      have := List.length_pos_of_mem hp
      exact ih hf hd (fun q hq => hs q (List.mem_of_mem_erase hq)) hc (by dsimp only; omega)
    · cases ms with
      | nil =>
        rw [messageGet_end hp (by simpa using hd)]
        exact ⟨_, rfl⟩
      | cons m ms =>
        have hnext : ∀ q ∈ w.stalls, q ∈ starts (w.pos + (frame m).length) ms := by
          intro q hq
          have := hs q hq
          simp only [starts, List.mem_cons] at this
          rcases this with rfl | h
          · exact absurd hq hp
          · exact h
        have hone := messageGet_ok (w := w) (buff := junk k) (rest := ms.flatMap frame) (hf m List.mem_cons_self) (hj k)
          (by simpa using hd) (fun j hj hq => by have := starts_ge (hnext _ hq); omega)
          (hc _ (starts_head _ _))
        rw [hone]
        simp only [C.ok_bind]
        obtain ⟨w', h'⟩ := ih (ms := ms) (w := { w with pos := w.pos + (frame m).length })
          (fun x hx => hf x (List.mem_cons_of_mem _ hx)) (by
            show w.stream.drop (w.pos + (frame m).length) = _
            rw [← List.drop_drop, hd]; simp) hnext (fun q hq => hc q (by simp only [starts, List.mem_cons]; exact .inr hq))
          (by simp at hk ⊢; omega)
        exact ⟨w', by rw [h']; rfl⟩

end Dax.LibRecv
