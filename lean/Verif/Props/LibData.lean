import Verif.Lemmas.LibData
import Verif.Props.Data
import Verif.Props.Types
/-!
# C24, C25: reading and writing through handles
-/
set_option autoImplicit false
namespace Dax
open Dax.LibData
open Wire (shifted shiftSize shiftLoop)

/-! ## C25 -/

/-- **C25**, reading: the requests are pieces of at most 4088 bytes that follow each other through the range of the
handle; the call ends, with the error of the last request or after all bytes, and the data is what the
answers contained, in order (for BOOLs moved to the beginning, C24).

Missing: types of more than 4088 bytes (`C25_large_type`). -/
theorem C25_read_partial {s s' : Server} {fd : Int} {c c' : TypeCache} {h : Handle} {l : Log} {o : Outcome} {d : List Byte}
    {unit : Nat} (w : Whole s fd c h 4088 unit) (hh : daxTagRead s fd c h = .ok (s', c', l, o, d)) :
    ∃ code, Split (readOf h.index) 4088 unit h.byte h.size l code ∧ Happened s fd l s' ∧ o ≠ .endless ∧
      (code ≠ 0 → o = .done code) ∧ (h.type ≠ DAX_BOOL → d = answers l) := by
  unfold daxTagRead at hh
  obtain ⟨⟨s1, c1, l1, o1, d1⟩, h1, hh⟩ := C.bind_eq_ok.mp hh
  obtain ⟨code, rfl, h2, h3, h4⟩ := transfer_ok (sends_read w.small (Nat.le_refl _)) w.upos w.fits w.dvd
    (show unit ≤ MSG_DATA_SIZE from w.fits) w.elem w.pos (by have := w.small; omega) (fun h => h) h1
  dsimp only at hh
  refine ⟨code, ?_⟩
  split at hh
  · rename_i hne
    simp only [C.ok.injEq, Prod.mk.injEq] at hh
    obtain ⟨rfl, rfl, rfl, rfl, rfl⟩ := hh
    exact ⟨h2, h3, by simp, fun _ => rfl, fun _ => h4⟩
  · rename_i hz
    have hz : code = 0 := by
      apply Classical.byContradiction; intro hc; exact hz (by simp [hc])
    split at hh
    · rename_i hb
      obtain ⟨nd, -, hh⟩ := C.bind_eq_ok.mp hh
      simp only [C.ok.injEq, Prod.mk.injEq] at hh
      obtain ⟨rfl, rfl, rfl, rfl, rfl⟩ := hh
      exact ⟨h2, h3, by simp, fun h => absurd hz h, fun h => absurd hb h⟩
    · obtain ⟨⟨c2, r⟩, -, hh⟩ := C.bind_eq_ok.mp hh
      simp only [C.ok.injEq, Prod.mk.injEq] at hh
      obtain ⟨rfl, rfl, rfl, rfl, rfl⟩ := hh
      exact ⟨h2, h3, by simp, fun h => absurd hz h, fun _ => h4⟩

theorem daxTagWrite_plain {s : Server} {fd : Int} {c : TypeCache} {h : Handle} {data : List Byte}
    {x : Server × TypeCache × Log × Outcome × List Byte} (hs : shifted h = false) (hh : daxTagWrite s fd c h data = .ok x) :
    ∃ c1 r, format s fd true data.length c h.type h.count = .ok (c1, r) ∧ ((r ≠ 0 ∧ x = (s, c1, [], .done r, [])) ∨
      (r = 0 ∧ transfer (fun s n k => do
          let d ← part data n k
          daxWrite s fd h.index ((h.byte + n) % 4294967296) d) 4080 4080 s fd c1 h.type h.size h.size = .ok x)) := by
  unfold daxTagWrite at hh
  rw [if_neg (by rw [hs]; simp)] at hh
  obtain ⟨⟨c1, r⟩, h1, hh⟩ := C.bind_eq_ok.mp hh
  refine ⟨c1, r, h1, ?_⟩
  dsimp only at hh
  split at hh
  · rename_i hr
    simp only [C.ok.injEq] at hh
    exact .inl ⟨hr, hh.symm⟩
  · rename_i hr
    exact .inr ⟨Classical.not_not.mp hr, hh⟩

theorem daxTagMask_plain {s : Server} {fd : Int} {c : TypeCache} {h : Handle} {data mask : List Byte}
    {x : Server × TypeCache × Log × Outcome × List Byte} (hs : shifted h = false) (hh : daxTagMask s fd c h data mask = .ok x) :
    ∃ c1 r, format s fd true data.length c h.type h.count = .ok (c1, r) ∧ ((r ≠ 0 ∧ x = (s, c1, [], .done r, [])) ∨
      (r = 0 ∧ transfer (fun s n k => do
          let d ← part data n k
          let m ← part mask n k
          daxMask s fd h.index ((h.byte + n) % 4294967296) d m) 2040 2040 s fd c1 h.type h.size h.size = .ok x)) := by
  unfold daxTagMask at hh
  rw [if_neg (by rw [hs]; simp)] at hh
  obtain ⟨⟨c1, r⟩, h1, hh⟩ := C.bind_eq_ok.mp hh
  refine ⟨c1, r, h1, ?_⟩
  dsimp only at hh
  split at hh
  · rename_i hr
    simp only [C.ok.injEq] at hh
    exact .inl ⟨hr, hh.symm⟩
  · rename_i hr
    exact .inr ⟨Classical.not_not.mp hr, hh⟩

/-- **C25**, writing of anything but BOOLs that must be moved (C24): nothing is sent at all and the call ends with an
error, or the requests are pieces of at most 4080 bytes of the data, each for its place, which follow each other through
the range of the handle, and the call ends with the answer to the last.

Missing: types of more than 4080 bytes (`C25_large_type`); compound types with compound members may
lead outside the data (`C25_nested_outside`). -/
theorem C25_write_partial {s s' : Server} {fd : Int} {c c' : TypeCache} {h : Handle} {data : List Byte} {l : Log} {o : Outcome} {d : List Byte}
    {unit : Nat} (hs : shifted h = false)
    (w : ∀ c1 r, format s fd true data.length c h.type h.count = .ok (c1, r) → Whole s fd c1 h 4080 unit)
    (hh : daxTagWrite s fd c h data = .ok (s', c', l, o, d)) :
    (s' = s ∧ l = [] ∧ ∃ e, e ≠ 0 ∧ o = .done e) ∨
    ∃ code, o = .done code ∧ Split (writeOf h.index h.byte data) 4080 unit h.byte h.size l code ∧ Happened s fd l s' := by
  obtain ⟨c1, r, h1, ⟨hr, hx⟩ | ⟨rfl, hh⟩⟩ := daxTagWrite_plain hs hh
  · simp only [Prod.mk.injEq] at hx
    exact .inl ⟨hx.1, hx.2.2.1, r, hr, hx.2.2.2.1⟩
  · have w := w c1 0 h1
    obtain ⟨code, rfl, h2, h3, h4⟩ := transfer_ok (sends_write w.small (Nat.le_refl _)) w.upos w.fits w.dvd
      w.fits w.elem w.pos (by have := w.small; omega) (fun h => h) hh
    exact .inr ⟨code, rfl, h2, h3⟩

/-- **C25**, writing with a mask: the same in pieces of at most 2040 bytes.

Missing: types of more than 2040 bytes; compound members as for `C25_write_partial`. -/
theorem C25_mask_partial {s s' : Server} {fd : Int} {c c' : TypeCache} {h : Handle} {data mask : List Byte} {l : Log} {o : Outcome} {d : List Byte}
    {unit : Nat} (hs : shifted h = false)
    (w : ∀ c1 r, format s fd true data.length c h.type h.count = .ok (c1, r) → Whole s fd c1 h 2040 unit)
    (hh : daxTagMask s fd c h data mask = .ok (s', c', l, o, d)) :
    (s' = s ∧ l = [] ∧ ∃ e, e ≠ 0 ∧ o = .done e) ∨
    ∃ code, o = .done code ∧ Split (maskOf h.index h.byte data mask) 2040 unit h.byte h.size l code ∧ Happened s fd l s' := by
  obtain ⟨c1, r, h1, ⟨hr, hx⟩ | ⟨rfl, hh⟩⟩ := daxTagMask_plain hs hh
  · simp only [Prod.mk.injEq] at hx
    exact .inl ⟨hx.1, hx.2.2.1, r, hr, hx.2.2.2.1⟩
  · have w := w c1 0 h1
    obtain ⟨code, rfl, h2, h3, h4⟩ := transfer_ok (sends_mask w.small (Nat.le_refl _)) w.upos w.fits w.dvd
      w.fits w.elem w.pos (by have := w.small; omega) (fun h => h) hh
    exact .inr ⟨code, rfl, h2, h3⟩

/-- For base types the element size is the one expected, whatever is in the cache. -/
theorem ctypeSize_base {s : Server} {fd : Int} {c : TypeCache} {t w : Nat} (h : (t, w) ∈ elemBytes) :
    ctypeSize s fd c t = .ok (c, (w : Int)) := by
  simp only [elemBytes, List.mem_cons, List.not_mem_nil, or_false, Prod.mk.injEq] at h
  rcases h with h|h|h|h|h|h|h|h|h|h|h|h|h|h|h <;> obtain ⟨rfl, rfl⟩ := h <;> rfl

theorem ctypeSize_bool {s : Server} {fd : Int} {c : TypeCache} : ctypeSize s fd c DAX_BOOL = .ok (c, ((1 : Nat) : Int)) := rfl

/-- Instance: 3000 INTs, whatever the state and the cache. -/
example (s : Server) (fd : Int) (c : TypeCache) : Whole s fd c ⟨13, 0, 0, 3000, 6000, DAX_INT⟩ 4088 2 :=
  ⟨by decide, by decide, fun _ => ⟨c, ctypeSize_base (by decide)⟩, by decide, by decide, by decide⟩

/-! ## The effect of a broken up transfer -/

theorem store_append (M : Mem) (i p : Nat) (a b : List Byte) : (M.store i p a).store i (p + a.length) b = M.store i p (a ++ b) := by
  funext j k
  unfold Mem.store
  by_cases hj : j = i
  · by_cases hk : p ≤ k
    · by_cases hk2 : p + a.length ≤ k
      · rw [if_pos ⟨hj, hk2⟩, if_pos ⟨hj, hk⟩, if_pos ⟨hj, hk⟩, List.getElem?_append_right (by omega),
          List.getElem?_eq_none (l := a) (by omega), show k - p - a.length = k - (p + a.length) by omega]
        rfl
      · rw [if_neg (by omega), if_pos ⟨hj, hk⟩, if_pos ⟨hj, hk⟩, List.getElem?_append_left (by omega)]
    · rw [if_neg (by omega), if_neg (by omega), if_neg (by omega)]
  · rw [if_neg (by omega), if_neg (by omega), if_neg (by omega)]

theorem storeMasked_append (M : Mem) (i p : Nat) (a b m n : List Byte) (hl : m.length = a.length) :
    (M.storeMasked i p a m).storeMasked i (p + a.length) b n = M.storeMasked i p (a ++ b) (m ++ n) := by
  funext j k
  unfold Mem.storeMasked
  by_cases hj : j = i
  · by_cases hk : p ≤ k
    · by_cases hk2 : p + a.length ≤ k
      · rw [if_pos ⟨hj, hk2⟩, if_pos ⟨hj, hk⟩, List.getElem?_append_right (by omega), List.getElem?_append_right (by omega),
          if_pos ⟨hj, hk⟩, List.getElem?_eq_none (l := a) (by omega), show k - p - a.length = k - (p + a.length) by omega,
          show k - p - m.length = k - (p + a.length) by omega]
      · rw [if_neg (by omega), if_pos ⟨hj, hk⟩, if_pos ⟨hj, hk⟩, List.getElem?_append_left (by omega),
          List.getElem?_append_left (by omega)]
    · rw [if_neg (by omega), if_neg (by omega), if_neg (by omega)]
  · rw [if_neg (by omega), if_neg (by omega), if_neg (by omega)]

theorem slice_append (d : List Byte) (p k n : Nat) (h : k ≤ n) : slice d p k ++ slice d (p + k) (n - k) = slice d p n := by
  unfold slice
  rw [← List.drop_drop]
  have : n = k + (n - k) := by omega
  conv => rhs; rw [this, List.take_add]

theorem slice_length {d : List Byte} {p k : Nat} (h : p + k ≤ d.length) : (slice d p k).length = k := by
  unfold slice
  rw [List.length_take, List.length_drop]; omega

theorem split_store {i base lim unit : Nat} {d : List Byte} {p n : Nat} {l : Log} {code : Int}
    (h : Split (writeOf i base d) lim unit p n l code) : code = 0 → base ≤ p → p - base + n ≤ d.length →
    ∀ M : Mem, l.foldl remember M = M.store i p (slice d (p - base) n) := by
  induction h with
  | done p =>
    intro _ _ _ M
    funext j k
    unfold Mem.store slice
    simp
  | step p n k r log code h0 h1 h2 h3 _ ih =>
    intro hc hb hl M
    rw [List.foldl_cons, ih hc (by omega) (by omega)]
    simp only [remember, writeOf, Int.toNat_natCast]
    have hsl := slice_length (d := d) (p := p - base) (k := k) (by omega)
    have := store_append M i p (slice d (p - base) k) (slice d (p + k - base) (n - k))
    rw [hsl] at this
    rw [this, show p + k - base = p - base + k by omega, slice_append _ _ _ _ h2]
  | stop p n k e _ _ _ _ he => intro hc; exact absurd hc he

theorem split_storeMasked {i base lim unit : Nat} {d m : List Byte} {p n : Nat} {l : Log} {code : Int}
    (h : Split (maskOf i base d m) lim unit p n l code) : code = 0 → base ≤ p → p - base + n ≤ d.length → m.length = d.length →
    ∀ M : Mem, l.foldl remember M = M.storeMasked i p (slice d (p - base) n) (slice m (p - base) n) := by
  induction h with
  | done p =>
    intro _ _ _ _ M
    funext j k
    unfold Mem.storeMasked slice
    simp
  | step p n k r log code h0 h1 h2 h3 _ ih =>
    intro hc hb hl hm M
    rw [List.foldl_cons, ih hc (by omega) (by omega) hm]
    simp only [remember, maskOf, Int.toNat_natCast]
    have hsl := slice_length (d := d) (p := p - base) (k := k) (by omega)
    have hsm := slice_length (d := m) (p := p - base) (k := k) (by omega)
    have := storeMasked_append M i p (slice d (p - base) k) (slice d (p + k - base) (n - k)) (slice m (p - base) k) (slice m (p + k - base) (n - k))
      (by omega)
    rw [hsl] at this
    rw [this, show p + k - base = p - base + k by omega, slice_append _ _ _ _ h2, slice_append _ _ _ _ h2]
  | stop p n k e _ _ _ _ he => intro hc; exact absurd hc he

/-- The log of a transfer, as memory sees it. -/
theorem happened_agrees {s s' : Server} {fd : Int} {l : Log} {M : Mem} (h : Reachable s) (hm : ∀ i name, LiveAt s i name → NoMaps s i)
    (hM : Agrees M s) (hq : ∀ x ∈ l, x.1.isData) (hh : Happened s fd l s') : Agrees (l.foldl remember M) s' := by
  unfold Happened at hh
  have := C03_history_partial h hm hM (fun q hq' => by
    obtain ⟨x, hx, rfl⟩ := List.mem_map.mp hq'
    exact hq x hx) hh
  rw [List.map_map] at this
  have e : ∀ l : Log, (l.map ((fun x : Int × Req => x.2) ∘ fun x : Req × Reply => (fd, x.1))).zip (l.map (·.2)) = l := by
    intro l
    induction l with
    | nil => rfl
    | cons x l ih => rw [List.map_cons, List.map_cons, List.zip_cons_cons, ih]; rfl
  rw [e] at this
  exact this

theorem split_mem {mk : Nat → Nat → Req} {lim unit p n : Nat} {l : Log} {code : Int} (h : Split mk lim unit p n l code) :
    ∀ x ∈ l, ∃ q k, p ≤ q ∧ q + k ≤ p + n ∧ x.1 = mk q k := by
  induction h with
  | done p => intro x hx; simp at hx
  | step p n k r log code h0 h1 h2 h3 _ ih =>
    intro x hx
    rw [List.mem_cons] at hx
    rcases hx with rfl | hx
    · exact ⟨p, k, by omega, by omega, rfl⟩
    · obtain ⟨q, k', a, b, e⟩ := ih x hx
      exact ⟨q, k', by omega, by omega, e⟩
  | stop p n k e _ _ h2 _ he =>
    intro x hx
    simp only [List.mem_cons, List.not_mem_nil, or_false] at hx
    subst hx
    exact ⟨p, k, by omega, by omega, rfl⟩

/-- **C25**, the effect of a write that ends with success: every byte of the range of the handle is the one
given, all other bytes are as before, whatever the size and however it was broken up. -/
theorem C25_written {s s' : Server} {fd : Int} {c c' : TypeCache} {h : Handle} {i : Nat} {data : List Byte} {l : Log} {d : List Byte}
    {unit : Nat} {M : Mem} (hr : Reachable s) (hm : ∀ i name, LiveAt s i name → NoMaps s i) (hM : Agrees M s)
    (hi : h.index = i) (hs : shifted h = false) (hl : h.size ≤ data.length)
    (w : ∀ c1 r, format s fd true data.length c h.type h.count = .ok (c1, r) → Whole s fd c1 h 4080 unit)
    (hh : daxTagWrite s fd c h data = .ok (s', c', l, .done 0, d)) :
    Agrees (M.store i h.byte (data.take h.size)) s' := by
  rcases C25_write_partial hs w hh with ⟨-, -, e, he, h0⟩ | ⟨code, h0, h1, h2⟩
  · simp only [Outcome.done.injEq] at h0; exact absurd h0.symm he
  · simp only [Outcome.done.injEq] at h0
    subst h0
    have := happened_agrees hr hm hM (fun x hx => by
      obtain ⟨q, k, -, -, e⟩ := split_mem h1 x hx
      rw [e]; trivial) h2
    rw [hi] at h1
    rw [split_store h1 rfl (Nat.le_refl _) (by omega)] at this
    rw [Nat.sub_self] at this
    exact this

theorem happened_cons {s s' : Server} {fd : Int} {q : Req} {r : Reply} {l : Log} (h : Happened s fd ((q, r) :: l) s') :
    ∃ s1, handle s fd q = .ok (s1, r) ∧ Happened s1 fd l s' := by
  unfold Happened at h ⊢
  simp only [List.map_cons, runR] at h
  obtain ⟨⟨s1, r1⟩, h1, h⟩ := C.bind_eq_ok.mp h
  obtain ⟨⟨s2, r2⟩, h2, h⟩ := C.bind_eq_ok.mp h
  simp only [C.ok.injEq, Prod.mk.injEq, List.cons.injEq] at h
  obtain ⟨rfl, rfl, rfl⟩ := h
  exact ⟨s1, h1, h2⟩

theorem split_read {i lim unit p n : Nat} {l : Log} {code fd : Int} {s s' : Server} {M : Mem} (hr : Reachable s) (ho : Ordinary s i)
    (hM : Agrees M s) (h : Split (readOf i) lim unit p n l code) : code = 0 → Happened s fd l s' →
    s' = s ∧ (answers l).length = n ∧ ∀ k < n, (answers l)[k]? = some (M i (p + k)) := by
  obtain ⟨t, b, P⟩ := (ordinary_iff hr.wf).mp ho
  induction h with
  | done p =>
    intro _ hh
    unfold Happened at hh
    simp only [List.map_nil, runR, C.ok.injEq, Prod.mk.injEq, and_true] at hh
    exact ⟨hh.symm, rfl, fun k hk => by omega⟩
  | step p n k r log code h0 h1 h2 h3 _ ih =>
    intro hc hh
    obtain ⟨s1, g1, g2⟩ := happened_cons hh
    obtain ⟨rfl, -⟩ := read_inv hr.wf P g1
    obtain ⟨i1, i2, i3⟩ := ih hc g2
    obtain ⟨-, hl, hb⟩ := hM i fd p k r ho ⟨s1, g1⟩
    rw [Int.toNat_natCast] at hl hb
    refine ⟨i1, ?_, fun q hq => ?_⟩
    · rw [answers, List.length_append, hl, i2]; omega
    · rw [answers]
      by_cases hqk : q < k
      · rw [List.getElem?_append_left (by omega)]
        exact hb q (by omega)
      · rw [List.getElem?_append_right (by omega), hl, i3 (q - k) (by omega), show p + k + (q - k) = p + q by omega]
  | stop p n k e _ _ _ _ he => intro hc; exact absurd hc he

/-- **C25**, reading of anything but BOOLs: when the call ends with success, nothing has changed and the caller has all bytes of the
range, in order. -/
theorem C25_read_data {s s' : Server} {fd : Int} {c c' : TypeCache} {h : Handle} {i : Nat} {l : Log} {d : List Byte}
    {unit : Nat} {M : Mem} (hr : Reachable s) (ho : Ordinary s i) (hM : Agrees M s) (hi : h.index = i) (ht : h.type ≠ DAX_BOOL)
    (w : Whole s fd c h 4088 unit) (hh : daxTagRead s fd c h = .ok (s', c', l, .done 0, d)) :
    s' = s ∧ d.length = h.size ∧ ∀ k < h.size, d[k]? = some (M i (h.byte + k)) := by
  obtain ⟨code, h1, h2, -, h3, h4⟩ := C25_read_partial w hh
  have h0 : code = 0 := by
    apply Classical.byContradiction; intro hne
    have := h3 hne
    simp only [Outcome.done.injEq] at this
    exact hne this.symm
  rw [hi] at h1
  rw [h4 ht]
  exact split_read hr ho hM h1 h0 h2

/-! ## C24 -/

theorem alignLoop_ok (data : List Byte) (bit : Nat) : ∀ (k n : Nat) (nd nd' : List Byte), n + k ≤ 8 * nd.length →
    alignLoop data bit k n nd = .ok nd' → nd'.length = nd.length ∧
      ∀ p, bitOf nd' (p / 8) (p % 8) = (bitOf nd (p / 8) (p % 8) ||
        (decide (n ≤ p ∧ p < n + k) && bitOf data ((bit + p) / 8) ((bit + p) % 8))) := by
  intro k
  induction k with
  | zero =>
    intro n nd nd' _ h
    simp only [alignLoop, C.ok.injEq] at h
    subst h
    refine ⟨rfl, fun p => ?_⟩
    rw [show decide (n ≤ p ∧ p < n + 0) = false from decide_eq_false (by omega)]; simp
  | succ k ih =>
    intro n nd nd' hl h
    rw [alignLoop] at h
    have hy : nd[n / 8]? = some nd[n / 8] := List.getElem?_eq_getElem (by omega)
    split at h
    · simp at h
    · rename_i x hx
      have hd : bitOf data ((bit + n) / 8) ((bit + n) % 8) = x.getLsbD ((bit + n) % 8) := by unfold bitOf; rw [hx]
      split at h
      · rename_i hbit
        rw [hy] at h
        obtain ⟨i1, i2⟩ := ih (n + 1) _ _ (by rw [List.length_set]; omega) h
        refine ⟨by rw [i1, List.length_set], fun p => ?_⟩
        rw [i2 p, Wire.bitOf_or hy]
        by_cases hp : p = n
        · subst hp
          rw [hd, hbit, show decide (p ≤ p ∧ p < p + (k + 1)) = true from decide_eq_true (by omega)]; simp
        · rw [show decide (p = n) = false from decide_eq_false hp, Bool.or_false]
          congr 2
          rw [decide_eq_decide]; omega
      · rename_i hbit
        obtain ⟨i1, i2⟩ := ih (n + 1) _ _ (by omega) h
        refine ⟨i1, fun p => ?_⟩
        rw [i2 p]
        congr 1
        by_cases hp : p = n
        · subst hp
          simp only [Bool.not_eq_true] at hbit
          rw [hd, hbit]; simp
        · congr 1
          rw [decide_eq_decide]; omega

/-- **C24**, reading: a successful read of BOOLs at any bit gives exactly the bits of the handle, at the beginning of the caller's
buffer; the rest of the buffer is zero, and nothing changes. -/
theorem C24_read {s s' : Server} {fd : Int} {c c' : TypeCache} {h : Handle} {i : Nat} {l : Log} {d : List Byte} {M : Mem}
    (hr : Reachable s) (ho : Ordinary s i) (hM : Agrees M s) (hi : h.index = i) (hb : Bools h) (hsm : h.byte + h.size ≤ 2147483647)
    (hh : daxTagRead s fd c h = .ok (s', c', l, .done 0, d)) :
    s' = s ∧ d.length = h.size ∧ (∀ q < h.count, bitOf d (q / 8) (q % 8) = memBit M i (8 * h.byte + h.bit + q)) ∧
      ∀ q, h.count ≤ q → bitOf d (q / 8) (q % 8) = false := by
  have hsz := hb.size
  have hbit := hb.bit
  have hpos := hb.pos
  have w : Whole s fd c h 4088 1 := ⟨by omega, hsm, fun _ => ⟨c, by rw [hb.type]; exact ctypeSize_bool⟩, by decide, by decide, Nat.one_dvd _⟩
  unfold daxTagRead at hh
  obtain ⟨⟨s1, c1, l1, o1, d1⟩, h1, hh⟩ := C.bind_eq_ok.mp hh
  obtain ⟨code, rfl, h2, h3, h4⟩ := transfer_ok (sends_read w.small (Nat.le_refl _)) w.upos w.fits w.dvd
    (show 1 ≤ MSG_DATA_SIZE by decide) w.elem w.pos (by omega) (fun h => h) h1
  dsimp only at hh
  split at hh
  · rename_i hne
    simp only [C.ok.injEq, Prod.mk.injEq] at hh
    exact absurd hh.2.2.2.1 hne
  · rename_i hz
    have hz : code = 0 := by
      apply Classical.byContradiction; intro hc; exact hz (by simp [hc])
    rw [if_pos hb.type] at hh
    obtain ⟨nd, hnd, hh⟩ := C.bind_eq_ok.mp hh
    simp only [C.ok.injEq, Prod.mk.injEq] at hh
    obtain ⟨rfl, rfl, rfl, -, rfl⟩ := hh
    rw [hi] at h2
    obtain ⟨g1, g2, g3⟩ := split_read hr ho hM h2 hz h3
    rw [← h4] at g2 g3
    obtain ⟨a1, a2⟩ := alignLoop_ok d1 h.bit h.count 0 _ _ (by rw [List.length_replicate]; omega) hnd
    rw [List.length_replicate] at a1
    refine ⟨g1, a1, fun q hq => ?_, fun q hq => ?_⟩
    · rw [a2 q, Wire.bitOf_replicate, show decide (0 ≤ q ∧ q < 0 + h.count) = true from decide_eq_true (by omega)]
      simp only [BitVec.getLsbD_zero, Bool.and_false, Bool.false_or, Bool.true_and]
      unfold bitOf memBit
      rw [g3 _ (by omega), show (8 * h.byte + h.bit + q) / 8 = h.byte + (h.bit + q) / 8 by omega,
        show (8 * h.byte + h.bit + q) % 8 = (h.bit + q) % 8 by omega]
      simp
    · rw [a2 q, Wire.bitOf_replicate, show decide (0 ≤ q ∧ q < 0 + h.count) = false from decide_eq_false (by omega)]
      simp


theorem memBit_masked (M : Mem) (i p : Nat) (d m : List Byte) (hl : m.length = d.length) (j q : Nat) :
    memBit (M.storeMasked i p d m) j q = if j = i ∧ 8 * p ≤ q ∧ bitOf m ((q - 8 * p) / 8) ((q - 8 * p) % 8) = true then
      bitOf d ((q - 8 * p) / 8) ((q - 8 * p) % 8) else memBit M j q := by
  unfold memBit Mem.storeMasked bitOf
  by_cases hj : j = i
  · by_cases hq : 8 * p ≤ q
    · rw [if_pos (show j = i ∧ p ≤ q / 8 from ⟨hj, by omega⟩), show (q - 8 * p) / 8 = q / 8 - p by omega, show (q - 8 * p) % 8 = q % 8 by omega]
      by_cases hk : q / 8 - p < d.length
      · rw [List.getElem?_eq_getElem hk, List.getElem?_eq_getElem (l := m) (by omega)]
        simp only [hj, hq, true_and, BitVec.getLsbD_or, BitVec.getLsbD_and, BitVec.getLsbD_not]
        cases m[q / 8 - p].getLsbD (q % 8) <;> simp <;> omega
      · rw [List.getElem?_eq_none (by omega), List.getElem?_eq_none (l := m) (by omega)]
        simp
    · rw [if_neg (by omega), if_neg (by omega)]
  · rw [if_neg (by omega), if_neg (by omega)]

theorem memBit_store (M : Mem) (i p : Nat) (d : List Byte) (j q : Nat) :
    memBit (M.store i p d) j q = if j = i ∧ 8 * p ≤ q ∧ q < 8 * (p + d.length) then
      bitOf d ((q - 8 * p) / 8) ((q - 8 * p) % 8) else memBit M j q := by
  unfold memBit Mem.store bitOf
  by_cases hj : j = i
  · by_cases hq : 8 * p ≤ q
    · rw [if_pos (show j = i ∧ p ≤ q / 8 from ⟨hj, by omega⟩), show (q - 8 * p) / 8 = q / 8 - p by omega, show (q - 8 * p) % 8 = q % 8 by omega]
      by_cases hk : q / 8 - p < d.length
      · rw [if_pos ⟨hj, hq, by omega⟩, List.getElem?_eq_getElem hk]; rfl
      · rw [if_neg (by omega), List.getElem?_eq_none (by omega)]; rfl
    · rw [if_neg (by omega), if_neg (by omega)]
  · rw [if_neg (by omega), if_neg (by omega)]

theorem shift_inv {h : Handle} (hb : Bools h) {data : List Byte} (hl : h.count ≤ 8 * data.length) {p : List Byte × List Byte}
    (hp : shiftLoop data (h.bit % 8) h.count 0 (List.replicate (shiftSize h) 0, List.replicate (shiftSize h) 0) = .ok p) :
    p.1.length = shiftSize h ∧ p.2.length = shiftSize h ∧
      (∀ q, bitOf p.2 (q / 8) (q % 8) = decide (h.bit ≤ q ∧ q < h.bit + h.count)) ∧
      ∀ q, h.bit ≤ q → q < h.bit + h.count → bitOf p.1 (q / 8) (q % 8) = bitOf data ((q - h.bit) / 8) ((q - h.bit) % 8) := by
  have hsz := hb.size
  have hbit := hb.bit
  have hss : h.size ≤ shiftSize h := by unfold shiftSize; split <;> omega
  obtain ⟨nd, mk, e, l1, l2, b1, b2⟩ := Wire.shiftLoop_ok data (h.bit % 8) h.count 0 (List.replicate (shiftSize h) 0) (List.replicate (shiftSize h) 0)
    (by omega) (by rw [List.length_replicate]; omega) rfl
  rw [hp, C.ok.injEq] at e
  subst e
  rw [List.length_replicate] at l1 l2
  have hmod : h.bit % 8 = h.bit := Nat.mod_eq_of_lt hbit
  refine ⟨l1, l2, fun q => ?_, fun q h1 h2 => ?_⟩
  · rw [b1 q, Wire.bitOf_replicate, hmod]; simp
  · rw [b2 q, Wire.bitOf_replicate, hmod, show decide (h.bit + 0 ≤ q ∧ q < h.bit + 0 + h.count) = true from decide_eq_true (by omega)]
    simp

/-- What the data and mask of a shifted write leave in memory. -/
theorem shift_written {h : Handle} (hb : Bools h) {data nd mk : List Byte} {M : Mem} {i : Nat} (l1 : nd.length = shiftSize h)
    (l2 : mk.length = shiftSize h) (b1 : ∀ q, bitOf mk (q / 8) (q % 8) = decide (h.bit ≤ q ∧ q < h.bit + h.count))
    (b2 : ∀ q, h.bit ≤ q → q < h.bit + h.count → bitOf nd (q / 8) (q % 8) = bitOf data ((q - h.bit) / 8) ((q - h.bit) % 8)) :
    BitsWritten M (M.storeMasked i h.byte nd mk) i h data := by
  constructor
  · intro q hq
    rw [memBit_masked _ _ _ _ _ (by omega), b1, if_pos ⟨rfl, by omega, decide_eq_true (by omega)⟩, b2 _ (by omega) (by omega),
      show 8 * h.byte + h.bit + q - 8 * h.byte - h.bit = q by omega]
  · intro j q hn
    rw [memBit_masked _ _ _ _ _ (by omega), b1, if_neg]
    rintro ⟨h1, h2, h3⟩
    rw [decide_eq_true_eq] at h3
    exact hn ⟨h1, by omega, by omega⟩

theorem isData_mask {i : Int} {base : Nat} {d m : List Byte} (hl : m.length = d.length) (p k : Nat) : (maskOf i base d m p k).isData := by
  show (slice m (p - base) k).length = (slice d (p - base) k).length
  unfold slice
  simp only [List.length_take, List.length_drop]; omega

/-- The transfer of shifted bits, whatever limits the type. -/
theorem shifted_transfer {s s' : Server} {fd : Int} {c c' : TypeCache} {h : Handle} (hb : Bools h) {nd mk : List Byte} {l : Log} {o : Outcome} {d : List Byte}
    {tlim : Nat} (ht : 1 ≤ tlim) (l1 : nd.length = shiftSize h) (l2 : mk.length = shiftSize h) (hsm : h.byte + h.size + 1 ≤ 2147483647)
    (hh : transfer (fun s n k => do
        let d ← part nd n k
        let m ← part mk n k
        daxMask s fd h.index ((h.byte + n) % 4294967296) d m) 2040 tlim s fd c h.type h.size (shiftSize h) = .ok (s', c', l, o, d)) :
    (h.size = 2040 ∧ shiftSize h = 2041 ∧ s' = s ∧ l = [] ∧ o = .done ERR_2BIG) ∨
    ∃ code, o = .done code ∧ Split (maskOf h.index h.byte nd mk) 2040 1 h.byte (shiftSize h) l code ∧ Happened s fd l s' := by
  have hsz := hb.size
  have hss : h.size ≤ shiftSize h ∧ shiftSize h ≤ h.size + 1 := by unfold shiftSize; split <;> omega
  by_cases hbad : h.size = 2040 ∧ shiftSize h = 2041
  · left
    unfold transfer at hh
    rw [if_neg (by omega)] at hh
    obtain ⟨⟨s1, l1', e, d1⟩, h2, hh⟩ := C.bind_eq_ok.mp hh
    simp only [C.ok.injEq, Prod.mk.injEq] at hh
    obtain ⟨rfl, rfl, rfl, rfl, rfl⟩ := hh
    obtain ⟨x, hx, h2⟩ := C.bind_eq_ok.mp h2
    obtain ⟨y, hy, h2⟩ := C.bind_eq_ok.mp h2
    have hxl := (part_inv hx).2.1
    unfold daxMask at h2
    rw [if_pos (by have : MSG_DATA_SIZE = 4088 := rfl; omega)] at h2
    simp only [C.ok.injEq, Prod.mk.injEq] at h2
    obtain ⟨rfl, rfl, rfl, rfl⟩ := h2
    exact ⟨hbad.1, hbad.2, rfl, rfl, rfl⟩
  · right
    obtain ⟨code, rfl, h2, h3, -⟩ := transfer_ok (ts := 1) (sends_mask (base := h.byte) (by omega) (Nat.le_refl _)) (by decide) (by decide) (Nat.one_dvd _) ht
      (fun _ => ⟨c, by rw [hb.type]; exact ctypeSize_bool⟩) (by omega) (by omega) (by omega) hh
    exact ⟨code, rfl, h2, h3⟩

/-- **C24**, writing: a successful write of BOOLs at any bit sets exactly the bits of the handle to those given; all other bits of
all tags stay as they were.  (`hsm`: positions from 2^31 on are negative offsets for the server.) -/
theorem C24_write {s s' : Server} {fd : Int} {c c' : TypeCache} {h : Handle} {i : Nat} {data : List Byte} {l : Log} {d : List Byte} {M : Mem}
    (hr : Reachable s) (hm : ∀ i name, LiveAt s i name → NoMaps s i) (hM : Agrees M s) (hi : h.index = i) (hb : Bools h)
    (hl : h.count ≤ 8 * data.length) (hsm : h.byte + h.size + 1 ≤ 2147483647)
    (hh : daxTagWrite s fd c h data = .ok (s', c', l, .done 0, d)) : ∃ M', Agrees M' s' ∧ BitsWritten M M' i h data := by
  have hsz := hb.size
  have hbit := hb.bit
  have hpos := hb.pos
  by_cases hs : shifted h = true
  · unfold daxTagWrite at hh
    rw [if_pos hs] at hh
    obtain ⟨⟨nd, mk⟩, h1, hh⟩ := C.bind_eq_ok.mp hh
    obtain ⟨l1, l2, b1, b2⟩ := shift_inv hb hl h1
    dsimp only at l1 l2 b1 b2 hh
    rcases shifted_transfer hb (by decide) l1 l2 hsm hh with ⟨-, -, -, -, h0⟩ | ⟨code, h0, h2, h3⟩
    · exact absurd h0 (by decide)
    · simp only [Outcome.done.injEq] at h0
      subst h0
      refine ⟨M.storeMasked i h.byte nd mk, ?_, shift_written hb l1 l2 b1 b2⟩
      have := happened_agrees hr hm hM (fun x hx => by
        obtain ⟨q, k, -, -, e⟩ := split_mem h2 x hx
        rw [e]; exact isData_mask (by omega) _ _) h3
      rw [hi] at h2
      rw [split_storeMasked h2 rfl (Nat.le_refl _) (by omega) (by omega), Nat.sub_self] at this
      unfold slice at this
      rw [List.drop_zero, List.drop_zero, List.take_of_length_le (by omega), List.take_of_length_le (by omega)] at this
      exact this
  · simp only [Bool.not_eq_true] at hs
    have hs' := hs
    unfold shifted at hs'
    rw [hb.type] at hs'
    simp only [BEq.rfl, Bool.true_and, Bool.or_eq_false_iff, decide_eq_false_iff_not, bne_eq_false_iff_eq] at hs'
    have hw := C25_written (unit := 1) hr hm hM hi hs (by omega) (fun c1 r _ =>
      ⟨by omega, by omega, fun _ => ⟨c1, by rw [hb.type]; exact ctypeSize_bool⟩, by decide, by decide, Nat.one_dvd _⟩) hh
    have hlen : (data.take h.size).length = h.size := by rw [List.length_take]; omega
    have hbt : ∀ q, q < 8 * h.size → bitOf (data.take h.size) (q / 8) (q % 8) = bitOf data (q / 8) (q % 8) := by
      intro q hq; unfold bitOf; rw [List.getElem?_take, if_pos (by omega)]
    refine ⟨_, hw, fun q hq => ?_, fun j q hn => ?_⟩
    · rw [memBit_store, if_pos ⟨rfl, by omega, by omega⟩, hbt _ (by omega), show 8 * h.byte + h.bit + q - 8 * h.byte = q by omega]
    · rw [memBit_store, if_neg]
      rintro ⟨h1, h2, h3⟩
      exact hn ⟨h1, by omega, by omega⟩


/-- A tag that takes writes: ordinary, not read-only, not a status tag, with `n` bytes; no tag is the source of a mapping. -/
structure Good (i n : Nat) (s : Server) : Prop where
  reach : Reachable s
  maps : RepNoMaps s
  tag : ∃ t b, Plain s i t b ∧ t.attr.readonly = false ∧ t.attr.special = false ∧ b.length = n ∧ tagGetSize s.cdts t = .ok (b.length : Int)

theorem repNoMaps_data {s s' : Server} {fd : Int} {q : Req} {r : Reply} (hq : q.isData) (hm : RepNoMaps s)
    (hh : handle s fd q = .ok (s', r)) : RepNoMaps s' :=
  (data_step (M := fun _ _ => 0) (Q := fun _ _ => False) hq (fun _ _ _ P => P.ovr.elim) hm hh).2

theorem tagGetSize_same {tbl : List Cdt} {t t' : Tag} (h1 : t'.type = t.type) (h2 : t'.count = t.count) : tagGetSize tbl t' = tagGetSize tbl t := by
  unfold tagGetSize; rw [h1, h2]

theorem good_write {s s' : Server} {fd : Int} {i n p : Nat} {d : List Byte} {r : Reply} (g : Good i n s) (hp : p + d.length ≤ n)
    (hn : n ≤ 2147483647) (hd : d.length ≤ 4088) (hh : handle s fd (.tagWrite i p d) = .ok (s', r)) : r = .resp [] ∧ Good i n s' := by
  obtain ⟨t, b, P, hro, hsp, hbl, hsz⟩ := g.tag
  have hw := g.reach.wf
  obtain ⟨x, hx⟩ := rd_total (b := b) (off := (p : Int)) (n := (d.length : Int)) (by omega)
  have hans : Answers s fd (.tagRead i p d.length) (.resp x) := ⟨s, read_ok P hx (by omega) hsz (by omega) fd⟩
  have hr := (C05_accepted g.reach ((attrAt_iff hw).mpr ⟨t, P.db, P.name, rfl⟩) (by rw [Attr.bit0, hro]) (by rw [Attr.bit1, P.virt])
    (by rw [Attr.bit3, P.ovr]) (by rw [Attr.bit4, hsp]) hans (m := d) (fd := fd)).1 s' r hh
  refine ⟨hr, g.reach.handle hh, repNoMaps_data (by trivial) g.maps hh, ?_⟩
  rcases write_inv (g.maps i) hh with ⟨rfl, -⟩ | ⟨-, hd' | hd'⟩
  · exact ⟨t, b, P, hro, hsp, hbl, hsz⟩
  · obtain ⟨t', b', P', hwr, h1, h2, -, -, h3, h4⟩ := hd'.plain P
    have := wr_length hwr
    refine ⟨t', b', P', by rw [h3]; exact hro, by rw [h3]; exact hsp, by omega, ?_⟩
    rw [h4, tagGetSize_same h1 h2, hsz]
    congr 2; omega
  · obtain ⟨t0, q, q', evs, ns, ht0, hv, -⟩ := hd'
    rw [tag?_natCast, P.db, Option.some.injEq] at ht0
    subst ht0
    rw [P.virt] at hv; simp at hv

theorem good_mwrite {s s' : Server} {fd : Int} {i n p : Nat} {d m : List Byte} {r : Reply} (g : Good i n s) (hp : p + d.length ≤ n)
    (hn : n ≤ 2147483647) (hd : d.length ≤ 4088) (hml : m.length = d.length) (hh : handle s fd (.tagMWrite i p d m) = .ok (s', r)) :
    r = .resp [] ∧ Good i n s' := by
  obtain ⟨t, b, P, hro, hsp, hbl, hsz⟩ := g.tag
  have hw := g.reach.wf
  obtain ⟨x, hx⟩ := rd_total (b := b) (off := (p : Int)) (n := (d.length : Int)) (by omega)
  have hans : Answers s fd (.tagRead i p d.length) (.resp x) := ⟨s, read_ok P hx (by omega) hsz (by omega) fd⟩
  have hr := (C05_accepted g.reach ((attrAt_iff hw).mpr ⟨t, P.db, P.name, rfl⟩) (by rw [Attr.bit0, hro]) (by rw [Attr.bit1, P.virt])
    (by rw [Attr.bit3, P.ovr]) (by rw [Attr.bit4, hsp]) hans (m := m) (fd := fd)).2 s' r hh
  refine ⟨hr, g.reach.handle hh, repNoMaps_data (q := .tagMWrite i p d m) hml g.maps hh, ?_⟩
  rcases mwrite_inv (g.maps i) hh with ⟨rfl, -⟩ | ⟨-, t0, b0, old, ht0, hb0, hold, hd'⟩
  · exact ⟨t, b, P, hro, hsp, hbl, hsz⟩
  · obtain ⟨t', b', P', hwr, h1, h2, -, -, h3, h4⟩ := hd'.plain P
    have := wr_length hwr
    refine ⟨t', b', P', by rw [h3]; exact hro, by rw [h3]; exact hsp, by omega, ?_⟩
    rw [h4, tagGetSize_same h1 h2, hsz]
    congr 2; omega

theorem split_accepted {mk : Nat → Nat → Req} {lim unit p n : Nat} {l : Log} {code : Int} {G : Server → Prop} {fd : Int}
    (h : Split mk lim unit p n l code) : ∀ {s s' : Server}, (∀ s s' q k r, p ≤ q → q + k ≤ p + n → k ≤ lim → G s → handle s fd (mk q k) = .ok (s', r) →
      r = .resp [] ∧ G s') → G s → Happened s fd l s' → code = 0 ∧ G s' := by
  induction h with
  | done p =>
    intro s s' _ g hh
    unfold Happened at hh
    simp only [List.map_nil, runR, C.ok.injEq, Prod.mk.injEq, and_true] at hh
    rw [← hh]; exact ⟨rfl, g⟩
  | step p n k r log code h0 h1 h2 h3 _ ih =>
    intro s s' hg g hh
    obtain ⟨s1, g1, g2⟩ := happened_cons hh
    exact ih (fun s s' q k' r a b c => hg s s' q k' r (by omega) (by omega) c) (hg _ _ p k _ (by omega) (by omega) h1 g g1).2 g2
  | stop p n k e h0 h1 h2 h3 he =>
    intro s s' hg g hh
    obtain ⟨s1, g1, g2⟩ := happened_cons hh
    exact absurd (hg _ _ p k _ (by omega) (by omega) h1 g g1).1 (by simp)

/-- **C24**, acceptance: a write of BOOLs to an ordinary tag of BOOLs that is neither read-only nor a status tag is not refused, at whatever
bit it begins and however large it is.

Missing: where the number of bits is a multiple of eight and they do not begin with a byte, the library sends one byte more
than they touch (`Wire.extraByte`).  If that byte is outside the tag, the write is refused though the handle is
valid (`C24_refused`); if it makes 2041 bytes of 2040, too (`C24_refused_2040`). -/
theorem C24_accepted_partial {s s' : Server} {fd : Int} {c c' : TypeCache} {h : Handle} {i a n : Nat} {name : Name} {data : List Byte} {l : Log}
    {o : Outcome} {d : List Byte}
    (hr : Reachable s) (hm : ∀ i name, LiveAt s i name → NoMaps s i) (ha : AttrAt s i a) (h0 : a.testBit 0 = false)
    (h1 : a.testBit 1 = false) (h3 : a.testBit 3 = false) (h4 : a.testBit 4 = false) (ht : LiveTag s i name DAX_BOOL n)
    (hi : h.index = i) (hb : Bools h) (hl : h.count ≤ 8 * data.length) (hn : n / 8 + 1 < 2147483647)
    (hin : h.byte + h.size + Wire.extraByte h ≤ n / 8 + 1) (hbad : ¬ (h.size = 2040 ∧ Wire.extraByte h = 1))
    (hh : daxTagWrite s fd c h data = .ok (s', c', l, o, d)) : o = .done 0 ∧ Reachable s' ∧ Ordinary s' i := by
  have hw := hr.wf
  have hsz := hb.size
  have hbit := hb.bit
  have hpos := hb.pos
  have hss : shiftSize h = h.size + Wire.extraByte h := by
    unfold shiftSize Wire.extraByte
    split
    · rename_i hx; rw [if_pos ⟨hb.type, hx⟩]
    · rename_i hx; rw [if_neg (fun hc => hx hc.2)]; rfl
  have hex : Wire.extraByte h ≤ 1 := by unfold Wire.extraByte; split <;> omega
  have g : Good i (n / 8 + 1) s := by
    refine ⟨hr, ?_, ?_⟩
    · intro j t htj hf
      have hnn : t.name ≠ none := fun hn => hf ((hw.tag j t htj).name.mp hn)
      obtain ⟨nn, hnn⟩ := Option.ne_none_iff_exists'.mp hnn
      exact (noMaps_iff htj).mp (hm j nn ((liveAt_iff hw).mpr ⟨t, htj, hnn⟩))
    · obtain ⟨t, ht', hn', ha'⟩ := (attrAt_iff hw).mp ha
      obtain ⟨t1, b, P⟩ := (ordinary_iff hw).mp ⟨a, ha, h1, h3⟩
      have e := ht'.symm.trans P.db
      cases e
      obtain ⟨t2, ht2, -, hty, hcnt⟩ := (liveTag_iff hw).mp ht
      have e := ht2.symm.trans P.db
      cases e
      have hal := ((hw.tag i _ P.db).mem b P.data).1
      unfold allocSize at hal
      rw [if_pos hty] at hal
      simp only [C.ok.injEq] at hal
      refine ⟨_, b, P, by rw [← Attr.bit0, ha']; exact h0, by rw [← Attr.bit4, ha']; exact h4, by omega, ?_⟩
      unfold tagGetSize
      rw [if_pos hty]
      simp only [C.ok.injEq]
      omega
  have fin : ∀ {s1}, Good i (n / 8 + 1) s1 → Reachable s1 ∧ Ordinary s1 i := by
    intro s1 g1
    obtain ⟨t, b, P, -⟩ := g1.tag
    exact ⟨g1.reach, (ordinary_iff g1.reach.wf).mpr ⟨t, b, P⟩⟩
  by_cases hs : shifted h = true
  · unfold daxTagWrite at hh
    rw [if_pos hs] at hh
    obtain ⟨⟨nd, mk⟩, g1, hh⟩ := C.bind_eq_ok.mp hh
    obtain ⟨l1, l2, b1, b2⟩ := shift_inv hb hl g1
    dsimp only at l1 l2 b1 b2 hh
    rcases shifted_transfer hb (by decide) l1 l2 (by omega) hh with ⟨hx, hy, -⟩ | ⟨code, rfl, g2, g3⟩
    · omega
    · rw [hi] at g2
      obtain ⟨rfl, g4⟩ := split_accepted g2 (G := Good i (n / 8 + 1)) (fun s s' q k r a b cc gg hq =>
        good_mwrite gg (by rw [slice_length (by omega)]; omega) (by omega) (by rw [slice_length (by omega)]; omega)
          (by rw [slice_length (by omega), slice_length (by omega)]) hq) g g3
      exact ⟨rfl, fin g4⟩
  · simp only [Bool.not_eq_true] at hs
    have hs' := hs
    unfold shifted at hs'
    rw [hb.type] at hs'
    simp only [BEq.rfl, Bool.true_and, Bool.or_eq_false_iff, decide_eq_false_iff_not, bne_eq_false_iff_eq] at hs'
    obtain ⟨c1, r, g1, ⟨hr', hx⟩ | ⟨rfl, hh⟩⟩ := daxTagWrite_plain hs hh
    · exfalso
      rw [hb.type] at g1
      have : format s fd true data.length c DAX_BOOL h.count = .ok (c, 0) := rfl
      rw [this] at g1
      simp only [C.ok.injEq, Prod.mk.injEq] at g1
      exact hr' g1.2.symm
    · obtain ⟨code, rfl, g2, g3, -⟩ := transfer_ok (ts := 1) (sends_write (base := h.byte) (by omega) (Nat.le_refl _)) (by decide) (by decide) (Nat.one_dvd _)
        (by decide) (fun _ => ⟨c1, by rw [hb.type]; exact ctypeSize_bool⟩) (by omega) (by omega) (fun h => h) hh
      rw [hi] at g2
      obtain ⟨rfl, g4⟩ := split_accepted g2 (G := Good i (n / 8 + 1)) (fun s s' q k r a b cc gg hq =>
        good_write gg (by rw [slice_length (by omega)]; omega) (by omega) (by rw [slice_length (by omega)]; omega) hq) g g3
      exact ⟨rfl, fin g4⟩

/-- **C24**, round trip: BOOLs written at any bit are read back as they were written, and the bits next to them are as before (`C24_write`).
The cases missing are those of `C24_accepted_partial`. -/
theorem C24_round_trip_partial {s s1 s2 : Server} {fd fd' : Int} {c c1 cr c2 : TypeCache} {h : Handle} {i a n : Nat} {name : Name} {data : List Byte} {l l' : Log}
    {o : Outcome} {d d' : List Byte} {M : Mem}
    (hr : Reachable s) (hm : ∀ i name, LiveAt s i name → NoMaps s i) (hM : Agrees M s) (ha : AttrAt s i a) (h0 : a.testBit 0 = false)
    (h1 : a.testBit 1 = false) (h3 : a.testBit 3 = false) (h4 : a.testBit 4 = false) (ht : LiveTag s i name DAX_BOOL n)
    (hi : h.index = i) (hb : Bools h) (hl : h.count ≤ 8 * data.length) (hn : n / 8 + 1 < 2147483647)
    (hin : h.byte + h.size + Wire.extraByte h ≤ n / 8 + 1) (hbad : ¬ (h.size = 2040 ∧ Wire.extraByte h = 1))
    (hh : daxTagWrite s fd c h data = .ok (s1, c1, l, o, d))
    (hh' : daxTagRead s1 fd' cr h = .ok (s2, c2, l', .done 0, d')) :
    o = .done 0 ∧ ∀ q < h.count, bitOf d' (q / 8) (q % 8) = bitOf data (q / 8) (q % 8) := by
  obtain ⟨rfl, hr1, ho⟩ := C24_accepted_partial hr hm ha h0 h1 h3 h4 ht hi hb hl (by omega) hin hbad hh
  obtain ⟨M', hM', hbits, -⟩ := C24_write hr hm hM hi hb hl (by omega) hh
  obtain ⟨-, -, hrd, -⟩ := C24_read hr1 ho hM' hi hb (by omega) hh'
  exact ⟨rfl, fun q hq => by rw [hrd q hq, hbits q hq]⟩


/-! ## Cases where the library fails -/

/-- The result of a transfer: the log, the outcome and the data. -/
def resultOf : C (Server × TypeCache × Log × Outcome × List Byte) → C (Log × Outcome × List Byte)
  | .ok (_, _, l, o, d) => .ok (l, o, d)
  | .ub w => .ub w

/-- **C24 fails**: "Flags" has 20 BOOLs in three bytes; the write of the last eight, which begin with bit 4 of byte 1, is refused as too large,
since a third byte is sent that is outside the tag.  Seven of the eight are written without error. -/
theorem C24_refused : Reachable (demo demoOps) ∧ LiveTag (demo demoOps) 14 (nm "Flags") DAX_BOOL 20 ∧ Bools ⟨14, 1, 4, 8, 2, DAX_BOOL⟩ ∧
    resultOf (daxTagWrite (demo demoOps) 5 [] ⟨14, 1, 4, 8, 2, DAX_BOOL⟩ [255]) =
      .ok ([(.tagMWrite 14 1 [0xf0, 0x0f, 0] [0xf0, 0x0f, 0], .err ERR_2BIG)], .done ERR_2BIG, []) ∧
    resultOf (daxTagWrite (demo demoOps) 5 [] ⟨14, 1, 4, 7, 2, DAX_BOOL⟩ [255]) =
      .ok ([(.tagMWrite 14 1 [0xf0, 0x07] [0xf0, 0x07], .resp [])], .done 0, []) :=
  ⟨demoOps_reachable, ⟨by decide, by decide, 0, fun fd => by kernel_rfl⟩, ⟨rfl, by decide, by decide, by decide⟩, by kernel_rfl, by kernel_rfl⟩

/-- **C24 fails**: BOOLs that touch 2040 bytes and are a multiple of eight, but do not begin with a byte, are never written: the library makes 2041
bytes of them and refuses those by itself, whatever the tag. -/
theorem C24_refused_2040 {s s' : Server} {fd : Int} {c c' : TypeCache} {h : Handle} {data : List Byte} {l : Log} {o : Outcome} {d : List Byte}
    (hb : Bools h) (hl : h.count ≤ 8 * data.length) (hsm : h.byte ≤ 2147481600) (h1 : h.size = 2040) (h2 : Wire.extraByte h = 1)
    (hh : daxTagWrite s fd c h data = .ok (s', c', l, o, d)) : s' = s ∧ l = [] ∧ o = .done ERR_2BIG := by
  have hex := h2
  unfold Wire.extraByte at hex
  split at hex
  · rename_i hx
    have hs : shifted h = true := by
      unfold shifted; rw [hx.1]
      simp only [BEq.rfl, Bool.true_and, Bool.or_eq_true]
      exact .inl (decide_eq_true hx.2.1)
    have hss : shiftSize h = 2041 := by
      unfold shiftSize; rw [if_pos hx.2]; omega
    unfold daxTagWrite at hh
    rw [if_pos hs] at hh
    obtain ⟨⟨nd, mk⟩, g1, hh⟩ := C.bind_eq_ok.mp hh
    obtain ⟨l1, l2, b1, b2⟩ := shift_inv hb hl g1
    dsimp only at l1 l2 b1 b2 hh
    unfold transfer at hh
    rw [if_neg (by omega)] at hh
    obtain ⟨⟨s1, l', e, d'⟩, g2, hh⟩ := C.bind_eq_ok.mp hh
    obtain ⟨dd, g3, g2⟩ := C.bind_eq_ok.mp g2
    obtain ⟨mm, g4, g2⟩ := C.bind_eq_ok.mp g2
    have := rd_length g3
    unfold daxMask at g2
    rw [if_pos (by unfold MSG_DATA_SIZE; omega)] at g2
    simp only [C.ok.injEq, Prod.mk.injEq] at g2 hh
    obtain ⟨rfl, rfl, rfl, rfl⟩ := g2
    exact ⟨hh.1.symm, hh.2.2.1.symm, hh.2.2.2.1.symm⟩
  · cases hex

/-- Instance: 16312 BOOLs that begin with bit 1, for a tag of 16313. -/
example : Bools ⟨14, 0, 1, 16312, 2040, DAX_BOOL⟩ ∧ Wire.extraByte ⟨14, 0, 1, 16312, 2040, DAX_BOOL⟩ = 1 :=
  ⟨⟨rfl, by decide, by decide, by decide⟩, by decide⟩

/-- **C24 fails** for masked writes: with a mask of zeros, which selects nothing, four BOOLs that begin with bit 4 are written all the same. -/
theorem C24_mask_ignored : Reachable (demo demoOps) ∧
    resultOf (daxTagMask (demo demoOps) 5 [] ⟨14, 0, 4, 4, 1, DAX_BOOL⟩ [255] [0]) =
      .ok ([(.tagMWrite 14 0 [0xf0] [0xf0], .resp [])], .done 0, []) :=
  ⟨demoOps_reachable, by kernel_rfl⟩

/-- A type of 4800 bytes with a tag of it, and a type with a nested one behind another member, with a tag of it. -/
def bigDemo : List Op := typeDemo ++
  [.req 5 (.cdtCreate (nm "Big:a,LINT,600")), .req 5 (.tagAdd 0x80000004 1 0 (nm "B")),
   .req 5 (.cdtCreate (nm "N:k,DINT,1:p,Pt,1")), .req 5 (.tagAdd 0x80000005 1 0 (nm "NT"))]

/-- **C25 fails** for elements larger than a message: nothing is transferred, though the tag has the bytes. -/
theorem C25_large_type : Reachable (demo bigDemo) ∧ LiveTag (demo bigDemo) 16 (nm "B") 0x80000004 1 ∧
    resultOf (daxTagRead (demo bigDemo) 5 [] ⟨16, 0, 0, 1, 4800, 0x80000004⟩) = .ok ([], .done ERR_2BIG, []) :=
  ⟨demo_reachable (by decide +kernel), ⟨by decide, by decide, 0, fun fd => by kernel_rfl⟩, by kernel_rfl⟩

/-- **C25 fails** for compound types with a compound member that is not the first: `_write_format` adds the
offset of the member twice, and accesses bytes outside the caller's data. -/
theorem C25_nested_outside : Reachable (demo bigDemo) ∧ LiveTag (demo bigDemo) 17 (nm "NT") 0x80000005 1 ∧
    resultOf (daxTagWrite (demo bigDemo) 5 [] ⟨17, 0, 0, 1, 16, 0x80000005⟩ (List.replicate 16 1)) = .ub "access outside block" ∧
    resultOf (daxTagRead (demo bigDemo) 5 [] ⟨17, 0, 0, 1, 16, 0x80000005⟩) =
      .ok ([(.tagRead 17 0 16, .resp (List.replicate 16 0))], .done 0, List.replicate 16 0) :=
  ⟨demo_reachable (by decide +kernel), ⟨by decide, by decide, 0, fun fd => by kernel_rfl⟩, by kernel_rfl, by kernel_rfl⟩

/-! ## Instances -/

/-- Instance of `C24_accepted_partial`, `C24_write`, `C24_read` and `C24_round_trip_partial`: nine BOOLs from bit 3 of "Flags" on. -/
example : Reachable (demo demoOps) ∧ AttrAt (demo demoOps) 14 0 ∧ LiveTag (demo demoOps) 14 (nm "Flags") DAX_BOOL 20 ∧
    Bools ⟨14, 0, 3, 9, 2, DAX_BOOL⟩ ∧ 0 + 2 + Wire.extraByte ⟨14, 0, 3, 9, 2, DAX_BOOL⟩ ≤ 20 / 8 + 1 ∧
    resultOf (daxTagWrite (demo demoOps) 5 [] ⟨14, 0, 3, 9, 2, DAX_BOOL⟩ [0xa5, 1]) =
      .ok ([(.tagMWrite 14 0 [0x28, 0x0d] [0xf8, 0x0f], .resp [])], .done 0, []) ∧
    resultOf (daxTagRead (demo (demoOps ++ [.req 5 (.tagMWrite 14 0 [0x28, 0x0d] [0xf8, 0x0f])])) 5 [] ⟨14, 0, 3, 9, 2, DAX_BOOL⟩) =
      .ok ([(.tagRead 14 0 2, .resp [0x28, 0x0d])], .done 0, [0xa5, 1]) :=
  ⟨demoOps_reachable, ⟨by decide, nm "Flags", DAX_BOOL, 20, fun fd => by kernel_rfl⟩, ⟨by decide, by decide, 0, fun fd => by kernel_rfl⟩,
   ⟨rfl, by decide, by decide, by decide⟩, by decide, by kernel_rfl, by kernel_rfl⟩

/-- Instance of `C25_write_partial`, `C25_written`, `C25_read_partial` and `C25_read_data`: four INTs. -/
example (c : TypeCache) : Reachable (demo demoOps) ∧ Ordinary (demo demoOps) 13 ∧
    Whole (demo demoOps) 5 c ⟨13, 0, 0, 4, 8, DAX_INT⟩ 4080 2 ∧
    resultOf (daxTagWrite (demo demoOps) 5 [] ⟨13, 0, 0, 4, 8, DAX_INT⟩ [8, 7, 6, 5, 4, 3, 2, 1]) =
      .ok ([(.tagWrite 13 0 [8, 7, 6, 5, 4, 3, 2, 1], .resp [])], .done 0, []) ∧
    resultOf (daxTagMask (demo demoOps) 5 [] ⟨13, 0, 0, 4, 8, DAX_INT⟩ [8, 7, 6, 5, 4, 3, 2, 1] [255, 255, 0, 0, 0, 0, 15, 15]) =
      .ok ([(.tagMWrite 13 0 [8, 7, 6, 5, 4, 3, 2, 1] [255, 255, 0, 0, 0, 0, 15, 15], .resp [])], .done 0, []) ∧
    resultOf (daxTagRead (demo demoOps) 5 [] ⟨13, 0, 0, 4, 8, DAX_INT⟩) =
      .ok ([(.tagRead 13 0 8, .resp [1, 2, 3, 4, 5, 6, 7, 8])], .done 0, [1, 2, 3, 4, 5, 6, 7, 8]) :=
  ⟨demoOps_reachable, ⟨0, ⟨by decide, nm "Speed", DAX_INT, 4, fun fd => by kernel_rfl⟩, by decide, by decide⟩,
   ⟨by decide, by decide, fun _ => ⟨c, ctypeSize_base (by decide)⟩, by decide, by decide, by decide⟩, by kernel_rfl, by kernel_rfl, by kernel_rfl⟩

end Dax
