import Verif.Model.LibOverride
import Verif.Props.Override
/-!
# Reading back an override through the client library: C106
-/
set_option autoImplicit false
namespace Dax
open Dax.LibGroup Dax.LibOverride

/-- A module asks for the override of a handle: the server answers the request of the library, and the call leaves `data'` and `mask'` in the memory of the caller and returns `r`. -/
def GetsOverride (s : Server) (fd : Int) (junk : List Byte) (h : Handle) (data mask data' mask' : List Byte) (r : Int) : Prop :=
  ∃ q a, Answers s fd (.ovrGet h.index h.byte h.size) q ∧ ansOf q = some a ∧ getOverride junk h data mask a = .ok (data', mask', r)

/-! ## Lemmas -/

theorem overrideGet_inv {s : Server} {fd idx off n : Int} {q : Reply} (h : Answers s fd (.ovrGet idx off n) q) :
    (∃ e, q = .err e ∧ e ≠ 0) ∨ ∃ t sz D M, s.tag? idx = some t ∧ t.data ≠ .freed ∧ ovrSize s.cdts t = .ok sz ∧ off + n ≤ sz ∧ -2147483648 ≤ off + n ∧ off + n < 2147483648 ∧ 2 * n ≤ MSG_DATA_SIZE ∧ rd t.data.block 0 n = .ok D ∧
      ((t.ovr = none ∧ n = 0 ∧ M = []) ∨ ∃ od om, t.ovr = some (od, om) ∧ rd om 0 n = .ok M) ∧ q = .resp (D ++ M) := by
  obtain ⟨s1, h⟩ := h
  simp only [handle] at h
  obtain ⟨x, h1, h⟩ := C.bind_eq_ok.mp h
  unfold overrideGet at h1
  cases ht : s.tag? idx with
  | none =>
    rw [ht] at h1
    simp only [C.ok.injEq] at h1
    subst h1
    simp only [C.ok.injEq, Prod.mk.injEq] at h
    exact .inl ⟨_, h.2.symm, by decide⟩
  | some t =>
    rw [ht] at h1
    dsimp only at h1
    by_cases hf : t.data = .freed
    · rw [if_pos hf] at h1
      simp only [C.ok.injEq] at h1
      subst h1
      simp only [C.ok.injEq, Prod.mk.injEq] at h
      exact .inl ⟨_, h.2.symm, by decide⟩
    · rw [if_neg hf] at h1
      obtain ⟨sz, hsz, h1⟩ := C.bind_eq_ok.mp h1
      obtain ⟨e, he, h1⟩ := C.bind_eq_ok.mp h1
      obtain ⟨hr, rfl⟩ := addI32_ok.mp he
      by_cases hb : off + n > sz
      · rw [if_pos hb] at h1
        simp only [C.ok.injEq] at h1
        subst h1
        simp only [C.ok.injEq, Prod.mk.injEq] at h
        exact .inl ⟨_, h.2.symm, by decide⟩
      · rw [if_neg hb] at h1
        by_cases hl : 2 * n > MSG_DATA_SIZE
        · rw [if_pos hl] at h1; cases h1
        · rw [if_neg hl] at h1
          obtain ⟨D, hD, h1⟩ := C.bind_eq_ok.mp h1
          right
          cases ho : t.ovr with
          | none =>
            rw [ho] at h1
            dsimp only at h1
            by_cases h0 : n = 0
            · rw [if_pos h0] at h1
              simp only [C.ok.injEq] at h1
              subst h1
              simp only [C.ok.injEq, Prod.mk.injEq] at h
              exact ⟨t, sz, D, [], rfl, hf, hsz, by omega, by omega, by omega, by omega, hD, .inl ⟨ho, h0, rfl⟩, h.2.symm⟩
            · rw [if_neg h0] at h1; cases h1
          | some o =>
            obtain ⟨od, om⟩ := o
            rw [ho] at h1
            dsimp only at h1
            obtain ⟨M, hM, h1⟩ := C.bind_eq_ok.mp h1
            simp only [C.ok.injEq] at h1
            subst h1
            simp only [C.ok.injEq, Prod.mk.injEq] at h
            exact ⟨t, sz, D, M, rfl, hf, hsz, by omega, by omega, by omega, by omega, hD, .inr ⟨od, om, ho, hM⟩, h.2.symm⟩

/-- The call with an answer of twice the size of the handle. -/
theorem getOverride_ok {junk : List Byte} {h : Handle} {data mask data' mask' D M : List Byte} {r : Int} (hD : D.length = h.size) (hM : M.length = h.size) :
    getOverride junk h data mask (.data (D ++ M)) = .ok (data', mask', r) ↔
      2 * h.size ≤ MSG_DATA_SIZE ∧ h.size ≤ data.length ∧ h.size ≤ mask.length ∧ data' = D ++ data.drop h.size ∧ mask' = M ++ mask.drop h.size ∧ r = 0 := by
  have hl : (D ++ M).length = 2 * h.size := by rw [List.length_append]; omega
  have r1 : ∀ x, rd (D ++ M ++ x) 0 h.size = .ok D := by
    intro x
    rw [rd_ok]
    refine ⟨⟨by omega, by omega, by rw [List.length_append, hl]; omega⟩, ?_⟩
    simp [← hD]
  have r2 : ∀ x, rd (D ++ M ++ x) h.size h.size = .ok M := by
    intro x
    rw [rd_ok]
    refine ⟨⟨by omega, by omega, by rw [List.length_append, hl]; omega⟩, ?_⟩
    rw [Int.toNat_natCast, List.append_assoc, List.drop_append_of_le_length (by omega), List.drop_eq_nil_of_le (by omega), List.nil_append, List.take_append_of_le_length (by omega), List.take_of_length_le (by omega)]
  unfold getOverride
  dsimp only
  rw [hl]
  by_cases hb : 2 * h.size > MSG_DATA_SIZE
  · rw [if_pos hb]
    exact ⟨fun h => (by cases h), fun h => absurd h.1 (by omega)⟩
  · rw [if_neg hb, r1, C.ok_bind, r2]
    constructor
    · intro hx
      obtain ⟨w, hw, hx⟩ := C.bind_eq_ok.mp hx
      rw [C.ok_bind] at hx
      obtain ⟨w2, hw2, hx⟩ := C.bind_eq_ok.mp hx
      simp only [C.ok.injEq, Prod.mk.injEq] at hx
      obtain ⟨rfl, rfl, rfl⟩ := hx
      obtain ⟨a1, a2⟩ := wr_ok.mp hw
      obtain ⟨b1, b2⟩ := wr_ok.mp hw2
      refine ⟨by omega, by omega, by omega, ?_, ?_, rfl⟩
      · rw [a2, hD]; simp
      · rw [b2, hM]; simp
    · rintro ⟨-, h1, h2, rfl, rfl, rfl⟩
      have w1 : wr data 0 D = .ok (D ++ data.drop h.size) := wr_ok.mpr ⟨⟨by omega, by omega⟩, by rw [hD]; simp⟩
      have w2 : wr mask 0 M = .ok (M ++ mask.drop h.size) := wr_ok.mpr ⟨⟨by omega, by omega⟩, by rw [hM]; simp⟩
      rw [w1, C.ok_bind, C.ok_bind, w2]
      rfl

/-- What asking for an override comes to. -/
theorem getsOverride_inv {s : Server} {fd : Int} {junk : List Byte} {h : Handle} {data mask data' mask' : List Byte} {r : Int} (hg : GetsOverride s fd junk h data mask data' mask' r) :
    (r ≠ 0 ∧ data' = data ∧ mask' = mask) ∨
    (r = 0 ∧ ∃ t D M, s.tag? h.index = some t ∧ rd t.data.block 0 h.size = .ok D ∧ M.length = h.size ∧ (h.size ≠ 0 → ∃ od om, t.ovr = some (od, om) ∧ rd om 0 h.size = .ok M) ∧
      Answers s fd (.ovrGet h.index h.byte h.size) (.resp (D ++ M)) ∧ h.size ≤ data.length ∧ h.size ≤ mask.length ∧ data' = D ++ data.drop h.size ∧ mask' = M ++ mask.drop h.size) := by
  obtain ⟨q, a, h1, h2, h3⟩ := hg
  rcases overrideGet_inv h1 with ⟨e, rfl, he⟩ | ⟨t, sz, D, M, ht, -, -, -, -, -, -, hD, hM, rfl⟩
  · cases h2
    unfold getOverride at h3
    simp only [C.ok.injEq, Prod.mk.injEq] at h3
    obtain ⟨rfl, rfl, rfl⟩ := h3
    exact .inl ⟨he, rfl, rfl⟩
  · cases h2
    have lD : D.length = h.size := by have := rd_length hD; omega
    have lM : M.length = h.size := by
      rcases hM with ⟨-, h0, rfl⟩ | ⟨od, om, -, hM⟩
      · simp only [List.length_nil]; omega
      · have := rd_length hM; omega
    obtain ⟨-, a1, a2, a3, a4, a5⟩ := (getOverride_ok lD lM).1 h3
    refine .inr ⟨a5, t, D, M, ht, hD, lM, fun h0 => ?_, h1, a1, a2, a3, a4⟩
    rcases hM with ⟨-, h0', -⟩ | ⟨od, om, ho, hM⟩
    · omega
    · exact ⟨od, om, ho, hM⟩

/-! ## C106 -/

/-- **C106**, handles at the begin of a tag: after any sequence of reads, writes, installations and removals of overrides and switching them on and off, by any clients, reading back the override of a handle at the begin of a tag stores the bytes that were written, whether or not the override is on, and the mask that is installed in the bytes that are known; what is behind them in the memory of the caller stays as it was.

Missing: handles that begin elsewhere in the tag (`C106_begin`, `C106_bits`), mappings, and tags without override (`C106_none`). -/
theorem C106_actual_partial {qs : List (Int × Req)} {s s' : Server} {rs : List Reply} {M : Mem} (h : Reachable s)
    (hm : ∀ i name, LiveAt s i name → NoMaps s i) (hM : Agrees M s) (hq : ∀ q ∈ qs, q.2.isOvr)
    (hr : runR s qs = .ok (s', rs)) {i : Nat} (hi : Ordinary s i) (h7 : i ≠ 7) (h8 : i ≠ 8)
    {fd g : Int} {junk data mask data' mask' d : List Byte} {hd : Handle} (hx : hd.index = i) (h0 : hd.byte = 0)
    (hread : Answers s' g (.tagRead i 0 hd.size) (.resp d)) (hg : GetsOverride s' fd junk hd data mask data' mask' 0) :
    data'.length = data.length ∧ mask'.length = mask.length ∧ ∀ k,
      (k < hd.size → data'[k]? = some ((((qs.map (·.2)).zip rs).foldl OvrView.see { mem := M }).mem i k) ∧
        ∀ v m, (((qs.map (·.2)).zip rs).foldl OvrView.see { mem := M }).val i k = some (v, m) → mask'[k]? = some m) ∧
      (hd.size ≤ k → data'[k]? = data[k]? ∧ mask'[k]? = mask[k]?) := by
  have R := repView_run (by simp) (by simp) (repView_start h hm hM) hq hr
  obtain ⟨t, b, ht, hn, hv, hb, -, hval⟩ := R.tag i ⟨hi, h7, h8⟩
  rcases getsOverride_inv hg with ⟨hc, -⟩ | ⟨-, u, D, Mk, hu, hD, hMl, hov, -, hd1, hd2, rfl, rfl⟩
  · exact absurd rfl hc
  rw [hx, tag?_natCast, ht] at hu
  cases hu
  have hDl : D.length = hd.size := by have := rd_length hD; omega
  -- the size of the handle is one that can be read
  obtain ⟨s2, hread⟩ := hread
  simp only [handle, hTagRead] at hread
  obtain ⟨⟨s3, r3⟩, h3, hread⟩ := C.bind_eq_ok.mp hread
  unfold tagRead at h3
  rw [tag?_natCast, ht] at h3
  simp only [hv, hb, Bool.false_eq_true, if_false] at h3
  obtain ⟨e, he, h3⟩ := C.bind_eq_ok.mp h3
  obtain ⟨hre, rfl⟩ := addI32_ok.mp he
  obtain ⟨sz, hsz, h3⟩ := C.bind_eq_ok.mp h3
  split at h3
  · simp only [C.ok.injEq, Prod.mk.injEq] at h3
    obtain ⟨rfl, rfl⟩ := h3
    simp at hread
  rename_i hsz'
  rw [hb] at hD
  have hDb := (rd_ok.mp hD).1
  refine ⟨by rw [List.length_append, List.length_drop]; omega, by rw [List.length_append, List.length_drop]; omega, fun k => ⟨fun hk => ⟨?_, fun v m hX => ?_⟩, fun hk => ?_⟩⟩
  · rw [List.getElem?_append_left (by omega), rd_get hD, if_pos (by omega)]
    have hbl : hd.size ≤ b.length := by
      have : (Store.mem b).block = b := rfl
      rw [this] at hDb
      omega
    have := R.mem i t b ⟨ht, hn, hv, ⟨hi, h7, h8⟩, hb⟩ sz hsz k (by omega) (by omega) (by omega)
    show b[(0 : Int).toNat + k]? = _
    simpa using this
  · rw [List.getElem?_append_left (by omega)]
    obtain ⟨od, om, ho, hMk⟩ := hov (by omega)
    rcases hval k v m hX with ⟨od', om', e0, -, e2, -⟩ | ⟨e0, -⟩
    · rw [ho] at e0; cases e0
      rw [rd_get hMk, if_pos (by omega)]
      simpa using e2
    · rw [ho] at e0; cases e0
  · rw [List.getElem?_append_right (by omega), List.getElem?_append_right (by omega), List.getElem?_drop, List.getElem?_drop]
    rw [show hd.size + (k - D.length) = k by omega, show hd.size + (k - Mk.length) = k by omega]
    exact ⟨rfl, rfl⟩

/-- **C106**, refused requests leave the memory of the caller. -/
theorem C106_refused {s : Server} {fd : Int} {junk : List Byte} {h : Handle} {data mask data' mask' : List Byte} {r : Int} (hg : GetsOverride s fd junk h data mask data' mask' r) (hr : r ≠ 0) :
    data' = data ∧ mask' = mask := by
  rcases getsOverride_inv hg with ⟨-, a, b⟩ | ⟨h0, -⟩
  · exact ⟨a, b⟩
  · exact absurd h0 hr

/-- **C106** fails for every handle that does not begin with its tag: whatever byte it begins with, the call gives what it gives for a handle of the same size at the begin of the tag. -/
theorem C106_begin {s : Server} {fd : Int} {junk : List Byte} {h : Handle} {data mask data' mask' : List Byte} (hg : GetsOverride s fd junk h data mask data' mask' 0) :
    GetsOverride s fd junk { h with byte := 0 } data mask data' mask' 0 := by
  obtain ⟨q, a, h1, h2, h3⟩ := hg
  rcases overrideGet_inv h1 with ⟨e, rfl, he⟩ | ⟨t, sz, D, M, ht, hf, hsz, hle, hlo, hhi, hms, hD, hM, rfl⟩
  · cases h2
    unfold getOverride at h3
    simp only [C.ok.injEq, Prod.mk.injEq] at h3
    exact absurd h3.2.2 he
  · cases h2
    have lD : D.length = h.size := by have := rd_length hD; omega
    have lM : M.length = h.size := by
      rcases hM with ⟨-, h0, rfl⟩ | ⟨od, om, -, hM⟩
      · simp only [List.length_nil]; omega
      · have := rd_length hM; omega
    refine ⟨.resp (D ++ M), .data (D ++ M), ⟨s, ?_⟩, rfl, (getOverride_ok (h := { h with byte := 0 }) lD lM).2 ((getOverride_ok lD lM).1 h3)⟩
    have hadd : addI32 (0 : Nat) h.size = .ok (h.size : Int) := addI32_ok.mpr ⟨by omega, by omega⟩
    have hget : overrideGet s h.index (0 : Nat) h.size = .ok (.ok (D, M)) := by
      unfold overrideGet
      rw [ht]
      dsimp only
      rw [if_neg hf, hsz, C.ok_bind, hadd, C.ok_bind, if_neg (by omega), if_neg (by omega), hD, C.ok_bind]
      rcases hM with ⟨ho, h0, rfl⟩ | ⟨od, om, ho, hM⟩
      · rw [ho]; dsimp only; rw [if_pos h0]
      · rw [ho]; dsimp only; rw [hM]; rfl
    show handle s fd (.ovrGet h.index ((0 : Nat) : Int) h.size) = _
    simp only [handle]
    rw [hget]
    rfl

/-- **C106** fails for bits: the call gives the same whatever bit the handle begins with. -/
theorem C106_bits {s : Server} {fd : Int} {junk : List Byte} {h : Handle} {data mask data' mask' : List Byte} {r : Int} (b c : Nat) :
    GetsOverride s fd junk h data mask data' mask' r ↔ GetsOverride s fd junk { h with bit := b, count := c } data mask data' mask' r := Iff.rfl

/-- A type with four bits and then eight, a tag of it, and its override. -/
def packOps : List (Int × Req) :=
  [(6, .cdtCreate (nm "Pack:A,BOOL,4:B,BOOL,8")), (6, .tagAdd 0x80000002 1 0 (nm "P")), (6, .ovrAdd 16 0 [0xF0, 0x0F] [0xF0, 0x0F])]

/-- The eight bits. -/
def packB : Handle := ⟨16, 0, 4, 8, 1, DAX_BOOL⟩

/-- **C106** fails: an override of all eight bits of a member, put in by the library, comes back with the four bits before them and without the last four. -/
theorem C106_bits_shown (junk : List Byte) : Reachable (demo demoOps) ∧ Wire.encode junk (.ovrAdd packB [0xFF]) = .ok (.ok (0x18, le4 16 ++ toLE 4 0 ++ (junk.drop 8).take 4 ++ [0xF0, 0x0F] ++ [0xF0, 0x0F])) ∧ ∃ s' rs,
    runR (demo demoOps) packOps = .ok (s', rs) ∧ rs.drop 2 = [.resp []] ∧ GetsOverride s' 6 junk packB [7] [7] [0] [0xF0] 0 := by
  refine ⟨demoOps_reachable, by kernel_rfl, ?_⟩
  obtain ⟨s', rs, h1, h2, h3⟩ := exists_run2 (s := demo demoOps) (qs := packOps) (rs := [.resp [2, 0, 0, 0x80], .resp [16, 0, 0, 0], .resp []]) (p := fun s' => replyOf (handle s' 6 (.ovrGet 16 0 1)) = some (.resp [0, 0xF0])) (Q := fun s' => GetsOverride s' 6 junk packB [7] [7] [0] [0xF0] 0) (by decide +kernel) (fun s h =>
    ⟨.resp [0, 0xF0], .data [0, 0xF0], exists_reply h, rfl, (getOverride_ok (h := packB) (D := [0]) (M := [0xF0]) rfl rfl).2 ⟨by decide, by decide, by decide, rfl, rfl, rfl⟩⟩)
  exact ⟨s', rs, h1, by rw [h2]; rfl, h3⟩

theorem ovrSize_bool {tbl : List Cdt} {t : Tag} {n : Int} (ht : t.type = DAX_BOOL) (h : ovrSize tbl t = .ok n) : n = 0 := by
  unfold ovrSize at h
  have : typeSize tbl DAX_BOOL = .ok 0 := rfl
  rw [ht, this, C.ok_bind] at h
  simp only [C.ok.injEq] at h
  rw [← h, Int.zero_mul]
  rfl

/-- **C16** and **C106** fail for all BOOL tags: no override of one is ever accepted or given back, as the server takes their size for zero. -/
theorem C106_bool {s : Server} {i : Nat} {name : Name} {c : Nat} (hr : Reachable s) (hl : LiveTag s i name DAX_BOOL c) :
    (∀ (fd off : Int) (d m x : List Byte), d ≠ [] → ¬ Answers s fd (.ovrAdd i off d m) (.resp x)) ∧
    ∀ (fd : Int) (junk : List Byte) (h : Handle) (data mask data' mask' : List Byte), h.index = i → h.size ≠ 0 → ¬ GetsOverride s fd junk h data mask data' mask' 0 := by
  obtain ⟨t, ht, -, hty, -⟩ := (liveTag_iff hr.wf).1 hl
  constructor
  · intro fd off d m x hd hA
    obtain ⟨s1, hA⟩ := hA
    simp only [handle] at hA
    obtain ⟨⟨s2, r⟩, h1, hA⟩ := C.bind_eq_ok.mp hA
    simp only [C.ok.injEq, Prod.mk.injEq] at hA
    have hr0 : ¬ r < 0 := by
      intro hlt
      have := hA.2
      unfold okOrErr at this
      rw [if_pos hlt] at this
      cases this
    rcases overrideAdd_inv h1 with ⟨-, h2⟩ | ⟨u, hu, -, ⟨-, h2⟩ | ⟨h2, -⟩⟩
    · exact hr0 h2
    · rw [tag?_natCast, ht] at hu
      cases hu
      obtain ⟨n, od, om, od', om', s3, t3, a1, -, a3, a4, -⟩ := h2.ex
      have := ovrSize_bool hty a1
      have := (wr_ok.mp a4).1
      have : 0 < d.length := List.length_pos_iff.mpr hd
      omega
    · exact hr0 h2
  · rintro fd junk h data mask data' mask' hx h0 ⟨q, a, h1, h2, h3⟩
    rcases overrideGet_inv h1 with ⟨e, rfl, he⟩ | ⟨u, sz, D, M, hu, -, hsz, hle, -⟩
    · cases h2
      unfold getOverride at h3
      simp only [C.ok.injEq, Prod.mk.injEq] at h3
      exact absurd h3.2.2 he
    · rw [hx, tag?_natCast, ht] at hu
      cases hu
      have := ovrSize_bool hty hsz
      omega

/-- **C16** fails: the first override of a BOOL tag writes outside the memory that was allocated for it. -/
theorem C16_bool : Reachable (demo demoOps) ∧ LiveTag (demo demoOps) 14 (nm "Flags") DAX_BOOL 20 ∧ ∃ w, handle (demo demoOps) 6 (.ovrAdd 14 0 [1] [1]) = .ub w :=
  ⟨demoOps_reachable, ⟨by decide, by decide, 0, fun fd => by kernel_rfl⟩, isOk_false (by decide +kernel)⟩

/-- **C106** fails: if no override was ever installed on the tag, the question ends the server. -/
theorem C106_none : Reachable (demo demoOps) ∧ ∃ w, handle (demo demoOps) 6 (.ovrGet 13 0 2) = .ub w :=
  ⟨demoOps_reachable, isOk_false (by decide +kernel)⟩

/-- **C106**, sizes: an override of more than 2044 bytes is never given back, though up to 4080 bytes fit a write. -/
theorem C106_limit {s : Server} {fd : Int} {junk : List Byte} {h : Handle} {data mask data' mask' : List Byte} (hg : GetsOverride s fd junk h data mask data' mask' 0) : 2 * h.size ≤ MSG_DATA_SIZE := by
  obtain ⟨q, a, h1, h2, h3⟩ := hg
  rcases overrideGet_inv h1 with ⟨e, rfl, he⟩ | ⟨t, sz, D, M, ht, hf, hsz, hle, hlo, hhi, hms, hD, hM, rfl⟩
  · cases h2
    unfold getOverride at h3
    simp only [C.ok.injEq, Prod.mk.injEq] at h3
    exact absurd h3.2.2 he
  · omega

/-- Instance of `C106_actual_partial`: the override of tag 13 is on and the tag was written meanwhile; the first four bytes come back as written. -/
example (junk : List Byte) : (∀ q ∈ ovrDemo, q.2.isOvr) ∧ ∃ s' rs, runR (demo demoOps) ovrDemo = .ok (s', rs) ∧ rs = [.resp [], .resp [], .resp []] ∧
    (∃ d, Answers s' 6 (.tagRead 13 0 4) (.resp d)) ∧ GetsOverride s' 6 junk ⟨13, 0, 0, 2, 4, DAX_INT⟩ [9, 9, 9, 9, 9] [8, 8, 8, 8, 8] [1, 2, 0x30, 0x77, 9] [0, 0, 0x0F, 0xF0, 8] 0 := by
  constructor
  · intro q hq
    simp only [ovrDemo, List.mem_cons, List.not_mem_nil, or_false] at hq
    rcases hq with rfl | rfl | rfl <;> first | rfl | trivial
  · refine exists_run2 (p := fun s' => replyOf (handle s' 6 (.tagRead 13 0 4)) = some (.resp [1, 2, 0x3F, 0x07]) ∧
      replyOf (handle s' 6 (.ovrGet 13 0 4)) = some (.resp [1, 2, 0x30, 0x77, 0, 0, 0x0F, 0xF0])) (by decide +kernel) (fun s h => ⟨⟨_, exists_reply h.1⟩, ?_⟩)
    exact ⟨.resp [1, 2, 0x30, 0x77, 0, 0, 0x0F, 0xF0], .data [1, 2, 0x30, 0x77, 0, 0, 0x0F, 0xF0], exists_reply h.2, rfl,
      (getOverride_ok (h := ⟨13, 0, 0, 2, 4, DAX_INT⟩) (D := [1, 2, 0x30, 0x77]) (M := [0, 0, 0x0F, 0xF0]) rfl rfl).2 ⟨by decide, by decide, by decide, rfl, rfl, rfl⟩⟩

end Dax
