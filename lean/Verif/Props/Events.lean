import Verif.Lemmas.EventKinds
import Verif.Lemmas.Demo
/-!
# When notifications are sent (C26–C30)
-/
set_option autoImplicit false
namespace Dax

/-- At most one notification per write, of the kind and to the connection of the subscription. -/
theorem notices_addressed {S : Sub} {s s' : Server} {H : List Look} {off : Int} {len : Nat} {b : List Byte}
    (hz : S.Sane) (h : S.writeTo H s s' off len b) :
    (notices s s' S.i S.id).length ≤ 1 ∧ ∀ n ∈ notices s s' S.i S.id, n.fd = S.fd ∧ n.etype = S.et := by
  obtain ⟨h1, h2, h3, h4, h5, fd, q, h6, h7⟩ := h
  obtain ⟨c, H', -, h8, h9, -⟩ := write_outcome hz h1 h2 h6 h3 h4 h7 h5
  exact ⟨h9, h8⟩

theorem notEmpty_iff {α : Type} {l : List α} : (!l.isEmpty) = true ↔ l ≠ [] := by cases l <;> simp

theorem evHit_write {S : Sub} {e : Env} {d t b : List Byte} {off : Int} {len : Nat} {hit : Bool} {t' : List Byte}
    (het : S.et = EVENT_WRITE) (h : evHit e (S.ev d t) b off len = .ok (hit, t')) : hit = true := by
  unfold evHit at h
  rw [Sub.ev_etype, het, if_pos rfl] at h
  simp only [C.ok.injEq, Prod.mk.injEq] at h
  exact h.1.symm

/-! ## Histories by evaluation -/

def mapFreeB (s : Server) (i : Nat) : Bool :=
  (match s.db[i]? with
   | some t => !t.wildMaps && t.maps.isEmpty
   | none => false) &&
  s.db.all fun t => t.wildMaps || t.maps.all fun m => m.dst.index.toNat != i

theorem mapFree_of {s : Server} {i : Nat} (h : mapFreeB s i = true) : MapFree s i := by
  unfold mapFreeB at h
  rw [Bool.and_eq_true] at h
  obtain ⟨h1, h2⟩ := h
  constructor
  · cases ht : s.db[i]? with
    | none => simp [ht] at h1
    | some t =>
      rw [ht] at h1
      simp only [Bool.and_eq_true, Bool.not_eq_true', List.isEmpty_iff] at h1
      exact (noMaps_iff ht).mpr h1
  · intro j t ht hw m hm
    have := List.all_eq_true.mp h2 t (List.mem_of_getElem? ht)
    simp only [hw, Bool.false_or, List.all_eq_true, bne_iff_ne] at this
    exact this m hm

def tagDataB (s : Server) (i : Nat) (b : List Byte) : Bool :=
  match s.db[i]? with
  | some t => (match t.data with
    | .mem b' => decide (b' = b)
    | _ => false)
  | none => false

theorem tagData_of {s : Server} {i : Nat} {b : List Byte} (h : tagDataB s i b = true) : TagData s i b := by
  unfold tagDataB at h
  cases ht : s.db[i]? with
  | none => simp [ht] at h
  | some t =>
    refine ⟨t, ht, ?_⟩
    rw [ht] at h
    cases hd : t.data <;> simp [hd] at h
    rw [h]

def hasMem (s : Server) (i : Nat) : Bool :=
  match s.db[i]? with
  | some t => (match t.data with
    | .mem _ => true
    | _ => false)
  | none => false

theorem hasMem_of {s : Server} {i : Nat} (h : hasMem s i = true) : ∃ b, TagData s i b := by
  unfold hasMem at h
  cases ht : s.db[i]? with
  | none => simp [ht] at h
  | some t =>
    rw [ht] at h
    cases hd : t.data with
    | mem b => exact ⟨b, t, ht, hd⟩
    | _ => simp [hd] at h

/-- A subscription made in a demonstration state. -/
theorem seen_demo {S : Sub} {os : List Op} {b : List Byte} (hi : S.h.index = S.i) (hid : S.id < 2147483648)
    (h0 : (run init0 (.env {} :: os)).isOk = true)
    (h : (run init0 (.env {} :: (os ++ [.req S.fd (.evAdd S.h S.et S.arg)]))).isOk = true)
    (hr : replyOf (handle (demo os) S.fd (.evAdd S.h S.et S.arg)) = some (.resp (le4 S.id)))
    (hd : tagDataB (demo (os ++ [.req S.fd (.evAdd S.h S.et S.arg)])) S.i b = true) :
    Seen S (demo (os ++ [.req S.fd (.evAdd S.h S.et S.arg)])) [⟨b, false, 0, 0⟩] :=
  .start (demo_reachable h0) hi hid (demo_handle h hr) (tagData_of hd)

/-- A write in a demonstration state. -/
theorem writeTo_demo {S : Sub} {H : List Look} {os : List Op} {b d : List Byte} {fd : Int} {off len : Nat}
    (hs : Seen S (demo os) H) (hm : mapFreeB (demo os) S.i = true) (hl : d.length = len) (hpos : 0 < len)
    (h : (run init0 (.env {} :: (os ++ [.req fd (.tagWrite S.i off d)]))).isOk = true)
    (hr : replyOf (handle (demo os) fd (.tagWrite S.i off d)) = some (.resp []))
    (hd : tagDataB (demo (os ++ [.req fd (.tagWrite S.i off d)])) S.i b = true) :
    S.writeTo H (demo os) (demo (os ++ [.req fd (.tagWrite S.i off d)])) off len b :=
  ⟨hs, mapFree_of hm, by omega, hpos, tagData_of hd, fd, _, .inl ⟨d, rfl, hl⟩, demo_handle h hr⟩

/-- The write continues the history. -/
theorem Sub.writeTo.seen {S : Sub} {H : List Look} {s s' : Server} {off : Int} {len : Nat} {b : List Byte} {hit : Bool}
    (h : S.writeTo H s s' off len b) (ht : S.touched off len)
    (hn : (!(notices s s' S.i S.id).isEmpty) = hit) : Seen S s' (⟨b, hit, off, len⟩ :: H) := by
  obtain ⟨h1, h2, h3, h4, h5, fd, q, h6, h7⟩ := h
  exact hn ▸ .write h1 h2 h6 h3 h7 h5 ht

/-- The operations `os` followed by the subscription. -/
def Sub.ops (S : Sub) (os : List Op) : List Op := os ++ [.req S.fd (.evAdd S.h S.et S.arg)]

/-- `os` followed by a write to the tag of the subscription. -/
def Sub.wr (S : Sub) (os : List Op) (off : Nat) (d : List Byte) : List Op := os ++ [.req 5 (.tagWrite S.i off d)]

def addOK (S : Sub) (os : List Op) (b : List Byte) : Bool :=
  decide (S.h.index = S.i) && decide (S.id < 2147483648) && (run init0 (.env {} :: os)).isOk &&
  (run init0 (.env {} :: S.ops os)).isOk &&
  decide (replyOf (handle (demo os) S.fd (.evAdd S.h S.et S.arg)) = some (.resp (le4 S.id))) &&
  tagDataB (demo (S.ops os)) S.i b

theorem seen_add {S : Sub} {os : List Op} {b : List Byte} (h : addOK S os b = true) :
    Seen S (demo (S.ops os)) [⟨b, false, 0, 0⟩] := by
  simp only [addOK, Bool.and_eq_true, decide_eq_true_eq] at h
  obtain ⟨⟨⟨⟨⟨h1, h2⟩, h3⟩, h4⟩, h5⟩, h6⟩ := h
  exact seen_demo h1 h2 h3 h4 h5 h6

def wrOK (S : Sub) (os : List Op) (off : Nat) (d b : List Byte) : Bool :=
  mapFreeB (demo os) S.i && decide (0 < d.length) && (run init0 (.env {} :: S.wr os off d)).isOk &&
  decide (replyOf (handle (demo os) 5 (.tagWrite S.i off d)) = some (.resp [])) &&
  tagDataB (demo (S.wr os off d)) S.i b

theorem writeTo_wr {S : Sub} {H : List Look} {os : List Op} {off : Nat} {d b : List Byte} (hs : Seen S (demo os) H)
    (h : wrOK S os off d b = true) : S.writeTo H (demo os) (demo (S.wr os off d)) off d.length b := by
  simp only [wrOK, Bool.and_eq_true, decide_eq_true_eq] at h
  obtain ⟨⟨⟨⟨h1, h2⟩, h3⟩, h4⟩, h5⟩ := h
  exact writeTo_demo hs h1 rfl h2 h3 h4 h5

instance (S : Sub) : Decidable S.Sane := by unfold Sub.Sane; infer_instance
instance (S : Sub) (s s' : Server) : Decidable (S.notified s s') := by unfold Sub.notified; infer_instance

/-- Element 1 of the tag `Speed`. -/
def speed1 (et : Int) (arg : List Byte) : Sub := ⟨13, 1, ⟨13, 2, 0, 1, 2, DAX_INT⟩, et, arg, 6⟩
/-- Elements 1 and 2 of the tag `Speed`. -/
def speed12 (et : Int) (arg : List Byte) : Sub := ⟨13, 1, ⟨13, 2, 0, 2, 4, DAX_INT⟩, et, arg, 6⟩
/-- Bits 3 and 4 of the tag `Flags`. -/
def flags34 (et : Int) : Sub := ⟨14, 1, ⟨14, 0, 3, 2, 1, DAX_BOOL⟩, et, [], 6⟩

/-! ## C26 -/

/-- **C26** for ranges of at least one byte that do not wrap around the address space, whose
notifications fit in a message, and writes of at least one byte.  Missing: the three cases below. -/
theorem C26_write_partial {S : Sub} {s s' : Server} {H : List Look} {off : Int} {len : Nat} {b : List Byte}
    (hz : S.Sane) (het : S.et = EVENT_WRITE) (h : S.writeTo H s s' off len b) :
    S.notified s s' ↔ S.touched off len := by
  obtain ⟨h1, h2, h3, h4, h5, fd, q, h6, h7⟩ := h
  obtain ⟨c, H', -, -, -, h8⟩ := write_outcome hz h1 h2 h6 h3 h4 h7 h5
  unfold Sub.notified
  rcases h8 with ⟨ht, e, d, t, hch⟩ | ⟨ht, hn, -⟩
  · refine ⟨fun _ => ht, fun _ => ?_⟩
    rw [← notEmpty_iff]
    generalize (!(notices s s' S.i S.id).isEmpty) = hit at hch ⊢
    cases hch with
    | look _ _ _ _ _ _ _ h => exact evHit_write het h
  · simp [ht, hn]

/-- Two writes, one touching element 1 of `Speed` in its second byte only, one not touching it. -/
example : let S := speed1 EVENT_WRITE []
    S.Sane ∧
    (∃ H s s' b, S.writeTo H s s' 3 1 b ∧ S.notified s s') ∧
    (∃ H s s' b, S.writeTo H s s' 4 2 b ∧ ¬ S.notified s s') :=
  have h1 := seen_add (S := speed1 EVENT_WRITE []) (os := demoOps) (b := [1, 2, 3, 4, 5, 6, 7, 8]) (by decide +kernel)
  ⟨by decide, ⟨_, _, _, _, writeTo_wr (d := [9]) (b := [1, 2, 3, 9, 5, 6, 7, 8]) h1 (by decide +kernel), by decide +kernel⟩,
    ⟨_, _, _, _, writeTo_wr (d := [9, 9]) (b := [1, 2, 3, 4, 9, 9, 7, 8]) h1 (by decide +kernel), by decide +kernel⟩⟩

/-- A subscription that asks for the data with a range too large for a message: nothing is sent. -/
theorem C26_large_lost : ∃ (S : Sub) (H : List Look) (s s' : Server) (b : List Byte),
    S.et = EVENT_WRITE ∧ S.writeTo H s s' 0 1 b ∧ S.touched 0 1 ∧ ¬ S.notified s s' := by
  let S : Sub := ⟨16, 1, ⟨16, 0, 0, 4090, 4090, DAX_BYTE⟩, EVENT_WRITE, [], 6⟩
  let os : List Op := demoOps ++ [.req 5 (.tagAdd DAX_BYTE 4090 0 (nm "Big"))]
  obtain ⟨b, hb⟩ := hasMem_of (s := demo (S.ops os)) (i := 16) (by decide +kernel)
  have h0 : Reachable (demo os) := demo_reachable (by decide +kernel)
  have h1 : handle (demo os) 6 (.evAdd S.h S.et S.arg) = .ok (demo (S.ops os), .resp (le4 1)) :=
    demo_handle (by decide +kernel) (by decide +kernel)
  have h2 := demo_handle (os := S.ops os) (e := {}) (fd := 6) (q := .evOpt 16 1 1) (r := .resp [16, 0, 0, 0, 0, 0, 0, 0]) (by decide +kernel)
    (by decide +kernel)
  have h3 := demo_handle (os := S.ops os ++ [.req 6 (.evOpt 16 1 1)]) (e := {}) (fd := 5) (q := .tagWrite 16 0 [9])
    (r := .resp []) (by decide +kernel) (by decide +kernel)
  obtain ⟨b', hb'⟩ := hasMem_of (s := demo (S.ops os ++ [.req 6 (.evOpt 16 1 1)] ++ [.req 5 (.tagWrite 16 0 [9])]))
    (i := 16) (by decide +kernel)
  exact ⟨S, _, _, _, _, rfl, ⟨.other (.start h0 rfl (by decide) h1 hb) (mapFree_of (by decide +kernel)) (by trivial) h2,
    mapFree_of (by decide +kernel), by decide, by decide, hb', 5, _, .inl ⟨_, rfl, rfl⟩, h3⟩, ⟨0, by decide⟩,
    by decide +kernel⟩

/-- A range that wraps around the address space: a write that does not touch it is notified. -/
theorem C26_wrap : ∃ (S : Sub) (H : List Look) (s s' : Server) (b : List Byte),
    S.et = EVENT_WRITE ∧ S.writeTo H s s' 0 1 b ∧ ¬ S.touched 0 1 ∧ S.notified s s' := by
  let S : Sub := ⟨13, 1, ⟨13, 4294967295, 0, 1, 2, DAX_INT⟩, EVENT_WRITE, [], 6⟩
  have h1 := seen_add (S := S) (os := demoOps) (b := [1, 2, 3, 4, 5, 6, 7, 8]) (by decide +kernel)
  refine ⟨S, _, _, _, _, rfl, writeTo_wr (d := [9]) (b := [9, 2, 3, 4, 5, 6, 7, 8]) h1 (by decide +kernel), ?_,
    by decide +kernel⟩
  rintro ⟨k, h1, h2, h3, h4⟩
  have : (4294967295 : Nat) ≤ k := h3
  omega

/-- A write of no bytes strictly inside the range is notified. -/
theorem C26_empty_write : ∃ (S : Sub) (H : List Look) (s s' : Server),
    S.et = EVENT_WRITE ∧ S.Sane ∧ Seen S s H ∧ handle s 5 (.tagWrite S.i 3 []) = .ok (s', .resp []) ∧
    ¬ S.touched 3 0 ∧ S.notified s s' := by
  let S : Sub := speed1 EVENT_WRITE []
  have h1 := seen_add (S := S) (os := demoOps) (b := [1, 2, 3, 4, 5, 6, 7, 8]) (by decide +kernel)
  have h2 := demo_handle (os := S.ops demoOps) (e := {}) (fd := 5) (q := .tagWrite 13 3 []) (r := .resp []) (by decide +kernel)
    (by decide +kernel)
  refine ⟨S, _, _, _, rfl, by decide, h1, h2, ?_, by decide +kernel⟩
  rintro ⟨k, h1, h2, h3, h4⟩
  omega

/-! ## C27 -/

/-- **C27** for ranges whose byte range covers the bits.  Missing: BOOL ranges that need more bytes than
`count` bits do from bit 0 (see `C27_straddle`), and the ranges excluded in C26. -/
theorem C27_change_partial {S : Sub} {s s' : Server} {H : List Look} {off : Int} {len : Nat} {b : List Byte} {r : Look}
    (hz : S.Sane) (hc : S.covers) (hn : S.h.count < 2147483648) (het : S.et = EVENT_CHANGE)
    (h : S.writeTo H s s' off len b) (hr : lastNotified H = some r) :
    S.notified s s' ↔ ∃ k, S.bits k ∧ bitAt b k ≠ bitAt r.content k := by
  obtain ⟨h1, h2, h3, h4, h5, fd, q, h6, h7⟩ := h
  obtain ⟨c, H', rfl, -, -, h8⟩ := write_outcome hz h1 h2 h6 h3 h4 h7 h5
  unfold Sub.notified
  rcases h8 with ⟨ht, e, d, t, hch⟩ | ⟨ht, hno, hcon, e, d, t, hch⟩
  · have href : ∀ k, S.bits k → bitAt c.content k = bitAt r.content k := by
      generalize (!(notices s s' S.i S.id).isEmpty) = hit at hch
      cases hch with
      | look p _ _ _ _ _ _ _ => exact change_ref hz hn het p rfl hr
    obtain ⟨c2, H2, heq, -, hhit⟩ := chain_change hz hn het hch
    simp only [List.cons.injEq] at heq
    obtain ⟨rfl, rfl⟩ := heq
    have := hhit _ _ rfl
    dsimp only at this
    rw [← notEmpty_iff, this]
    constructor
    · rintro ⟨k, hk, hne⟩; exact ⟨k, hk, by rw [← href k hk]; exact hne⟩
    · rintro ⟨k, hk, hne⟩; exact ⟨k, hk, by rw [href k hk]; exact hne⟩
  · have href := change_ref hz hn het hch rfl hr
    rw [hno]
    simp only [ne_eq, not_true, false_iff]
    rintro ⟨k, hk, hne⟩
    rw [← href k hk] at hne
    exact hne (bitAt_congr (hcon _ (bits_has hc hk)))

/-- Bits 3 and 4 of `Flags`: writing the byte without changing them, changing bit 4, then a neighbour. -/
example : let S := flags34 EVENT_CHANGE
    S.Sane ∧ S.covers ∧ ∃ H s s' H2 s2 s3 b b2, S.writeTo H s s' 0 1 b ∧ S.notified s s' ∧
      S.writeTo (⟨b, true, 0, 1⟩ :: H2) s2 s3 0 1 b2 ∧ ¬ S.notified s2 s3 := by
  have h1 := seen_add (S := flags34 EVENT_CHANGE) (os := demoOps) (b := [0, 0, 0]) (by decide +kernel)
  have h2 := writeTo_wr (d := [0x10]) (b := [0x10, 0, 0]) (off := 0) h1 (by decide +kernel)
  have h3 := h2.seen (hit := true) ⟨0, by decide⟩ (by decide +kernel)
  exact ⟨by decide, by intro; decide, _, _, _, _, _, _, _, _, h2, by decide +kernel,
    writeTo_wr (d := [0x90]) (b := [0x90, 0, 0]) (off := 0) h3 (by decide +kernel), by decide +kernel⟩

/-- Two bits across a byte boundary in a range of two bytes: the next write of the range reads past the
remembered copy. -/
theorem C27_straddle : ∃ (S : Sub) (H : List Look) (s : Server) (w : String),
    S.et = EVENT_CHANGE ∧ S.Sane ∧ S.h.type = DAX_BOOL ∧ Seen S s H ∧ S.covers ∧
    handle s 5 (.tagWrite S.i 0 [1]) = .ub w := by
  let S : Sub := ⟨14, 1, ⟨14, 0, 7, 2, 2, DAX_BOOL⟩, EVENT_CHANGE, [], 6⟩
  have h1 := seen_add (S := S) (os := demoOps) (b := [0, 0, 0]) (by decide +kernel)
  obtain ⟨w, hw⟩ := isOk_false (c := handle (demo (S.ops demoOps)) 5 (.tagWrite 14 0 [1])) (by decide +kernel)
  exact ⟨S, _, _, w, rfl, by decide, rfl, h1, by intro; decide, hw⟩

/-! ## C28 -/

theorem edge_outcome {S : Sub} {s s' : Server} {c : Look} {H : List Look} {off : Int} {len : Nat} {b : List Byte}
    {step : Byte → Byte → Nat → Bool × Byte} {f : Bool → Bool → Bool} {g : Bool → Bool}
    (hf : ∀ a b k, k < 8 → (step a b k).1 = f (a.getLsbD k) (b.getLsbD k))
    (hg : ∀ a b k j, k < 8 → j < 8 → (step a b k).2.getLsbD j = if j = k then g (b.getLsbD k) else a.getLsbD j)
    (hfg : ∀ x, f (g x) x = false)
    (hev : ∀ (e : Env) (ev : Ev) (b : List Byte) (o n : Int), ev.etype = S.et → evHit e ev b o n = evBits step ev b)
    (hz : S.Sane) (hc : S.covers) (hn : S.h.count < 2147483648) (het : S.et = EVENT_SET ∨ S.et = EVENT_RESET)
    (hty : S.h.type = DAX_BOOL) (h : S.writeTo (c :: H) s s' off len b) (ht : S.touched off len ∨ H ≠ []) :
    S.notified s s' ↔ ∃ k, S.bits k ∧ f (if H = [] then false else g (bitAt c.content k)) (bitAt b k) = true := by
  obtain ⟨h1, h2, h3, h4, h5, fd, q, h6, h7⟩ := h
  obtain ⟨c', H', heq, -, -, h8⟩ := write_outcome hz h1 h2 h6 h3 h4 h7 h5
  simp only [List.cons.injEq] at heq
  obtain ⟨rfl, rfl⟩ := heq
  unfold Sub.notified
  rcases h8 with ⟨_, e, d, t, hch⟩ | ⟨hnt, hno, hcon, e, d, t, hch⟩
  · obtain ⟨c2, H2, heq, -, hhit⟩ := chain_edge hf hg hn het hty (hev e) hch
    simp only [List.cons.injEq] at heq
    obtain ⟨rfl, rfl⟩ := heq
    have := hhit _ _ rfl
    dsimp only at this
    rw [← notEmpty_iff, this]
  · rw [hno]
    simp only [ne_eq, not_true, false_iff]
    rintro ⟨k, hk, hne⟩
    have hH : H ≠ [] := ht.resolve_left hnt
    rw [if_neg hH, bitAt_congr (hcon _ (bits_has hc hk)), hfg] at hne
    simp at hne

theorem evHit_set (e : Env) (ev : Ev) (b : List Byte) (o n : Int) (h : ev.etype = EVENT_SET) :
    evHit e ev b o n = evBits stepSet ev b := by
  unfold evHit
  rw [h, if_neg (by decide), if_neg (by decide), if_pos rfl]

theorem evHit_reset (e : Env) (ev : Ev) (b : List Byte) (o n : Int) (h : ev.etype = EVENT_RESET) :
    evHit e ev b o n = evBits stepReset ev b := by
  unfold evHit
  rw [h, if_neg (by decide), if_neg (by decide), if_neg (by decide), if_pos rfl]

/-- **C28** for SET, from the second write to the range on (`H` is not empty): some bit is 1 that was 0
at the previous write.  Missing: the first write, and the ranges excluded in C27. -/
theorem C28_set_partial {S : Sub} {s s' : Server} {c : Look} {H : List Look} {off : Int} {len : Nat} {b : List Byte}
    (hz : S.Sane) (hc : S.covers) (hn : S.h.count < 2147483648) (het : S.et = EVENT_SET) (hty : S.h.type = DAX_BOOL)
    (hH : H ≠ []) (h : S.writeTo (c :: H) s s' off len b) :
    S.notified s s' ↔ ∃ k, S.bits k ∧ bitAt c.content k = false ∧ bitAt b k = true := by
  rw [edge_outcome (f := fun a b => b && !a) (g := fun b => b) stepSet_fire stepSet_bit (by simp)
    (fun e ev b o n h => evHit_set e ev b o n (h.trans het)) hz hc hn (.inl het) hty h (.inr hH)]
  simp only [if_neg hH, Bool.and_eq_true, Bool.not_eq_true']
  constructor <;> rintro ⟨k, h1, h2, h3⟩ <;> exact ⟨k, h1, h3, h2⟩

/-- **C28** for RESET, from the second write to the range on. -/
theorem C28_reset_partial {S : Sub} {s s' : Server} {c : Look} {H : List Look} {off : Int} {len : Nat} {b : List Byte}
    (hz : S.Sane) (hc : S.covers) (hn : S.h.count < 2147483648) (het : S.et = EVENT_RESET) (hty : S.h.type = DAX_BOOL)
    (hH : H ≠ []) (h : S.writeTo (c :: H) s s' off len b) :
    S.notified s s' ↔ ∃ k, S.bits k ∧ bitAt c.content k = true ∧ bitAt b k = false := by
  rw [edge_outcome (f := fun a b => !b && !a) (g := fun b => !b) stepReset_fire stepReset_bit (by simp)
    (fun e ev b o n h => evHit_reset e ev b o n (h.trans het)) hz hc hn (.inr het) hty h (.inr hH)]
  simp only [if_neg hH, Bool.and_eq_true, Bool.not_eq_true', Bool.not_eq_false']
  constructor <;> rintro ⟨k, h1, h2, h3⟩ <;> exact ⟨k, h1, h3, h2⟩

/-- What the first write to the range does: SET fires if a bit is 1, whatever it was before. -/
theorem C28_set_first {S : Sub} {s s' : Server} {c : Look} {off : Int} {len : Nat} {b : List Byte}
    (hz : S.Sane) (hc : S.covers) (hn : S.h.count < 2147483648) (het : S.et = EVENT_SET) (hty : S.h.type = DAX_BOOL)
    (ht : S.touched off len) (h : S.writeTo [c] s s' off len b) :
    S.notified s s' ↔ ∃ k, S.bits k ∧ bitAt b k = true := by
  rw [edge_outcome (f := fun a b => b && !a) (g := fun b => b) stepSet_fire stepSet_bit (by simp)
    (fun e ev b o n h => evHit_set e ev b o n (h.trans het)) hz hc hn (.inl het) hty h (.inl ht)]
  simp

/-- What the first write to the range does: RESET fires if a bit is 0, whatever it was before. -/
theorem C28_reset_first {S : Sub} {s s' : Server} {c : Look} {off : Int} {len : Nat} {b : List Byte}
    (hz : S.Sane) (hc : S.covers) (hn : S.h.count < 2147483648) (het : S.et = EVENT_RESET) (hty : S.h.type = DAX_BOOL)
    (ht : S.touched off len) (h : S.writeTo [c] s s' off len b) :
    S.notified s s' ↔ ∃ k, S.bits k ∧ bitAt b k = false := by
  rw [edge_outcome (f := fun a b => !b && !a) (g := fun b => !b) stepReset_fire stepReset_bit (by simp)
    (fun e ev b o n h => evHit_reset e ev b o n (h.trans het)) hz hc hn (.inr het) hty h (.inl ht)]
  simp

/-- SET on bits 3 and 4 of `Flags`: 0 → 1 fires, staying at 1 does not, the other bit does. -/
example : let S := flags34 EVENT_SET
    ∃ c H s s' b H' s2 s3 b', H ≠ [] ∧ S.writeTo (c :: H) s s' 0 1 b ∧ ¬ S.notified s s' ∧
      S.writeTo (⟨b, false, 0, 1⟩ :: H') s2 s3 0 1 b' ∧ S.notified s2 s3 := by
  have h1 := seen_add (S := flags34 EVENT_SET) (os := demoOps) (b := [0, 0, 0]) (by decide +kernel)
  have h2 := writeTo_wr (d := [0x10]) (b := [0x10, 0, 0]) (off := 0) h1 (by decide +kernel)
  have h3 := h2.seen (hit := true) ⟨0, by decide⟩ (by decide +kernel)
  have h4 := writeTo_wr (d := [0x90]) (b := [0x90, 0, 0]) (off := 0) h3 (by decide +kernel)
  have h5 := h4.seen (hit := false) ⟨0, by decide⟩ (by decide +kernel)
  exact ⟨_, _, _, _, _, _, _, _, _, by simp, h4, by decide +kernel,
    writeTo_wr (d := [0x18]) (b := [0x18, 0, 0]) (off := 0) h5 (by decide +kernel), by decide +kernel⟩

/-- RESET on the same bits: 1 → 0 of one of them fires. -/
example : let S := flags34 EVENT_RESET
    ∃ c H s s' b, H ≠ [] ∧ S.writeTo (c :: H) s s' 0 1 b ∧ S.notified s s' := by
  have h1 := seen_add (S := flags34 EVENT_RESET) (os := demoOps) (b := [0, 0, 0]) (by decide +kernel)
  have h2 := writeTo_wr (d := [0x18]) (b := [0x18, 0, 0]) (off := 0) h1 (by decide +kernel)
  have h3 := h2.seen (hit := false) ⟨0, by decide⟩ (by decide +kernel)
  exact ⟨_, _, _, _, _, by simp, writeTo_wr (d := [0x10]) (b := [0x10, 0, 0]) (off := 0) h3 (by decide +kernel),
    by decide +kernel⟩

/-- The first write after a SET subscription fires although the bits were 1 before and stay 1. -/
theorem C28_set_no_edge : ∃ (S : Sub) (H : List Look) (c : Look) (s s' : Server) (b : List Byte),
    S.et = EVENT_SET ∧ S.Sane ∧ S.covers ∧ S.writeTo (c :: H) s s' 0 1 b ∧ c.content = b ∧ S.notified s s' := by
  have h1 := seen_add (S := flags34 EVENT_SET) (os := demoOps ++ [.req 5 (.tagWrite 14 0 [0x18])]) (b := [0x18, 0, 0])
    (by decide +kernel)
  exact ⟨_, _, _, _, _, _, rfl, by decide, by intro; decide,
    writeTo_wr (d := [0x18]) (b := [0x18, 0, 0]) (off := 0) h1 (by decide +kernel), rfl, by decide +kernel⟩

/-- The first write after a RESET subscription fires although the bits were 0 before and stay 0. -/
theorem C28_reset_no_edge : ∃ (S : Sub) (H : List Look) (c : Look) (s s' : Server) (b : List Byte),
    S.et = EVENT_RESET ∧ S.Sane ∧ S.covers ∧ S.writeTo (c :: H) s s' 0 1 b ∧ c.content = b ∧ S.notified s s' := by
  have h1 := seen_add (S := flags34 EVENT_RESET) (os := demoOps) (b := [0, 0, 0]) (by decide +kernel)
  exact ⟨_, _, _, _, _, _, rfl, by decide, by intro; decide,
    writeTo_wr (d := [0]) (b := [0, 0, 0]) (off := 0) h1 (by decide +kernel), rfl, by decide +kernel⟩

/-! ## C29 -/

theorem elem_touched {S : Sub} {w j : Nat} {off : Int} {len : Nat} (hs : S.h.size = w * S.h.count) (hj : j < S.h.count)
    (h : S.elemTouched w j off len) : S.touched off len := by
  obtain ⟨k, h1, h2, h3, h4⟩ := h
  have : w * (j + 1) ≤ w * S.h.count := Nat.mul_le_mul_left w hj
  rw [Nat.mul_add] at this
  exact ⟨k, h1, h2, by omega, by omega⟩

/-- **C29** for the integer types other than TIME, when all writes to the range start before it or at one of
its elements: fires iff an element touched by the write satisfies the relation and did not when last checked.
Missing: writes that start inside an element, TIME, the floating point types. -/
theorem C29_compare_partial {S : Sub} {s s' : Server} {H : List Look} {off : Int} {len : Nat} {b : List Byte}
    {w : Nat} {sg : Bool} (hz : S.Sane) (hty : (S.h.type, w, sg) ∈ intTypes) (hs : S.h.size = w * S.h.count)
    (het : S.et = EVENT_EQUAL ∨ S.et = EVENT_GREATER ∨ S.et = EVENT_LESS)
    (hal : ∀ c ∈ H, S.aligned w c.off) (ha : S.aligned w off) (h : S.writeTo H s s' off len b) :
    S.notified s s' ↔ ∃ j, j < S.h.count ∧ S.elemTouched w j off len ∧
      relation S.et (intVal sg (S.elem w j b)) (intVal sg (S.arg.take w)) ∧
      ¬ S.heldBefore w (fun v => relation S.et (intVal sg v) (intVal sg (S.arg.take w))) j H := by
  obtain ⟨h1, h2, h3, h4, h5, fd, q, h6, h7⟩ := h
  obtain ⟨c, H', rfl, -, -, h8⟩ := write_outcome hz h1 h2 h6 h3 h4 h7 h5
  have hcmp : ∃ cmp : Int,
      (S.et = EVENT_EQUAL ∧ cmp = 0) ∨ (S.et = EVENT_GREATER ∧ cmp = -1) ∨ (S.et = EVENT_LESS ∧ cmp = 1) := by
    rcases het with h | h | h
    · exact ⟨_, .inl ⟨h, rfl⟩⟩
    · exact ⟨_, .inr (.inl ⟨h, rfl⟩)⟩
    · exact ⟨_, .inr (.inr ⟨h, rfl⟩)⟩
  obtain ⟨cmp, hcmp⟩ := hcmp
  unfold Sub.notified
  rcases h8 with ⟨_, e, d, t, hch⟩ | ⟨hnt, hno, hcon, e, d, t, hch⟩
  · obtain ⟨c2, H2, heq, -, -, hhit⟩ := chain_compare hty hs hcmp hch (by
      intro x hx
      rcases List.mem_cons.mp hx with rfl | hx
      · exact ha
      · exact hal x hx)
    simp only [List.cons.injEq] at heq
    obtain ⟨rfl, rfl⟩ := heq
    have := hhit _ _ rfl
    dsimp only at this
    rw [← notEmpty_iff, this]
    exact Iff.rfl
  · rw [hno]
    simp only [ne_eq, not_true, false_iff]
    rintro ⟨j, hj, htj, -⟩
    exact hnt (elem_touched hs hj htj)

/-- Elements 1 and 2 of `Speed` greater than −2: they are, from 0x0403 and 0x0605; writing −5 to element 2 and
then 7 fires. -/
example : let S := speed12 EVENT_GREATER [0xFE, 0xFF]
    (S.h.type, 2, true) ∈ intTypes ∧ S.h.size = 2 * S.h.count ∧ ∃ H s s' b, (∀ c ∈ H, S.aligned 2 c.off) ∧ S.aligned 2 4 ∧
      S.writeTo H s s' 4 2 b ∧ S.notified s s' := by
  have h1 := seen_add (S := speed12 EVENT_GREATER [0xFE, 0xFF]) (os := demoOps) (b := [1, 2, 3, 4, 5, 6, 7, 8])
    (by decide +kernel)
  have h2 := writeTo_wr (d := [0xFB, 0xFF]) (b := [1, 2, 3, 4, 0xFB, 0xFF, 7, 8]) (off := 4) h1 (by decide +kernel)
  have h3 := h2.seen (hit := false) ⟨4, by decide⟩ (by decide +kernel)
  refine ⟨by decide, by decide, _, _, _, _, ?_, .inr ⟨1, rfl⟩,
    writeTo_wr (d := [7, 0]) (b := [1, 2, 3, 4, 7, 0, 7, 8]) (off := 4) h3 (by decide +kernel), by decide +kernel⟩
  intro c hc
  simp only [List.mem_cons, List.not_mem_nil, or_false] at hc
  rcases hc with rfl | rfl
  · exact .inr ⟨1, rfl⟩
  · exact .inl (by decide)

/-- A write that starts inside an element: `[7, 3]` is found in the middle of the range, although no element
equals 0x0307. -/
theorem C29_misaligned : ∃ (S : Sub) (H : List Look) (s s' : Server) (b : List Byte),
    S.et = EVENT_EQUAL ∧ S.Sane ∧ (S.h.type, 2, true) ∈ intTypes ∧ S.h.size = 2 * S.h.count ∧
    S.writeTo H s s' 1 1 b ∧ S.notified s s' ∧
    ∀ j, j < S.h.count → intVal true (S.elem 2 j b) ≠ intVal true (S.arg.take 2) := by
  let S : Sub := ⟨13, 1, ⟨13, 0, 0, 4, 8, DAX_INT⟩, EVENT_EQUAL, [7, 3], 6⟩
  have h1 := seen_add (S := S) (os := demoOps) (b := [1, 2, 3, 4, 5, 6, 7, 8]) (by decide +kernel)
  exact ⟨S, _, _, _, _, rfl, by decide, by decide, by decide,
    writeTo_wr (d := [7]) (b := [1, 7, 3, 4, 5, 6, 7, 8]) (off := 1) h1 (by decide +kernel), by decide +kernel,
    by decide +kernel⟩

/-- TIME values are compared by their low four bytes: 2^32 and 0 are taken as equal. -/
theorem C29_time_truncated : ∃ (S : Sub) (H : List Look) (s s' : Server) (b : List Byte),
    S.et = EVENT_EQUAL ∧ S.Sane ∧ S.h.type = DAX_TIME ∧ S.writeTo H s s' 0 8 b ∧ S.notified s s' ∧
    intVal true b = 4294967296 ∧ intVal true S.arg = 0 := by
  let S : Sub := ⟨16, 1, ⟨16, 0, 0, 1, 8, DAX_TIME⟩, EVENT_EQUAL, [0, 0, 0, 0, 0, 0, 0, 0], 6⟩
  let os : List Op := demoOps ++ [.req 5 (.tagAdd DAX_TIME 1 0 (nm "When"))]
  have h1 := seen_add (S := S) (os := os) (b := [0, 0, 0, 0, 0, 0, 0, 0]) (by decide +kernel)
  exact ⟨S, _, _, _, _, rfl, by decide, rfl,
    writeTo_wr (d := [0, 0, 0, 0, 1, 0, 0, 0]) (b := [0, 0, 0, 0, 1, 0, 0, 0]) (off := 0) h1 (by decide +kernel),
    by decide +kernel, by decide +kernel, by decide +kernel⟩

/-! ## C30 -/

/-- **C30** for the integer types other than TIME, aligned writes, and differences that the server's arithmetic
represents: fires iff an element touched by the write has moved by at least the band from its reference value,
the value when that element last moved so (or at the subscription).  Missing: the other differences, misaligned
writes, and the reference of the property for ranges of several elements (value at the last notification). -/
theorem C30_deadband_partial {S : Sub} {s s' : Server} {H : List Look} {off : Int} {len : Nat} {b : List Byte}
    {w : Nat} {sg : Bool} (hz : S.Sane) (hty : (S.h.type, w, sg) ∈ intTypes) (hs : S.h.size = w * S.h.count)
    (het : S.et = EVENT_DEADBAND) (hal : ∀ c ∈ H, S.aligned w c.off) (ha : S.aligned w off)
    (hex : S.exact w sg (movedBy sg (intVal sg (S.arg.take w))) H)
    (hex' : ∀ j, j < S.h.count → S.elemTouched w j off len →
      diffFits S.h.type sg (S.refElem w (movedBy sg (intVal sg (S.arg.take w))) j H) (S.elem w j b))
    (h : S.writeTo H s s' off len b) :
    S.notified s s' ↔ ∃ j, j < S.h.count ∧ S.elemTouched w j off len ∧
      movedBy sg (intVal sg (S.arg.take w)) (S.refElem w (movedBy sg (intVal sg (S.arg.take w))) j H)
        (S.elem w j b) := by
  obtain ⟨h1, h2, h3, h4, h5, fd, q, h6, h7⟩ := h
  obtain ⟨c, H', rfl, -, -, h8⟩ := write_outcome hz h1 h2 h6 h3 h4 h7 h5
  unfold Sub.notified
  rcases h8 with ⟨_, e, d, t, hch⟩ | ⟨hnt, hno, hcon, e, d, t, hch⟩
  · obtain ⟨c2, H2, heq, -, -, hhit⟩ := chain_band hz rfl hty hs het hch (by
      intro x hx
      rcases List.mem_cons.mp hx with rfl | hx
      · exact ha
      · exact hal x hx) ⟨hex, hex'⟩
    simp only [List.cons.injEq] at heq
    obtain ⟨rfl, rfl⟩ := heq
    have := hhit _ _ rfl
    dsimp only at this
    rw [← notEmpty_iff, this]
  · rw [hno]
    simp only [ne_eq, not_true, false_iff]
    rintro ⟨j, hj, htj, -⟩
    exact hnt (elem_touched hs hj htj)

/-- Band 10 around element 1 of `Speed`, 0x0403: a step of 9 is not notified, one of 10 is. -/
example : let S := speed1 EVENT_DEADBAND [10, 0]
    (S.h.type, 2, true) ∈ intTypes ∧ S.h.size = 2 * S.h.count ∧
    (∃ c s s' b, S.exact 2 true (movedBy true (intVal true (S.arg.take 2))) [c] ∧ S.aligned 2 2 ∧
      S.writeTo [c] s s' 2 2 b ∧ ¬ S.notified s s') ∧
    ∃ c s s' b, S.exact 2 true (movedBy true (intVal true (S.arg.take 2))) [c] ∧ S.writeTo [c] s s' 2 2 b ∧ S.notified s s' := by
  have h1 := seen_add (S := speed1 EVENT_DEADBAND [10, 0]) (os := demoOps) (b := [1, 2, 3, 4, 5, 6, 7, 8])
    (by decide +kernel)
  exact ⟨by decide, by decide, ⟨_, _, _, _, trivial, .inl (by decide),
    writeTo_wr (d := [12, 4]) (b := [1, 2, 12, 4, 5, 6, 7, 8]) (off := 2) h1 (by decide +kernel), by decide +kernel⟩,
    _, _, _, _, trivial,
    writeTo_wr (d := [13, 4]) (b := [1, 2, 13, 4, 5, 6, 7, 8]) (off := 2) h1 (by decide +kernel), by decide +kernel⟩

/-- A 32-bit unsigned value that rises by 1 leaves a band of 10. -/
theorem C30_unsigned_rise : ∃ (S : Sub) (H : List Look) (c : Look) (s s' : Server) (b : List Byte),
    S.et = EVENT_DEADBAND ∧ S.Sane ∧ S.h.type = DAX_UDINT ∧ S.writeTo (c :: H) s s' 0 4 b ∧ S.notified s s' ∧
    c.content = le4 5 ∧ b = le4 6 ∧ S.arg = le4 10 := by
  let S : Sub := ⟨16, 1, ⟨16, 0, 0, 1, 4, DAX_UDINT⟩, EVENT_DEADBAND, le4 10, 6⟩
  let os : List Op := demoOps ++ [.req 5 (.tagAdd DAX_UDINT 1 0 (nm "Total")), .req 5 (.tagWrite 16 0 (le4 5))]
  have h1 := seen_add (S := S) (os := os) (b := le4 5) (by decide +kernel)
  exact ⟨S, _, _, _, _, _, rfl, by decide, rfl, writeTo_wr (d := le4 6) (b := le4 6) (off := 0) h1 (by decide +kernel),
    by decide +kernel, rfl, rfl, rfl⟩

/-- An 8-bit signed value that falls by 200 stays inside a band of 100. -/
theorem C30_wrapped_fall : ∃ (S : Sub) (H : List Look) (c : Look) (s s' : Server) (b : List Byte),
    S.et = EVENT_DEADBAND ∧ S.Sane ∧ S.h.type = DAX_SINT ∧ S.writeTo (c :: H) s s' 0 1 b ∧ ¬ S.notified s s' ∧
    intVal true c.content = 100 ∧ intVal true b = -100 ∧ intVal true S.arg = 100 := by
  let S : Sub := ⟨16, 1, ⟨16, 0, 0, 1, 1, DAX_SINT⟩, EVENT_DEADBAND, [100], 6⟩
  let os : List Op := demoOps ++ [.req 5 (.tagAdd DAX_SINT 1 0 (nm "Temp")), .req 5 (.tagWrite 16 0 [100])]
  have h1 := seen_add (S := S) (os := os) (b := [100]) (by decide +kernel)
  exact ⟨S, _, _, _, _, _, rfl, by decide, rfl, writeTo_wr (d := [156]) (b := [156]) (off := 0) h1 (by decide +kernel),
    by decide +kernel, by decide +kernel, by decide +kernel, by decide +kernel⟩

/-- A 32-bit signed value that rises from −2000000000 to 2000000000: the difference overflows. -/
theorem C30_overflow : ∃ (S : Sub) (H : List Look) (c : Look) (s : Server) (w : String),
    S.et = EVENT_DEADBAND ∧ S.Sane ∧ S.h.type = DAX_DINT ∧ Seen S s (c :: H) ∧
    intVal true c.content = -2000000000 ∧ handle s 5 (.tagWrite S.i 0 (le4 2000000000)) = .ub w := by
  let S : Sub := ⟨16, 1, ⟨16, 0, 0, 1, 4, DAX_DINT⟩, EVENT_DEADBAND, le4 10, 6⟩
  let os : List Op := demoOps ++ [.req 5 (.tagAdd DAX_DINT 1 0 (nm "Pos")), .req 5 (.tagWrite 16 0 (le4 2294967296))]
  have h1 := seen_add (S := S) (os := os) (b := le4 2294967296) (by decide +kernel)
  obtain ⟨w, hw⟩ := isOk_false (c := handle (demo (S.ops os)) 5 (.tagWrite 16 0 (le4 2000000000))) (by decide +kernel)
  exact ⟨S, _, _, _, w, rfl, by decide, rfl, h1, by decide +kernel, hw⟩

/-- Two elements, band 10: a step of 9 of the second is not taken as its reference when the first causes a
notification with the same write; one more then fires, although that is 1 away from the last notification. -/
theorem C30_reference_per_element : ∃ (S : Sub) (H : List Look) (r : Look) (s s' : Server) (b : List Byte),
    S.et = EVENT_DEADBAND ∧ S.Sane ∧ S.writeTo H s s' 4 2 b ∧ S.notified s s' ∧ lastNotified H = some r ∧
    S.elem 2 0 b = S.elem 2 0 r.content ∧ intVal true (S.elem 2 1 b) = intVal true (S.elem 2 1 r.content) + 1 ∧
    intVal true S.arg = 10 := by
  have h1 := seen_add (S := speed12 EVENT_DEADBAND [10, 0]) (os := demoOps) (b := [1, 2, 3, 4, 5, 6, 7, 8])
    (by decide +kernel)
  have h2 := writeTo_wr (d := [53, 4, 14, 6]) (b := [1, 2, 53, 4, 14, 6, 7, 8]) (off := 2) h1 (by decide +kernel)
  have h3 := h2.seen (hit := true) ⟨4, by decide⟩ (by decide +kernel)
  exact ⟨_, _, _, _, _, _, rfl, by decide,
    writeTo_wr (d := [15, 6]) (b := [1, 2, 53, 4, 15, 6, 7, 8]) (off := 4) h3 (by decide +kernel), by decide +kernel, rfl,
    by decide +kernel, by decide +kernel, by decide +kernel⟩

end Dax
