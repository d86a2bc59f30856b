import Verif.Model.Tagbase
import Verif.Lemmas.Types
/-!
# What `tag_write` and `tag_mask_write` can do to the server state
-/
namespace Dax

theorem tag?_eq {s : Server} {idx : Int} {t : Tag} :
    s.tag? idx = some t ↔ 0 ≤ idx ∧ s.db[idx.toNat]? = some t := by
  unfold Server.tag?; split
  next h => simp [h]
  next h => simp [h]

theorem tag?_natCast (s : Server) (n : Nat) : s.tag? (n : Int) = s.db[n]? := by
  simp [Server.tag?]

theorem tag?_none {s : Server} {idx : Int} :
    s.tag? idx = none ↔ idx < 0 ∨ idx ≥ s.db.length := by
  unfold Server.tag?; split
  · simp; omega
  · simp; omega

theorem maskMerge_length (a m o : List Byte) :
    (maskMerge a m o).length = min a.length (min m.length o.length) := by
  induction a generalizing m o with
  | nil => simp [maskMerge]
  | cons x xs ih =>
    cases m with
    | nil => simp [maskMerge]
    | cons y ys =>
      cases o with
      | nil => simp [maskMerge]
      | cons z zs => simp [maskMerge, ih]

theorem maskMerge_get (a m o : List Byte) (i : Nat) (x y z : Byte) (ha : a[i]? = some x)
    (hm : m[i]? = some y) (ho : o[i]? = some z) :
    (maskMerge a m o)[i]? = some ((x &&& y) ||| (z &&& ~~~ y)) := by
  induction a generalizing m o i with
  | nil => simp at ha
  | cons a as ih =>
    cases m with
    | nil => simp at hm
    | cons b bs =>
      cases o with
      | nil => simp at ho
      | cons c cs =>
        cases i with
        | zero => simp_all [maskMerge]
        | succ i => simp_all [maskMerge]

/-- The result of `retTagWrite`: only the retention rows change. -/
theorem retTagWrite_inv {s s' : Server} {idx : Int} (h : retTagWrite s idx = .ok s') :
    ∃ r, s' = { s with ret := r } := by
  unfold retTagWrite at h
  split at h
  · simp at h
  · obtain ⟨ts, -, h⟩ := C.bind_eq_ok.mp h
    split at h
    · split at h
      · obtain ⟨d, -, h⟩ := C.bind_eq_ok.mp h
        simp only [C.ok.injEq] at h
        exact ⟨_, h.symm⟩
      · simp only [C.ok.injEq] at h; exact ⟨s.ret, by rw [← h]⟩
    · simp at h

theorem commitWrite_inv {s s' : Server} {idx off : Int} {t : Tag} {b : List Byte} {size : Nat}
    {r : Int} (h : commitWrite s idx t b off size = .ok (s', r)) :
    r = 0 ∧ ∃ evs ns rt, eventCheck s idx b off size t.events = .ok (evs, ns) ∧
      s' = { s.setTag idx { t with data := .mem b, events := evs } with
             sent := s.sent ++ ns, ret := rt } := by
  unfold commitWrite at h
  obtain ⟨⟨evs, ns⟩, he, h⟩ := C.bind_eq_ok.mp h
  dsimp only at h
  split at h
  · obtain ⟨s1, hr, h⟩ := C.bind_eq_ok.mp h
    simp only [C.ok.injEq, Prod.mk.injEq] at h
    obtain ⟨rt, hrt⟩ := retTagWrite_inv hr
    refine ⟨h.2.symm, evs, ns, rt, he, ?_⟩
    rw [← h.1, hrt]
  · simp only [C.ok.injEq, Prod.mk.injEq] at h
    exact ⟨h.2.symm, evs, ns, s.ret, he, by rw [← h.1]; rfl⟩

/-- What a write of `b` to tag `t` makes of the retention file. -/
def RetSync (s : Server) (t : Tag) (b : List Byte) (rt : Ret) : Prop :=
  (t.attr.retain = false ∧ rt = s.ret) ∨
  (t.attr.retain = true ∧ ∃ ts, typeSize s.cdts t.type = .ok ts ∧
    ((s.ret.isOpen = false ∧ rt = s.ret) ∨
      (s.ret.isOpen = true ∧ ∃ d, rd b 0 (i32 (ts * t.count)) = .ok d ∧
        rt = { s.ret with rows := s.ret.rows.map fun x =>
          if x.id = t.retPtr then { x with data := some d } else x })))

theorem commitWrite_sync {s s' : Server} {idx off : Int} {t t0 : Tag} {b : List Byte} {size : Nat}
    {r : Int} (h : commitWrite s idx t b off size = .ok (s', r)) (ht : s.tag? idx = some t0) :
    RetSync s t b s'.ret := by
  unfold commitWrite at h
  obtain ⟨⟨evs, ns⟩, he, h⟩ := C.bind_eq_ok.mp h
  dsimp only at h
  split at h
  · rename_i hr
    refine .inr ⟨hr, ?_⟩
    obtain ⟨s1, hw, h⟩ := C.bind_eq_ok.mp h
    simp only [C.ok.injEq, Prod.mk.injEq] at h
    obtain ⟨rfl, -⟩ := h
    unfold retTagWrite at hw
    have ht' : ({ s.setTag idx { t with data := .mem b, events := evs } with sent := s.sent ++ ns } : Server).tag? idx =
        some { t with data := .mem b, events := evs } := by
      rw [tag?_eq] at ht ⊢
      refine ⟨ht.1, ?_⟩
      have := (List.getElem?_eq_some_iff.mp ht.2).1
      simp [Server.setTag, this]
    rw [ht'] at hw
    dsimp only at hw
    obtain ⟨ts, hts, hw⟩ := C.bind_eq_ok.mp hw
    refine ⟨ts, hts, ?_⟩
    split at hw
    · rename_i ho
      obtain ⟨d, hd, hw⟩ := C.bind_eq_ok.mp hw
      simp only [C.ok.injEq] at hw
      exact .inr ⟨ho, d, hd, by rw [← hw]; rfl⟩
    · rename_i ho
      simp only [C.ok.injEq] at hw
      exact .inl ⟨by simpa [Server.setTag] using ho, by rw [← hw]; rfl⟩
  · rename_i hr
    simp only [C.ok.injEq, Prod.mk.injEq] at h
    exact .inl ⟨by simpa using hr, by rw [← h.1]; rfl⟩

/-- A successful plain write to an ordinary tag. -/
structure WriteDone (s : Server) (idx off : Int) (d : List Byte) (size : Nat) (s' : Server) :
    Prop where
  mk' ::
  ex : ∃ t b b' evs ns rt, s.tag? idx = some t ∧ t.attr.virt = false ∧ t.data = .mem b ∧
    wr b off d = .ok b' ∧ eventCheck s idx b' off size t.events = .ok (evs, ns) ∧
    s' = { s.setTag idx { t with data := .mem b', events := evs } with
           sent := s.sent ++ ns, ret := rt }
  sync : ∀ t t' b, s.tag? idx = some t → s'.tag? idx = some t' → t'.data = .mem b → RetSync s t b s'.ret

theorem sync_of {s s' : Server} {idx off : Int} {t : Tag} {b : List Byte} {size : Nat} {r : Int}
    (ht : s.tag? idx = some t) (h : commitWrite s idx t b off size = .ok (s', r)) :
    ∀ t t' b, s.tag? idx = some t → s'.tag? idx = some t' → t'.data = .mem b → RetSync s t b s'.ret := by
  intro t1 t2 b2 h1 h2 h3
  rw [ht] at h1
  simp only [Option.some.injEq] at h1; subst h1
  have hs := commitWrite_sync h ht
  obtain ⟨-, evs, ns, rt, -, hs'⟩ := commitWrite_inv h
  have h4 : s'.tag? idx = some { t with data := .mem b, events := evs } := by
    rw [hs']
    rw [tag?_eq] at ht ⊢
    refine ⟨ht.1, ?_⟩
    have := (List.getElem?_eq_some_iff.mp ht.2).1
    simp [Server.setTag, this]
  rw [h4] at h2
  simp only [Option.some.injEq] at h2; subst h2
  simp only [Store.mem.injEq] at h3; subst h3
  exact hs

/-- A successful write to a queue. -/
def QueueDone (s : Server) (idx off : Int) (d : List Byte) (s' : Server) : Prop :=
  ∃ t q q' evs ns, s.tag? idx = some t ∧ t.attr.virt = true ∧ t.data = .queue q ∧
    queueWrite s.env q off d = .ok (some q') ∧
    eventCheck s idx [] off d.length t.events = .ok (evs, ns) ∧
    s' = { s.setTag idx { t with data := .queue q', events := evs } with sent := s.sent ++ ns }

theorem virtWrite_inv {s s' : Server} {t : Tag} {idx off : Int} {d : List Byte} {r : Int}
    (ht : s.tag? idx = some t) (hv : t.attr.virt = true)
    (h : virtWrite s t idx off d = .ok (s', r)) :
    (s' = s ∧ r ≠ 0) ∨ (r = 0 ∧ QueueDone s idx off d s') := by
  unfold virtWrite at h
  split at h
  · simp only [C.ok.injEq, Prod.mk.injEq] at h
    exact .inl ⟨h.1.symm, by rw [← h.2]; decide⟩
  · simp only [C.ok.injEq, Prod.mk.injEq] at h
    exact .inl ⟨h.1.symm, by rw [← h.2]; decide⟩
  · rename_i q hq
    obtain ⟨o, ho, h⟩ := C.bind_eq_ok.mp h
    cases o with
    | none =>
      simp only [C.ok.injEq, Prod.mk.injEq] at h
      exact .inl ⟨h.1.symm, by rw [← h.2]; decide⟩
    | some q' =>
      obtain ⟨⟨evs, ns⟩, he, h⟩ := C.bind_eq_ok.mp h
      simp only [C.ok.injEq, Prod.mk.injEq] at h
      exact .inr ⟨h.2.symm, t, q, q', evs, ns, ht, hv, hq, ho, he, h.1.symm⟩
  · simp at h

theorem tagWrite_inv {s s' : Server} {fd idx off : Int} {d : List Byte} {r : Int}
    (h : tagWrite s fd idx off d = .ok (s', r)) :
    (s' = s ∧ r ≠ 0) ∨ (r = 0 ∧ WriteDone s idx off d d.length s') ∨
      (r = 0 ∧ QueueDone s idx off d s') := by
  unfold tagWrite at h
  split at h
  · simp only [C.ok.injEq, Prod.mk.injEq] at h
    exact .inl ⟨h.1.symm, by rw [← h.2]; decide⟩
  · rename_i t ht
    split at h
    · rename_i hv
      rcases virtWrite_inv ht hv h with h | h
      · exact .inl h
      · exact .inr (.inr h)
    · rename_i hv
      obtain ⟨e, he, h⟩ := C.bind_eq_ok.mp h
      obtain ⟨sz, hsz, h⟩ := C.bind_eq_ok.mp h
      split at h
      · simp only [C.ok.injEq, Prod.mk.injEq] at h
        exact .inl ⟨h.1.symm, by rw [← h.2]; decide⟩
      · split at h
        · simp only [C.ok.injEq, Prod.mk.injEq] at h
          exact .inl ⟨h.1.symm, by rw [← h.2]; decide⟩
        · rename_i b hb
          dsimp only at h
          generalize (if t.attr.special = true then specialWrite s t fd idx off d.length else 0) = r0
            at h
          split at h
          · simp only [C.ok.injEq, Prod.mk.injEq] at h
            exact .inl ⟨h.1.symm, by rw [← h.2]; assumption⟩
          · obtain ⟨b', hb', h⟩ := C.bind_eq_ok.mp h
            obtain ⟨hr, evs, ns, rt, hev, hs'⟩ := commitWrite_inv h
            exact .inr (.inl ⟨hr, ⟨t, b, b', evs, ns, rt, ht, by simpa using hv, hb, hb', hev,
              hs'⟩, sync_of ht h⟩)
        · simp at h

theorem tagMaskWrite_inv {s s' : Server} {fd idx off : Int} {d m : List Byte} {r : Int}
    (h : tagMaskWrite s fd idx off d m = .ok (s', r)) :
    (s' = s ∧ r ≠ 0) ∨ (r = 0 ∧ ∃ t b old, s.tag? idx = some t ∧ t.data = .mem b ∧
      rd b off d.length = .ok old ∧ WriteDone s idx off (maskMerge d m old) d.length s') := by
  unfold tagMaskWrite at h
  split at h
  · simp at h
  · split at h
    · split at h
      all_goals
        simp only [C.ok.injEq, Prod.mk.injEq] at h
        exact .inl ⟨h.1.symm, by rw [← h.2]; decide⟩
    · rename_i t ht
      split at h
      · simp only [C.ok.injEq, Prod.mk.injEq] at h
        exact .inl ⟨h.1.symm, by rw [← h.2]; decide⟩
      · rename_i hv
        obtain ⟨e, he, h⟩ := C.bind_eq_ok.mp h
        obtain ⟨sz, hsz, h⟩ := C.bind_eq_ok.mp h
        split at h
        · simp only [C.ok.injEq, Prod.mk.injEq] at h
          exact .inl ⟨h.1.symm, by rw [← h.2]; decide⟩
        · split at h
          · simp only [C.ok.injEq, Prod.mk.injEq] at h
            exact .inl ⟨h.1.symm, by rw [← h.2]; decide⟩
          · rename_i b hb
            dsimp only at h
            generalize (if t.attr.special = true then specialWrite s t fd idx off d.length else 0)
              = r0 at h
            split at h
            · simp only [C.ok.injEq, Prod.mk.injEq] at h
              exact .inl ⟨h.1.symm, by rw [← h.2]; assumption⟩
            · obtain ⟨old, hold, h⟩ := C.bind_eq_ok.mp h
              obtain ⟨b', hb', h⟩ := C.bind_eq_ok.mp h
              obtain ⟨hr, evs, ns, rt, hev, hs'⟩ := commitWrite_inv h
              exact .inr ⟨hr, t, b, old, ht, hb, hold, ⟨t, b, b', evs, ns, rt, ht,
                by simpa using hv, hb, hb', hev, hs'⟩, sync_of ht h⟩
          · simp at h

end Dax
