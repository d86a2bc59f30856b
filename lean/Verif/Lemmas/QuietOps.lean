import Verif.Lemmas.Quiet
/-!
# Overrides, mappings, events, groups and atomic operations are quiet
-/
namespace Dax

theorem sameShape_ovr {t : Tag} (o : Option (List Byte × List Byte)) :
    SameShape t { t with ovr := o } :=
  ⟨rfl, rfl, rfl, rfl, rfl, rfl, Store.Same.refl _, Int.le_refl _, Int.le_refl _, fun _ => rfl, id, id⟩

theorem sameShape_attr {t : Tag} {a : Attr} (h : a.virt = t.attr.virt)
    (hr : a.readonly = t.attr.readonly := by rfl) (ho : a.owned = t.attr.owned := by rfl) :
    SameShape t { t with attr := a } :=
  ⟨rfl, rfl, rfl, rfl, h, rfl, Store.Same.refl _, Int.le_refl _, Int.le_refl _, fun _ => hr,
    fun h => ho.trans h, fun h => hr.trans h⟩

theorem Quiet.ovrI {F : Nat → Prop} {s s' : Server} {n : Int}
    (h : Quiet F { s with ovrInstalled := n } s') : Quiet F s s' :=
  ⟨h.index, h.dbsize, h.tagcount, h.cdts, h.modType, h.env, h.len, h.tag⟩

theorem Quiet.ovrS {F : Nat → Prop} {s s' : Server} {n : Int}
    (h : Quiet F { s with ovrSet := n } s') : Quiet F s s' :=
  ⟨h.index, h.dbsize, h.tagcount, h.cdts, h.modType, h.env, h.len, h.tag⟩

theorem overrideAdd_quiet {s s' : Server} {idx off r : Int} {d m : List Byte}
    (h : overrideAdd s idx off d m = .ok (s', r)) :
    Quiet (fun i => i = idx.toNat ∨ i = 7) s s' := by
  have hL : ∀ {a b : Server}, Quiet (· = idx.toNat) a b →
      Quiet (fun i => i = idx.toNat ∨ i = 7) a b := fun h => h.mono (fun _ => .inl)
  unfold overrideAdd at h
  split at h
  · simp only [C.ok.injEq, Prod.mk.injEq] at h; rw [← h.1]; exact Quiet.refl _ _
  · rename_i t ht
    split at h
    · simp only [C.ok.injEq, Prod.mk.injEq] at h; rw [← h.1]; exact Quiet.refl _ _
    · obtain ⟨tsz, -, h⟩ := C.bind_eq_ok.mp h
      split at h
      · simp only [C.ok.injEq, Prod.mk.injEq] at h; rw [← h.1]; exact Quiet.refl _ _
      · obtain ⟨⟨od, om⟩, -, h⟩ := C.bind_eq_ok.mp h
        obtain ⟨e, -, h⟩ := C.bind_eq_ok.mp h
        dsimp only at h
        have q1 := setTag_quiet ht (sameShape_ovr (some (od, om)))
        split at h
        · simp only [C.ok.injEq, Prod.mk.injEq] at h
          rw [← h.1]; exact hL q1
        · obtain ⟨od', -, h⟩ := C.bind_eq_ok.mp h
          obtain ⟨om', -, h⟩ := C.bind_eq_ok.mp h
          have ht1 : (s.setTag idx { t with ovr := some (od, om) }).tag? idx
              = some { t with ovr := some (od, om) } := by
            rw [tag?_eq] at ht ⊢
            refine ⟨ht.1, ?_⟩
            simp [Server.setTag, (List.getElem?_eq_some_iff.mp ht.2).1]
          have q2 := setTag_quiet (t' := { t with ovr := some (od', om') }) ht1
            ⟨rfl, rfl, rfl, rfl, rfl, rfl, Store.Same.refl _, Int.le_refl _, Int.le_refl _, fun _ => rfl, id, id⟩
          have q12 := hL (q1.trans q2)
          have key : ∀ s3 : Server, Quiet (fun i => i = idx.toNat ∨ i = 7)
              ((s.setTag idx { t with ovr := some (od, om) }).setTag idx
                { t with ovr := some (od', om') }) s3 →
              (match s3.tag? idx with
                | none => C.ub "database index"
                | some t =>
                  .ok (s3.setTag idx { t with attr := { t.attr with override := true } }, (0 : Int)))
              = .ok (s', r) → Quiet (fun i => i = idx.toNat ∨ i = 7) s s' := by
            intro s3 q3 h
            split at h
            · simp at h
            · rename_i u hu
              simp only [C.ok.injEq, Prod.mk.injEq] at h
              rw [← h.1]
              exact (q12.trans q3).trans (hL (setTag_quiet hu (sameShape_attr rfl)))
          split at h
          · exact key _ (Quiet.refl _ _) h
          · obtain ⟨s3, h3, h⟩ := C.bind_eq_ok.mp h
            refine key s3 ?_ h
            exact Quiet.ovrI ((statusWrite_quiet h3).mono (fun _ h => Or.inr h))

theorem overrideDel_quiet {s s' : Server} {idx off r : Int} {m : List Byte}
    (h : overrideDel s idx off m = .ok (s', r)) :
    Quiet (fun i => i = idx.toNat ∨ i = 7) s s' := by
  have hL : ∀ {a b : Server}, Quiet (· = idx.toNat) a b →
      Quiet (fun i => i = idx.toNat ∨ i = 7) a b := fun h => h.mono (fun _ => .inl)
  unfold overrideDel at h
  split at h
  · simp only [C.ok.injEq, Prod.mk.injEq] at h; rw [← h.1]; exact Quiet.refl _ _
  · rename_i t ht
    split at h
    · simp only [C.ok.injEq, Prod.mk.injEq] at h; rw [← h.1]; exact Quiet.refl _ _
    · obtain ⟨tsz, -, h⟩ := C.bind_eq_ok.mp h
      split at h
      · simp only [C.ok.injEq, Prod.mk.injEq] at h; rw [← h.1]; exact Quiet.refl _ _
      · rename_i od om _
        obtain ⟨om0, -, h⟩ := C.bind_eq_ok.mp h
        obtain ⟨om1, -, h⟩ := C.bind_eq_ok.mp h
        obtain ⟨od0, -, h⟩ := C.bind_eq_ok.mp h
        obtain ⟨od1, -, h⟩ := C.bind_eq_ok.mp h
        dsimp only at h
        have q1 := hL (setTag_quiet ht (sameShape_ovr (some (od1, om1))))
        split at h
        · simp only [C.ok.injEq, Prod.mk.injEq] at h
          rw [← h.1]; exact q1
        · split at h
          · simp at h
          · obtain ⟨s3, h3, h⟩ := C.bind_eq_ok.mp h
            have ht1 : (s.setTag idx { t with ovr := some (od1, om1) }).tag? idx
                = some { t with ovr := some (od1, om1) } := by
              rw [tag?_eq] at ht ⊢
              refine ⟨ht.1, ?_⟩
              simp [Server.setTag, (List.getElem?_eq_some_iff.mp ht.2).1]
            have q2 := hL (setTag_quiet (t' := { t with ovr := some (od1, om1),
                                                        attr := { t.attr with override := false, ovrSet := false } }) ht1
              ⟨rfl, rfl, rfl, rfl, rfl, rfl, Store.Same.refl _, Int.le_refl _, Int.le_refl _, fun _ => rfl, id, id⟩)
            have q3 := Quiet.ovrI ((statusWrite_quiet h3).mono
              (G := fun i => i = idx.toNat ∨ i = 7) (fun _ h => Or.inr h))
            have q13 := (q1.trans q2).trans q3
            split at h
            · simp at h
            · rename_i u hu
              simp only [C.ok.injEq, Prod.mk.injEq] at h
              rw [← h.1]
              exact q13.trans (hL (setTag_quiet hu (sameShape_ovr none)))

theorem overrideSet_quiet {s s' : Server} {idx r : Int} {f : Bool}
    (h : overrideSet s idx f = .ok (s', r)) :
    Quiet (fun i => i = idx.toNat ∨ i = 8) s s' := by
  have hL : ∀ {a b : Server}, Quiet (· = idx.toNat) a b →
      Quiet (fun i => i = idx.toNat ∨ i = 8) a b := fun h => h.mono (fun _ => .inl)
  unfold overrideSet at h
  split at h
  · simp only [C.ok.injEq, Prod.mk.injEq] at h; rw [← h.1]; exact Quiet.refl _ _
  · rename_i t ht
    split at h
    · simp only [C.ok.injEq, Prod.mk.injEq] at h; rw [← h.1]; exact Quiet.refl _ _
    · split at h
      · split at h
        · simp only [C.ok.injEq, Prod.mk.injEq] at h; rw [← h.1]; exact Quiet.refl _ _
        · split at h
          · simp only [C.ok.injEq, Prod.mk.injEq] at h; rw [← h.1]; exact Quiet.refl _ _
          · obtain ⟨s3, h3, h⟩ := C.bind_eq_ok.mp h
            have q3 := Quiet.ovrS ((statusWrite_quiet h3).mono
            (G := fun i => i = idx.toNat ∨ i = 8) (fun _ h => Or.inr h))
            split at h
            · simp at h
            · rename_i u hu
              simp only [C.ok.injEq, Prod.mk.injEq] at h
              rw [← h.1]
              exact q3.trans (hL (setTag_quiet hu (sameShape_attr rfl)))
      · split at h
        · obtain ⟨s3, h3, h⟩ := C.bind_eq_ok.mp h
          have q3 := Quiet.ovrS ((statusWrite_quiet h3).mono
            (G := fun i => i = idx.toNat ∨ i = 8) (fun _ h => Or.inr h))
          split at h
          · simp at h
          · rename_i u hu
            simp only [C.ok.injEq, Prod.mk.injEq] at h
            rw [← h.1]
            exact q3.trans (hL (setTag_quiet hu (sameShape_attr rfl)))
        · simp only [C.ok.injEq, Prod.mk.injEq] at h; rw [← h.1]; exact Quiet.refl _ _

/-! ## Mappings -/

theorem mapAdd_quiet {s s' : Server} {a b : Handle} {r : Int} (h : mapAdd s a b = .ok (s', r)) :
    Quiet (· = a.index.toNat) s s' := by
  unfold mapAdd at h
  split at h
  · simp only [C.ok.injEq, Prod.mk.injEq] at h; rw [← h.1]; exact Quiet.refl _ _
  · rename_i t ht
    split at h
    · simp only [C.ok.injEq, Prod.mk.injEq] at h; rw [← h.1]; exact Quiet.refl _ _
    · split at h
      · simp only [C.ok.injEq, Prod.mk.injEq] at h; rw [← h.1]; exact Quiet.refl _ _
      · split at h
        · simp only [C.ok.injEq, Prod.mk.injEq] at h; rw [← h.1]; exact Quiet.refl _ _
        · split at h
          · simp only [C.ok.injEq, Prod.mk.injEq] at h; rw [← h.1]; exact Quiet.refl _ _
          · obtain ⟨sz, -, h⟩ := C.bind_eq_ok.mp h
            split at h
            · simp only [C.ok.injEq, Prod.mk.injEq] at h; rw [← h.1]; exact Quiet.refl _ _
            · obtain ⟨dz, -, h⟩ := C.bind_eq_ok.mp h
              split at h
              · simp only [C.ok.injEq, Prod.mk.injEq] at h; rw [← h.1]; exact Quiet.refl _ _
              · split at h
                · simp only [C.ok.injEq, Prod.mk.injEq] at h; rw [← h.1]; exact Quiet.refl _ _
                · split at h
                  · simp at h
                  · split at h
                    · simp only [C.ok.injEq, Prod.mk.injEq] at h; rw [← h.1]; exact Quiet.refl _ _
                    · have key : ∀ mask, C.ok (s.setTag a.index
                          { t with nextmap := t.nextmap + 1,
                                   maps := { id := t.nextmap, src := a, dst := b, mask := mask } :: t.maps,
                                   attr := { t.attr with mapping := true } }, t.nextmap) = .ok (s', r) →
                          Quiet (· = a.index.toNat) s s' := by
                        intro mask h
                        simp only [C.ok.injEq, Prod.mk.injEq] at h
                        rw [← h.1]
                        exact setTag_quiet ht ⟨rfl, rfl, rfl, rfl, rfl, rfl, Store.Same.refl _,
                          Int.le_refl _, by show t.nextmap ≤ t.nextmap + 1; omega, fun _ => rfl, id, id⟩
                      split at h
                      · simp at h
                      dsimp only at h
                      split at h
                      · split at h
                        · simp at h
                        · obtain ⟨mask, -, h⟩ := C.bind_eq_ok.mp h
                          exact key _ h
                      · exact key none h

theorem mapDel_quiet {s s' : Server} {idx id r : Int} (h : mapDel s idx id = .ok (s', r)) :
    Quiet (· = idx.toNat) s s' := by
  unfold mapDel at h
  split at h
  · simp only [C.ok.injEq, Prod.mk.injEq] at h; rw [← h.1]; exact Quiet.refl _ _
  · rename_i t ht
    split at h
    · simp at h
    · split at h
      · simp at h
      · split at h
        · simp only [C.ok.injEq, Prod.mk.injEq] at h; rw [← h.1]
          exact setTag_quiet ht
            ⟨rfl, rfl, rfl, rfl, rfl, rfl, Store.Same.refl _, Int.le_refl _, Int.le_refl _, fun _ => rfl, fun h => h, fun h => h⟩
        · split at h
          · simp only [C.ok.injEq, Prod.mk.injEq] at h; rw [← h.1]
            exact setTag_quiet ht
              ⟨rfl, rfl, rfl, rfl, rfl, rfl, Store.Same.refl _, Int.le_refl _, Int.le_refl _, fun _ => rfl, fun h => h, fun h => h⟩
          · simp only [C.ok.injEq, Prod.mk.injEq] at h; rw [← h.1]; exact Quiet.refl _ _

theorem mapMove_quiet {s s' : Server} {m : DMap} {b : List Byte} {r : Int}
    (h : mapMove s m b = .ok (s', r)) : Quiet (· = m.dst.index.toNat) s s' := by
  unfold mapMove at h
  split at h
  · split at h
    · simp at h
    · obtain ⟨d, -, h⟩ := C.bind_eq_ok.mp h
      exact tagMaskWrite_quiet h
  · obtain ⟨d, -, h⟩ := C.bind_eq_ok.mp h
    exact tagWrite_quiet h

theorem mapLoop_quiet {F : Nat → Prop} {ms : List DMap} :
    ∀ {s s' : Server} {idx off size : Int}, (∀ m ∈ ms, F m.dst.index.toNat) →
      (∀ m ∈ ms, F m.src.index.toNat) →
      mapLoop s idx off size ms = .ok s' → Quiet F s s' := by
  induction ms with
  | nil =>
    intro s s' idx off size _ _ h
    simp only [mapLoop, C.ok.injEq] at h; subst h; exact Quiet.refl _ _
  | cons m ms ih =>
    intro s s' idx off size hd hs h
    simp only [mapLoop] at h
    have hd' : ∀ m ∈ ms, F m.dst.index.toNat := fun x hx => hd x (List.mem_cons_of_mem _ hx)
    have hs' : ∀ m ∈ ms, F m.src.index.toNat := fun x hx => hs x (List.mem_cons_of_mem _ hx)
    split at h
    · split at h
      · simp at h
      · obtain ⟨⟨s1, r⟩, h1, h⟩ := C.bind_eq_ok.mp h
        have q1 := (mapMove_quiet h1).mono (G := F)
          (fun i hi => by rw [hi]; exact hd m (List.mem_cons_self ..))
        dsimp only at h
        split at h
        · split at h
          · obtain ⟨⟨s2, r2⟩, h2, h⟩ := C.bind_eq_ok.mp h
            have q2 := (mapDel_quiet h2).mono (G := F)
              (fun i hi => by rw [hi]; exact hs m (List.mem_cons_self ..))
            exact (q1.trans q2).trans (ih hd' hs' h)
          · simp at h
        · exact q1.trans (ih hd' hs' h)
    · exact ih hd' hs' h

theorem mapCheck_quiet {s s' : Server} {idx off size : Int} (h : mapCheck s idx off size = .ok s') :
    Quiet (fun _ => True) s s' := by
  unfold mapCheck at h
  split at h
  · simp at h
  · split at h
    · simp at h
    · exact mapLoop_quiet (fun _ _ => trivial) (fun _ _ => trivial) h

/-! ## Events -/

theorem eventAdd_quiet {s s' : Server} {hd : Handle} {et : Int} {arg : List Byte} {m : Module}
    {r : Int} (h : eventAdd s hd et arg m = .ok (s', r)) : Quiet (· = hd.index.toNat) s s' := by
  unfold eventAdd at h
  split at h
  · simp only [C.ok.injEq, Prod.mk.injEq] at h; rw [← h.1]; exact Quiet.refl _ _
  · rename_i t ht
    split at h
    · simp only [C.ok.injEq, Prod.mk.injEq] at h; rw [← h.1]; exact Quiet.refl _ _
    · split at h
      · split at h
        · simp only [C.ok.injEq, Prod.mk.injEq] at h; rw [← h.1]; exact Quiet.refl _ _
        · simp at h
      · obtain ⟨sz, -, h⟩ := C.bind_eq_ok.mp h
        split at h
        · simp only [C.ok.injEq, Prod.mk.injEq] at h; rw [← h.1]; exact Quiet.refl _ _
        · split at h
          · simp only [C.ok.injEq, Prod.mk.injEq] at h; rw [← h.1]; exact Quiet.refl _ _
          · split at h
            · simp at h
            obtain ⟨⟨d, tst⟩, -, h⟩ := C.bind_eq_ok.mp h
            simp only [C.ok.injEq, Prod.mk.injEq] at h; rw [← h.1]
            refine (setTag_quiet ht ?_).trans (updMod_quiet _ _ _ _)
            refine ⟨rfl, rfl, rfl, rfl, ?_, rfl, Store.Same.refl _, ?_, Int.le_refl _, fun _ => ?_,
              fun h => ?_, fun h => ?_⟩
            · dsimp only; split <;> rfl
            · show t.nextevent ≤ t.nextevent + 1; omega
            · dsimp only; split <;> rfl
            · dsimp only; split <;> exact h
            · dsimp only; split <;> exact h

/-- Only the event lists, the event flags and the modules' event counters changed. -/
structure EvOnly (s s' : Server) : Prop where
  rest : ∃ db mods, s' = { s with db := db, mods := mods }
  len : s'.db.length = s.db.length
  tag : ∀ (i : Nat) (t : Tag), s.db[i]? = some t → ∃ evs b,
    s'.db[i]? = some { t with events := evs, attr := { t.attr with event := b } }
  mods : s'.mods.map (fun m => { m with eventCount := 0 }) =
    s.mods.map (fun m => { m with eventCount := 0 })

theorem EvOnly.refl (s : Server) : EvOnly s s :=
  ⟨⟨s.db, s.mods, rfl⟩, rfl, fun _ t h => ⟨t.events, t.attr.event, h⟩, rfl⟩

theorem EvOnly.trans {a b c : Server} (h1 : EvOnly a b) (h2 : EvOnly b c) : EvOnly a c := by
  refine ⟨?_, h2.len.trans h1.len, ?_, h2.mods.trans h1.mods⟩
  · obtain ⟨d1, m1, e1⟩ := h1.rest
    obtain ⟨d2, m2, e2⟩ := h2.rest
    exact ⟨d2, m2, by rw [e2, e1]⟩
  · intro i t ht
    obtain ⟨e1, b1, h1⟩ := h1.tag i t ht
    obtain ⟨e2, b2, h2⟩ := h2.tag i _ h1
    exact ⟨e2, b2, h2⟩

theorem evOnly_of {s : Server} {idx : Int} {t : Tag} (ht : s.tag? idx = some t) (evs : List Ev)
    (b : Bool) (uid : Nat) (f : Module → Module)
    (hf : ∀ m, { f m with eventCount := 0 } = { m with eventCount := 0 }) :
    EvOnly s ((s.setTag idx { t with events := evs, attr := { t.attr with event := b } }).updMod
      uid f) := by
  refine ⟨⟨_, _, rfl⟩, by simp [Server.updMod, Server.setTag], ?_, ?_⟩
  · intro j u hu
    rw [tag?_eq] at ht
    by_cases hij : idx.toNat = j
    · subst hij
      rw [ht.2] at hu; cases hu
      exact ⟨evs, b, by
        simp [Server.updMod, Server.setTag, (List.getElem?_eq_some_iff.mp ht.2).1]⟩
    · exact ⟨u.events, u.attr.event, by
        simp [Server.updMod, Server.setTag, List.getElem?_set_ne hij, hu]⟩
  · simp only [Server.updMod, Server.setTag, List.map_map]
    apply List.map_congr_left
    intro m _
    simp only [Function.comp]
    split
    · exact hf m
    · rfl

theorem evOnly_mod {s : Server} (uid : Nat) (f : Module → Module)
    (hf : ∀ m, { f m with eventCount := 0 } = { m with eventCount := 0 }) :
    EvOnly s (s.updMod uid f) := by
  refine ⟨⟨_, _, rfl⟩, rfl, fun j u hu => ⟨u.events, u.attr.event, hu⟩, ?_⟩
  simp only [Server.updMod, List.map_map]
  apply List.map_congr_left
  intro m _
  simp only [Function.comp]
  split
  · exact hf m
  · rfl

theorem eventDel_evOnly {s s' : Server} {idx id r : Int} {m : Option Nat}
    (h : eventDel s idx id m = .ok (s', r)) : EvOnly s s' := by
  unfold eventDel at h
  split at h
  · simp only [C.ok.injEq, Prod.mk.injEq] at h; rw [← h.1]; exact EvOnly.refl _
  · rename_i t ht
    split at h
    · simp only [C.ok.injEq, Prod.mk.injEq] at h; rw [← h.1]; exact EvOnly.refl _
    · rename_i ev evs hevs
      split at h
      · split at h
        · simp only [C.ok.injEq, Prod.mk.injEq] at h; rw [← h.1]; exact EvOnly.refl _
        · split at h
          · simp at h
          · split at h
            · simp at h
            · simp only [C.ok.injEq, Prod.mk.injEq] at h; rw [← h.1]
              split
              · exact evOnly_of ht evs false _ _ (fun _ => rfl)
              · exact evOnly_of ht evs t.attr.event _ _ (fun _ => rfl)
      · split at h
        · simp only [C.ok.injEq, Prod.mk.injEq] at h; rw [← h.1]; exact EvOnly.refl _
        · split at h
          · simp at h
          · simp only [C.ok.injEq, Prod.mk.injEq] at h; rw [← h.1]
            exact evOnly_mod _ _ (fun _ => rfl)
        · split at h
          · simp at h
          · rename_i r _ _ _
            simp only [C.ok.injEq, Prod.mk.injEq] at h; rw [← h.1]
            exact evOnly_of ht (ev :: r) t.attr.event _ _ (fun _ => rfl)

theorem eventOpt_evOnly {s s' : Server} {idx id r : Int} {o : Nat} {m : Option Nat}
    (h : eventOpt s idx id o m = .ok (s', r)) : EvOnly s s' := by
  unfold eventOpt at h
  split at h
  · simp only [C.ok.injEq, Prod.mk.injEq] at h; rw [← h.1]; exact EvOnly.refl _
  · rename_i t ht
    split at h
    · simp only [C.ok.injEq, Prod.mk.injEq] at h; rw [← h.1]; exact EvOnly.refl _
    · simp only [C.ok.injEq, Prod.mk.injEq] at h; rw [← h.1]; exact EvOnly.refl _
    · rename_i evs _
      simp only [C.ok.injEq, Prod.mk.injEq] at h; rw [← h.1]
      have := evOnly_of ht evs t.attr.event 0 (fun m => m) (fun _ => rfl)
      simpa [Server.updMod] using this

theorem cleanupTag_evOnly {evs : List Ev} : ∀ {s s' : Server} {idx : Int} {uid : Nat},
    cleanupTag s idx uid evs = .ok s' → EvOnly s s' := by
  induction evs with
  | nil =>
    intro s s' idx uid h
    simp only [cleanupTag, C.ok.injEq] at h; subst h; exact EvOnly.refl _
  | cons ev evs ih =>
    intro s s' idx uid h
    simp only [cleanupTag] at h
    split at h
    · obtain ⟨⟨s1, r⟩, h1, h⟩ := C.bind_eq_ok.mp h
      dsimp only at h
      split at h
      · exact (eventDel_evOnly h1).trans (ih h)
      · simp at h
    · exact ih h

theorem cleanupFrom_evOnly {n : Nat} : ∀ {s s' : Server} {uid : Nat},
    cleanupFrom s uid n = .ok s' → EvOnly s s' := by
  induction n with
  | zero =>
    intro s s' uid h
    simp only [cleanupFrom, C.ok.injEq] at h; subst h; exact EvOnly.refl _
  | succ n ih =>
    intro s s' uid h
    simp only [cleanupFrom] at h
    split at h
    · simp at h
    · split at h
      · split at h
        · simp at h
        · obtain ⟨s1, h1, h⟩ := C.bind_eq_ok.mp h
          exact (cleanupTag_evOnly h1).trans (ih h)
      · simp only [C.ok.injEq] at h; subst h; exact EvOnly.refl _

theorem eventsCleanup_evOnly {s s' : Server} {uid : Nat} (h : eventsCleanup s uid = .ok s') :
    EvOnly s s' := cleanupFrom_evOnly h

theorem EvOnly.quiet {s s' : Server} (h : EvOnly s s') : Quiet (fun _ => True) s s' := by
  obtain ⟨db, mods, e⟩ := h.rest
  refine ⟨by rw [e], by rw [e], by rw [e], by rw [e], by rw [e], by rw [e], h.len, ?_⟩
  intro i t ht
  obtain ⟨evs, b, h⟩ := h.tag i t ht
  exact ⟨_, h, ⟨rfl, rfl, rfl, rfl, rfl, rfl, Store.Same.refl _, Int.le_refl _, Int.le_refl _, fun _ => rfl, id, id⟩,
    fun h => absurd trivial h⟩

/-! ## Groups -/

theorem groupReadLoop_quiet {hs : List Handle} : ∀ {s s' : Server} {buf : List Byte} {off : Int} {r},
    groupReadLoop s hs buf off = .ok (s', r) → Quiet (fun _ => True) s s' := by
  induction hs with
  | nil =>
    intro s s' buf off r h
    simp only [groupReadLoop, C.ok.injEq, Prod.mk.injEq] at h; rw [← h.1]; exact Quiet.refl _ _
  | cons x xs ih =>
    intro s s' buf off r h
    simp only [groupReadLoop] at h
    obtain ⟨⟨s1, r1⟩, h1, h⟩ := C.bind_eq_ok.mp h
    have q1 := (tagRead_quiet h1).mono (G := fun _ => True) (fun _ _ => trivial)
    cases r1 with
    | error e => simp only [C.ok.injEq, Prod.mk.injEq] at h; rw [← h.1]; exact q1
    | ok d =>
      obtain ⟨b2, -, h⟩ := C.bind_eq_ok.mp h
      exact q1.trans (ih h)

theorem groupRead_quiet {s s' : Server} {m : Module} {i : Nat} {r}
    (h : groupRead s m i = .ok (s', r)) : Quiet (fun _ => True) s s' := by
  unfold groupRead at h
  split at h
  · simp at h
  · split at h
    · split at h
      · simp at h
      · obtain ⟨⟨s1, r1⟩, h1, h⟩ := C.bind_eq_ok.mp h
        have q1 := groupReadLoop_quiet h1
        cases r1 with
        | error e => simp only [C.ok.injEq, Prod.mk.injEq] at h; rw [← h.1]; exact q1
        | ok p =>
          dsimp only at h
          split at h
          · simp only [C.ok.injEq, Prod.mk.injEq] at h; rw [← h.1]; exact q1
          · obtain ⟨b2, -, h⟩ := C.bind_eq_ok.mp h
            simp only [C.ok.injEq, Prod.mk.injEq] at h; rw [← h.1]; exact q1
    · simp only [C.ok.injEq, Prod.mk.injEq] at h; rw [← h.1]; exact Quiet.refl _ _

theorem groupWriteLoop_quiet {F : Nat → Prop} {hs : List Handle} :
    ∀ {s s' : Server} {buf : List Byte} {off r : Int}, (∀ x ∈ hs, F x.index.toNat) →
    groupWriteLoop s hs buf off = .ok (s', r) → Quiet F s s' := by
  induction hs with
  | nil =>
    intro s s' buf off r _ h
    simp only [groupWriteLoop, C.ok.injEq, Prod.mk.injEq] at h; rw [← h.1]; exact Quiet.refl _ _
  | cons x xs ih =>
    intro s s' buf off r hF h
    simp only [groupWriteLoop] at h
    obtain ⟨d, -, h⟩ := C.bind_eq_ok.mp h
    obtain ⟨⟨s1, r1⟩, h1, h⟩ := C.bind_eq_ok.mp h
    have q1 := (tagWrite_quiet h1).mono (G := F)
      (fun i hi => by rw [hi]; exact hF x (List.mem_cons_self ..))
    dsimp only at h
    split at h
    · simp only [C.ok.injEq, Prod.mk.injEq] at h; rw [← h.1]; exact q1
    · exact q1.trans (ih (fun y hy => hF y (List.mem_cons_of_mem _ hy)) h)

theorem groupWrite_quiet {s s' : Server} {m : Module} {i : Nat} {buf : List Byte} {r : Int}
    (h : groupWrite s m i buf = .ok (s', r)) : Quiet (fun _ => True) s s' := by
  unfold groupWrite at h
  split at h
  · simp at h
  · split at h
    · split at h
      · simp at h
      · exact groupWriteLoop_quiet (fun _ _ => trivial) h
    · simp only [C.ok.injEq, Prod.mk.injEq] at h; rw [← h.1]; exact Quiet.refl _ _

/-! ## Atomic operations keep the length of the data block -/

theorem modB_length {b b' : List Byte} {i : Nat} {f : Byte → Byte} (h : modB b i f = .ok b') :
    b'.length = b.length := by
  unfold modB at h
  split at h
  · simp at h
  · simp only [C.ok.injEq] at h; subst h; simp

theorem toggleMid_length {r : Nat} : ∀ {i : Nat} {b b' : List Byte},
    toggleMid r i b = .ok b' → b'.length = b.length := by
  induction r with
  | zero => intro i b b' h; simp only [toggleMid, C.ok.injEq] at h; rw [h]
  | succ r ih =>
    intro i b b' h
    simp only [toggleMid] at h
    obtain ⟨b1, h1, h⟩ := C.bind_eq_ok.mp h
    rw [ih h, modB_length h1]

theorem notBits_length {r : Nat} : ∀ {p : Nat} {b b' : List Byte},
    notBits r p b = .ok b' → b'.length = b.length := by
  induction r with
  | zero => intro i b b' h; simp only [notBits, C.ok.injEq] at h; rw [h]
  | succ r ih =>
    intro i b b' h
    simp only [notBits] at h
    obtain ⟨b1, h1, h⟩ := C.bind_eq_ok.mp h
    rw [ih h, modB_length h1]

theorem logicShift_length {op : Logic} {h : Handle} {block d b : List Byte}
    (hh : logicShift op h block d = .ok b) : b.length = block.length := by
  unfold logicShift at hh
  split at hh
  · simp at hh
  · split at hh
    · simp at hh
    · obtain ⟨src, -, hh⟩ := C.bind_eq_ok.mp hh
      have key : ∀ tmp, (do
          let old ← rd block h.byte h.size
          let b ← wr block h.byte (List.zipWith op.base old tmp)
          if op.neg then do
            let b ← toggleMid (h.size - 2) (h.byte + 1) b
            let b ← modB b (h.size - 1) (fun x => x ^^^ ~~~ hMask h)
            modB b 0 (fun x => x ^^^ ~~~ lMask h)
          else .ok b) = C.ok b → b.length = block.length := by
        intro tmp hh
        obtain ⟨old, -, hh⟩ := C.bind_eq_ok.mp hh
        obtain ⟨b1, h1, hh⟩ := C.bind_eq_ok.mp hh
        split at hh
        · obtain ⟨b2, h2, hh⟩ := C.bind_eq_ok.mp hh
          obtain ⟨b3, h3, hh⟩ := C.bind_eq_ok.mp hh
          rw [modB_length hh, modB_length h3, toggleMid_length h2, wr_length h1]
        · simp only [C.ok.injEq] at hh
          rw [← hh, wr_length h1]
      dsimp only at hh
      split at hh
      all_goals
        obtain ⟨tmp, -, hh⟩ := C.bind_eq_ok.mp hh
        exact key tmp hh

theorem logicPlain_length {op : Logic} {h : Handle} {block d b : List Byte}
    (hh : logicPlain op h block d = .ok b) : b.length = block.length := by
  unfold logicPlain at hh
  split at hh
  · simp only [C.ok.injEq] at hh; rw [hh]
  · obtain ⟨src, -, hh⟩ := C.bind_eq_ok.mp hh
    obtain ⟨old, -, hh⟩ := C.bind_eq_ok.mp hh
    exact wr_length hh

theorem atomicLogic_length {op : Logic} {h : Handle} {block d b : List Byte}
    (hh : atomicLogic op h block d = .ok (some b)) : b.length = block.length := by
  unfold atomicLogic at hh
  split at hh
  · simp at hh
  · split at hh
    · obtain ⟨b1, h1, hh⟩ := C.bind_eq_ok.mp hh
      simp only [C.ok.injEq, Option.some.injEq] at hh; subst hh
      exact logicShift_length h1
    · obtain ⟨b1, h1, hh⟩ := C.bind_eq_ok.mp hh
      simp only [C.ok.injEq, Option.some.injEq] at hh; subst hh
      exact logicPlain_length h1

theorem atomicNot_length {h : Handle} {block b : List Byte}
    (hh : atomicNot h block = .ok (some b)) : b.length = block.length := by
  unfold atomicNot at hh
  split at hh
  · simp at hh
  · split at hh
    · split at hh
      · simp at hh
      · obtain ⟨b1, h1, hh⟩ := C.bind_eq_ok.mp hh
        simp only [C.ok.injEq, Option.some.injEq] at hh; subst hh
        exact notBits_length h1
    · obtain ⟨o, ho, hh⟩ := C.bind_eq_ok.mp hh
      obtain ⟨b1, h1, hh⟩ := C.bind_eq_ok.mp hh
      simp only [C.ok.injEq, Option.some.injEq] at hh; subst hh
      exact wr_length h1

theorem atomicInc_length {e : Env} {sub : Bool} {h : Handle} {block d b : List Byte}
    (hh : atomicInc e sub h block d = .ok (.ok b)) : b.length = block.length := by
  unfold atomicInc at hh
  split at hh
  · simp at hh
  · split at hh
    · simp at hh
    · obtain ⟨x, -, hh⟩ := C.bind_eq_ok.mp hh
      obtain ⟨y, -, hh⟩ := C.bind_eq_ok.mp hh
      dsimp only at hh
      split at hh
      all_goals
        obtain ⟨v, -, hh⟩ := C.bind_eq_ok.mp hh
        obtain ⟨b1, h1, hh⟩ := C.bind_eq_ok.mp hh
        simp only [C.ok.injEq, Except.ok.injEq] at hh; subst hh
        exact wr_length h1

theorem atomicApply_length {e : Env} {h : Handle} {block d b : List Byte} {op : Nat}
    (hh : atomicApply e h block d op = .ok (.ok b)) : b.length = block.length := by
  unfold atomicApply at hh
  have hbad : ∀ {x : C (Option (List Byte))}, (do let r ← x; C.ok (badType r)) = .ok (.ok b) →
      x = .ok (some b) := by
    intro x hx
    obtain ⟨o, ho, hx⟩ := C.bind_eq_ok.mp hx
    cases o with
    | none => simp [badType] at hx
    | some y => simp only [badType, C.ok.injEq, Except.ok.injEq] at hx; rw [ho, hx]
  repeat' split at hh
  all_goals first
    | exact atomicInc_length hh
    | exact atomicNot_length (hbad hh)
    | exact atomicLogic_length (hbad hh)
    | simp at hh

theorem atomicOp_inv {s s' : Server} {h : Handle} {d : List Byte} {op : Nat} {r : Int}
    (hh : atomicOp s h d op = .ok (s', r)) :
    s' = s ∨ (r = 0 ∧ ∃ t block b evs ns rt, s.tag? h.index = some t ∧ t.attr.virt = false ∧
      t.attr.special = false ∧ t.data = .mem block ∧
      atomicApply s.env h block d op = .ok (.ok b) ∧
      eventCheck s h.index b (i32 h.byte) h.size t.events = .ok (evs, ns) ∧
      s' = { s.setTag h.index { t with data := .mem b, events := evs } with
             sent := s.sent ++ ns, ret := rt }) := by
  unfold atomicOp at hh
  split at hh
  · simp only [C.ok.injEq, Prod.mk.injEq] at hh; exact .inl hh.1.symm
  · split at hh
    · simp only [C.ok.injEq, Prod.mk.injEq] at hh; exact .inl hh.1.symm
    · rename_i t ht
      split at hh
      · simp only [C.ok.injEq, Prod.mk.injEq] at hh; exact .inl hh.1.symm
      · split at hh
        · simp only [C.ok.injEq, Prod.mk.injEq] at hh; exact .inl hh.1.symm
        · rename_i hvs
          simp only [Bool.or_eq_true, not_or, Bool.not_eq_true] at hvs
          split at hh
          · simp only [C.ok.injEq, Prod.mk.injEq] at hh; exact .inl hh.1.symm
          · rename_i block hb
            obtain ⟨x, hx, hh⟩ := C.bind_eq_ok.mp hh
            cases x with
            | error e => simp only [C.ok.injEq, Prod.mk.injEq] at hh; exact .inl hh.1.symm
            | ok b =>
              obtain ⟨hr, evs, ns, rt, he, hs⟩ := commitWrite_inv hh
              exact .inr ⟨hr, t, block, b, evs, ns, rt, ht, hvs.1, hvs.2, hb, hx, he, hs⟩
          · simp at hh

theorem atomicOp_sync {s s' : Server} {h : Handle} {d : List Byte} {op : Nat} {r : Int}
    (hh : atomicOp s h d op = .ok (s', r)) : s' = s ∨
    ∀ t t' b, s.tag? h.index = some t → s'.tag? h.index = some t' → t'.data = .mem b → RetSync s t b s'.ret := by
  unfold atomicOp at hh
  split at hh
  · simp only [C.ok.injEq, Prod.mk.injEq] at hh; exact .inl hh.1.symm
  · split at hh
    · simp only [C.ok.injEq, Prod.mk.injEq] at hh; exact .inl hh.1.symm
    · rename_i t ht
      split at hh
      · simp only [C.ok.injEq, Prod.mk.injEq] at hh; exact .inl hh.1.symm
      · split at hh
        · simp only [C.ok.injEq, Prod.mk.injEq] at hh; exact .inl hh.1.symm
        · split at hh
          · simp only [C.ok.injEq, Prod.mk.injEq] at hh; exact .inl hh.1.symm
          · obtain ⟨x, hx, hh⟩ := C.bind_eq_ok.mp hh
            cases x with
            | error e => simp only [C.ok.injEq, Prod.mk.injEq] at hh; exact .inl hh.1.symm
            | ok b => exact .inr (sync_of ht hh)
          · simp at hh

theorem atomicOp_quiet {s s' : Server} {h : Handle} {d : List Byte} {op : Nat} {r : Int}
    (hh : atomicOp s h d op = .ok (s', r)) : Quiet (· = h.index.toNat) s s' := by
  rcases atomicOp_inv hh with rfl | ⟨-, t, block, b, evs, ns, rt, ht, hv, hsp, hb, ha, he, rfl⟩
  · exact Quiet.refl _ _
  · exact Quiet.of_set rfl rfl rfl rfl rfl rfl (tag?_eq.mp ht).2 rfl
      ⟨rfl, rfl, rfl, rfl, rfl, rfl, by simp [hb, Store.Same, atomicApply_length ha],
        Int.le_refl _, Int.le_refl _, fun _ => rfl, id, id⟩

end Dax
