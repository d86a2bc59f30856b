import Verif.Lemmas.Frame
import Verif.Spec.Modules
import Verif.Props.Names
/-!
# Registration and disconnection of modules
-/
set_option autoImplicit false
namespace Dax

/-! ## The registry along a history -/

/-- Identity, connection and status tag of the modules. -/
def Server.stat (s : Server) : List (Nat × Int × Int) := s.mods.map (fun m => (m.uid, m.fd, m.tagindex))

theorem updMod_stat (s : Server) (uid : Nat) (f : Module → Module)
    (hf : ∀ m ∈ s.mods, m.uid = uid → ((f m).uid, (f m).fd, (f m).tagindex) = (m.uid, m.fd, m.tagindex)) :
    (s.updMod uid f).stat = s.stat := by
  simp only [Server.stat, Server.updMod, List.map_map]
  apply List.map_congr_left
  intro m hm
  simp only [Function.comp_apply]
  split
  · rename_i h
    exact hf m hm h
  · rfl

theorem stat_move (s s' : Server) (h : ModsOK s) (m : Move noReg s s') : s'.stat = s.stat := by
  cases m with
  | tag ht hm => rfl
  | push fd name type count size => rfl
  | send => rfl
  | other h1 h2 h3 h4 h5 h6 => simp only [Server.stat, h2]
  | env e => rfl
  | evCount uid f => exact updMod_stat _ _ _ (fun _ _ _ => rfl)
  | @groups m hm g n =>
    refine updMod_stat _ _ _ (fun m' hm' he => ?_)
    rw [h.inj hm' hm he]
  | modAdd _ _ hfl => simp [noReg] at hfl
  | modUuid hfl => simp [noReg] at hfl
  | modIdx hfl => simp [noReg] at hfl
  | modDel hfl => simp [noReg] at hfl

theorem Path.stat {s s' : Server} (h : ModsOK s) (p : Path noReg s s') : s'.stat = s.stat :=
  (p.inv (I := fun x => ModsOK x ∧ x.stat = s.stat)
    (fun a b ha m => ⟨modsOK_move a b ha.1 m, (stat_move a b ha.1 m).trans ha.2⟩) ⟨h, rfl⟩).2

theorem EvOnly.stat {s s' : Server} (h : EvOnly s s') : s'.stat = s.stat := by
  have := congrArg (List.map (fun m => (m.uid, m.fd, m.tagindex))) h.mods
  simpa [Server.stat, List.map_map, Function.comp_def] using this

theorem moduleUnregister_stat {s s' : Server} {fd : Int} {m : Module} (hm : s.modByFd fd = some m)
    (h : moduleUnregister s fd = .ok s') : s'.stat = s.stat.filter (fun x => x.1 ≠ m.uid) := by
  unfold moduleUnregister at h
  rw [hm] at h
  dsimp only at h
  obtain ⟨s1, h1, h⟩ := C.bind_eq_ok.mp h
  split at h
  · simp at h
  obtain ⟨s2, h2, h⟩ := C.bind_eq_ok.mp h
  obtain ⟨⟨s3, r3⟩, h3, h⟩ := C.bind_eq_ok.mp h
  simp only [C.ok.injEq] at h
  subst h
  have e2 : s3.mods = s1.mods := (tagDel_mods h3).trans (delOwned_mods h2)
  rw [← (eventsCleanup_evOnly h1).stat]
  simp only [Server.stat, e2, List.filter_map]
  rfl

/-- Unregistering a connection leaves the entries of the others. -/
theorem moduleUnregister_keeps {s s' : Server} {fd : Int} (hk : ModsOK s)
    (h : moduleUnregister s fd = .ok s') {x : Nat × Int × Int} (hx : x ∈ s.stat) (hf : x.2.1 ≠ fd) :
    x ∈ s'.stat := by
  cases hm : s.modByFd fd with
  | none => unfold moduleUnregister at h; rw [hm] at h; simp only [C.ok.injEq] at h; rw [← h]; exact hx
  | some m =>
    obtain ⟨hmem, hfd⟩ := modByFd_some hm
    rw [moduleUnregister_stat hm h, List.mem_filter]
    refine ⟨hx, ?_⟩
    obtain ⟨y, hy, rfl⟩ := List.mem_map.mp hx
    simp only [ne_eq, decide_not, Bool.not_eq_eq_eq_not, Bool.not_true, decide_eq_false_iff_not]
    intro he
    have := hk.inj hy hmem he
    subst this
    exact hf hfd

theorem tagAdd_stat {s s' : Server} {fd : Int} {name : Name} {type count attr : Nat} {r : Int}
    (hk : ModsOK s) (h : tagAdd s fd name type count attr = .ok (s', r)) : s'.stat = s.stat :=
  (tagAdd_path (fl := noReg) (fun _ _ => .inl rfl) (.inl rfl) .refl _ h).stat hk

theorem tagWrite_stat {s s' : Server} {fd idx off : Int} {d : List Byte} {r : Int}
    (h : tagWrite s fd idx off d = .ok (s', r)) : s'.stat = s.stat := by
  unfold Server.stat; rw [tagWrite_mods h]

/-- A write changes contents and events of a tag, nothing else. -/
theorem tagWrite_attr {s s' : Server} {fd idx off : Int} {d : List Byte} {r : Int}
    (h : tagWrite s fd idx off d = .ok (s', r)) {i : Nat} {t : Tag} (ht : s.db[i]? = some t) :
    ∃ t', s'.db[i]? = some t' ∧ t'.attr = t.attr ∧ t'.type = t.type ∧ t'.name = t.name := by
  have key : ∀ (u u' : Tag) (s2 : Server), s.tag? idx = some u → s2.db = (s.setTag idx u').db →
      u'.attr = u.attr → u'.type = u.type → u'.name = u.name →
      ∃ t', s2.db[i]? = some t' ∧ t'.attr = t.attr ∧ t'.type = t.type ∧ t'.name = t.name := by
    intro u u' s2 hu hs h1 h2 h3
    have hu := (tag?_eq.mp hu).2
    rw [hs]
    simp only [Server.setTag]
    by_cases hi : idx.toNat = i
    · rw [hi] at hu ⊢
      rw [ht] at hu; cases hu
      exact ⟨u', by rw [List.getElem?_set_self (List.getElem?_eq_some_iff.mp ht).1], h1, h2, h3⟩
    · exact ⟨t, by rw [List.getElem?_set_ne hi]; exact ht, rfl, rfl, rfl⟩
  rcases tagWrite_inv h with ⟨rfl, -⟩ | ⟨-, h⟩ | ⟨-, h⟩
  · exact ⟨t, ht, rfl, rfl, rfl⟩
  · obtain ⟨u, b, b', evs, ns, rt, hu, -, -, -, -, rfl⟩ := h.ex
    exact key u _ _ hu rfl rfl rfl rfl
  · obtain ⟨u, q, q', evs, ns, hu, -, -, -, -, rfl⟩ := h
    exact key u _ _ hu rfl rfl rfl rfl

theorem moduleTagName_head {s : Server} {name tn : Name} {n : Nat} (h : moduleTagName s name = .ok (tn, n)) :
    tn.head? = some underscore := by
  unfold moduleTagName at h
  dsimp only at h
  obtain ⟨x, -, h⟩ := C.bind_eq_ok.mp h
  have key : ∀ l k, 0 < k → ((nm "_m" ++ l).take k).head? = some underscore := by
    intro l k hk
    rw [List.head?_take, if_neg (by omega)]
    rfl
  cases x with
  | error _ =>
    simp only [C.ok.injEq, Prod.mk.injEq] at h
    rw [← h.1]; rfl
  | ok _ =>
    dsimp only at h
    split at h <;> split at h
    · simp at h
    · simp only [C.ok.injEq, Prod.mk.injEq] at h
      rw [← h.1, List.head?_append, key _ _ (by decide)]; rfl
    · simp at h
    · simp only [C.ok.injEq, Prod.mk.injEq] at h
      rw [← h.1, List.head?_append, key _ _ (by decide)]; rfl

/-- What the creation of the status tag does. -/
theorem moduleTag_inv {s s' : Server} {uid : Nat} {name : Name} {fd : Int} (hk : ModsOK s) (hw : WF s)
    (h : moduleTag s uid name fd = .ok s') : ∃ tn s1 uuid, ∃ r : Int, 0 ≤ r ∧
      tagAdd { s with modUuid := uuid } (-1) tn (cdtGetType s.cdts (nm "_module")) 1 0 = .ok (s1, r) ∧
      s'.index = s1.index ∧
      s'.stat = s.stat.map (fun x => if x.1 = uid then (x.1, x.2.1, r) else x) ∧ tn.head? = some underscore ∧
      ∃ t, s'.db[r.toNat]? = some t ∧ t.attr.special = true ∧ ∃ t1, s1.db[r.toNat]? = some t1 ∧ t.type = t1.type := by
  unfold moduleTag at h
  obtain ⟨⟨tn, uuid⟩, h1, h⟩ := C.bind_eq_ok.mp h
  obtain ⟨⟨s1, r⟩, h2, h⟩ := C.bind_eq_ok.mp h
  dsimp only at h h2
  split at h
  · simp at h
  rename_i hr
  obtain ⟨⟨s3, r3⟩, h3, h⟩ := C.bind_eq_ok.mp h
  obtain ⟨⟨s4, r4⟩, h4, h⟩ := C.bind_eq_ok.mp h
  dsimp only at h h4
  split at h
  · simp at h
  rename_i t ht
  obtain ⟨⟨s5, r5⟩, h5, h⟩ := C.bind_eq_ok.mp h
  simp only [C.ok.injEq] at h
  subst h
  have hx : ∃ t, s5.db[r.toNat]? = some t ∧ t.attr.special = true ∧ ∃ t1, s1.db[r.toNat]? = some t1 ∧ t.type = t1.type := by
    have hl : r.toNat < s4.db.length := (List.getElem?_eq_some_iff.mp (tag?_eq.mp ht).2).1
    have hl1 : r.toNat < s1.db.length := by
      have h3' := (tagWrite_quiet h3).len
      have h4' := (tagWrite_quiet h4).len
      simp only [Server.updMod] at h3'
      omega
    have e1 := List.getElem?_eq_getElem hl1
    obtain ⟨t3, e3, -, y3, -⟩ := tagWrite_attr h3 (t := s1.db[r.toNat]) e1
    obtain ⟨t4, e4, -, y4, -⟩ := tagWrite_attr h4 e3
    have e4' := (tag?_eq.mp ht).2
    rw [e4'] at e4; cases e4
    obtain ⟨t5, e5, a5, y5, -⟩ := tagWrite_attr h5 (i := r.toNat) (t := { t with attr := { t.attr with special := true } })
      (by simp only [Server.setTag]; rw [List.getElem?_set_self hl])
    exact ⟨t5, e5, by rw [a5], _, e1, by rw [y5]; exact y4.trans y3⟩
  refine ⟨tn, s1, uuid, r, by omega, h2, ?_, ?_, moduleTagName_head h1, hx⟩
  · rw [(tagWrite_quiet h5).index]
    show s4.index = _
    rw [(tagWrite_quiet h4).index, (tagWrite_quiet h3).index]; rfl
  · rw [tagWrite_stat h5]
    show s4.stat = _
    rw [tagWrite_stat h4, tagWrite_stat h3]
    have e := tagAdd_stat (s := { s with modUuid := uuid }) (hk.congr rfl rfl) h2
    have : s.stat = s1.stat := e.symm
    rw [this]
    simp only [Server.stat, Server.updMod, List.map_map]
    apply List.map_congr_left
    intro m hm
    simp only [Function.comp_apply]
    split <;> rfl

theorem moduleRegister_inv {s s' : Server} {name : Name} {fd : Int} (hk : ModsOK s)
    (h : moduleRegister s name fd = .ok s') : ∃ s1, moduleUnregister s fd = .ok s1 ∧
      s1.modByFd fd = none ∧
      (s' = moduleAdd s1 name fd ∨ moduleTag (moduleAdd s1 name fd) s1.nextUid name fd = .ok s') := by
  unfold moduleRegister at h
  dsimp only at h
  have key : ∀ s1 : Server, moduleUnregister s fd = .ok s1 → s1.modByFd fd = none →
      (if (moduleAdd s1 name fd).env.exclude.contains name = true then C.ok (moduleAdd s1 name fd)
        else moduleTag (moduleAdd s1 name fd) s1.nextUid name fd) = .ok s' →
      ∃ s1, moduleUnregister s fd = .ok s1 ∧ s1.modByFd fd = none ∧
      (s' = moduleAdd s1 name fd ∨ moduleTag (moduleAdd s1 name fd) s1.nextUid name fd = .ok s') := by
    intro s1 e1 e2 e3
    refine ⟨s1, e1, e2, ?_⟩
    split at e3
    · simp only [C.ok.injEq] at e3; exact .inl e3.symm
    · exact .inr e3
  split at h
  · obtain ⟨s1, h1, h⟩ := C.bind_eq_ok.mp h
    exact key s1 h1 (moduleUnregister_gone hk h1) h
  · rename_i hn
    refine key s ?_ hn h
    unfold moduleUnregister; rw [hn]

theorem moduleUnregister_modsOK {s s' : Server} {fd : Int} (hk : ModsOK s)
    (h : moduleUnregister s fd = .ok s') : ModsOK s' :=
  (moduleUnregister_path (fl := fun _ => true) (fun _ _ => rfl) .refl _ h).modsOK hk

theorem moduleAdd_modsOK {s : Server} {name : Name} {fd : Int} (hk : ModsOK s) (hn : s.modByFd fd = none) :
    ModsOK (moduleAdd s name fd) := modsOK_move (fl := fun _ => true) _ _ hk (.modAdd name fd rfl hn)

theorem moduleRegister_keeps {s s' : Server} {name : Name} {fd : Int} (hk : ModsOK s) (hw : WF s)
    (h : moduleRegister s name fd = .ok s') {x : Nat × Int × Int} (hx : x ∈ s.stat) (hf : x.2.1 ≠ fd) :
    x ∈ s'.stat := by
  obtain ⟨s1, h1, hn, h2⟩ := moduleRegister_inv hk h
  have k1 := moduleUnregister_keeps hk h1 hx hf
  have hk1 := moduleUnregister_modsOK hk h1
  have k2 : x ∈ (moduleAdd s1 name fd).stat := by
    simp only [Server.stat, moduleAdd, List.map_append]
    exact List.mem_append_left _ k1
  rcases h2 with rfl | h2
  · exact k2
  · obtain ⟨tn, s2, uuid, r, -, -, -, he, -⟩ := moduleTag_inv (moduleAdd_modsOK hk1 hn)
      (moduleAdd_step (moduleUnregister_step hw h1).wf name fd).wf h2
    rw [he, List.mem_map]
    refine ⟨x, k2, ?_⟩
    obtain ⟨y, hy, rfl⟩ := List.mem_map.mp k1
    have := hk1.lt y hy
    rw [if_neg (by dsimp only; omega)]

/-- A step that is not a registration or disconnection of `fd` keeps its entry. -/
theorem step_keeps {s s' : Server} {o : Op} {fd : Int} (hk : ModsOK s) (hw : WF s) (ho : ¬ o.leaves fd)
    (h : step s o = .ok s') {x : Nat × Int × Int} (hx : x ∈ s.stat) (hf : x.2.1 = fd) : x ∈ s'.stat := by
  cases o with
  | req f q =>
    simp only [step] at h
    obtain ⟨⟨s1, r1⟩, h1, h⟩ := C.bind_eq_ok.mp h
    simp only [C.ok.injEq] at h; subst h
    cases q with
    | modReg flags name =>
      have hne : x.2.1 ≠ f := by rw [hf]; intro he; exact ho he.symm
      simp only [handle, hModReg] at h1
      split at h1
      · obtain ⟨s2, h2, h1⟩ := C.bind_eq_ok.mp h1
        obtain ⟨⟨s3, r3⟩, h3, h1⟩ := C.bind_eq_ok.mp h1
        have e3 : s3.stat = s2.stat := by
          rcases tagRead_inv h3 with rfl | ⟨t, q, q', b, ht, hv', hq, hr, rfl, -⟩ <;> rfl
        have : s1 = s3 := by
          cases r3 <;> (simp only [C.ok.injEq, Prod.mk.injEq] at h1; exact h1.1.symm)
        rw [this, e3]
        exact moduleRegister_keeps hk hw h2 hx hne
      · simp only [C.ok.injEq, Prod.mk.injEq] at h1; rw [← h1.1]; exact hx
    | _ => rw [(handle_path_notReg (by intro _ _ h; simp at h) hk h1).stat hk]; exact hx
  | close f =>
    have hne : x.2.1 ≠ f := by rw [hf]; intro he; exact ho he.symm
    exact moduleUnregister_keeps hk h hx hne
  | env e => simp only [step, C.ok.injEq] at h; subst h; exact hx

theorem run_keeps {os : List Op} {fd : Int} {x : Nat × Int × Int} (hf : x.2.1 = fd) :
    ∀ {s s' : Server}, ModsOK s → WF s → (∀ o ∈ os, ¬ o.leaves fd) → run s os = .ok s' →
      x ∈ s.stat → x ∈ s'.stat := by
  induction os with
  | nil => intro s s' _ _ _ h hx; simp only [run, C.ok.injEq] at h; subst h; exact hx
  | cons o os ih =>
    intro s s' hk hw ho h hx
    simp only [run] at h
    obtain ⟨s1, h1, h⟩ := C.bind_eq_ok.mp h
    exact ih ((step_path hk h1).modsOK hk) (step_step hw h1).wf (fun o h => ho o (by simp [h])) h
      (step_keeps hk hw (ho o (by simp)) h1 hx hf)

/-! ## Deletions -/

/-- Deleting a tag removes names only. -/
theorem tagDel_index {s s' : Server} {idx : Int} {r : Int} (hw : WF s) (h : tagDel s idx = .ok (s', r)) :
    ∀ e ∈ s'.index, e ∈ s.index := by
  rcases (tagDel_deleted hw h).cases with ⟨-, rfl⟩ | ⟨-, name, t, -, -, hi, -⟩
  · exact fun e h => h
  · exact fun e h => ((hi e).mp h).1

theorem delOwned_index {fd : Int} {k : Nat} : ∀ {n : Nat} {s s' : Server}, WF s →
    delOwned fd k n s = .ok s' → ∀ e ∈ s'.index, e ∈ s.index := by
  induction k with
  | zero => intro n s s' _ h; simp only [delOwned, C.ok.injEq] at h; subst h; exact fun e h => h
  | succ k ih =>
    intro n s s' hw h
    simp only [delOwned] at h
    split at h
    · simp at h
    · split at h
      · obtain ⟨⟨s1, r1⟩, h1, h⟩ := C.bind_eq_ok.mp h
        exact fun e he => tagDel_index hw h1 e (ih (tagDel_step hw h1).wf h e he)
      · exact ih hw h

theorem moduleUnregister_index {s s' : Server} {fd : Int} (hw : WF s)
    (h : moduleUnregister s fd = .ok s') : ∀ e ∈ s'.index, e ∈ s.index := by
  unfold moduleUnregister at h
  split at h
  · simp only [C.ok.injEq] at h; subst h; exact fun e h => h
  obtain ⟨s1, h1, h⟩ := C.bind_eq_ok.mp h
  have st1 := (eventsCleanup_evOnly h1).quiet.step hw
  have e1 : s1.index = s.index := (eventsCleanup_evOnly h1).quiet.index
  split at h
  · simp at h
  obtain ⟨s2, h2, h⟩ := C.bind_eq_ok.mp h
  obtain ⟨⟨s3, r3⟩, h3, h⟩ := C.bind_eq_ok.mp h
  simp only [C.ok.injEq] at h
  subst h
  intro e he
  rw [← e1]
  exact delOwned_index st1.wf h2 e (tagDel_index (delOwned_step st1.wf h2).wf h3 e he)

/-- Deleting a tag leaves the other entries alone, except `_tagcount` and `_deletedtag`. -/
theorem tagDel_frame {s s' : Server} {idx : Int} {r : Int} (h : tagDel s idx = .ok (s', r)) {i : Nat}
    (hi : (i : Int) ≠ idx) (h0 : i ≠ 0) (h3 : i ≠ 3) : s'.db[i]? = s.db[i]? := by
  unfold tagDel at h
  split at h
  · simp only [C.ok.injEq, Prod.mk.injEq] at h; rw [← h.1]
  rename_i t ht
  have hne : idx.toNat ≠ i := by have := (tag?_eq.mp ht).1; omega
  split at h
  · simp only [C.ok.injEq, Prod.mk.injEq] at h; rw [← h.1]
  split at h
  · simp at h
  rename_i name hname
  obtain ⟨ns, -, h⟩ := C.bind_eq_ok.mp h
  obtain ⟨tbl, htbl, h⟩ := C.bind_eq_ok.mp h
  split at h
  · simp at h
  obtain ⟨ix, hix, h⟩ := C.bind_eq_ok.mp h
  obtain ⟨⟨s2, r2⟩, h2, h⟩ := C.bind_eq_ok.mp h
  dsimp only at h
  split at h
  · simp at h
  rename_i t2 ht2
  obtain ⟨s4, h4, h⟩ := C.bind_eq_ok.mp h
  simp only [C.ok.injEq, Prod.mk.injEq] at h
  rw [← h.1]
  rw [(statusWrite_quiet h4).same (by show ¬ (i = 0); omega)]
  show (s2.db.set idx.toNat _)[i]? = _
  rw [List.getElem?_set_ne hne, (tagWrite_quiet h2).same (by show ¬ (i = 3); omega)]
  show (s.db.set idx.toNat _)[i]? = _
  rw [List.getElem?_set_ne hne]

theorem tagDel_gone {s s' : Server} {i : Nat} {r : Int} {t : Tag} (hw : WF s) (ht : s.db[i]? = some t)
    (h : tagDel s i = .ok (s', r)) : ∃ t', s'.db[i]? = some t' ∧ t'.name = none := by
  rcases (tagDel_deleted hw h).cases with ⟨hr, rfl⟩ | ⟨-, name, t, -, -, -, -, t', ht', hn⟩
  · refine ⟨t, ht, ?_⟩
    cases hn : t.name with
    | none => rfl
    | some n =>
      exfalso
      unfold tagDel at h
      rw [tag?_natCast, ht] at h
      dsimp only at h
      split at h
      · rename_i hf
        have := (hw.tag i t ht).name
        rw [hn, hf] at this; simp at this
      · rw [hn] at h
        dsimp only at h
        obtain ⟨ns, -, h⟩ := C.bind_eq_ok.mp h
        obtain ⟨tbl, htbl, h⟩ := C.bind_eq_ok.mp h
        split at h
        · simp at h
        obtain ⟨ix, hix, h⟩ := C.bind_eq_ok.mp h
        obtain ⟨⟨s2, r2⟩, h2, h⟩ := C.bind_eq_ok.mp h
        dsimp only at h
        split at h
        · simp at h
        obtain ⟨s4, h4, h⟩ := C.bind_eq_ok.mp h
        simp only [C.ok.injEq, Prod.mk.injEq] at h
        omega
  · rw [tag?_natCast] at ht'
    exact ⟨t', ht', hn⟩

/-- Dead tags stay dead. -/
theorem Step.dead {s s' : Server} (h : Step s s') {i : Nat} {t : Tag} (ht : s.db[i]? = some t)
    (hn : t.name = none) : ∃ t', s'.db[i]? = some t' ∧ t'.name = none := by
  obtain ⟨t', ht', -, -, hn', -⟩ := h.ev.tag i t ht
  refine ⟨t', ht', ?_⟩
  rcases hn' with h | h
  · rw [h]; exact hn
  · exact h

theorem delOwned_frame {fd : Int} {k : Nat} {i : Nat} {t : Tag} (hnot : t.attr.owned = true → t.fd ≠ fd)
    (h0 : i ≠ 0) (h3 : i ≠ 3) : ∀ {n : Nat} {s s' : Server}, s.db[i]? = some t →
    delOwned fd k n s = .ok s' → s'.db[i]? = some t := by
  induction k with
  | zero => intro n s s' ht h; simp only [delOwned, C.ok.injEq] at h; subst h; exact ht
  | succ k ih =>
    intro n s s' ht h
    simp only [delOwned] at h
    split at h
    · simp at h
    · rename_i u hu
      split at h
      · rename_i ho
        obtain ⟨⟨s1, r1⟩, h1, h⟩ := C.bind_eq_ok.mp h
        refine ih ?_ h
        rw [tagDel_frame h1 ?_ h0 h3]; exact ht
        intro he
        have : i = n := by omega
        subst this
        rw [ht] at hu; cases hu
        simp only [Bool.and_eq_true, beq_iff_eq] at ho
        exact hnot ho.1 ho.2
      · exact ih ht h

theorem delOwned_kills {fd : Int} {k : Nat} {i : Nat} : ∀ {n : Nat} {s s' : Server} {t : Tag}, WF s →
    s.db[i]? = some t → (t.name = none ∨ (t.attr.owned = true ∧ t.fd = fd)) → n ≤ i → i < n + k →
    delOwned fd k n s = .ok s' → ∃ t', s'.db[i]? = some t' ∧ t'.name = none := by
  induction k with
  | zero => intro n s s' t _ _ _ h1 h2; omega
  | succ k ih =>
    intro n s s' t hw ht ho h1 h2 h
    have hkeep : ∀ s1, Step s s1 → ∃ t1, s1.db[i]? = some t1 ∧
        (t1.name = none ∨ (t1.attr.owned = true ∧ t1.fd = fd)) := by
      intro s1 st
      obtain ⟨t1, ht1, -, hfd, hn, -, -, -, hk⟩ := st.ev.tag i t ht
      refine ⟨t1, ht1, ?_⟩
      rcases ho with ho | ⟨ho, hf⟩
      · left; rcases hn with hn | hn
        · rw [hn]; exact ho
        · exact hn
      · rcases hk with hk | hk
        · exact .inl hk
        · exact .inr ⟨hk.1 ho, by rw [hfd]; exact hf⟩
    simp only [delOwned] at h
    split at h
    · simp at h
    rename_i u hu
    by_cases hin : i = n
    · subst hin
      rw [ht] at hu; cases hu
      split at h
      · obtain ⟨⟨s1, r1⟩, hd, h⟩ := C.bind_eq_ok.mp h
        obtain ⟨t1, ht1, hn1⟩ := tagDel_gone hw ht hd
        exact (delOwned_step (tagDel_step hw hd).wf h).dead ht1 hn1
      · rename_i hc
        rcases ho with ho | ⟨ho, hf⟩
        · exact (delOwned_step hw h).dead ht ho
        · rw [ho, hf] at hc; simp at hc
    · split at h
      · obtain ⟨⟨s1, r1⟩, hd, h⟩ := C.bind_eq_ok.mp h
        have st := tagDel_step hw hd
        obtain ⟨t1, ht1, ho1⟩ := hkeep s1 st
        exact ih st.wf ht1 ho1 (by omega) (by omega) h
      · exact ih hw ht ho (by omega) (by omega) h

/-- What a disconnect does to the tags. -/
theorem unregister_tags {s s' : Server} {fd : Int} {m : Module} (hw : WF s) (hm : s.modByFd fd = some m)
    (h : moduleUnregister s fd = .ok s') {i : Nat} {t : Tag} (ht : s.db[i]? = some t) :
    (((i : Int) = m.tagindex ∨ (t.attr.owned = true ∧ t.fd = fd)) →
      ∃ t', s'.db[i]? = some t' ∧ t'.name = none) ∧
    ((i : Int) ≠ m.tagindex → (t.attr.owned = true → t.fd ≠ fd) → i ≠ 0 → i ≠ 3 →
      ∃ evs b, s'.db[i]? = some { t with events := evs, attr := { t.attr with event := b } }) := by
  unfold moduleUnregister at h
  rw [hm] at h
  dsimp only at h
  obtain ⟨s1, h1, h⟩ := C.bind_eq_ok.mp h
  have eo := eventsCleanup_evOnly h1
  have st1 := eo.quiet.step hw
  split at h
  · simp at h
  obtain ⟨s2, h2, h⟩ := C.bind_eq_ok.mp h
  obtain ⟨⟨s3, r3⟩, h3, h⟩ := C.bind_eq_ok.mp h
  simp only [C.ok.injEq] at h
  subst h
  obtain ⟨evs, b, ht1⟩ := eo.tag i t ht
  have st2 := delOwned_step st1.wf h2
  refine ⟨fun hc => ?_, fun hne hno h0 h3' => ?_⟩
  · rcases hc with hc | hc
    · obtain ⟨t2, ht2, -⟩ := st2.ev.tag i _ ht1
      rw [← hc] at h3
      have := tagDel_gone st2.wf ht2 h3
      exact this
    · have hlt := (List.getElem?_eq_some_iff.mp ht1).1
      obtain ⟨t2, ht2, hn2⟩ := delOwned_kills st1.wf ht1 (.inr hc) (Nat.zero_le _) (by omega) h2
      exact (tagDel_step st2.wf h3).dead ht2 hn2
  · refine ⟨evs, b, ?_⟩
    show s3.db[i]? = _
    rw [tagDel_frame h3 hne h0 h3']
    exact delOwned_frame (t := { t with events := evs, attr := { t.attr with event := b } }) hno h0 h3' ht1 h2

theorem tagDel_env {s s' : Server} {idx : Int} {r : Int} (h : tagDel s idx = .ok (s', r)) :
    s'.env = s.env := by
  unfold tagDel at h
  split at h
  · simp only [C.ok.injEq, Prod.mk.injEq] at h; rw [← h.1]
  split at h
  · simp only [C.ok.injEq, Prod.mk.injEq] at h; rw [← h.1]
  split at h
  · simp at h
  obtain ⟨ns, -, h⟩ := C.bind_eq_ok.mp h
  obtain ⟨tbl, htbl, h⟩ := C.bind_eq_ok.mp h
  split at h
  · simp at h
  obtain ⟨ix, hix, h⟩ := C.bind_eq_ok.mp h
  obtain ⟨⟨s2, r2⟩, h2, h⟩ := C.bind_eq_ok.mp h
  dsimp only at h
  split at h
  · simp at h
  obtain ⟨s4, h4, h⟩ := C.bind_eq_ok.mp h
  simp only [C.ok.injEq, Prod.mk.injEq] at h
  rw [← h.1, (statusWrite_quiet h4).env]
  exact (tagWrite_quiet h2).env

theorem delOwned_env {fd : Int} {k : Nat} : ∀ {n : Nat} {s s' : Server},
    delOwned fd k n s = .ok s' → s'.env = s.env := by
  induction k with
  | zero => intro n s s' h; simp only [delOwned, C.ok.injEq] at h; subst h; rfl
  | succ k ih =>
    intro n s s' h
    simp only [delOwned] at h
    split at h
    · simp at h
    · split at h
      · obtain ⟨⟨s1, r1⟩, h1, h⟩ := C.bind_eq_ok.mp h
        exact (ih h).trans (tagDel_env h1)
      · exact ih h

theorem moduleUnregister_env {s s' : Server} {fd : Int} (h : moduleUnregister s fd = .ok s') :
    s'.env = s.env := by
  unfold moduleUnregister at h
  split at h
  · simp only [C.ok.injEq] at h; subst h; rfl
  obtain ⟨s1, h1, h⟩ := C.bind_eq_ok.mp h
  split at h
  · simp at h
  obtain ⟨s2, h2, h⟩ := C.bind_eq_ok.mp h
  obtain ⟨⟨s3, r3⟩, h3, h⟩ := C.bind_eq_ok.mp h
  simp only [C.ok.injEq] at h
  subst h
  show s3.env = _
  rw [tagDel_env h3, delOwned_env h2, (eventsCleanup_evOnly h1).quiet.env]

/-! ## Reading the specification vocabulary -/

/-- The entry of a tag made on a connection. -/
theorem MadeOn.entry {fd : Int} {s : Server} {k : Nat} (h : MadeOn fd s k) :
    ∃ t, s.db[k]? = some t ∧ t.fd = fd := by
  obtain ⟨s0, s1, type, count, attr, name, b, os, hR, hnew, hadd, hk, hrun⟩ := h
  have hw := hR.wf
  have st := run_step (hR.handle hadd).wf hrun
  rcases addReq_cases hw hadd with ⟨e, he, -⟩ | ⟨-, n, hn, he, hadd1, -, -, -, size1, ha1, hc⟩
  · simp at he
  simp only [Reply.resp.injEq] at he
  subst he
  rw [index_le4 hn] at hk
  cases hk
  rcases hc with ⟨hm, -⟩ | ⟨hm, hkl, hadd2⟩
  · have := (lookup_mem hw).mpr hm
    rw [hnew] at this; simp at this
  have ta := tagAdd_added hw hadd1
  obtain ⟨hn', -⟩ | ⟨n', hn', -, hcs'⟩ := ta.cases
  · omega
  rcases hcs' with ⟨-, -, -, -, size', t, p, -, ht, sh, -⟩ | ⟨hm', -⟩
  · rw [← hkl] at ht
    obtain ⟨t', ht', -, hf, -⟩ := st.ev.tag k t ht
    exact ⟨t', ht', by rw [hf, sh.fd]; rfl⟩
  · exact absurd rfl (hm _ hm')

theorem mem_stat {s : Server} {x : Nat × Int × Int} (h : x ∈ s.stat) (hk : ModsOK s) :
    ∃ m, s.modByFd x.2.1 = some m ∧ m.tagindex = x.2.2 := by
  obtain ⟨m, hm, rfl⟩ := List.mem_map.mp h
  cases hf : s.modByFd m.fd with
  | none => exact absurd rfl (modByFd_none hf m hm)
  | some m' =>
    obtain ⟨h1, h2⟩ := modByFd_some hf
    have := hk.inj_fd h1 hm h2
    subst this
    exact ⟨m', rfl, rfl⟩

/-- Registration with a new status tag records its index. -/
theorem register_stat {s s1 : Server} {fd : Int} {flags : Nat} {name tn : Name} {r : Reply} {k : Nat}
    (hR : Reachable s) (hh : handle s fd (.modReg flags name) = .ok (s1, r)) (h0 : lookup s tn = none)
    (h1 : lookup s1 tn = some k) : ∃ uid, (uid, fd, (k : Int)) ∈ s1.stat := by
  have hw := hR.wf
  have hk := hR.modsOK
  have hw1 := (hR.handle hh).wf
  have hm1 := (lookup_mem hw1).mp h1
  have hm0 : ∀ i, (⟨tn, i⟩ : IdxEnt) ∉ s.index := by
    intro i hi
    have := (lookup_mem hw).mpr hi
    rw [h0] at this; simp at this
  simp only [handle, hModReg] at hh
  split at hh
  · obtain ⟨s2, h2, hh⟩ := C.bind_eq_ok.mp hh
    obtain ⟨⟨s3, r3⟩, h3, hh⟩ := C.bind_eq_ok.mp hh
    have e3 : s3.stat = s2.stat ∧ s3.index = s2.index := by
      rcases tagRead_inv h3 with rfl | ⟨t, q, q', b, ht, hv', hq, hr, rfl, -⟩ <;> exact ⟨rfl, rfl⟩
    have e4 : s1 = s3 := by
      cases r3 <;> (simp only [C.ok.injEq, Prod.mk.injEq] at hh; exact hh.1.symm)
    rw [e4, e3.2] at hm1
    rw [e4, e3.1]
    obtain ⟨s4, h4, hn4, h5⟩ := moduleRegister_inv hk h2
    have hk4 := moduleUnregister_modsOK hk h4
    have hw4 := (moduleUnregister_step hw h4).wf
    rcases h5 with rfl | h5
    · exact absurd (moduleUnregister_index hw h4 _ hm1) (hm0 _)
    · have hw5 := (moduleAdd_step hw4 name fd).wf
      obtain ⟨tn', s6, uuid, r6, hr6, h6, hi6, he6, -⟩ := moduleTag_inv (moduleAdd_modsOK hk4 hn4) hw5 h5
      rw [hi6] at hm1
      have hw5' : WF { moduleAdd s4 name fd with modUuid := uuid } :=
        (WF.other (s' := { moduleAdd s4 name fd with modUuid := uuid }) hw5 rfl rfl rfl rfl rfl).wf
      have ta := tagAdd_added hw5' h6
      obtain ⟨hn', -⟩ | ⟨n', hn', -, hcs'⟩ := ta.cases
      · omega
      rcases hcs' with ⟨hn6, -, -, hix, -⟩ | ⟨-, -, hix⟩
      · have := (hix ⟨tn, k⟩).mp hm1
        rcases this with he | he
        · simp only [IdxEnt.mk.injEq] at he
          refine ⟨s4.nextUid, ?_⟩
          rw [he6, List.mem_map]
          refine ⟨(s4.nextUid, fd, 0), ?_, ?_⟩
          · simp [Server.stat, moduleAdd]
          · rw [if_pos rfl, hn', hn6, he.2]
        · exact absurd (moduleUnregister_index hw h4 _ he) (hm0 _)
      · rw [hix] at hm1
        exact absurd (moduleUnregister_index hw h4 _ hm1) (hm0 _)
  · simp only [C.ok.injEq, Prod.mk.injEq] at hh
    rw [← hh.1] at hm1
    exact absurd hm1 (hm0 _)

theorem StatusTag.entry {fd : Int} {s : Server} {k : Nat} (h : StatusTag fd s k) :
    Reachable s ∧ ∃ m, s.modByFd fd = some m ∧ m.tagindex = k := by
  obtain ⟨s0, s1, flags, name, r, tn, os, hR, hh, h0, h1, hno, hrun⟩ := h
  obtain ⟨uid, hst⟩ := register_stat hR hh h0 h1
  have hR1 := hR.handle hh
  have hR2 := hR1.run hrun
  have := run_keeps (x := (uid, fd, (k : Int))) rfl hR1.modsOK hR1.wf hno hrun hst
  exact ⟨hR2, mem_stat this hR2.modsOK⟩

end Dax
