import Verif.Lemmas.Tally
import Verif.Props.Events
/-!
# Subscriptions: identifiers, deletion, ownership, departed modules (C31–C33)
-/
set_option autoImplicit false
namespace Dax

/-! ## C31 -/

theorem le4_inj {a b : Int} (ha : 0 ≤ a ∧ a < 2147483648) (hb : 0 ≤ b ∧ b < 2147483648) (h : le4 a = le4 b) : a = b := by
  have h1 := i32_leNat_le4 (v := a) (by omega)
  have h2 := i32_leNat_le4 (v := b) (by omega)
  rw [h] at h1; exact h1.symm.trans h2

theorem evAdd_reply {s s' : Server} {fd : Int} {h : Handle} {et : Int} {arg d : List Byte}
    (hh : handle s fd (.evAdd h et arg) = .ok (s', .resp d)) : ∃ t t', s.tag? h.index = some t ∧
      s'.db[h.index.toNat]? = some t' ∧ t'.nextevent = t.nextevent + 1 ∧ t.nextevent < 2147483647 ∧ d = le4 t.nextevent := by
  simp only [handle, hEvAdd] at hh
  split at hh
  · simp at hh
  obtain ⟨⟨s1, r⟩, h1, hh⟩ := C.bind_eq_ok.mp hh
  simp only [C.ok.injEq, Prod.mk.injEq, idOrErr] at hh
  obtain ⟨rfl, hr⟩ := hh
  rcases eventAdd_inv h1 with ⟨-, hn⟩ | ⟨t, ev, a, ht, -, -, hr', hlt, rfl⟩
  · rw [if_pos hn] at hr; simp at hr
  split at hr
  · simp at hr
  simp only [Reply.resp.injEq] at hr
  have hl := (List.getElem?_eq_some_iff.mp (tag?_eq.mp ht).2).1
  exact ⟨t, _, ht, by simp only [Server.updMod, Server.setTag]; rw [List.getElem?_set_self hl], rfl, hlt, by rw [← hr, hr']⟩

/-- **C31**, identifiers: two successful subscriptions on the same tag are answered with different
identifiers, whatever happens in between — deletions, disconnects, deletion of the tag. -/
theorem C31_ids_never_reused {s s1 s2 s3 : Server} {fd fd' : Int} {h h' : Handle} {et et' : Int}
    {arg arg' d d' : List Byte} {os : List Op} (hr : Reachable s)
    (h1 : handle s fd (.evAdd h et arg) = .ok (s1, .resp d)) (h2 : run s1 os = .ok s2)
    (h3 : handle s2 fd' (.evAdd h' et' arg') = .ok (s3, .resp d')) (hi : h.index = h'.index) : d ≠ d' := by
  obtain ⟨t, t', ht, ht', hn, hlt, rfl⟩ := evAdd_reply h1
  obtain ⟨u, u', hu, -, -, hult, rfl⟩ := evAdd_reply h3
  have hr1 := hr.handle h1
  obtain ⟨t2, ht2, hle⟩ := (run_path hr1.modsOK h2).nextevent ht'
  have hu2 := (tag?_eq.mp hu).2
  rw [← hi, ht2] at hu2
  cases hu2
  have h0 := (hr.ids (tag?_eq.mp ht).2).evNext
  intro he
  have := le4_inj (by omega) (by omega) he
  omega

/-- Two subscriptions on the tag `Speed`, the first one deleted in between. -/
example : ∃ s1 s2 s3 d d', handle (demo demoOps) 6 (.evAdd ⟨13, 0, 0, 1, 2, DAX_INT⟩ EVENT_WRITE []) = .ok (s1, .resp d) ∧
    run s1 [.env { freedReadable := true }, .req 6 (.evDel 13 1)] = .ok s2 ∧
    handle s2 5 (.evAdd ⟨13, 0, 0, 1, 2, DAX_INT⟩ EVENT_WRITE []) = .ok (s3, .resp d') := by
  have h1 := demo_handle (os := demoOps) (e := {}) (fd := 6) (q := .evAdd ⟨13, 0, 0, 1, 2, DAX_INT⟩ EVENT_WRITE [])
    (r := .resp [1, 0, 0, 0]) (by decide +kernel) (by decide +kernel)
  have h2 := demo_run (os := demoOps ++ [.req 6 (.evAdd ⟨13, 0, 0, 1, 2, DAX_INT⟩ EVENT_WRITE [])]) (e := {})
    (os' := [.env { freedReadable := true }, .req 6 (.evDel 13 1)]) (by decide +kernel)
  obtain ⟨s3, h3⟩ := exists_reply (c := handle (demo (demoOps ++ [.req 6 (.evAdd ⟨13, 0, 0, 1, 2, DAX_INT⟩ EVENT_WRITE [])] ++
    [.env { freedReadable := true }, .req 6 (.evDel 13 1)])) 5 (.evAdd ⟨13, 0, 0, 1, 2, DAX_INT⟩ EVENT_WRITE []))
    (r := .resp [2, 0, 0, 0]) (by decide +kernel)
  exact ⟨_, _, s3, _, _, h1, h2, h3⟩

/-- Subscription `id` of tag `i` has been made and does not exist any more. -/
def Gone (i : Nat) (id : Int) (s : Server) : Prop :=
  ∃ t, s.db[i]? = some t ∧ id < t.nextevent ∧ ∀ ev ∈ t.events, ev.id ≠ id

theorem face_ids_ne {l l' : List Ev} {id : Int} (h : l'.map Ev.core = l.map Ev.core) (hn : ∀ ev ∈ l, ev.id ≠ id) :
    ∀ ev ∈ l', ev.id ≠ id := by
  intro ev he
  have : ev.core ∈ l.map Ev.core := by rw [← h]; exact List.mem_map.mpr ⟨ev, he, rfl⟩
  obtain ⟨x, hx, hxe⟩ := List.mem_map.mp this
  have h1 : x.core.id = ev.core.id := congrArg Ev.id hxe
  have h1 : x.id = ev.id := h1
  rw [← h1]; exact hn x hx

theorem gone_move {fl : Kind → Bool} {i : Nat} {id : Int} (s s' : Server) (h : Gone i id s) (m : Move fl s s') :
    Gone i id s' := by
  obtain ⟨t, ht, hlt, hne⟩ := h
  have hl := (List.getElem?_eq_some_iff.mp ht).1
  cases m with
  | @tag j u u' rt hu hm _ =>
    by_cases hij : j = i
    · subst hij
      rw [hu] at ht; cases ht
      refine ⟨u', by simp [hl], Int.lt_of_lt_of_le hlt hm.nextevent, ?_⟩
      cases hm with
      | write _ _ _ he => exact face_ids_ne (face_core he) hne
      | qwrite _ _ _ he => exact face_ids_ne (face_core he) hne
      | evAdd hid =>
        intro ev he
        rcases List.mem_cons.mp he with rfl | he
        · omega
        · exact hne ev he
      | evDel h => exact fun ev he => hne ev (h.subset he)
      | evOpt h => exact face_ids_ne (opt_core h) hne
      | clear => intro ev he; simp at he
      | _ => exact hne
    · exact ⟨t, by rw [List.getElem?_set_ne hij]; exact ht, hlt, hne⟩
  | push => exact ⟨t, by rw [List.getElem?_append_left hl]; exact ht, hlt, hne⟩
  | other h1 => exact ⟨t, by rw [h1]; exact ht, hlt, hne⟩
  | _ => exact ⟨t, ht, hlt, hne⟩

theorem gone_silent {i : Nat} {id : Int} {s : Server} {n : Notif} (h : Gone i id s) (hf : FromSub s n) :
    ¬ (n.idx = i ∧ n.id = id) := by
  rintro ⟨hi, rfl⟩
  obtain ⟨t, ht, -, hne⟩ := h
  obtain ⟨u, ev, m, hu, hev, he, -⟩ := hf
  rw [hi, tag?_natCast, ht] at hu
  cases hu
  exact hne ev hev he.symm

theorem filter_events {s s' : Server} {i j : Nat} {t : Tag} {id : Int} {u : Nat} (ht : s.db[i]? = some t)
    (d : Deleted s s' i id u) : subsOf s' j = if j = i then (subsOf s j).filter (fun e => e.id ≠ id) else subsOf s j := by
  by_cases hj : j = i
  · subst hj
    obtain ⟨a, ha⟩ := d.tag t ht
    rw [if_pos rfl, subsOf_some ha, subsOf_some ht]
  · rw [if_neg hj]; unfold subsOf; rw [d.tags j hj]

/-- **C31**, deletion, for a subscription that is not the newest one of its tag (or when a freed block
still reads as before): its owner's request is answered with success, exactly that subscription is
taken out, all others of this tag and of all others are the same as before, and no notification of
the deleted subscription is ever sent again.  The histories in C26–C30 include deletions of other
subscriptions of the same tag. -/
theorem C31_delete_partial {s : Server} {i : Nat} {id fd : Int} (hr : Reachable s) (ho : OwnedBy s i id fd)
    (hf : s.env.freedReadable = true ∨ ∃ ev ∈ subsOf s i, id < ev.id) :
    ∃ s' d, handle s fd (.evDel i id) = .ok (s', .resp d) ∧
      (∀ j, subsOf s' j = if j = i then (subsOf s j).filter (fun e => e.id ≠ id) else subsOf s j) ∧
      ∀ os s'', run s' os = .ok s'' → ∀ n ∈ newNotices s' s'', ¬ (n.idx = i ∧ n.id = id) := by
  obtain ⟨ev, hev, rfl, m, hm, hmu, hmf⟩ := ho
  obtain ⟨t, ht, he⟩ := mem_subsOf hev
  have hids := hr.ids ht
  have hmod : s.modByFd fd = some m := by
    cases hmod : s.modByFd fd with
    | none => exact absurd hmf (modByFd_none hmod m hm)
    | some m' =>
      obtain ⟨h1, h2⟩ := modByFd_some hmod
      rw [hr.modsOK.inj_fd h1 hm (by omega)]
  obtain ⟨a, r, -, hd⟩ := eventDel_owner ht hids.evLt he hmu.symm (by
    rcases hf with hf | ⟨e, he', hlt⟩
    · exact .inl hf
    · right
      rw [subsOf_some ht] at he'
      cases hevs : t.events with
      | nil => rw [hevs] at he; simp at he
      | cons e0 es =>
        refine ⟨e0, es, rfl, fun h0 => ?_⟩
        have hp := hids.evLt
        rw [hevs, List.pairwise_cons] at hp
        rw [hevs] at he'
        rcases List.mem_cons.mp he' with rfl | he'
        · omega
        · have := hp.1 e he'; omega)
  have hD : Deleted s _ i ev.id ev.notify := eventDel_deleted ht hids.evLt he (by rw [← hmu]; exact hd)
  have key : ∀ s' : Server, eventDel s i ev.id (some m.uid) = .ok (s', r) →
      handle s fd (.evDel i ev.id) = .ok (s', .resp (le4 i ++ s'.env.junk 4)) := by
    intro s' hd
    simp only [handle, hEvDel, hmod, Option.map_some]
    rw [hd]
    simp only [C.ok_bind, evReply, if_pos (Int.natCast_nonneg i)]
  have hh := key _ hd
  refine ⟨_, _, hh, fun j => filter_events ht hD, ?_⟩
  intro os s'' hrun
  have hr' := hr.handle hh
  refine Path.sent_inv (I := Gone i ev.id) gone_move (fun s n => gone_silent) (run_path hr'.modsOK hrun) ?_
  obtain ⟨a', ha'⟩ := hD.tag t ht
  refine ⟨_, ha', hids.evRange ev he |>.2, fun x hx => ?_⟩
  simpa using (List.mem_filter.mp hx).2

/-- Two subscriptions; the older one is deleted. -/
def twoSubs : List Op := demoOps ++ [.req 6 (.evAdd ⟨13, 0, 0, 1, 2, DAX_INT⟩ EVENT_WRITE []),
  .req 6 (.evAdd ⟨13, 2, 0, 1, 2, DAX_INT⟩ EVENT_CHANGE [])]

theorem twoSubs_reachable : Reachable (demo twoSubs) := demo_reachable (by decide +kernel)

instance (s : Server) (i : Nat) (id fd : Int) : Decidable (OwnedBy s i id fd) := by unfold OwnedBy; infer_instance

example : OwnedBy (demo twoSubs) 13 1 6 ∧ ∃ ev ∈ subsOf (demo twoSubs) 13, 1 < ev.id := by decide +kernel

/-- Deletion of the newest subscription of a tag reads freed memory. -/
theorem C31_delete_newest : ∃ s i id fd, Reachable s ∧ OwnedBy s i id fd ∧
    ∃ w, handle s fd (.evDel i id) = .ub w :=
  ⟨demo twoSubs, 13, 2, 6, twoSubs_reachable, by decide +kernel, isOk_false (by decide +kernel)⟩

/-- **C31**, all other requests keep every subscription with its range, type and owner; they add none
either, except subscription requests themselves. -/
theorem C31_kept {s s' : Server} {fd : Int} {q : Req} {r : Reply} (hr : Reachable s) (hq : q.keepsSubs)
    (hh : handle s fd q = .ok (s', r)) (i : Nat) : ∃ new, (subsOf s' i).map Ev.core = new ++ (subsOf s i).map Ev.core ∧
      ((∀ h et arg, q ≠ .evAdd h et arg) → new = []) := by
  have p := handle_path_kinds hr.modsOK hh
  have hg := p.subs (by cases q <;> first | rfl | exact absurd hq (by simp [Req.keepsSubs]))
    (by cases q <;> first | rfl | exact absurd hq (by simp [Req.keepsSubs])) i
  obtain ⟨⟨n, e, f⟩, -⟩ := hg
  refine ⟨n, e, fun hne => f ?_⟩
  cases q with
  | evAdd h et arg => exact absurd rfl (hne h et arg)
  | modReg => exact absurd hq (by simp [Req.keepsSubs])
  | _ => rfl

example : ∃ s', handle (demo twoSubs) 5 (.tagWrite 13 2 [7, 7]) = .ok (s', .resp []) ∧
    Req.keepsSubs (.tagWrite 13 2 [7, 7]) :=
  have ⟨s', h⟩ := exists_reply (c := handle (demo twoSubs) 5 (.tagWrite 13 2 [7, 7])) (r := .resp []) (by decide +kernel)
  ⟨s', h, trivial⟩

/-! ## C32 -/

theorem owner_uid {s : Server} {fd fd' : Int} {m : Module} (hk : ModsOK s) (hm : m ∈ s.mods) (hf : m.fd = fd) (hne : fd' ≠ fd) :
    some m.uid ≠ (s.modByFd fd').map (·.uid) := by
  cases h : s.modByFd fd' with
  | none => simp
  | some m' =>
    obtain ⟨h1, h2⟩ := modByFd_some h
    simp only [Option.map_some, ne_eq, Option.some.injEq]
    intro he
    have := hk.inj hm h1 he
    subst this
    omega

/-- **C32**: requests of any other connection to delete a subscription or change its options leave the
server exactly as it was. -/
theorem C32_only_owner {s : Server} {i : Nat} {id fd fd' : Int} (hr : Reachable s) (ho : OwnedBy s i id fd)
    (hne : fd' ≠ fd) (opts : Nat) :
    (∃ d, handle s fd' (.evDel i id) = .ok (s, d)) ∧ ∃ d, handle s fd' (.evOpt i id opts) = .ok (s, d) := by
  obtain ⟨ev, hev, rfl, m, hm, hmu, hmf⟩ := ho
  obtain ⟨t, ht, he⟩ := mem_subsOf hev
  have hids := hr.ids ht
  have hu := owner_uid hr.modsOK hm hmf hne
  rw [hmu] at hu
  constructor
  · refine ⟨evReply s i ERR_AUTH, ?_⟩
    simp only [handle, hEvDel]
    rw [eventDel_other ht hids.evLt he hu]
    rfl
  · refine ⟨evReply s i ERR_AUTH, ?_⟩
    simp only [handle, hEvOpt]
    rw [eventOpt_other ht hids.evLt he hu]
    rfl

example : Reachable (demo twoSubs) ∧ OwnedBy (demo twoSubs) 13 2 6 ∧ (5 : Int) ≠ 6 :=
  ⟨twoSubs_reachable, by decide +kernel, by decide⟩

/-- The refusal is reported as success: the reply is the one the owner gets. -/
theorem C32_refusal_hidden : ∃ s, Reachable s ∧ OwnedBy s 13 1 6 ∧
    Answers s 5 (.evDel 13 1) (.resp [13, 0, 0, 0, 0, 0, 0, 0]) ∧ Answers s 6 (.evDel 13 1) (.resp [13, 0, 0, 0, 0, 0, 0, 0]) :=
  ⟨demo twoSubs, twoSubs_reachable, by decide +kernel, exists_reply (by decide +kernel), exists_reply (by decide +kernel)⟩

/-! ## C33 -/

/-- **C33**, subscriptions, for histories in which no deletion request names an identifier that does not
exist: in every state all subscriptions belong to modules that are connected; after a disconnect none
of that connection is left. -/
theorem C33_cleanup_partial {s s' : Server} {fd : Int} (hc : Careful s) (h : step s (.close fd) = .ok s') :
    NoModule s' fd ∧ ∀ i, ∀ ev ∈ subsOf s' i, ∃ m ∈ s'.mods, m.uid = ev.notify ∧ m.fd ≠ fd := by
  have hc' : Careful s' := .step hc (by intro _ _ _ h; cases h) h
  have hn : NoModule s' fd := by
    have := moduleUnregister_gone hc.reachable.modsOK h
    exact modByFd_none this
  refine ⟨hn, fun i ev he => ?_⟩
  obtain ⟨x, hx, hxu⟩ := hc'.tally.live ev.notify (mem_evTotal he)
  obtain ⟨m, hm, rfl⟩ := List.mem_map.mp hx
  exact ⟨m, hm, hxu, hn m hm⟩

theorem noModule_move {fl : Kind → Bool} {fd : Int} (hf : fl (.reg fd) = false) (s s' : Server) (h : NoModule s fd)
    (m : Move fl s s') : NoModule s' fd := by
  have hupd : ∀ (s : Server) (uid : Nat) (f : Module → Module), NoModule s fd →
      (∀ m ∈ s.mods, (f m).fd ≠ fd) → NoModule (s.updMod uid f) fd := by
    intro s uid f h hf m hm
    simp only [Server.updMod] at hm
    obtain ⟨x, hx, rfl⟩ := List.mem_map.mp hm
    split
    · exact hf x hx
    · exact h x hx
  cases m with
  | other _ h2 => unfold NoModule; rw [h2]; exact h
  | evCount => exact hupd _ _ _ h fun m hm => h m hm
  | @groups m0 hm => exact hupd _ _ _ h fun _ _ => h m0 hm
  | modAdd name fd' hfl =>
    intro m hm
    rcases List.mem_append.mp hm with hm | hm
    · exact h m hm
    · simp only [List.mem_singleton] at hm
      subst hm
      intro he
      dsimp only at he
      rw [he, hf] at hfl; simp at hfl
  | modIdx => exact hupd _ _ _ h fun m hm => h m hm
  | modDel => exact fun m hm => h m (List.mem_filter.mp hm).1
  | _ => exact h

/-- All kinds except registrations on this connection. -/
def notReg (fd : Int) : Kind → Bool
  | .reg f => f ≠ fd
  | _ => true

theorem step_notReg {fd : Int} {s s' : Server} {o : Op} (hk : ModsOK s) (ho : o.noRegister fd) (h : step s o = .ok s') :
    Path (notReg fd) s s' := by
  cases o with
  | env e => simp only [step, C.ok.injEq] at h; subst h; exact Path.refl.snoc (.env e)
  | close fd' =>
    refine moduleUnregister_path (fun k hk => ?_) .refl _ h
    cases k <;> first | rfl | simp [noAdd] at hk
  | req fd' q =>
    simp only [step] at h
    obtain ⟨⟨s1, r⟩, h1, h⟩ := C.bind_eq_ok.mp h
    simp only [C.ok.injEq] at h; subst h
    refine handle_path' (fun k hq => ?_) hk .refl _ h1
    cases k with
    | reg f =>
      cases q with
      | modReg flags name =>
        simp only [Req.kinds, regOnly, decide_eq_true_eq] at hq
        subst hq
        simp only [notReg, ne_eq, decide_not, Bool.not_eq_true', decide_eq_false_iff_not]
        rintro rfl
        exact ho flags name rfl
      | _ => simp [Req.kinds] at hq
    | _ => rfl

theorem run_notReg {fd : Int} : ∀ {os : List Op} {s s' : Server}, ModsOK s → (∀ o ∈ os, o.noRegister fd) →
    run s os = .ok s' → Path (notReg fd) s s' := by
  intro os
  induction os with
  | nil => intro s s' _ _ h; simp only [run, C.ok.injEq] at h; subst h; exact .refl
  | cons o os ih =>
    intro s s' hk ho h
    simp only [run] at h
    obtain ⟨s1, h1, h⟩ := C.bind_eq_ok.mp h
    have p := step_notReg hk (ho o (by simp)) h1
    exact p.trans (ih (p.modsOK hk) (fun o' h' => ho o' (by simp [h'])) h)

/-- **C33**, notifications: once a module is gone, nothing is sent to its connection until a module
registers on it again. -/
theorem C33_silent {s s1 s2 : Server} {fd : Int} {os : List Op} (hr : Reachable s) (h1 : step s (.close fd) = .ok s1)
    (h2 : run s1 os = .ok s2) (ho : ∀ o ∈ os, o.noRegister fd) : ∀ n ∈ newNotices s1 s2, n.fd ≠ fd := by
  have hk1 : ModsOK s1 := (step_path hr.modsOK h1).modsOK hr.modsOK
  have hn : NoModule s1 fd := modByFd_none (moduleUnregister_gone hr.modsOK h1)
  refine Path.sent_inv (I := fun s => NoModule s fd) (fun s s' => noModule_move (fl := notReg fd) (by simp [notReg]) s s')
    ?_ (run_notReg hk1 ho h2) hn
  intro s n hs hf
  obtain ⟨t, ev, m, -, -, -, -, hm, hfd⟩ := hf
  rw [hfd]
  unfold Server.modByUid at hm
  exact hs m (List.mem_of_find?_eq_some hm)

theorem run_careful {s s' : Server} {os : List Op} (h : Careful s) (hs : run s os = .ok s')
    (ho : ∀ o ∈ os, ∀ fd idx id, o ≠ .req fd (.evDel idx id)) : Careful s' := by
  induction os generalizing s with
  | nil => simp only [run, C.ok.injEq] at hs; subst hs; exact h
  | cons o os ih =>
    simp only [run] at hs
    obtain ⟨s1, h1, hs⟩ := C.bind_eq_ok.mp hs
    exact ih (.step h (fun fd idx id he => absurd he (ho o (by simp) fd idx id)) h1) hs (fun o' h' => ho o' (by simp [h']))

/-- A module with two subscriptions disconnects while freed blocks read as before. -/
example : ∃ s s', Careful s ∧ (∃ ev ∈ subsOf s 13, ∃ m ∈ s.mods, m.uid = ev.notify ∧ m.fd = 6) ∧
    step s (.close 6) = .ok s' ∧
    ∃ s2, run s' [.req 5 (.tagWrite 13 0 [1, 2, 3, 4])] = .ok s2 := by
  let e : Env := { freedReadable := true }
  have h0 : run init0 (.env e :: twoSubs) = .ok (demo twoSubs e) := by
    obtain ⟨s, hs⟩ := C.isOk_iff.mp (show (run init0 (.env e :: twoSubs)).isOk = true by decide +kernel)
    unfold demo; rw [hs]
  have hi : startServer {} none = .ok init0 := by unfold startServer; rw [init0_eq]; rfl
  have h1 := demo_run (os := twoSubs) (e := e) (os' := [.close 6]) (by decide +kernel)
  have h1' : step (demo twoSubs e) (.close 6) = .ok (demo (twoSubs ++ [.close 6]) e) := by
    simp only [run] at h1
    obtain ⟨s1, h2, h1⟩ := C.bind_eq_ok.mp h1
    rw [h2]; exact h1
  have h2 := demo_run (os := twoSubs ++ [.close 6]) (e := e) (os' := [.req 5 (.tagWrite 13 0 [1, 2, 3, 4])]) (by decide +kernel)
  refine ⟨_, _, run_careful (.start hi) h0 ?_, by decide +kernel, h1', _, h2⟩
  intro o ho fd idx id he
  subst he
  simp [twoSubs, demoOps] at ho

/-- The disconnect of a module with a subscription reads freed memory. -/
theorem C33_disconnect_freed : ∃ s, Reachable s ∧ OwnedBy s 13 1 6 ∧ ∃ w, step s (.close 6) = .ub w :=
  ⟨demo twoSubs, twoSubs_reachable, by decide +kernel, isOk_false (by decide +kernel)⟩

/-- Deletion requests for an identifier that does not exist make the server forget that there are
subscriptions left: they survive the disconnect, and the next write follows the pointer to the
departed module. -/
def driftOps : List Op := twoSubs ++ [.req 6 (.evDel 13 99), .req 6 (.evDel 13 99)]

theorem C33_stale : ∃ s s', Reachable s ∧ step s (.close 6) = .ok s' ∧ NoModule s' 6 ∧
    (∃ ev ∈ subsOf s' 13, ∀ m ∈ s'.mods, m.uid ≠ ev.notify) ∧ ∃ w, handle s' 5 (.tagWrite 13 0 [9]) = .ub w := by
  have h1 := demo_run (os := driftOps) (e := {}) (os' := [.close 6]) (by decide +kernel)
  have h1' : step (demo driftOps) (.close 6) = .ok (demo (driftOps ++ [.close 6])) := by
    simp only [run] at h1
    obtain ⟨s1, h2, h1⟩ := C.bind_eq_ok.mp h1
    rw [h2]; exact h1
  exact ⟨_, _, demo_reachable (os := driftOps) (by decide +kernel), h1',
    by unfold NoModule; decide +kernel, by decide +kernel, isOk_false (by decide +kernel)⟩

end Dax
