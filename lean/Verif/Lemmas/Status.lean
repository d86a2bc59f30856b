import Verif.Lemmas.Subs
import Verif.Lemmas.Maps
import Verif.Spec.Status
import Verif.Props.Types
/-!
# Lemmas about status tags of modules
-/
set_option autoImplicit false
namespace Dax

/-- What is kept of a status tag: `b` are the contents to compare with, `A` allows changes. -/
def TagKept (T : Nat) (b : List Byte) (A : Prop) (t : Tag) : Prop :=
  t.data = .freed ∨ (t.attr.special = true ∧ t.type = T ∧ 1 ≤ t.count ∧ ∃ b1, t.data = .mem b1 ∧ b1.length = b.length ∧
    (∀ j, j < identityLen → b1[j]? = b[j]?) ∧ (¬ A → ∀ j, j ≠ commandByte → b1[j]? = b[j]?))

structure Kept (fl : Kind → Bool) (k T : Nat) (b : List Byte) (A : Prop) (s : Server) : Prop where
  ty : s.modType = T
  fds : ∀ m ∈ s.mods, m.fd ≠ -1
  own : ∀ m ∈ s.mods, fl (.own m.fd) = true → m.tagindex = k → A
  tag : ∃ t, s.db[k]? = some t ∧ TagKept T b A t

theorem kept_tag {fl : Kind → Bool} {k T : Nat} {b : List Byte} {A : Prop} {s : Server} {t t' : Tag}
    (h : Kept fl k T b A s) (hr : fl .restore = false) (hg : fl (.grow k) = false) (ht : TagKept T b A t)
    (hm : TagMove fl s k t t') : TagKept T b A t' := by
  rcases ht with hf | ⟨h1, h2, h3, b1, h4, h5, h6, h7⟩
  · left
    cases hm with
    | grow hd hc hf' => rw [hf] at hd; simp [reallocStore] at hd
    | _ => simp_all
  · cases hm with
    | write hv hb hl he hgd =>
      rw [h4] at hb; cases hb
      refine .inr ⟨h1, h2, h3, _, rfl, hl.trans h5, ?_, ?_⟩
      · rcases hgd h1 (h2.trans h.ty.symm) with hx | ⟨m, hm, -, -, hx⟩
        · intro j hj
          rw [hx j (by intro e; rw [e] at hj; exact absurd hj (by decide)), h6 j hj]
        · intro j hj; rw [hx j hj, h6 j hj]
      · rcases hgd h1 (h2.trans h.ty.symm) with hx | ⟨m, hm, hfd, hi, hx⟩
        · intro ha j hj
          rw [hx j (by intro e; rw [e] at hj; exact hj (by decide)), h7 ha j hj]
        · intro ha
          rcases hfd with hfd | hfd
          · exact absurd hfd (h.fds m hm)
          · exact absurd (h.own m hm hfd hi) ha
    | qwrite hv hq => rw [h4] at hq; cases hq
    | qread hv hq => rw [h4] at hq; cases hq
    | restore hb hl hf => rw [hr] at hf; simp at hf
    | attr => exact .inr ⟨by unfold attrAfter; split <;> (try split) <;> (try split) <;> exact h1, h2, h3, b1, h4, h5, h6, h7⟩
    | special => exact .inr ⟨rfl, h2, h3, b1, h4, h5, h6, h7⟩
    | ovrFlags => exact .inr ⟨h1, h2, h3, b1, h4, h5, h6, h7⟩
    | ovrNew => exact .inr ⟨h1, h2, h3, b1, h4, h5, h6, h7⟩
    | ovrSet => exact .inr ⟨h1, h2, h3, b1, h4, h5, h6, h7⟩
    | ovrFree => exact .inr ⟨h1, h2, h3, b1, h4, h5, h6, h7⟩
    | evAdd => exact .inr ⟨h1, h2, h3, b1, h4, h5, h6, h7⟩
    | evDel => exact .inr ⟨h1, h2, h3, b1, h4, h5, h6, h7⟩
    | evOpt => exact .inr ⟨h1, h2, h3, b1, h4, h5, h6, h7⟩
    | mapAdd => exact .inr ⟨h1, h2, h3, b1, h4, h5, h6, h7⟩
    | mapDel => exact .inr ⟨h1, h2, h3, b1, h4, h5, h6, h7⟩
    | grow hd hc hf =>
      rcases hf with hf | hf
      · rw [hg] at hf; simp at hf
      · omega
    | clear => exact .inr ⟨h1, h2, h3, b1, h4, h5, h6, h7⟩
    | kill => exact .inl rfl

theorem kept_move {fl : Kind → Bool} {k T : Nat} {b : List Byte} {A : Prop} (hr : fl .restore = false)
    (hg : fl (.grow k) = false) (hreg : ∀ f, fl (.reg f) = true → f ≠ -1)
    (ho : (∀ f, fl (.own f) = false) ∨ ((∀ f, fl (.reg f) = false) ∧ fl .mods = false))
    (s s' : Server) (h : Kept fl k T b A s) (m : Move fl s s') : Kept fl k T b A s' := by
  obtain ⟨t, ht, hk⟩ := h.tag
  have hlt := (List.getElem?_eq_some_iff.mp ht).1
  cases m with
  | @tag i u u' rt hu hm _ =>
    refine ⟨h.ty, h.fds, h.own, ?_⟩
    by_cases hik : i = k
    · subst hik
      rw [ht] at hu; cases hu
      exact ⟨u', by rw [List.getElem?_set_self hlt], kept_tag h hr hg hk hm⟩
    · exact ⟨t, by rw [List.getElem?_set_ne hik]; exact ht, hk⟩
  | push fd name type count size =>
    exact ⟨h.ty, h.fds, h.own, t, by rw [List.getElem?_append_left hlt]; exact ht, hk⟩
  | other h1 h2 h3 h4 h5 h6 h7 =>
    exact ⟨h4.trans h.ty, by rw [h2]; exact h.fds, by rw [h2]; exact h.own, t, by rw [h1]; exact ht, hk⟩
  | send => exact ⟨h.ty, h.fds, h.own, t, ht, hk⟩
  | env => exact ⟨h.ty, h.fds, h.own, t, ht, hk⟩
  | evCount uid f hf =>
    have key : ∀ m' ∈ (s.updMod uid (fun m => { m with eventCount := f m.eventCount })).mods,
        ∃ m ∈ s.mods, m'.fd = m.fd ∧ m'.tagindex = m.tagindex := by
      intro m' hm'
      simp only [Server.updMod, List.mem_map] at hm'
      obtain ⟨m, hm, rfl⟩ := hm'
      refine ⟨m, hm, ?_⟩
      split <;> exact ⟨rfl, rfl⟩
    refine ⟨h.ty, fun m' hm' => ?_, fun m' hm' hf hi => ?_, t, ht, hk⟩
    · obtain ⟨m, hm, h1, -⟩ := key m' hm'
      rw [h1]; exact h.fds m hm
    · obtain ⟨m, hm, h1, h2⟩ := key m' hm'
      exact h.own m hm (by rw [← h1]; exact hf) (by rw [← h2]; exact hi)
  | @groups m0 hm0 g n hf hgr =>
    have key : ∀ m' ∈ (s.updMod m0.uid (fun _ => { m0 with groups := g, groupsSize := n })).mods,
        ∃ m ∈ s.mods, m'.fd = m.fd ∧ m'.tagindex = m.tagindex := by
      intro m' hm'
      simp only [Server.updMod, List.mem_map] at hm'
      obtain ⟨m, hm, rfl⟩ := hm'
      split
      · exact ⟨m0, hm0, rfl, rfl⟩
      · exact ⟨m, hm, rfl, rfl⟩
    refine ⟨h.ty, fun m' hm' => ?_, fun m' hm' hf hi => ?_, t, ht, hk⟩
    · obtain ⟨m, hm, h1, -⟩ := key m' hm'
      rw [h1]; exact h.fds m hm
    · obtain ⟨m, hm, h1, h2⟩ := key m' hm'
      exact h.own m hm (by rw [← h1]; exact hf) (by rw [← h2]; exact hi)
  | modAdd name fd hfl hn =>
    refine ⟨h.ty, fun m' hm' => ?_, fun m' hm' hf hi => ?_, t, ht, hk⟩
    · simp only [moduleAdd, List.mem_append, List.mem_singleton] at hm'
      rcases hm' with hm' | rfl
      · exact h.fds m' hm'
      · exact hreg fd hfl
    · rcases ho with ho | ⟨ho, -⟩
      · rw [ho] at hf; simp at hf
      · rw [ho] at hfl; simp at hfl
  | modUuid => exact ⟨h.ty, h.fds, h.own, t, ht, hk⟩
  | modIdx hfl uid h0 =>
    refine ⟨h.ty, fun m' hm' => ?_, fun m' hm' hf hi => ?_, t, ht, hk⟩
    · simp only [Server.updMod, List.mem_map] at hm'
      obtain ⟨m, hm, rfl⟩ := hm'
      have := h.fds m hm
      split <;> exact this
    · rcases ho with ho | ⟨-, ho⟩
      · rw [ho] at hf; simp at hf
      · rw [ho] at hfl; simp at hfl
  | modDel hfl uid =>
    exact ⟨h.ty, fun m' hm' => h.fds m' (List.mem_filter.mp hm').1, fun m' hm' => h.own m' (List.mem_filter.mp hm').1, t, ht, hk⟩

/-! ## What a registration creates -/

/-- A live tag is a status tag. -/
def StatusLike (T : Nat) (t : Tag) : Prop := t.data = .freed ∨ (t.attr.special = true ∧ t.type = T ∧ 1 ≤ t.count ∧
  ∃ n, t.name = some n ∧ n.head? = some underscore)

theorem statusLike_move {fl : Kind → Bool} {k T : Nat} (s : Server) (t t' : Tag) (h : StatusLike T t)
    (hm : TagMove fl s k t t') : StatusLike T t' := by
  rcases h with hf | ⟨h1, h2, h3, h5⟩
  · left
    cases hm with
    | grow hd hc hf' => rw [hf] at hd; simp [reallocStore] at hd
    | _ => simp_all
  · cases hm with
    | attr => exact .inr ⟨by unfold attrAfter; split <;> (try split) <;> (try split) <;> exact h1, h2, h3, h5⟩
    | special => exact .inr ⟨rfl, h2, h3, h5⟩
    | grow hd hc hf => exact .inr ⟨h1, h2, by dsimp only; omega, h5⟩
    | kill => exact .inl rfl
    | _ => exact .inr ⟨h1, h2, h3, h5⟩

theorem Path.modType {fl : Kind → Bool} {s s' : Server} (p : Path fl s s') : s'.modType = s.modType :=
  p.inv (I := fun x => x.modType = s.modType) (fun a b ha m => by
    cases m <;> first | exact ha | (rename_i h4 _ _ _ _; exact h4.trans ha)) rfl

theorem init_module (e : Env) :
    (initServer e >>= fun s => .ok ((s.cdts[0]?).map (·.name), s.modType)) = .ok (some (nm "_module"), cdtToType 0) := by
  kernel_rfl

theorem moduleType_of {tbl : List Cdt} (hw : CdtWF tbl) {c' : Cdt} (hc' : tbl[0]? = some c') (hn' : c'.name = nm "_module") :
    cdtGetType tbl (nm "_module") = cdtToType 0 := by
  have hmem := List.mem_of_getElem? hc'
  have hb : baseNames.find? (fun p => strcaseeq (nm "_module") p.1) = none := by
    rw [List.find?_eq_none]
    intro p hp
    have := hw.nobase c' hmem p hp
    rw [hn'] at this
    rw [this]; simp
  unfold cdtGetType
  rw [hb]
  dsimp only
  have hf : tbl.findIdx? (fun c' => strcaseeq (nm "_module") c'.name) = some 0 := by
    rw [List.findIdx?_eq_some_iff_getElem]
    obtain ⟨hlt, hg⟩ := List.getElem?_eq_some_iff.mp hc'
    exact ⟨hlt, by rw [hg, hn']; simp [strcaseeq], fun j hj => by omega⟩
  rw [hf]

theorem Reachable.moduleFirst {s : Server} (h : Reachable s) : s.modType = cdtToType 0 ∧
    ∃ c, s.cdts[0]? = some c ∧ c.name = nm "_module" := by
  obtain ⟨e, s0, hi, p⟩ := h.path
  obtain ⟨e', s0', hi', st⟩ := h.from_init
  have h0 := init_module e
  have h0' := init_module e'
  rw [hi] at h0; rw [hi'] at h0'
  simp only [C.ok_bind, C.ok.injEq, Prod.mk.injEq, Option.map_eq_some_iff] at h0 h0'
  obtain ⟨⟨c, hc, hn⟩, -⟩ := h0'
  obtain ⟨c', hc', hn', -⟩ := st.ev.cdts 0 c hc
  exact ⟨by rw [p.modType, h0.2], c', hc', hn'.trans hn⟩

/-- Registration with a new status tag. -/
theorem register_status {s s1 : Server} {fd : Int} {flags : Nat} {name tn : Name} {r : Reply} {k : Nat}
    (hR : Reachable s) (hh : handle s fd (.modReg flags name) = .ok (s1, r)) (h0 : lookup s tn = none)
    (h1 : lookup s1 tn = some k) : ∃ t, s1.db[k]? = some t ∧ StatusLike s1.modType t := by
  have hw := hR.wf
  have hk := hR.modsOK
  have hR1 := hR.handle hh
  have hw1 := hR1.wf
  have hm1 := (lookup_mem hw1).mp h1
  have hm1' := hm1
  have hm0 : ∀ i, (⟨tn, i⟩ : IdxEnt) ∉ s.index := by
    intro i hi
    have := (lookup_mem hw).mpr hi
    rw [h0] at this; simp at this
  simp only [handle, hModReg] at hh
  split at hh
  · obtain ⟨s2, h2, hh⟩ := C.bind_eq_ok.mp hh
    obtain ⟨⟨s3, r3⟩, h3, hh⟩ := C.bind_eq_ok.mp hh
    have e4 : s1 = s3 := by
      cases r3 <;> (simp only [C.ok.injEq, Prod.mk.injEq] at hh; exact hh.1.symm)
    have e3 : s3.index = s2.index ∧ ∀ (i : Nat) (t : Tag), s2.db[i]? = some t → ∃ t' : Tag, s3.db[i]? = some t' ∧ t'.attr = t.attr ∧ t'.type = t.type := by
      rcases tagRead_inv h3 with rfl | ⟨u, q, q', b, hu, hv', hq, hr, rfl, -⟩
      · exact ⟨rfl, fun i t ht => ⟨t, ht, rfl, rfl⟩⟩
      · refine ⟨rfl, fun i t ht => ?_⟩
        have hu := (tag?_eq.mp hu).2
        simp only [Server.setTag]
        by_cases hi : INDEX_STARTED.toNat = i
        · rw [hi] at hu ⊢
          rw [ht] at hu; cases hu
          exact ⟨{ u with data := .queue q' }, by rw [List.getElem?_set_self (List.getElem?_eq_some_iff.mp ht).1], rfl, rfl⟩
        · exact ⟨t, by rw [List.getElem?_set_ne hi]; exact ht, rfl, rfl⟩
    rw [e4, e3.1] at hm1
    obtain ⟨s4, h4, hn4, h5⟩ := moduleRegister_inv hk h2
    have hk4 := moduleUnregister_modsOK hk h4
    have st4 := moduleUnregister_step hw h4
    rcases h5 with rfl | h5
    · exact absurd (moduleUnregister_index hw h4 _ hm1) (hm0 _)
    · have hw5 := (moduleAdd_step st4.wf name fd).wf
      obtain ⟨tn', s6, uuid, r6, hr6, h6, hi6, -, hhd, t, ht, hsp, t1, ht1, hty⟩ := moduleTag_inv (moduleAdd_modsOK hk4 hn4) hw5 h5
      rw [hi6] at hm1
      have hw5' : WF { moduleAdd s4 name fd with modUuid := uuid } :=
        (WF.other (s' := { moduleAdd s4 name fd with modUuid := uuid }) hw5 rfl rfl rfl rfl rfl).wf
      have ta := tagAdd_added hw5' h6
      obtain ⟨hn', -⟩ | ⟨n', hn', -, hcs'⟩ := ta.cases
      · omega
      rcases hcs' with ⟨hn6, -, -, hix, size, t2, p, -, ht2, sh, -⟩ | ⟨-, -, hix⟩
      · have := (hix ⟨tn, k⟩).mp hm1
        rcases this with he | he
        · simp only [IdxEnt.mk.injEq] at he
          have hrk : r6.toNat = k := by rw [hn', hn6, he.2]; simp
          rw [hrk] at ht ht1
          rw [← he.2, ht1] at ht2
          cases ht2
          obtain ⟨t3, ht3, a3, y3⟩ := e3.2 k t ht
          rw [← e4] at ht3
          have hy : t1.type = s1.modType := by
            rw [sh.type]
            show cdtGetType s4.cdts (nm "_module") = _
            obtain ⟨-, c, hc, hn⟩ := hR.moduleFirst
            obtain ⟨c', hc', hn', -⟩ := st4.ev.cdts 0 c hc
            rw [moduleType_of st4.wf.cdts hc' (hn'.trans hn), hR1.moduleFirst.1]
          have hok := hw1.tag k t3 ht3
          obtain ⟨t4, ht4, hn4⟩ := hw1.ent _ hm1'
          dsimp only at ht4 hn4
          rw [ht3] at ht4; cases ht4
          have hname : t3.name = some tn' := by rw [hn4, he.1]
          refine ⟨t3, ht3, ?_⟩
          by_cases hfr : t3.data = .freed
          · exact .inl hfr
          refine .inr ⟨by rw [a3]; exact hsp, by rw [y3, hty]; exact hy, hok.chk.2, tn', hname, hhd⟩
        · exact absurd (moduleUnregister_index hw h4 _ he) (hm0 _)
      · rw [hix] at hm1
        exact absurd (moduleUnregister_index hw h4 _ hm1) (hm0 _)
  · simp only [C.ok.injEq, Prod.mk.injEq] at hh
    rw [← hh.1] at hm1
    exact absurd hm1 (hm0 _)

theorem ModuleTag.status {s : Server} {k : Nat} (h : ModuleTag s k) :
    Reachable s ∧ ∃ t, s.db[k]? = some t ∧ StatusLike s.modType t := by
  obtain ⟨s0, s1, fd, flags, name, r, tn, os, hR, hh, h0, h1, hrun⟩ := h
  have hR1 := hR.handle hh
  obtain ⟨t, ht, hs⟩ := register_status hR hh h0 h1
  have p := run_path hR1.modsOK hrun
  refine ⟨hR1.run hrun, ?_⟩
  rw [p.modType]
  exact p.tag_inv (fun s t t' h hm => statusLike_move s t t' h hm) ht hs

/-! ## Requests -/

theorem kept_start {fl : Kind → Bool} {s : Server} {k : Nat} {b : List Byte} {A : Prop} (h : ModuleTag s k) (hb : TagData s k b)
    (hn : NoModule s (-1)) (ho : ∀ m ∈ s.mods, fl (.own m.fd) = true → m.tagindex = k → A) : Kept fl k s.modType b A s := by
  obtain ⟨-, t, ht, hs⟩ := h.status
  obtain ⟨t', ht', hd⟩ := hb
  rw [ht] at ht'; cases ht'
  refine ⟨rfl, hn, ho, t, ht, ?_⟩
  rcases hs with hs | ⟨h1, h2, h3, -⟩
  · rw [hs] at hd; simp at hd
  · exact .inr ⟨h1, h2, h3, b, hd, rfl, fun _ _ => rfl, fun _ _ _ => rfl⟩

theorem handle_kept {s s' : Server} {fd : Int} {q : Req} {r : Reply} {k : Nat} {b : List Byte} (h : ModuleTag s k) (hb : TagData s k b)
    (hn : NoModule s (-1)) (hfd : fd ≠ -1) (hh : handle s fd q = .ok (s', r)) :
    NoModule s' (-1) ∧ ∃ t, s'.db[k]? = some t ∧ TagKept s.modType b (OwnTag s fd k) t := by
  have hR := h.status.1
  have fin : ∀ {fl : Kind → Bool}, fl .restore = false → fl (.grow k) = false → (∀ f, fl (.reg f) = true → f ≠ -1) →
      ((∀ f, fl (.own f) = false) ∨ ((∀ f, fl (.reg f) = false) ∧ fl .mods = false)) →
      (∀ f, fl (.own f) = true → f = fd) → Path fl s s' →
      NoModule s' (-1) ∧ ∃ t, s'.db[k]? = some t ∧ TagKept s.modType b (OwnTag s fd k) t := by
    intro fl h1 h2 h3 h4 h5 p
    have := p.inv (kept_move h1 h2 h3 h4) (kept_start (A := OwnTag s fd k) h hb hn (fun m hm hf hi => ⟨m, hm, h5 _ hf, hi⟩))
    exact ⟨this.fds, this.tag⟩
  cases q with
  | modReg flags name =>
    refine fin (fl := Req.kinds fd (.modReg flags name)) rfl rfl ?_ (.inl fun _ => rfl) (fun f hf => by simp [Req.kinds, regOnly] at hf)
      (handle_path_kinds hR.modsOK hh)
    intro f hf
    simp only [Req.kinds, regOnly, decide_eq_true_eq] at hf
    rw [hf]; exact hfd
  | tagAdd type count attr name =>
    simp only [handle, hTagAdd] at hh
    split at hh
    · simp only [C.ok.injEq, Prod.mk.injEq] at hh
      rw [← hh.1]
      obtain ⟨t, ht, hs⟩ := (kept_start (fl := fun _ => false) h hb hn (A := OwnTag s fd k) (by simp)).tag
      exact ⟨hn, t, ht, hs⟩
    · rename_i hu
      obtain ⟨⟨s1, r1⟩, h1, hh⟩ := C.bind_eq_ok.mp hh
      simp only [C.ok.injEq, Prod.mk.injEq] at hh
      obtain ⟨rfl, -⟩ := hh
      let fl : Kind → Bool := fun | .grow n => decide (n ≠ k) | .retAdd => true | _ => false
      refine fin (fl := fl) rfl (by simp [fl]) (by simp [fl]) (.inl fun _ => rfl) (by simp [fl]) ?_
      refine tagAdd_path (fl := fl) (fun n hx => .inl ?_) (.inl rfl) .refl _ h1
      show decide (n ≠ k) = true
      rw [decide_eq_true_eq]
      rintro rfl
      obtain ⟨t, ht, hs⟩ := h.status.2
      obtain ⟨t', ht', hd⟩ := hb
      rw [ht] at ht'; cases ht'
      rcases hs with hs | ⟨-, -, -, n, hn, hhd⟩
      · rw [hs] at hd; simp at hd
      obtain ⟨t2, ht2, hn2⟩ := hR.wf.ent _ (getByName_some hR.wf.sorted hx)
      dsimp only at ht2 hn2
      rw [ht] at ht2; cases ht2
      rw [hn] at hn2
      simp only [Option.some.injEq] at hn2
      rw [← hn2] at hu
      exact hu hhd
  | _ => 
    refine fin (fl := Req.kinds fd _) rfl rfl (by simp [Req.kinds]) (.inr ⟨fun _ => rfl, rfl⟩) (by simp [Req.kinds]) (handle_path_kinds hR.modsOK hh)

theorem close_kept {s s' : Server} {fd : Int} {k : Nat} {b : List Byte} (h : ModuleTag s k) (hb : TagData s k b)
    (hn : NoModule s (-1)) (hh : moduleUnregister s fd = .ok s') :
    NoModule s' (-1) ∧ ∃ t, s'.db[k]? = some t ∧ TagKept s.modType b False t := by
  have p := moduleUnregister_path (fl := noAdd) (fun _ h => h) .refl _ hh
  have := p.inv (kept_move (A := False) rfl rfl (by simp [noAdd]) (.inl fun _ => rfl)) (kept_start h hb hn (fun m hm hf => by simp [noAdd] at hf))
  exact ⟨this.fds, this.tag⟩

end Dax
