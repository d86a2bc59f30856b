import Verif.Lemmas.Counts
import Verif.Spec.Modules
/-!
# C10: the status tags `_tagcount` and `_lastindex`
-/
set_option autoImplicit false
namespace Dax

theorem counts_handle {s s' : Server} {fd : Int} {q : Req} {r : Reply} (hR : Reachable s)
    (hc : Counts s) (hs : StatOK s) (he : (∃ f n, q = .modReg f n) → s.env.exclude = []) (hq : q.calm = true)
    (h : handle s fd q = .ok (s', r)) : Counts s' ∧ StatOK s' ∧ s'.env = s.env := by
  have hw := hR.wf
  have hk := hR.modsOK
  by_cases hmild : q.mild = true
  · have hqt := handle_quiet (Req.mild_quiet hmild) h
    have hp := handle_path_notReg (by rintro f n rfl; simp [Req.mild] at hmild) hk h
    obtain ⟨⟨t0, c0⟩, t1, c1⟩ := hc
    refine ⟨Counts.reads ⟨⟨t0, c0⟩, t1, c1⟩ hqt ?_ ?_, ?_, hqt.env⟩
    · exact ro_step hR hmild c0.db c0.ro c0.virt (by rw [c0.owned]; simp)
        (hR.mapsOK.2 0 t0 c0.db c0.ro c0.owned) h
    · exact ro_step hR hmild c1.db c1.ro c1.virt (by rw [c1.owned]; simp)
        (hR.mapsOK.2 1 t1 c1.db c1.ro c1.owned) h
    · unfold StatOK; rw [hp.stat hk]; exact hs
  · cases q <;> simp only [Req.mild, Req.calm, not_true_eq_false, Bool.false_eq_true] at hmild hq
    case modReg flags name =>
      rcases modReg_inv h with rfl | ⟨s1, x, h1, h2⟩
      · exact ⟨hc, hs, rfl⟩
      · obtain ⟨c1, o1⟩ := moduleRegister_counts hw hk hc hs (he ⟨_, _, rfl⟩) h1
        have e1 := moduleRegister_env hw hk h1
        have hqt := tagRead_quiet h2
        have st : s'.stat = s1.stat := by
          rcases tagRead_inv h2 with rfl | ⟨t, q, q', b, ht, hv', hq, hr, rfl, -⟩ <;> rfl
        refine ⟨c1.quiet hqt (by show ¬ (0 = 5); omega) (by show ¬ (1 = 5); omega), ?_, ?_⟩
        · unfold StatOK; rw [st]; exact o1
        · rw [hqt.env, e1]
    case tagAdd type count attr name =>
      simp only [handle, hTagAdd] at h
      split at h
      · simp only [C.ok.injEq, Prod.mk.injEq] at h; rw [← h.1]; exact ⟨hc, hs, rfl⟩
      rename_i hn
      obtain ⟨⟨s1, r1⟩, h1, h⟩ := C.bind_eq_ok.mp h
      simp only [C.ok.injEq, Prod.mk.injEq] at h
      rw [← h.1]
      refine ⟨(tagAdd_counts hw hc ?_ ?_ h1).1, ?_, tagAdd_env hw h1⟩
      · rintro rfl; exact hn (by decide)
      · rintro rfl; exact hn (by decide)
      · unfold StatOK; rw [tagAdd_stat hk h1]; exact hs
    case tagDel idx =>
      simp only [handle, hTagDel] at h
      obtain ⟨x, hx, h⟩ := C.bind_eq_ok.mp h
      cases x with
      | error e => simp only [C.ok.injEq, Prod.mk.injEq] at h; rw [← h.1]; exact ⟨hc, hs, rfl⟩
      | ok i =>
        dsimp only at h
        split at h
        · simp only [C.ok.injEq, Prod.mk.injEq] at h; rw [← h.1]; exact ⟨hc, hs, rfl⟩
        rename_i hn
        obtain ⟨⟨s1, r1⟩, h1, h⟩ := C.bind_eq_ok.mp h
        simp only [C.ok.injEq, Prod.mk.injEq] at h
        rw [← h.1]
        have hname : ∀ t, s.tag? idx = some t → t.name = some i.name := by
          intro t ht
          unfold tagGetIndex at hx
          rw [ht] at hx
          simp only [tagInfo] at hx
          split at hx
          · simp at hx
          split at hx
          · simp at hx
          · rename_i n hn'
            simp only [C.ok.injEq, Except.ok.injEq] at hx
            rw [← hx]; exact hn'
        refine ⟨tagDel_counts hc ?_ ?_ h1, ?_, tagDel_env h1⟩
        · rintro rfl
          obtain ⟨⟨t0, c0⟩, -⟩ := hc
          have := hname t0 c0.db
          rw [c0.name] at this
          simp only [Option.some.injEq] at this
          rw [← this] at hn; exact hn (by decide)
        · rintro rfl
          obtain ⟨-, t0, c0⟩ := hc
          have := hname t0 c0.db
          rw [c0.name] at this
          simp only [Option.some.injEq] at this
          rw [← this] at hn; exact hn (by decide)
        · unfold StatOK Server.stat; rw [tagDel_mods h1]; exact hs
    case cdtCreate str =>
      simp only [handle, hCdtCreate] at h
      obtain ⟨⟨tbl, x⟩, h1, h⟩ := C.bind_eq_ok.mp h
      simp only [C.ok.injEq, Prod.mk.injEq] at h
      rw [← h.1]
      exact ⟨hc.congr rfl rfl, hs, rfl⟩

theorem countsInv_run {os : List Op} : ∀ {s s' : Server}, Reachable s → CountsInv s →
    (∀ o ∈ os, o.calm) → run s os = .ok s' → CountsInv s' := by
  induction os with
  | nil => intro s s' _ hi _ h; simp only [run, C.ok.injEq] at h; subst h; exact hi
  | cons o os ih =>
    intro s s' hR hi ho h
    simp only [run] at h
    obtain ⟨s1, h1, h⟩ := C.bind_eq_ok.mp h
    have hR1 : Reachable s1 := hR.run (os := [o]) (by simp [run, h1])
    refine ih hR1 ?_ (fun o h => ho o (by simp [h])) h
    have hoc := ho o (by simp)
    cases o with
    | req f q =>
      simp only [step] at h1
      obtain ⟨⟨s2, r2⟩, h2, h1⟩ := C.bind_eq_ok.mp h1
      simp only [C.ok.injEq] at h1; subst h1
      obtain ⟨c1, o1, e1⟩ := counts_handle hR hi.1 hi.2.1 (fun _ => hi.2.2) hoc h2
      exact ⟨c1, o1, by rw [e1]; exact hi.2.2⟩
    | close f =>
      simp only [step] at h1
      obtain ⟨c1, o1⟩ := moduleUnregister_counts hR.wf hi.1 hi.2.1 h1
      exact ⟨c1, o1, by rw [moduleUnregister_env h1]; exact hi.2.2⟩
    | env e =>
      simp only [step, C.ok.injEq] at h1; subst h1
      exact ⟨hi.1.congr rfl rfl, hi.2.1, hoc⟩

theorem Cell.read {s : Server} {k : Nat} {nk : Name} {v : Int} {t : Tag} (h : Cell s k nk v t)
    (fd : Int) : handle s fd (.tagRead k 0 4) = .ok (s, .resp (le4 v)) := by
  have P : Plain s k t (le4 v) := ⟨h.db, by rw [h.name]; simp, h.virt, h.ovr, h.data⟩
  refine read_ok (n := 4) P ?_ (by omega) ?_ (by omega) fd
  · unfold rd; simp [le4_len, List.take_of_length_le]
  · rw [le4_len]
    unfold tagGetSize; rw [h.type, h.count]; rfl

theorem countsRight {s : Server} (hw : WF s) (hc : Counts s) : CountsRight s := by
  obtain ⟨⟨t0, c0⟩, t1, c1⟩ := hc
  have hlen := (List.getElem?_eq_some_iff.mp c1.db).1
  have hlt := hw.dblt
  have hassign : ∀ i, Assigned s i ↔ i < s.db.length := by
    intro i
    unfold Assigned
    rw [deadAt_iff hw]
    constructor
    · rintro (⟨n, hl⟩ | ⟨t, ht, -⟩)
      · obtain ⟨t, ht, -⟩ := (liveAt_iff hw).mp hl
        exact (List.getElem?_eq_some_iff.mp ht).1
      · exact (List.getElem?_eq_some_iff.mp ht).1
    · intro hi
      have ht := List.getElem?_eq_getElem hi
      cases hn : (s.db[i]).name with
      | none => exact .inr ⟨_, ht, hn⟩
      | some n => exact .inl ⟨n, (liveAt_iff hw).mpr ⟨_, ht, hn⟩⟩
  refine ⟨?_, ?_, (lookup_mem hw).mpr (hw.named _ _ _ c0.db c0.name),
    (lookup_mem hw).mpr (hw.named _ _ _ c1.db c1.name)⟩
  · obtain ⟨l, h1, h2, h3⟩ := countP_positions (fun t : Tag => t.name.isSome) s.db
    refine ⟨l, h1, fun i => ?_, fun fd => ⟨s, ?_⟩⟩
    · rw [h2]
      constructor
      · rintro ⟨t, ht, hn⟩
        obtain ⟨n, hn⟩ := Option.isSome_iff_exists.mp hn
        exact ⟨n, (liveAt_iff hw).mpr ⟨t, ht, hn⟩⟩
      · rintro ⟨n, hl⟩
        obtain ⟨t, ht, hn⟩ := (liveAt_iff hw).mp hl
        exact ⟨t, ht, by rw [hn]; rfl⟩
    · have := c0.read fd
      rw [hw.count] at this
      unfold live at this
      rw [← h3] at this
      have hu : le4 (l.length : Int) = toLE 4 l.length := by
        unfold le4
        have : s.db.countP (fun t => t.name.isSome) ≤ s.db.length := List.countP_le_length
        rw [u32_nat (by omega)]
      rw [hu] at this
      exact this
  · refine ⟨s.db.length - 1, (hassign _).mpr (by omega), fun i hi => ?_, fun fd => ⟨s, ?_⟩⟩
    · have := (hassign i).mp hi; omega
    · have := c1.read fd
      have hcast : (s.db.length : Int) - 1 = ((s.db.length - 1 : Nat) : Int) := by omega
      rw [hcast] at this
      unfold le4 at this
      rw [u32_nat (by omega)] at this
      exact this

/-- **C10** After the start of the server, with or without a retention file, and any sequence of requests to add and delete tags (and others), whether they
succeed or fail. -/
theorem C10 {e : Env} {file : Option Ret} {qs : List (Int × Req)} {s0 s : Server} {rs : List Reply} (h0 : startServer e file = .ok s0)
    (hf : NoCounts file) (hq : ∀ q ∈ qs, q.2.addDel) (hr : runR s0 qs = .ok (s, rs)) : CountsRight s := by
  obtain ⟨c0, o0, -⟩ := start_counts h0 hf
  have hR0 : Reachable s0 := ⟨e, file, s0, [], h0, rfl⟩
  clear h0
  induction qs generalizing s0 rs with
  | nil =>
    simp only [runR, C.ok.injEq, Prod.mk.injEq] at hr
    rw [← hr.1]; exact countsRight hR0.wf c0
  | cons x qs ih =>
    obtain ⟨fd, q⟩ := x
    simp only [runR] at hr
    obtain ⟨⟨s1, r1⟩, h1, hr⟩ := C.bind_eq_ok.mp hr
    obtain ⟨⟨s2, r2⟩, h2, hr⟩ := C.bind_eq_ok.mp hr
    simp only [C.ok.injEq, Prod.mk.injEq] at hr
    have hqa := hq (fd, q) (by simp)
    have hcalm : q.calm = true := by cases q <;> first | exact hqa | exact absurd hqa id
    obtain ⟨c1, o1, -⟩ := counts_handle hR0 c0 o0 (by rintro ⟨f, n, rfl⟩; exact absurd hqa id) hcalm h1
    have hR1 : Reachable s1 := hR0.run (os := [.req fd q]) (by simp [run, step, h1])
    exact ih (fun y hy => hq y (by simp [hy])) (by rw [h2, hr.1]) c1 o1 hR1

/-- … and for histories with registrations and disconnects.  Missing, since they are false: group writes (`C10_group_write`) and modules that are excluded from
having a status tag (`C12_excluded`); overrides of the two tags. -/
theorem C10_history_partial {e : Env} {file : Option Ret} {os : List Op} {s0 s : Server} (h0 : startServer e file = .ok s0)
    (hf : NoCounts file) (he : e.exclude = []) (hos : ∀ o ∈ os, o.calm) (hrun : run s0 os = .ok s) : CountsRight s := by
  have hR0 : Reachable s0 := ⟨e, file, s0, [], h0, rfl⟩
  obtain ⟨c0, o0, e0⟩ := start_counts h0 hf
  exact countsRight (hR0.run hrun).wf (countsInv_run hR0 ⟨c0, o0, by rw [e0]; exact he⟩ hos hrun).1

/-- Instance with a retention file: `Kept` is restored, another tag is added and `Kept` deleted. -/
example : NoCounts (some { rows := [⟨1, nm "Kept", nm "INT", 2, some [1, 2, 3, 4]⟩], lastId := 1 }) ∧
    (startServer {} (some { rows := [⟨1, nm "Kept", nm "INT", 2, some [1, 2, 3, 4]⟩], lastId := 1 }) >>= fun s0 =>
      runR s0 [(5, .tagAdd DAX_INT 1 0 (nm "A")), (5, .tagRead 0 0 4), (5, .tagDel 11), (5, .tagRead 0 0 4), (5, .tagRead 1 0 4)] >>= fun x => C.ok x.2.tail) =
      .ok [.resp [13, 0, 0, 0], .resp [11, 0, 0, 0], .resp [12, 0, 0, 0], .resp [12, 0, 0, 0]] := by
  refine ⟨?_, by kernel_rfl⟩
  intro f hf x hx
  cases hf
  rw [List.mem_singleton] at hx
  subst hx
  exact ⟨by decide, by decide⟩

/-- The hypotheses are met by a history with registrations, creations, a deletion and a
disconnect: eleven system tags, two status tags and three others were made; `modB` has left and
`Tmp` is deleted. -/
example : ∃ s0 s, startServer {} none = .ok s0 ∧ (∀ o ∈ (.env {} :: demoOps) ++ [.close 6], o.calm) ∧
    run s0 ((.env {} :: demoOps) ++ [.close 6]) = .ok s ∧ Answers s 5 (.tagRead 0 0 4) (.resp [14, 0, 0, 0]) ∧
    Answers s 5 (.tagRead 1 0 4) (.resp [15, 0, 0, 0]) := by
  refine ⟨init0, demo (demoOps ++ [.close 6]), ?_, ?_, ?_, exists_reply (by decide +kernel),
    exists_reply (by decide +kernel)⟩
  · unfold startServer; rw [init0_eq]; rfl
  · intro o ho
    simp only [demoOps, List.cons_append, List.nil_append, List.mem_cons, List.not_mem_nil, or_false] at ho
    rcases ho with rfl | rfl | rfl | rfl | rfl | rfl | rfl | rfl | rfl <;> trivial
  · obtain ⟨s, hs⟩ := C.isOk_iff.mp
      (show (run init0 (.env {} :: (demoOps ++ [.close 6]))).isOk = true by decide +kernel)
    unfold demo
    rw [List.cons_append, hs]

/-- Why group writes are left out: they ignore the read-only attribute, so any client can
overwrite `_tagcount`. -/
theorem C10_group_write : Reachable (demo demoOps) ∧ ∃ s' rs, runR (demo demoOps)
      [(6, .grpAdd [⟨0, 0, 0, 1, 4, DAX_DINT⟩]), (6, .grpWrite 0 [1, 2, 3, 4])] = .ok (s', rs) ∧
    replyOf (handle (demo demoOps) 6 (.tagRead 0 0 4)) = some (.resp [15, 0, 0, 0]) ∧
    replyOf (handle s' 6 (.tagRead 0 0 4)) = some (.resp [1, 2, 3, 4]) :=
  ⟨demoOps_reachable,
   exists_runR (p := fun s' => replyOf (handle (demo demoOps) 6 (.tagRead 0 0 4)) = some (.resp [15, 0, 0, 0]) ∧
    replyOf (handle s' 6 (.tagRead 0 0 4)) = some (.resp [1, 2, 3, 4])) (by decide +kernel)⟩

end Dax
