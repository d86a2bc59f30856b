import Verif.Lemmas.InvOps
import Verif.Lemmas.Tactic
import Verif.Spec.Api
/-!
# Start-up
-/
set_option autoImplicit false
namespace Dax

/-- Start-up succeeds whatever the environment is. -/
theorem initServer_isOk (e : Env) : (initServer e).isOk = true := by kernel_rfl

theorem initServer_total (e : Env) : ∃ s, initServer e = .ok s := C.isOk_iff.mp (initServer_isOk e)

theorem wf_empty (e : Env) (ty : Nat) (tbl : List Cdt) (h : CdtWF tbl) :
    WF { cdts := tbl, modType := ty, env := e } := by
  refine ⟨List.Pairwise.nil, by simp, by simp, by simp, by simp, by simp, by simp, by simp,
    by simp [live], h⟩

theorem cdtWF_nil : CdtWF [] :=
  ⟨by simp, by simp, by simp, by simp, List.Pairwise.nil, by simp, by simp⟩

theorem sysTag_wf {s s' : Server} {name : Name} {type count want : Nat} (h : WF s)
    (hl : s.db.length = want) (hq : isQueue type = false)
    (hh : sysTag s name type count want = .ok s') : WF s' ∧ s'.db.length = want + 1 := by
  unfold sysTag at hh
  obtain ⟨⟨s1, r⟩, h1, hh⟩ := C.bind_eq_ok.mp hh
  have ta := tagAdd_added h h1
  dsimp only at hh
  split at hh
  · simp at hh
  rename_i hr
  have hr : r = want := by simpa using hr
  subst hr
  rcases ta.cases with ⟨hneg, -⟩ | ⟨n, hn, hin, hc⟩
  · omega
  have hn : want = n := by omega
  subst hn
  rcases hc with ⟨-, hlen, hnew, -, size, t, p, ha, ht, hs, -⟩ | ⟨hin0, -, -⟩
  · rw [hl] at ht
    rw [ht] at hh
    simp only [C.ok.injEq] at hh
    subst hh
    have hok := ta.step.wf.tag want t ht
    have hnq : isQueue t.type = false := by rw [hs.type]; exact hq
    have hd := hs.data
    have hnt : (newTag s.env s.db.length (-1) name type (u32 count) size).data =
        .mem (List.replicate size 0) := by simp [newTag, hq]
    rw [hnt] at hd
    obtain ⟨b, hb⟩ : ∃ b, t.data = .mem b := by
      cases hdt : t.data <;> rw [hdt] at hd <;> simp [Store.Same] at hd ⊢
    refine ⟨ta.step.wf.set ht rfl ⟨hok.name, hok.mem, hok.chk, fun _ => .inr ⟨b, hb⟩,
      fun hf => by simp [hb] at hf, hok.queue, hok.cnt, hok.valid⟩, ?_⟩
    simp [hlen, hl]
  · obtain ⟨t, ht, -⟩ := h.ent _ hin0
    have := (List.getElem?_eq_some_iff.mp ht).1
    have : want < s.db.length := this
    omega

theorem virtTag_wf {s s' : Server} {name : Name} {type count : Nat} {st : Store} (h : WF s)
    (hst : st = .vTime ∨ st = .vMyName) (hh : virtTag s name type count st = .ok s') : WF s' := by
  unfold virtTag at hh
  obtain ⟨⟨s1, r⟩, h1, hh⟩ := C.bind_eq_ok.mp hh
  have ta := tagAdd_added h h1
  dsimp only at hh
  split at hh
  · simp at hh
  rename_i t ht
  simp only [C.ok.injEq] at hh
  subst hh
  have ht' := tag?_eq.mp ht
  have hok := ta.step.wf.tag _ t ht'.2
  have hnm : t.name ≠ none := by
    rcases ta.cases with ⟨hneg, -⟩ | ⟨n, hn, hin, -⟩
    · omega
    · obtain ⟨u, hu, hun⟩ := ta.step.wf.ent _ hin
      subst hn
      rw [show ((n : Int)).toNat = n by simp] at ht'
      rw [ht'.2] at hu; cases hu
      simp [hun]
  refine ta.step.wf.set ht'.2 rfl ⟨?_, ?_, hok.chk, ?_, ?_, ?_, hok.cnt, hok.valid⟩
  · rcases hst with rfl | rfl <;> simp [hnm]
  · intro b hb; rcases hst with rfl | rfl <;> simp at hb
  · intro hv; simp at hv
  · intro hf; rcases hst with rfl | rfl <;> simp at hf
  · intro q hq; rcases hst with rfl | rfl <;> simp at hq

theorem isQueue_cdtToType {i : Nat} (h : i < 1073741824) : isQueue (cdtToType i) = false := by
  unfold isQueue cdtToType DAX_CUSTOM
  rw [Nat.testBit_eq_decide_div_mod_eq]
  simp; omega

theorem initServer_wf {e : Env} {s : Server} (hh : initServer e = .ok s) : WF s := by
  unfold initServer at hh
  obtain ⟨⟨tbl1, r1⟩, h1, hh⟩ := C.bind_eq_ok.mp hh
  obtain ⟨⟨tbl2, r2⟩, h2, hh⟩ := C.bind_eq_ok.mp hh
  have hr2 : isQueue r2.type = false := by
    have k : (do let (t1, _) ← cdtCreate [] modCdtText
                 let (_, r2) ← cdtCreate t1 descCdtText
                 C.ok (isQueue r2.type)) = C.ok false := by kernel_rfl
    rw [h1] at k
    simp only [C.ok_bind] at k
    rw [h2] at k
    simpa using k
  have w1 := (cdtCreate_wf cdtWF_nil h1).1
  have w2 := (cdtCreate_wf w1 h2).1
  have w := wf_empty e r1.type tbl2 w2
  obtain ⟨a0, h, hh⟩ := C.bind_eq_ok.mp hh
  obtain ⟨w, l⟩ := sysTag_wf w rfl (by decide) h
  obtain ⟨a1, h, hh⟩ := C.bind_eq_ok.mp hh
  obtain ⟨w, l⟩ := sysTag_wf w l (by decide) h
  obtain ⟨a2, h, hh⟩ := C.bind_eq_ok.mp hh
  obtain ⟨w, l⟩ := sysTag_wf w l hr2 h
  obtain ⟨a3, h, hh⟩ := C.bind_eq_ok.mp hh
  obtain ⟨w, l⟩ := sysTag_wf w l hr2 h
  obtain ⟨a4, h, hh⟩ := C.bind_eq_ok.mp hh
  obtain ⟨w, l⟩ := sysTag_wf w l (by decide) h
  obtain ⟨a5, h, hh⟩ := C.bind_eq_ok.mp hh
  obtain ⟨w, l⟩ := sysTag_wf w l (by decide) h
  obtain ⟨a6, h, hh⟩ := C.bind_eq_ok.mp hh
  obtain ⟨w, l⟩ := sysTag_wf w l (by decide) h
  obtain ⟨a7, h, hh⟩ := C.bind_eq_ok.mp hh
  obtain ⟨w, l⟩ := sysTag_wf w l (by decide) h
  obtain ⟨a8, h, hh⟩ := C.bind_eq_ok.mp hh
  obtain ⟨w, l⟩ := sysTag_wf w l (by decide) h
  obtain ⟨a9, h, hh⟩ := C.bind_eq_ok.mp hh
  have w := virtTag_wf w (.inl rfl) h
  obtain ⟨a10, h, hh⟩ := C.bind_eq_ok.mp hh
  have w := virtTag_wf w (.inr rfl) h
  obtain ⟨⟨a11, r11⟩, h, hh⟩ := C.bind_eq_ok.mp hh
  have w := ((tagWrite_quiet h).step w).wf
  obtain ⟨⟨a12, r12⟩, h, hh⟩ := C.bind_eq_ok.mp hh
  have w := ((tagWrite_quiet h).step w).wf
  simp only [C.ok.injEq] at hh
  subst hh
  exact w

/-- The static part of a tag. -/
def Tag.face (t : Tag) : Option Name × Nat × Nat × Int × Attr × Bool :=
  (t.name, t.type, t.count, t.fd, t.attr, t.wildMaps)

theorem init_face (e : Env) :
    (initServer e >>= fun s => .ok (s.db.map Tag.face, s.cdts.length, s.modType)) =
    .ok ([(some (nm "_tagcount"), DAX_DINT, 1, -1, { readonly := true }, false),
          (some (nm "_lastindex"), DAX_DINT, 1, -1, { readonly := true }, false),
          (some (nm "_tag_added"), cdtToType 1, 1, -1, { readonly := true }, false),
          (some (nm "_tag_deleted"), cdtToType 1, 1, -1, { readonly := true }, false),
          (some (nm "_dbsize"), DAX_DINT, 1, -1, { readonly := true }, false),
          (some (nm "_starttime"), DAX_TIME, 1, -1, { readonly := true }, false),
          (some (nm "_lastmodule"), DAX_CHAR, 33, -1, { readonly := true }, false),
          (some (nm "_overrides_installed"), DAX_DINT, 1, -1, { readonly := true }, false),
          (some (nm "_overrides_set"), DAX_DINT, 1, -1, { readonly := true }, false),
          (some (nm "_time"), DAX_TIME, 1, -1, { readonly := true, virt := true }, false),
          (some (nm "_my_tagname"), DAX_CHAR, 33, -1, { readonly := true, virt := true }, false)],
         2, cdtToType 0) := by
  kernel_rfl

theorem init_len {e : Env} {s : Server} (h : initServer e = .ok s) : s.db.length = 11 := by
  have := init_face e
  rw [h] at this
  simp only [C.ok_bind, C.ok.injEq, Prod.mk.injEq] at this
  have := congrArg List.length this.1
  simpa using this

/-! ## Start-up with retention -/

theorem restoreTypes_wf {l : List (Nat × Name × Name)} : ∀ {tbl tbl' : List Cdt}, CdtWF tbl →
    restoreTypes tbl l = .ok tbl' → CdtWF tbl' ∧ CdtExt tbl tbl' := by
  induction l with
  | nil =>
    intro tbl tbl' h hh
    simp only [restoreTypes, C.ok.injEq] at hh; rw [← hh]; exact ⟨h, CdtExt.refl _⟩
  | cons x l ih =>
    intro tbl tbl' h hh
    obtain ⟨i, n, d⟩ := x
    simp only [restoreTypes] at hh
    obtain ⟨⟨t1, r1⟩, h1, hh⟩ := C.bind_eq_ok.mp hh
    obtain ⟨w1, e1⟩ := cdtCreate_wf h h1
    obtain ⟨w2, e2⟩ := ih w1 hh
    exact ⟨w2, e1.trans e2⟩

theorem restoreData_quiet {s s' : Server} {i : Int} {d : List Byte}
    (hh : restoreData s i d = .ok s') : Quiet (· = i.toNat) s s' := by
  unfold restoreData at hh
  split at hh
  · simp at hh
  rename_i t ht
  obtain ⟨sz, hsz, hh⟩ := C.bind_eq_ok.mp hh
  split at hh
  · simp at hh
  split at hh
  · rename_i b hb
    obtain ⟨b', hb', hh⟩ := C.bind_eq_ok.mp hh
    simp only [C.ok.injEq] at hh
    subst hh
    refine setTag_quiet ht ⟨rfl, rfl, rfl, rfl, rfl, rfl, ?_, Int.le_refl _, Int.le_refl _, fun _ => rfl, id, id⟩
    rw [hb]
    simp [Store.Same, wr_length hb']
  · split at hh
    · simp only [C.ok.injEq] at hh; subst hh; exact Quiet.refl _ _
    · simp at hh

theorem restoreTags_step {l : List RetRow} : ∀ {s s' : Server}, WF s →
    restoreTags s l = .ok s' → Step s s' := by
  induction l with
  | nil =>
    intro s s' h hh
    simp only [restoreTags, C.ok.injEq] at hh; rw [← hh]; exact Step.refl h
  | cons x l ih =>
    intro s s' h hh
    simp only [restoreTags] at hh
    obtain ⟨⟨s1, r1⟩, h1, hh⟩ := C.bind_eq_ok.mp hh
    have st := tagAdd_step h h1
    dsimp only at hh
    split at hh
    · exact st.trans (ih st.wf hh)
    · obtain ⟨s2, h2, hh⟩ := C.bind_eq_ok.mp hh
      have st2 := (restoreData_quiet h2).step st.wf
      exact (st.trans st2).trans (ih st2.wf hh)

theorem retInit_step {s s' : Server} {f : Ret} (h : WF s) (hh : retInit s f = .ok s') :
    Step s s' := by
  unfold retInit at hh
  obtain ⟨tbl, h1, hh⟩ := C.bind_eq_ok.mp hh
  obtain ⟨s1, h2, hh⟩ := C.bind_eq_ok.mp hh
  simp only [C.ok.injEq] at hh
  subst hh
  obtain ⟨w1, e1⟩ := restoreTypes_wf h.cdts h1
  have st1 : Step s { s with cdts := tbl } := h.cdts_ext w1 e1
  have st2 := restoreTags_step st1.wf h2
  exact (st1.trans st2).trans (st2.wf.other rfl rfl rfl rfl rfl)

/-- Every start leads through the state in which the system tags have been created. -/
theorem startServer_inv {e : Env} {f : Option Ret} {s : Server} (hh : startServer e f = .ok s) :
    ∃ s0, initServer e = .ok s0 ∧ Step s0 s := by
  unfold startServer at hh
  obtain ⟨s0, h0, hh⟩ := C.bind_eq_ok.mp hh
  refine ⟨s0, h0, ?_⟩
  have w := initServer_wf h0
  cases f with
  | none => simp only [C.ok.injEq] at hh; subst hh; exact Step.refl w
  | some f => exact retInit_step w hh

theorem Reachable.from_init {s : Server} (h : Reachable s) :
    ∃ e s0, initServer e = .ok s0 ∧ Step s0 s := by
  obtain ⟨e, f, s0, os, hi, hr⟩ := h
  obtain ⟨s1, h1, st⟩ := startServer_inv hi
  exact ⟨e, s1, h1, st.trans (run_step st.wf hr)⟩

theorem Reachable.wf {s : Server} (h : Reachable s) : WF s := by
  obtain ⟨e, s0, h0, st⟩ := h.from_init
  exact st.wf

theorem Reachable.run {s s' : Server} {os : List Op} (h : Reachable s) (hr : run s os = .ok s') :
    Reachable s' := by
  obtain ⟨e, f, s0, os0, hi, h0⟩ := h
  exact ⟨e, f, s0, os0 ++ os, hi, run_append.mpr ⟨s, h0, hr⟩⟩

theorem Reachable.handle {s s' : Server} {fd : Int} {q : Req} {r : Reply} (h : Reachable s)
    (hh : handle s fd q = .ok (s', r)) : Reachable s' :=
  h.run (os := [.req fd q]) (by simp [Dax.run, step, hh])

theorem Reachable.len {s : Server} (h : Reachable s) : 11 ≤ s.db.length := by
  obtain ⟨e, s0, h0, st⟩ := h.from_init
  have := st.ev.len
  rw [init_len h0] at this; exact this

end Dax
