import Verif.Lemmas.Api
/-!
# Requests that leave names, types and sizes of all tags alone
-/
set_option autoImplicit false
namespace Dax

/-- Requests other than registration, tag creation, tag deletion and type creation. -/
def Req.quiet : Req → Bool
  | .modReg _ _ => false
  | .tagAdd _ _ _ _ => false
  | .tagDel _ => false
  | .cdtCreate _ => false
  | _ => true

theorem Quiet.all {F : Nat → Prop} {s s' : Server} (h : Quiet F s s') : Quiet (fun _ => True) s s' :=
  h.mono (fun _ _ => trivial)

theorem handle_quiet {s s' : Server} {fd : Int} {q : Req} {r : Reply} (hq : q.quiet = true)
    (hh : handle s fd q = .ok (s', r)) : Quiet (fun _ => True) s s' := by
  cases q with
  | modReg flags name => exact absurd hq (by simp [Req.quiet])
  | modUnreg => simp only [handle, C.ok.injEq, Prod.mk.injEq] at hh; rw [← hh.1]; exact Quiet.refl _ _
  | tagAdd type count attr name => exact absurd hq (by simp [Req.quiet])
  | tagDel idx => exact absurd hq (by simp [Req.quiet])
  | tagGetIdx idx =>
    simp only [handle, hTagGet] at hh
    obtain ⟨o, ho, hh⟩ := C.bind_eq_ok.mp hh
    cases o <;> (simp only [C.ok.injEq, Prod.mk.injEq] at hh; rw [← hh.1]; exact Quiet.refl _ _)
  | tagGetName name =>
    simp only [handle, hTagGet] at hh
    obtain ⟨o, ho, hh⟩ := C.bind_eq_ok.mp hh
    cases o <;> (simp only [C.ok.injEq, Prod.mk.injEq] at hh; rw [← hh.1]; exact Quiet.refl _ _)
  | tagList => simp only [handle, C.ok.injEq, Prod.mk.injEq] at hh; rw [← hh.1]; exact Quiet.refl _ _
  | tagRead idx off size =>
    simp only [handle, hTagRead] at hh
    obtain ⟨⟨s1, r1⟩, h1, hh⟩ := C.bind_eq_ok.mp hh
    have st1 := (tagRead_quiet h1).all
    cases r1 with
    | error e => simp only [C.ok.injEq, Prod.mk.injEq] at hh; rw [← hh.1]; exact st1
    | ok d =>
      dsimp only at hh
      split at hh
      · simp at hh
      · split at hh
        · simp only [C.ok.injEq, Prod.mk.injEq] at hh; rw [← hh.1]; exact st1
        · simp only [C.ok.injEq, Prod.mk.injEq] at hh; rw [← hh.1]; exact st1
  | tagWrite idx off d =>
    simp only [handle, hTagWrite] at hh
    obtain ⟨b, hb, hh⟩ := C.bind_eq_ok.mp hh
    split at hh
    · simp only [C.ok.injEq, Prod.mk.injEq] at hh; rw [← hh.1]; exact Quiet.refl _ _
    · obtain ⟨⟨s1, r1⟩, h1, hh⟩ := C.bind_eq_ok.mp hh
      have st1 := (tagWrite_quiet h1).all
      dsimp only at hh
      split at hh
      · simp only [C.ok.injEq, Prod.mk.injEq] at hh; rw [← hh.1]; exact st1
      · obtain ⟨s2, h2, hh⟩ := C.bind_eq_ok.mp hh
        simp only [C.ok.injEq, Prod.mk.injEq] at hh; rw [← hh.1]
        exact st1.trans (mapCheck_quiet h2)
  | tagMWrite idx off d m =>
    simp only [handle, hTagMWrite] at hh
    obtain ⟨⟨a, b⟩, hb, hh⟩ := C.bind_eq_ok.mp hh
    dsimp only at hh
    split at hh
    · simp only [C.ok.injEq, Prod.mk.injEq] at hh; rw [← hh.1]; exact Quiet.refl _ _
    · obtain ⟨⟨s1, r1⟩, h1, hh⟩ := C.bind_eq_ok.mp hh
      have st1 := (tagMaskWrite_quiet h1).all
      dsimp only at hh
      split at hh
      · simp only [C.ok.injEq, Prod.mk.injEq] at hh; rw [← hh.1]; exact st1
      · obtain ⟨s2, h2, hh⟩ := C.bind_eq_ok.mp hh
        simp only [C.ok.injEq, Prod.mk.injEq] at hh; rw [← hh.1]
        exact st1.trans (mapCheck_quiet h2)
  | evAdd hd et arg =>
    simp only [handle, hEvAdd] at hh
    split at hh
    · simp only [C.ok.injEq, Prod.mk.injEq] at hh; rw [← hh.1]; exact Quiet.refl _ _
    · obtain ⟨⟨s1, r1⟩, h1, hh⟩ := C.bind_eq_ok.mp hh
      simp only [C.ok.injEq, Prod.mk.injEq] at hh; rw [← hh.1]; exact (eventAdd_quiet h1).all
  | evDel idx id =>
    simp only [handle, hEvDel] at hh
    obtain ⟨⟨s1, r1⟩, h1, hh⟩ := C.bind_eq_ok.mp hh
    simp only [C.ok.injEq, Prod.mk.injEq] at hh; rw [← hh.1]; exact (eventDel_evOnly h1).quiet
  | evGet => simp only [handle, C.ok.injEq, Prod.mk.injEq] at hh; rw [← hh.1]; exact Quiet.refl _ _
  | evOpt idx id opts =>
    simp only [handle, hEvOpt] at hh
    obtain ⟨⟨s1, r1⟩, h1, hh⟩ := C.bind_eq_ok.mp hh
    simp only [C.ok.injEq, Prod.mk.injEq] at hh; rw [← hh.1]; exact (eventOpt_evOnly h1).quiet
  | cdtCreate str => exact absurd hq (by simp [Req.quiet])
  | cdtGetType t =>
    simp only [handle, hCdtGet] at hh
    obtain ⟨o, ho, hh⟩ := C.bind_eq_ok.mp hh
    cases o with
    | none => simp only [C.ok.injEq, Prod.mk.injEq] at hh; rw [← hh.1]; exact Quiet.refl _ _
    | some str =>
      dsimp only at hh
      split at hh <;>
        (simp only [C.ok.injEq, Prod.mk.injEq] at hh; rw [← hh.1]; exact Quiet.refl _ _)
  | cdtGetName n =>
    simp only [handle, hCdtGet] at hh
    obtain ⟨o, ho, hh⟩ := C.bind_eq_ok.mp hh
    cases o with
    | none => simp only [C.ok.injEq, Prod.mk.injEq] at hh; rw [← hh.1]; exact Quiet.refl _ _
    | some str =>
      dsimp only at hh
      split at hh <;>
        (simp only [C.ok.injEq, Prod.mk.injEq] at hh; rw [← hh.1]; exact Quiet.refl _ _)
  | mapAdd a b =>
    simp only [handle] at hh
    obtain ⟨⟨s1, r1⟩, h1, hh⟩ := C.bind_eq_ok.mp hh
    simp only [C.ok.injEq, Prod.mk.injEq] at hh; rw [← hh.1]; exact (mapAdd_quiet h1).all
  | mapDel idx id =>
    simp only [handle] at hh
    obtain ⟨⟨s1, r1⟩, h1, hh⟩ := C.bind_eq_ok.mp hh
    simp only [C.ok.injEq, Prod.mk.injEq] at hh; rw [← hh.1]; exact (mapDel_quiet h1).all
  | mapGet idx id =>
    simp only [handle, hMapGet] at hh
    obtain ⟨o, ho, hh⟩ := C.bind_eq_ok.mp hh
    cases o with
    | error e => simp only [C.ok.injEq, Prod.mk.injEq] at hh; rw [← hh.1]; exact Quiet.refl _ _
    | ok p => simp only [C.ok.injEq, Prod.mk.injEq] at hh; rw [← hh.1]; exact Quiet.refl _ _
  | grpAdd hs =>
    simp only [handle, hGrpAdd] at hh
    split at hh
    · simp at hh
    · obtain ⟨⟨m1, r1⟩, h1, hh⟩ := C.bind_eq_ok.mp hh
      simp only [C.ok.injEq, Prod.mk.injEq] at hh; rw [← hh.1]
      exact updMod_quiet _ _ _ _
  | grpDel i =>
    simp only [handle, hGrpDel] at hh
    split at hh
    · simp at hh
    · obtain ⟨⟨m1, r1⟩, h1, hh⟩ := C.bind_eq_ok.mp hh
      simp only [C.ok.injEq, Prod.mk.injEq] at hh; rw [← hh.1]
      exact updMod_quiet _ _ _ _
  | grpRead i =>
    simp only [handle, hGrpRead] at hh
    split at hh
    · simp at hh
    · obtain ⟨⟨s1, r1⟩, h1, hh⟩ := C.bind_eq_ok.mp hh
      have st := (groupRead_quiet h1).all
      cases r1 <;> (simp only [C.ok.injEq, Prod.mk.injEq] at hh; rw [← hh.1]; exact st)
  | grpWrite i buf =>
    simp only [handle, hGrpWrite] at hh
    split at hh
    · simp at hh
    · obtain ⟨⟨s1, r1⟩, h1, hh⟩ := C.bind_eq_ok.mp hh
      simp only [C.ok.injEq, Prod.mk.injEq] at hh; rw [← hh.1]
      exact (groupWrite_quiet h1).all
  | grpMWrite => simp only [handle, C.ok.injEq, Prod.mk.injEq] at hh; rw [← hh.1]; exact Quiet.refl _ _
  | atomic hd op buf =>
    simp only [handle, hAtomic] at hh
    obtain ⟨b, hb, hh⟩ := C.bind_eq_ok.mp hh
    split at hh
    · simp only [C.ok.injEq, Prod.mk.injEq] at hh; rw [← hh.1]; exact Quiet.refl _ _
    · obtain ⟨⟨s1, r1⟩, h1, hh⟩ := C.bind_eq_ok.mp hh
      have st1 := (atomicOp_quiet h1).all
      dsimp only at hh
      split at hh
      · simp only [C.ok.injEq, Prod.mk.injEq] at hh; rw [← hh.1]; exact st1
      · obtain ⟨s2, h2, hh⟩ := C.bind_eq_ok.mp hh
        simp only [C.ok.injEq, Prod.mk.injEq] at hh; rw [← hh.1]
        exact st1.trans (mapCheck_quiet h2)
  | ovrAdd idx off d m =>
    simp only [handle] at hh
    obtain ⟨⟨s1, r1⟩, h1, hh⟩ := C.bind_eq_ok.mp hh
    simp only [C.ok.injEq, Prod.mk.injEq] at hh; rw [← hh.1]; exact (overrideAdd_quiet h1).all
  | ovrDel idx off m =>
    simp only [handle] at hh
    obtain ⟨⟨s1, r1⟩, h1, hh⟩ := C.bind_eq_ok.mp hh
    simp only [C.ok.injEq, Prod.mk.injEq] at hh; rw [← hh.1]; exact (overrideDel_quiet h1).all
  | ovrGet idx off size =>
    simp only [handle] at hh
    obtain ⟨o, ho, hh⟩ := C.bind_eq_ok.mp hh
    cases o with
    | error e => simp only [C.ok.injEq, Prod.mk.injEq] at hh; rw [← hh.1]; exact Quiet.refl _ _
    | ok p => simp only [C.ok.injEq, Prod.mk.injEq] at hh; rw [← hh.1]; exact Quiet.refl _ _
  | ovrSet idx flag =>
    simp only [handle] at hh
    obtain ⟨⟨s1, r1⟩, h1, hh⟩ := C.bind_eq_ok.mp hh
    simp only [C.ok.injEq, Prod.mk.injEq] at hh; rw [← hh.1]; exact (overrideSet_quiet h1).all


end Dax
