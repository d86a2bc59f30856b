import Verif.Lemmas.Leave
import Verif.Lemmas.Demo
/-!
# C12: tags of a module that disconnects
-/
set_option autoImplicit false
namespace Dax

/-- **C12** When a module disconnects, its status tag is gone. -/
theorem C12_status {s s' : Server} {fd : Int} {k : Nat} (h : StatusTag fd s k)
    (hc : step s (.close fd) = .ok s') : DeadAt s' k := by
  obtain ⟨hR, m, hm, hi⟩ := h.entry
  have hw := hR.wf
  have hw' := (moduleUnregister_step hw hc).wf
  obtain ⟨_, s1, _, _, _, tn, os, hR0, hh, -, h1, -, hrun⟩ := h
  have hw1 := (hR0.handle hh).wf
  obtain ⟨t1, ht1, -⟩ := hw1.ent _ ((lookup_mem hw1).mp h1)
  obtain ⟨t, ht, -⟩ := (run_step hw1 hrun).ev.tag k t1 ht1
  exact (deadAt_iff hw').mpr ((unregister_tags hw hm hc ht).1 (.inl hi.symm))

/-- **C12** When a module disconnects, the tags it created are gone if they are owned (attribute
0x0020). -/
theorem C12_owned {s s' : Server} {fd : Int} {k a kst : Nat} (hs : StatusTag fd s kst)
    (hk : MadeOn fd s k) (ha : AttrAt s k a) (ho : a.testBit 5 = true)
    (hc : step s (.close fd) = .ok s') : DeadAt s' k := by
  obtain ⟨hR, m, hm, -⟩ := hs.entry
  have hw := hR.wf
  have hw' := (moduleUnregister_step hw hc).wf
  obtain ⟨t, ht, hfd⟩ := hk.entry
  obtain ⟨t', ht', -, hb⟩ := (attrAt_iff hw).mp ha
  rw [ht] at ht'; cases ht'
  have : t.attr.owned = true := by rw [← Attr.bit5, hb]; exact ho
  exact (deadAt_iff hw').mpr ((unregister_tags hw hm hc ht).1 (.inr ⟨this, hfd⟩))

/-- **C12** Every other tag stays: it has the same name, type and count, and every read of it is
answered as before.  (Other: not the status tag, and not owned or made on another connection;
`_tagcount` and `_deletedtag`, tags 0 and 3, are where the server reports the deletions, and the
reads of virtual tags do not report stored data.) -/
theorem C12_others_partial {s s' : Server} {fd : Int} {k a kst : Nat} (hs : StatusTag fd s kst)
    (hne : k ≠ kst) (h0 : k ≠ 0) (h3 : k ≠ 3) (ha : AttrAt s k a) (hv : a.testBit 1 = false)
    (ho : a.testBit 5 = false ∨ ∃ fd', fd' ≠ fd ∧ MadeOn fd' s k)
    (hc : step s (.close fd) = .ok s') :
    (∀ name type count, LiveTag s k name type count → LiveTag s' k name type count) ∧
    (∀ fd' off n r, Answers s fd' (.tagRead k off n) r → Answers s' fd' (.tagRead k off n) r) := by
  obtain ⟨hR, m, hm, hi⟩ := hs.entry
  have hw := hR.wf
  have st := moduleUnregister_step hw hc
  obtain ⟨t, ht, hn, hb⟩ := (attrAt_iff hw).mp ha
  have hno : t.attr.owned = true → t.fd ≠ fd := by
    intro h1
    rcases ho with ho | ⟨fd', hne, hmade⟩
    · rw [← hb, Attr.bit5, h1] at ho; simp at ho
    · obtain ⟨t', ht', hf⟩ := hmade.entry
      rw [ht] at ht'; cases ht'
      rw [hf]; exact hne
  obtain ⟨evs, b, ht'⟩ := (unregister_tags hw hm hc ht).2 (by omega) hno h0 h3
  refine ⟨fun name type count hl => ?_, fun fd' off n r hr => ?_⟩
  · obtain ⟨t1, ht1, h1, h2, h3⟩ := (liveTag_iff hw).mp hl
    rw [ht] at ht1; cases ht1
    exact (liveTag_iff st.wf).mpr ⟨_, ht', h1, h2, h3⟩
  · exact read_same ht ht' ⟨rfl, rfl, rfl, rfl, rfl, rfl, rfl⟩ (by rw [← Attr.bit1, hb]; exact hv)
      (hw.tag k t ht).chk.1 st.ev.cdts (moduleUnregister_env hc) hr

/-- A module registers on connection 9 (status tag 16), creates the owned tag `Mine` (17) and `Ours`
(18), which is not owned. -/
def leaveOps : List Op := demoOps ++ [.req 9 (.modReg 1 (nm "modC"))] ++
  [.req 9 (.tagAdd DAX_INT 2 0x20 (nm "Mine"))] ++ [.req 9 (.tagAdd DAX_INT 2 0 (nm "Ours"))]

theorem leaveOps_status : StatusTag 9 (demo leaveOps) 16 := by
  obtain ⟨r, hr⟩ : ∃ r, replyOf (handle (demo demoOps) 9 (.modReg 1 (nm "modC"))) = some r :=
    Option.isSome_iff_exists.mp (by decide +kernel)
  refine ⟨demo demoOps, demo (demoOps ++ [.req 9 (.modReg 1 (nm "modC"))]), 1, nm "modC", r, nm "_mmodC", _,
    demoOps_reachable, demo_handle (by decide +kernel) hr, by decide +kernel, by decide +kernel, ?_,
    demo_run (os' := [.req 9 (.tagAdd DAX_INT 2 0x20 (nm "Mine"))] ++ [.req 9 (.tagAdd DAX_INT 2 0 (nm "Ours"))])
      (by decide +kernel)⟩
  intro o ho
  simp only [List.mem_append, List.mem_singleton] at ho
  rcases ho with rfl | rfl <;> exact fun h => h.elim

example : StatusTag 9 (demo leaveOps) 16 ∧ MadeOn 9 (demo leaveOps) 17 ∧
    AttrAt (demo leaveOps) 17 0x20 ∧ AttrAt (demo leaveOps) 18 0 ∧
    ∃ s', step (demo leaveOps) (.close 9) = .ok s' := by
  refine ⟨leaveOps_status, ?_, ⟨by decide, nm "Mine", DAX_INT, 2, fun fd => by kernel_rfl⟩,
    ⟨by decide, nm "Ours", DAX_INT, 2, fun fd => by kernel_rfl⟩, C.isOk_iff.mp (by decide +kernel)⟩
  exact ⟨demo (demoOps ++ [.req 9 (.modReg 1 (nm "modC"))]), _, DAX_INT, 2, 0x20, nm "Mine", le4 17, _,
    demo_reachable (by decide +kernel), by decide +kernel,
    demo_handle (by decide +kernel) (by decide +kernel), by decide +kernel,
    demo_run (os' := [.req 9 (.tagAdd DAX_INT 2 0 (nm "Ours"))]) (by decide +kernel)⟩

/-- An environment in which the module name `modX` is excluded from having a status tag. -/
def exclEnv : Env := { exclude := [nm "modX"] }

/-- **C12 fails for modules without a status tag**: when a module whose name is in the exclusion
list of the configuration disconnects, the system tag `_tagcount` disappears. -/
theorem C12_excluded : Reachable (demo [.req 5 (.modReg 1 (nm "modX"))] exclEnv) ∧
    lookup (demo [.req 5 (.modReg 1 (nm "modX"))] exclEnv) (nm "_tagcount") = some 0 ∧
    ∃ s', step (demo [.req 5 (.modReg 1 (nm "modX"))] exclEnv) (.close 5) = .ok s' ∧
      lookup s' (nm "_tagcount") = none := by
  refine ⟨demo_reachable (by decide +kernel), by decide +kernel, ?_⟩
  have h : (match step (demo [.req 5 (.modReg 1 (nm "modX"))] exclEnv) (.close 5) with
    | .ok s' => decide (lookup s' (nm "_tagcount") = none) | .ub _ => false) = true := by decide +kernel
  split at h
  · rename_i s' hs
    exact ⟨s', hs, by simpa using h⟩
  · simp at h

end Dax
