import Verif.Lemmas.Status
import Verif.Lemmas.Demo
import Verif.Props.Events
/-!
# C43: status tags of modules

Connections are file descriptors, so the number −1, which the server uses for its own accesses, is not
one of them: `NoModule s (-1)`, `fd ≠ -1`, `Op.onFd`.
-/
set_option autoImplicit false
namespace Dax

theorem TagKept.data {T : Nat} {b b' : List Byte} {A : Prop} {s : Server} {k : Nat}
    (h : ∃ t, s.db[k]? = some t ∧ TagKept T b A t) (hb : TagData s k b') :
    b'.length = b.length ∧ (∀ j, j < identityLen → b'[j]? = b[j]?) ∧ (¬ A → ∀ j, j ≠ commandByte → b'[j]? = b[j]?) := by
  obtain ⟨t, ht, hk⟩ := h
  obtain ⟨t', ht', hd⟩ := hb
  rw [ht] at ht'; cases ht'
  rcases hk with hk | ⟨-, -, -, b1, h1, h2, h3, h4⟩
  · rw [hk] at hd; simp at hd
  · rw [h1] at hd; cases hd
    exact ⟨h2, h3, h4⟩

/-- **C43**, identity part: no request of any client, of whatever kind and aimed at whatever tag, changes
the first twelve bytes of the status tag of a module. -/
theorem C43_identity {s s' : Server} {fd : Int} {q : Req} {r : Reply} {k : Nat} {b b' : List Byte} (hm : ModuleTag s k)
    (hn : NoModule s (-1)) (hfd : fd ≠ -1) (hb : TagData s k b) (hh : handle s fd q = .ok (s', r)) (hb' : TagData s' k b') :
    b'.length = b.length ∧ ∀ j, j < identityLen → b'[j]? = b[j]? :=
  have h := TagKept.data (handle_kept hm hb hn hfd hh).2 hb'
  ⟨h.1, h.2.1⟩

/-- **C43**, the rest: a request of a client changes nothing but the command byte, unless the server has the
tag on record as the client's own.  Missing from the full statement: that only one module has it on
record, which is false (`C43_shared`). -/
theorem C43_others_partial {s s' : Server} {fd : Int} {q : Req} {r : Reply} {k : Nat} {b b' : List Byte} (hm : ModuleTag s k)
    (hn : NoModule s (-1)) (hfd : fd ≠ -1) (ho : ¬ OwnTag s fd k) (hb : TagData s k b) (hh : handle s fd q = .ok (s', r))
    (hb' : TagData s' k b') : b'.length = b.length ∧ ∀ j, j ≠ commandByte → b'[j]? = b[j]? :=
  have h := TagKept.data (handle_kept hm hb hn hfd hh).2 hb'
  ⟨h.1, h.2.2 ho⟩

/-- A client that has not registered owns no status tag, nor does one whose registration made another tag. -/
theorem C43_not_own {s : Server} {fd : Int} {k i : Nat} : (NoModule s fd → ¬ OwnTag s fd k) ∧
    (StatusTag fd s i → i ≠ k → ¬ OwnTag s fd k) := by
  refine ⟨fun h ⟨m, hm, hf, _⟩ => h m hm hf, fun h hi ⟨m, hm, hf, ht⟩ => ?_⟩
  obtain ⟨hR, m', hm', ht'⟩ := h.entry
  obtain ⟨h1, h2⟩ := modByFd_some hm'
  have := hR.modsOK.inj_fd hm h1 (hf.trans h2.symm)
  subst this
  rw [ht] at ht'
  exact hi (by omega)

theorem ModuleTag.run {s s' : Server} {k : Nat} {os : List Op} (h : ModuleTag s k) (hr : Dax.run s os = .ok s') : ModuleTag s' k := by
  obtain ⟨s0, s1, fd, flags, name, r, tn, os1, hR, hh, h0, h1, hrun⟩ := h
  exact ⟨s0, s1, fd, flags, name, r, tn, os1 ++ os, hR, hh, h0, h1, run_append.mpr ⟨s, hrun, hr⟩⟩

theorem freed_stays {s s' : Server} {k : Nat} {os : List Op} {t : Tag} {b : List Byte} (hR : Reachable s) (hr : run s os = .ok s')
    (ht : s.db[k]? = some t) (hf : t.data = .freed) : ¬ TagData s' k b := by
  have p := run_path hR.modsOK hr
  obtain ⟨t', ht', hf'⟩ := p.tag_inv (J := fun t => t.data = .freed) (fun s t t' h hm => by
    cases hm with
    | grow hd hc hf' => rw [h] at hd; simp [reallocStore] at hd
    | _ => simp_all) ht hf
  rintro ⟨t2, h2, h3⟩
  rw [ht'] at h2; cases h2
  rw [hf'] at h3; simp at h3

/-- **C43**, identity part over histories: as long as the tag exists its first twelve bytes stay what they
are, whatever clients do, connect and disconnect. -/
theorem C43_history {os : List Op} : ∀ {s s' : Server} {k : Nat} {b b' : List Byte}, ModuleTag s k → NoModule s (-1) →
    (∀ o ∈ os, o.onFd) → TagData s k b → run s os = .ok s' → TagData s' k b' →
    b'.length = b.length ∧ ∀ j, j < identityLen → b'[j]? = b[j]? := by
  induction os with
  | nil =>
    intro s s' k b b' _ _ _ hb hr hb'
    simp only [run, C.ok.injEq] at hr
    subst hr
    obtain ⟨t, h1, h2⟩ := hb
    obtain ⟨t', h1', h2'⟩ := hb'
    rw [h1] at h1'; cases h1'
    rw [h2] at h2'; cases h2'
    exact ⟨rfl, fun _ _ => rfl⟩
  | cons o os ih =>
    intro s s' k b b' hm hn ho hb hr hb'
    simp only [run] at hr
    obtain ⟨s1, h1, hr⟩ := C.bind_eq_ok.mp hr
    have hm1 : ModuleTag s1 k := hm.run (os := [o]) (by simp only [run]; rw [h1]; rfl)
    have key : NoModule s1 (-1) → (∃ A, ∃ t, s1.db[k]? = some t ∧ TagKept s.modType b A t) →
        b'.length = b.length ∧ ∀ j, j < identityLen → b'[j]? = b[j]? := by
      rintro hn1 ⟨A, t, ht, hk⟩
      have hk' := hk
      rcases hk with hk | ⟨-, -, -, b1, hd, -⟩
      · exact absurd hb' (freed_stays hm1.status.1 hr ht hk)
      · have e1 := TagKept.data ⟨t, ht, hk'⟩ ⟨t, ht, hd⟩
        have e2 := ih hm1 hn1 (fun o h => ho o (List.mem_cons_of_mem _ h)) ⟨t, ht, hd⟩ hr hb'
        exact ⟨e2.1.trans e1.1, fun j hj => (e2.2 j hj).trans (e1.2.1 j hj)⟩
    have ho1 := ho o (List.mem_cons_self ..)
    cases o with
    | req fd q =>
      simp only [step] at h1
      obtain ⟨⟨s2, r⟩, h2, h1⟩ := C.bind_eq_ok.mp h1
      simp only [C.ok.injEq] at h1
      subst h1
      obtain ⟨a, b⟩ := handle_kept hm hb hn ho1 h2
      exact key a ⟨_, b⟩
    | close fd =>
      obtain ⟨a, b⟩ := close_kept hm hb hn h1
      exact key a ⟨_, b⟩
    | env e =>
      simp only [step, C.ok.injEq] at h1
      subst h1
      exact key hn ⟨True, (kept_start (fl := fun _ => true) hm hb hn (A := True) (fun _ _ _ _ => trivial)).tag⟩

/-- The registration of module "modA" on connection 5 made tag 11. -/
theorem demo_moduleTag (os : List Op) (h : (run init0 (.env {} :: (demoOps ++ os))).isOk = true) : ModuleTag (demo (demoOps ++ os)) 11 := by
  have h0 : handle (demo []) 5 (.modReg 1 (nm "modA")) = .ok (demo [.req 5 (.modReg 1 (nm "modA"))],
      .resp ([0, 0, 0, 0] ++ regTestBytes ++ [0])) := demo_handle (os := []) (by decide +kernel) (by decide +kernel)
  refine ⟨demo [], demo [.req 5 (.modReg 1 (nm "modA"))], 5, 1, nm "modA", _, nm "_mmodA", demoOps.drop 1 ++ os, demo_reachable (by decide +kernel),
    h0, by decide +kernel, by decide +kernel, ?_⟩
  exact demo_run (os := [.req 5 (.modReg 1 (nm "modA"))]) (os' := demoOps.drop 1 ++ os) h

theorem noModule_of {s : Server} {fd : Int} (h : s.mods.all (fun m => decide (m.fd ≠ fd)) = true) : NoModule s fd := by
  intro m hm
  simpa using List.all_eq_true.mp h m hm

theorem ownTag_of {s : Server} {fd : Int} {k : Nat} (h : s.mods.any (fun m => decide (m.fd = fd ∧ m.tagindex = k)) = true) : OwnTag s fd k := by
  obtain ⟨m, hm, h⟩ := List.any_eq_true.mp h
  rw [decide_eq_true_eq] at h
  exact ⟨m, hm, h⟩

/-- Byte `j` of tag `k`. -/
def byteOf (s : Server) (k j : Nat) : Option Byte := match s.db[k]? with
  | some t => match t.data with
    | .mem b => b[j]?
    | _ => none
  | none => none

theorem byteOf_some {s : Server} {k j : Nat} {x : Byte} (h : byteOf s k j = some x) : ∃ b, TagData s k b ∧ b[j]? = some x := by
  unfold byteOf at h
  split at h
  · rename_i t ht
    split at h
    · rename_i b hb; exact ⟨b, ⟨t, ht, hb⟩, h⟩
    · simp at h
  · simp at h

/-- The requests of connection 9, which has no module, to the status tag of "modA": the command byte is
accepted, the rest refused. -/
example : ModuleTag (demo (demoOps ++ [])) 11 ∧ NoModule (demo (demoOps ++ [])) (-1) ∧ ¬ OwnTag (demo (demoOps ++ [])) 9 11 ∧
    (∃ b, TagData (demo (demoOps ++ [])) 11 b ∧ b[commandByte]? = some 0) ∧
    handle (demo (demoOps ++ [])) 9 (.tagWrite 11 77 [1]) = .ok (demo ((demoOps ++ []) ++ [.req 9 (.tagWrite 11 77 [1])]), .resp []) ∧
    (∃ b, TagData (demo ((demoOps ++ []) ++ [.req 9 (.tagWrite 11 77 [1])])) 11 b ∧ b[commandByte]? = some 1) ∧
    replyOf (handle (demo (demoOps ++ [])) 9 (.tagWrite 11 76 [1])) = some (.err ERR_NOTFOUND) ∧
    replyOf (handle (demo (demoOps ++ [])) 6 (.tagMWrite 11 76 [1, 1] [1, 1])) = some (.err ERR_READONLY) ∧
    replyOf (handle (demo (demoOps ++ [])) 5 (.tagWrite 11 11 [1])) = some (.err ERR_READONLY) ∧
    replyOf (handle (demo (demoOps ++ [])) 5 (.tagWrite 11 12 [1])) = some (.resp []) := by
  refine ⟨demo_moduleTag [] (by decide +kernel), noModule_of (by decide +kernel), (C43_not_own (i := 0)).1 (noModule_of (by decide +kernel)),
    byteOf_some (by decide +kernel), demo_handle (by decide +kernel) (by decide +kernel), byteOf_some (by decide +kernel), ?_, ?_, ?_, ?_⟩ <;> decide +kernel

/-- Modules "A", "A000" and again "A": the third gets the name `_mA000`, which exists. -/
def sharedOps : List Op := [.req 5 (.modReg 1 (nm "A")), .req 6 (.modReg 1 (nm "A000")), .req 7 (.modReg 1 (nm "A"))]

/-- **C43** fails: the status tag made by the registration of one module (connection 6) is also that of a
module that registered later (connection 7), which can change it beyond the command byte. -/
theorem C43_shared : ∃ s s' b b', StatusTag 6 s 12 ∧ handle s 7 (.tagWrite 12 13 [65]) = .ok (s', .resp []) ∧
    TagData s 12 b ∧ TagData s' 12 b' ∧ b[13]? = some 0 ∧ b'[13]? = some 65 := by
  obtain ⟨r, hr⟩ : ∃ r, replyOf (handle (demo [.req 5 (.modReg 1 (nm "A"))]) 6 (.modReg 1 (nm "A000"))) = some r :=
    Option.isSome_iff_exists.mp (by decide +kernel)
  obtain ⟨b, hb, h1⟩ := byteOf_some (s := demo sharedOps) (k := 12) (j := 13) (x := 0) (by decide +kernel)
  obtain ⟨b', hb', h2⟩ := byteOf_some (s := demo (sharedOps ++ [.req 7 (.tagWrite 12 13 [65])])) (k := 12) (j := 13) (x := 65) (by decide +kernel)
  refine ⟨demo sharedOps, _, b, b', ?_, demo_handle (by decide +kernel) (by decide +kernel), hb, hb', h1, h2⟩
  refine ⟨demo [.req 5 (.modReg 1 (nm "A"))], demo ([.req 5 (.modReg 1 (nm "A"))] ++ [.req 6 (.modReg 1 (nm "A000"))]), 1, nm "A000", r, nm "_mA000",
    [.req 7 (.modReg 1 (nm "A"))], demo_reachable (by decide +kernel), demo_handle (by decide +kernel) hr, by decide +kernel, by decide +kernel, ?_,
    demo_run (os' := [.req 7 (.modReg 1 (nm "A"))]) (by decide +kernel)⟩
  intro o ho
  simp only [List.mem_singleton] at ho
  subst ho
  exact fun h => absurd (show (7 : Int) = 6 from h) (by decide)

end Dax
