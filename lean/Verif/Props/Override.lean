import Verif.Lemmas.OvrOps
import Verif.Lemmas.Demo
import Verif.Spec.Override
/-!
# C14–C16: overrides
-/
set_option autoImplicit false
namespace Dax

/-- Value and mask of a byte of the override are in its block, or the override was removed. -/
def KnownByte (s : Server) (t : Tag) (g : Bool) (p : Nat) (v m : Byte) : Prop :=
  (∃ od om, t.ovr = some (od, om) ∧ od[p]? = some v ∧ om[p]? = some m ∧
    (m ≠ 0 → ∀ n, ovrSize s.cdts t = .ok n → (p : Int) < n)) ∨
  (t.ovr = none ∧ t.attr.ovrSet = false ∧ g = true ∧ m = 0)

/-- The view on the level of the representation, for the tags in `K`. -/
structure RepView (K : Nat → Prop) (X : OvrView) (s : Server) : Prop where
  wf : WF s
  mem : RepAgreesOn (fun i _ => K i) X.mem s
  maps : RepNoMaps s
  tag : ∀ i, K i → ∃ t b, s.db[i]? = some t ∧ t.name ≠ none ∧ t.attr.virt = false ∧
    t.data = .mem b ∧ (∀ f, X.on i = some f → t.attr.ovrSet = f) ∧
    ∀ p v m, X.val i p = some (v, m) → KnownByte s t (X.gone i) p v m

/-- Nothing but data and events of the tags changes. -/
def DataOnly (s s' : Server) : Prop := ∀ (i : Nat) (t : Tag), s.db[i]? = some t →
  ∃ d evs, s'.db[i]? = some { t with data := d, events := evs }

theorem DataOnly.refl (s : Server) : DataOnly s s := fun _ t h => ⟨t.data, t.events, h⟩

theorem dataOnly_set {s s' : Server} {i : Nat} {t : Tag} {d : Store} {evs : List Ev} (ht : s.db[i]? = some t)
    (h : s'.db = s.db.set i { t with data := d, events := evs }) : DataOnly s s' := by
  intro j u hu
  by_cases hij : i = j
  · subst hij
    rw [ht] at hu; cases hu
    refine ⟨d, evs, ?_⟩
    rw [h, List.getElem?_set_self (List.getElem?_eq_some_iff.mp ht).1]
  · exact ⟨u.data, u.events, by rw [h, List.getElem?_set_ne hij]; exact hu⟩

theorem read_state {s s' : Server} {idx fd off n : Int} {r : Reply}
    (hh : handle s fd (.tagRead idx off n) = .ok (s', r)) : ∃ x, tagRead s fd idx off n = .ok (s', x) := by
  simp only [handle, hTagRead] at hh
  obtain ⟨⟨s1, r1⟩, h1, hh⟩ := C.bind_eq_ok.mp hh
  have hs : s' = s1 := by
    cases r1 with
    | error e => simp only [C.ok.injEq, Prod.mk.injEq] at hh; exact hh.1.symm
    | ok d =>
      dsimp only at hh
      split at hh
      · simp at hh
      · split at hh <;> (simp only [C.ok.injEq, Prod.mk.injEq] at hh; exact hh.1.symm)
  exact ⟨r1, by rw [hs]; exact h1⟩

theorem data_only {s s' : Server} {fd : Int} {q : Req} {r : Reply} (hq : q.isData) (hm : RepNoMaps s)
    (hh : handle s fd q = .ok (s', r)) : DataOnly s s' := by
  cases q with
  | tagRead idx off n =>
    obtain ⟨x, hx⟩ := read_state hh
    rcases tagRead_inv hx with rfl | ⟨t, q, q', b, ht, hv, hq, -, rfl, -⟩
    · exact .refl _
    · exact dataOnly_set (tag?_eq.mp ht).2 (d := .queue q') (evs := t.events) rfl
  | tagWrite idx off d =>
    by_cases h0 : 0 ≤ idx
    · obtain ⟨i, rfl⟩ := Int.eq_ofNat_of_zero_le h0
      rcases write_inv (hm i) hh with ⟨rfl, e, rfl⟩ | ⟨rfl, hd | hd⟩
      · exact .refl _
      · obtain ⟨t, b, b', evs, ns, rt, ht, -, -, -, -, rfl⟩ := hd.ex
        exact dataOnly_set (tag?_eq.mp ht).2 (d := .mem b') (evs := evs) rfl
      · obtain ⟨t, q, q', evs, ns, ht, -, -, -, -, rfl⟩ := hd
        exact dataOnly_set (tag?_eq.mp ht).2 (d := .queue q') (evs := evs) rfl
    · simp only [handle, hTagWrite, roForeign, rawAttr] at hh
      rw [if_pos (.inl (by omega))] at hh
      simp at hh
  | tagMWrite idx off d m =>
    by_cases h0 : 0 ≤ idx
    · obtain ⟨i, rfl⟩ := Int.eq_ofNat_of_zero_le h0
      rcases mwrite_inv (hm i) hh with ⟨rfl, e, rfl⟩ | ⟨rfl, t0, b0, old, ht0, hb0, hold, hd⟩
      · exact .refl _
      · obtain ⟨t, b, b', evs, ns, rt, ht, -, -, -, -, rfl⟩ := hd.ex
        exact dataOnly_set (tag?_eq.mp ht).2 (d := .mem b') (evs := evs) rfl
    · simp only [handle, hTagMWrite, rawAttr] at hh
      rw [if_pos (.inl (by omega))] at hh
      simp at hh
  | _ => simp [Req.isData] at hq

theorem data_cdts {s s' : Server} {fd : Int} {q : Req} {r : Reply} (hq : q.isData) (hm : RepNoMaps s)
    (hh : handle s fd q = .ok (s', r)) : s'.cdts = s.cdts := by
  cases q with
  | tagRead idx off n =>
    obtain ⟨x, hx⟩ := read_state hh
    rcases tagRead_inv hx with rfl | ⟨t, q, q', b, ht, hv, hq, -, rfl, -⟩ <;> rfl
  | tagWrite idx off d =>
    by_cases h0 : 0 ≤ idx
    · obtain ⟨i, rfl⟩ := Int.eq_ofNat_of_zero_le h0
      rcases write_inv (hm i) hh with ⟨rfl, e, rfl⟩ | ⟨rfl, hd | hd⟩
      · rfl
      · obtain ⟨t, b, b', evs, ns, rt, ht, -, -, -, -, rfl⟩ := hd.ex
        rfl
      · obtain ⟨t, q, q', evs, ns, ht, -, -, -, -, rfl⟩ := hd
        rfl
    · simp only [handle, hTagWrite, roForeign, rawAttr] at hh
      rw [if_pos (.inl (by omega))] at hh
      simp at hh
  | tagMWrite idx off d m =>
    by_cases h0 : 0 ≤ idx
    · obtain ⟨i, rfl⟩ := Int.eq_ofNat_of_zero_le h0
      rcases mwrite_inv (hm i) hh with ⟨rfl, e, rfl⟩ | ⟨rfl, t0, b0, old, ht0, hb0, hold, hd⟩
      · rfl
      · obtain ⟨t, b, b', evs, ns, rt, ht, -, -, -, -, rfl⟩ := hd.ex
        rfl
    · simp only [handle, hTagMWrite, rawAttr] at hh
      rw [if_pos (.inl (by omega))] at hh
      simp at hh
  | _ => simp [Req.isData] at hq

theorem repView_data {K : Nat → Prop} {X : OvrView} {s s' : Server} {fd : Int} {q : Req} {r : Reply}
    (h : RepView K X s) (hq : q.isData) (hh : handle s fd q = .ok (s', r)) :
    RepView K (X.see (q, r)) s' := by
  obtain ⟨h1, h2⟩ := data_step hq h.mem h.maps hh
  have hsee : X.see (q, r) = { X with mem := remember X.mem (q, r) } := by
    cases q <;> simp only [Req.isData] at hq <;> rfl
  have hd := data_only hq h.maps hh
  have hw' := (handle_step h.wf hh).wf
  rw [hsee]
  refine ⟨hw', h1, h2, fun i hi => ?_⟩
  obtain ⟨t, b, ht, hn, hv, hb, ho, hval⟩ := h.tag i hi
  obtain ⟨d, evs, ht'⟩ := hd i t ht
  have : ∃ b', d = .mem b' := by
    rcases (hw'.tag i _ ht').virt hv with hf | hf
    · exact absurd ((hw'.tag i _ ht').name.mpr hf) hn
    · exact hf
  obtain ⟨b', rfl⟩ := this
  refine ⟨_, b', ht', hn, hv, rfl, ho, fun p v m hX => ?_⟩
  have := hval p v m hX
  unfold KnownByte at this ⊢
  rw [data_cdts hq h.maps hh]
  exact this

/-- Changes that leave the data of the tags in `K` alone. -/
theorem RepView.ovr {K : Nat → Prop} {X X' : OvrView} {s s' : Server} (h : RepView K X s)
    (hw : WF s') (hc : s'.cdts = s.cdts) (hmaps : SameMaps s s')
    (hname : ∀ (i : Nat) (t t' : Tag), s.db[i]? = some t → s'.db[i]? = some t' → t'.name = t.name)
    (hX : X'.mem = X.mem)
    (htag : ∀ i, K i → ∀ t, s.db[i]? = some t → ∃ o a, s'.db[i]? = some { t with ovr := o, attr := a } ∧
      a.virt = t.attr.virt ∧
      ((∀ f, X.on i = some f → t.attr.ovrSet = f) → ∀ f, X'.on i = some f → a.ovrSet = f) ∧
      ((∀ p v m, X.val i p = some (v, m) → KnownByte s t (X.gone i) p v m) →
        ∀ p v m, X'.val i p = some (v, m) → KnownByte s { t with ovr := o, attr := a } (X'.gone i) p v m)) :
    RepView K X' s' := by
  refine ⟨hw, ?_, ?_, ?_⟩
  · intro i t' b P sz hsz k hk h1 h2
    obtain ⟨t, b0, ht, hn, hv, hb, -⟩ := h.tag i P.ovr
    obtain ⟨o, a, ht', ha, -⟩ := htag i P.ovr t ht
    rw [P.db] at ht'; cases ht'
    rw [hX]
    refine h.mem i t b ⟨ht, hn, hv, P.ovr, P.data⟩ sz ?_ k hk h1 h2
    rw [hc] at hsz; exact hsz
  · intro i t' ht' hf
    obtain ⟨t, ht, e1, e2⟩ := hmaps i t' ht'
    have hn := hname i t t' ht ht'
    have := h.maps i t ht (fun hf' => hf ?_)
    · rw [e1, e2]; exact this
    · exact (hw.tag i t' ht').name.mp (by rw [hn]; exact (h.wf.tag i t ht).name.mpr hf')
  · intro i hi
    obtain ⟨t, b, ht, hn, hv, hb, ho, hval⟩ := h.tag i hi
    obtain ⟨o, a, ht', ha, hs, hv'⟩ := htag i hi t ht
    refine ⟨_, b, ht', hn, by rw [← hv]; exact ha, hb, hs ho, fun p v m hX => ?_⟩
    have := hv' hval p v m hX
    unfold KnownByte at this ⊢
    rw [hc]; exact this

theorem ovrAlloc_some {e : Env} {t : Tag} {n : Int} {k : Nat} {o o' : List Byte × List Byte}
    (h : ovrAlloc e t n k = .ok o) (ho : t.ovr = some o') : o = o' := by
  unfold ovrAlloc at h
  rw [ho] at h
  simpa using h.symm

theorem base_known {X : OvrView} {s : Server} {t : Tag} {i p : Nat} {v w : Byte}
    (hval : ∀ p v m, X.val i p = some (v, m) → KnownByte s t (X.gone i) p v m)
    (h : X.base i p = some (v, w)) :
    ∃ od om, t.ovr = some (od, om) ∧ od[p]? = some v ∧ om[p]? = some w ∧
      (w ≠ 0 → ∀ n, ovrSize s.cdts t = .ok n → (p : Int) < n) := by
  unfold OvrView.base at h
  split at h
  · simp at h
  · rename_i hg
    rcases hval p v w h with h | ⟨-, -, h, -⟩
    · exact h
    · exact absurd h hg

theorem forget_known {X : OvrView} {s : Server} {t : Tag} {i p : Nat} {v w : Byte} {idx off e : Int} {d m : List Byte}
    (hval : ∀ p v m, X.val i p = some (v, m) → KnownByte s t (X.gone i) p v m)
    (h : (X.see (.ovrAdd idx off d m, .err e)).val i p = some (v, w)) :
    KnownByte s t ((X.see (.ovrAdd idx off d m, .err e)).gone i) p v w := by
  simp only [OvrView.see] at h ⊢
  by_cases hi : i = idx.toNat
  · simp only [hi, if_true] at h ⊢
    rw [← hi] at h
    exact .inl (base_known hval h)
  · simp only [hi, if_false] at h ⊢
    exact hval p v w h

theorem repView_add {K : Nat → Prop} {X : OvrView} {s s' : Server} {fd idx off : Int} {d m : List Byte}
    {r : Reply} (h : RepView K X s) (hK : ¬ K 7) (hl : m.length = d.length)
    (hh : handle s fd (.ovrAdd idx off d m) = .ok (s', r)) :
    RepView K (X.see (.ovrAdd idx off d m, r)) s' := by
  have hw' := (handle_step h.wf hh).wf
  simp only [handle] at hh
  obtain ⟨⟨s1, r1⟩, h1, hh⟩ := C.bind_eq_ok.mp hh
  simp only [C.ok.injEq, Prod.mk.injEq] at hh
  obtain ⟨rfl, rfl⟩ := hh
  have hq := overrideAdd_quiet h1
  have hname : ∀ (i : Nat) (t t' : Tag), s.db[i]? = some t → s1.db[i]? = some t' → t'.name = t.name := by
    intro i t t' ht ht'
    obtain ⟨u, hu, sh, -⟩ := hq.tag i t ht
    rw [ht'] at hu; cases hu; exact sh.name
  rcases overrideAdd_inv h1 with ⟨rfl, hr⟩ | ⟨t, ht, hf, ⟨rfl, hd⟩ | ⟨hr, n, od, om, hn, ho, -, hs1⟩⟩
  · have hsee : X.see (.ovrAdd idx off d m, okOrErr r1) = X.see (.ovrAdd idx off d m, .err r1) := by
      unfold okOrErr; rw [if_pos hr]
    rw [hsee]
    refine h.ovr h.wf rfl (.refl _) hname rfl ?_
    intro i hi u hu
    refine ⟨u.ovr, u.attr, hu, rfl, fun h => h, fun hval p v w hX => ?_⟩
    exact forget_known hval hX
  · have hsee : X.see (.ovrAdd idx off d m, okOrErr 0) = X.see (.ovrAdd idx off d m, .resp []) := rfl
    rw [hsee]
    refine h.ovr hw' hq.cdts (hd.maps ht) hname rfl ?_
    intro i hi u hu
    have hi7 : i ≠ 7 := by rintro rfl; exact hK hi
    by_cases hidx : i = idx.toNat
    · subst hidx
      rw [(tag?_eq.mp ht).2] at hu; cases hu
      obtain ⟨n, od, om, od', om', hn, ho, hle, hod, hom, he⟩ := hd.entry ht hi7
      refine ⟨_, _, he, rfl, fun h => h, ?_⟩
      intro hval p v w hX
      simp only [OvrView.see, if_true] at hX
      have hoff := (wr_ok.mp hod).1
      have hold : ∀ p v w, X.base idx.toNat p = some (v, w) → od[p]? = some v ∧ om[p]? = some w ∧
          (w ≠ 0 → (p : Int) < n) := by
        intro p v w hX
        obtain ⟨od0, om0, e0, e1, e2, e3⟩ := base_known hval hX
        have := ovrAlloc_some ho e0
        cases this
        exact ⟨e1, e2, fun h0 => e3 h0 n hn⟩
      left
      refine ⟨od', om', rfl, ?_⟩
      rw [wr_get hod, wr_get hom]
      unfold putAt at hX
      split at hX
      · rename_i hp
        split at hX
        · rename_i x y hx hy
          cases hX
          have hlt := (List.getElem?_eq_some_iff.mp hx).1
          rw [if_pos (by omega), if_pos (by omega)]
          refine ⟨hx, hy, fun _ n' hn' => ?_⟩
          have hn' : ovrSize s.cdts t = .ok n' := hn'
          rw [hn] at hn'; cases hn'
          omega
        · rename_i hno
          have hge : ¬ (p - off.toNat < d.length) := by
            intro hlt
            exact hno _ _ (List.getElem?_eq_getElem hlt) (List.getElem?_eq_getElem (by omega))
          rw [if_neg (by omega), if_neg (by omega)]
          obtain ⟨e1, e2, e3⟩ := hold p v w hX
          refine ⟨e1, e2, fun h0 n' hn' => ?_⟩
          have hn' : ovrSize s.cdts t = .ok n' := hn'
          rw [hn] at hn'; cases hn'
          exact e3 h0
      · rename_i hp
        rw [if_neg (by omega), if_neg (by omega)]
        obtain ⟨e1, e2, e3⟩ := hold p v w hX
        refine ⟨e1, e2, fun h0 n' hn' => ?_⟩
        have hn' : ovrSize s.cdts t = .ok n' := hn'
        rw [hn] at hn'; cases hn'
        exact e3 h0
    · refine ⟨u.ovr, u.attr, ?_, rfl, fun h => h, ?_⟩
      · rw [hq.same (by rintro (h | h) <;> omega)]; exact hu
      · intro hval p v w hX
        simp only [OvrView.see, hidx, if_false] at hX ⊢
        exact hval p v w hX
  · have hsee : X.see (.ovrAdd idx off d m, okOrErr r1) = X.see (.ovrAdd idx off d m, .err r1) := by
      unfold okOrErr; rw [if_pos hr]
    rw [hsee]
    subst hs1
    refine h.ovr hw' hq.cdts (sameMaps_set ht (t' := { t with ovr := some (od, om) }) rfl rfl rfl) hname rfl ?_
    intro i hi u hu
    by_cases hidx : i = idx.toNat
    · subst hidx
      rw [(tag?_eq.mp ht).2] at hu; cases hu
      refine ⟨some (od, om), t.attr, setTag_get ht, rfl, fun h => h, ?_⟩
      intro hval p v w hX
      simp only [OvrView.see, if_true] at hX
      obtain ⟨od0, om0, e0, e1, e2, e3⟩ := base_known hval hX
      have := ovrAlloc_some ho e0
      cases this
      exact .inl ⟨_, _, rfl, e1, e2, e3⟩
    · refine ⟨u.ovr, u.attr, ?_, rfl, fun h => h, fun hval p v w hX => forget_known hval hX⟩
      show (s.db.set idx.toNat _)[i]? = _
      rw [List.getElem?_set_ne (fun h => hidx h.symm)]; exact hu

theorem repView_set {K : Nat → Prop} {X : OvrView} {s s' : Server} {fd idx : Int} {f : Bool}
    {r : Reply} (h : RepView K X s) (hK : ¬ K 8)
    (hh : handle s fd (.ovrSet idx f) = .ok (s', r)) :
    RepView K (X.see (.ovrSet idx f, r)) s' := by
  have hw' := (handle_step h.wf hh).wf
  simp only [handle] at hh
  obtain ⟨⟨s1, r1⟩, h1, hh⟩ := C.bind_eq_ok.mp hh
  simp only [C.ok.injEq, Prod.mk.injEq] at hh
  obtain ⟨rfl, rfl⟩ := hh
  have hq := overrideSet_quiet h1
  have hname : ∀ (i : Nat) (t t' : Tag), s.db[i]? = some t → s1.db[i]? = some t' → t'.name = t.name := by
    intro i t t' ht ht'
    obtain ⟨u, hu, sh, -⟩ := hq.tag i t ht
    rw [ht'] at hu; cases hu; exact sh.name
  rcases overrideSet_inv h1 with ⟨rfl, hr | ⟨rfl, t, ht, -, ho⟩⟩ | ⟨t, s3, t3, rfl, ht, -, hno, hon, hst, ht3, hs1⟩
  · unfold okOrErr; rw [if_pos hr]; exact h
  · have hsee : X.see (.ovrSet idx f, okOrErr 0) = X.see (.ovrSet idx f, .resp []) := rfl
    rw [hsee]
    refine h.ovr hw' rfl (.refl _) hname rfl ?_
    intro i hi u hu
    refine ⟨u.ovr, u.attr, hu, rfl, fun h => ?_, fun h => h⟩
    simp only [OvrView.see]
    split
    · rename_i he
      subst he
      rw [(tag?_eq.mp ht).2] at hu; cases hu
      intro f' hf'; cases hf'; exact ho
    · exact h
  · have hsee : X.see (.ovrSet idx f, okOrErr 0) = X.see (.ovrSet idx f, .resp []) := rfl
    rw [hsee]
    have hmaps : SameMaps s s1 := by
      rw [hs1]
      refine SameMaps.trans (b := s3) ?_
        (sameMaps_set ht3 (t' := { t3 with attr := { t3.attr with ovrSet := f } }) rfl rfl rfl)
      exact (statusWrite_maps hst :)
    refine h.ovr hw' hq.cdts hmaps hname rfl ?_
    intro i hi u hu
    have hi8 : i ≠ 8 := by rintro rfl; exact hK hi
    by_cases hidx : i = idx.toNat
    · subst hidx
      rw [(tag?_eq.mp ht).2] at hu; cases hu
      have e3 := (tag?_eq.mp ht3).2
      rw [(statusWrite_quiet hst).same hi8] at e3
      have e3 : s.db[idx.toNat]? = some t3 := e3
      rw [(tag?_eq.mp ht).2] at e3; cases e3
      refine ⟨t.ovr, { t.attr with ovrSet := f }, by rw [hs1]; exact setTag_get ht3, rfl, fun _ => ?_,
        fun hval p v w hX => ?_⟩
      · simp only [OvrView.see, if_true]
        intro f' hf'; cases hf'; rfl
      · clear h1
        rcases hval p v w hX with h | ⟨h1, h2, h3, h4⟩
        · exact .inl h
        · refine .inr ⟨h1, ?_, h3, h4⟩
          clear hno hst hs1 ht3 hh
          cases f with
          | false => rfl
          | true => exact absurd h1 (hon rfl)
    · refine ⟨u.ovr, u.attr, ?_, rfl, fun h => ?_, fun h => h⟩
      · rw [hq.same (by rintro (h | h) <;> omega)]; exact hu
      · simp only [OvrView.see, hidx, if_false]; exact h

theorem cutAt_known {X : OvrView} {s : Server} {t : Tag} {i : Nat} {off n : Int} {m od om od' om' : List Byte}
    (hval : ∀ p v m, X.val i p = some (v, m) → KnownByte s t (X.gone i) p v m)
    (hn : ovrSize s.cdts t = .ok n) (ho : t.ovr = some (od, om)) (h1 : Removed off m od od')
    (h2 : Removed off m om om') {p : Nat} {v k : Byte} (h : cutAt off.toNat m (X.val i) p = some (v, k)) :
    od'[p]? = some v ∧ om'[p]? = some k ∧ (k ≠ 0 → (p : Int) < n) := by
  have hv : ∀ v k, X.val i p = some (v, k) → od[p]? = some v ∧ om[p]? = some k ∧ (k ≠ 0 → (p : Int) < n) := by
    intro v k hX
    rcases hval p v k hX with ⟨od0, om0, e0, e1, e2, e3⟩ | ⟨e0, -⟩
    · rw [ho] at e0; cases e0
      exact ⟨e1, e2, fun h0 => e3 h0 n hn⟩
    · rw [ho] at e0; simp at e0
  obtain ⟨hp0, hl1, g1⟩ := h1
  obtain ⟨-, hl2, g2⟩ := h2
  rw [g1 p, g2 p]
  unfold cutAt at h
  split at h
  · rename_i hp
    split at h
    · rename_i y v0 k0 hy hX
      cases h
      have hlt := (List.getElem?_eq_some_iff.mp hy).1
      rw [if_pos (by omega), if_pos (by omega)]
      obtain ⟨e1, e2, e3⟩ := hv _ _ hX
      rw [e1, e2, hy]
      refine ⟨rfl, rfl, fun h0 => e3 fun h00 => h0 ?_⟩
      rw [h00]; simp
    · rename_i y hy hX
      split at h
      · rename_i hff
        subst hff
        cases h
        have hlt := (List.getElem?_eq_some_iff.mp hy).1
        rw [if_pos (by omega), if_pos (by omega), hy, List.getElem?_eq_getElem (by omega : p < od.length),
          List.getElem?_eq_getElem (by omega : p < om.length)]
        have hz : ∀ x : Byte, x &&& ~~~ 255 = 0 := by decide
        exact ⟨by simp only [hz], by simp only [hz], by simp⟩
      · simp at h
    · rename_i hy
      have := List.getElem?_eq_none_iff.mp hy
      rw [if_neg (by omega), if_neg (by omega)]
      exact hv _ _ h
  · rw [if_neg (by omega), if_neg (by omega)]
    exact hv _ _ h

theorem repView_del {K : Nat → Prop} {X : OvrView} {s s' : Server} {fd idx off : Int} {m : List Byte}
    {r : Reply} (h : RepView K X s) (hK : ¬ K 7)
    (hh : handle s fd (.ovrDel idx off m) = .ok (s', r)) :
    RepView K (X.see (.ovrDel idx off m, r)) s' := by
  have hw' := (handle_step h.wf hh).wf
  simp only [handle] at hh
  obtain ⟨⟨s1, r1⟩, h1, hh⟩ := C.bind_eq_ok.mp hh
  simp only [C.ok.injEq, Prod.mk.injEq] at hh
  obtain ⟨rfl, rfl⟩ := hh
  have hq := overrideDel_quiet h1
  have hname : ∀ (i : Nat) (t t' : Tag), s.db[i]? = some t → s1.db[i]? = some t' → t'.name = t.name := by
    intro i t t' ht ht'
    obtain ⟨u, hu, sh, -⟩ := hq.tag i t ht
    rw [ht'] at hu; cases hu; exact sh.name
  rcases overrideDel_inv h1 with ⟨rfl, hr⟩ | ⟨rfl, t, n, od, om, od', om', ht, hf, hn, ho, hod, hom, hcase⟩
  · unfold okOrErr; rw [if_pos hr]; exact h
  have hsee : X.see (.ovrDel idx off m, okOrErr 0) = X.see (.ovrDel idx off m, .resp []) := rfl
  rw [hsee]
  have hmem : (X.see (.ovrDel idx off m, .resp [])).mem = X.mem := by
    simp only [OvrView.see]; split <;> rfl
  have hmaps : SameMaps s s1 := by
    rcases hcase with ⟨-, rfl⟩ | ⟨-, s3, t3, hst, ht3, rfl⟩
    · exact sameMaps_set ht (t' := { t with ovr := some (od', om') }) rfl rfl rfl
    · exact removal_maps (t1 := { t with ovr := some (od', om'), attr := { t.attr with override := false, ovrSet := false } })
        ht rfl rfl hst ht3
  refine h.ovr hw' hq.cdts hmaps hname hmem ?_
  intro i hi u hu
  have hi7 : i ≠ 7 := by rintro rfl; exact hK hi
  by_cases hidx : i = idx.toNat
  · subst hidx
    rw [(tag?_eq.mp ht).2] at hu; cases hu
    rcases hcase with ⟨-, rfl⟩ | ⟨hz, s3, t3, hst, ht3, rfl⟩
    · refine ⟨_, t.attr, setTag_get ht, rfl, fun hon f hf => ?_, fun hval p v w hX => ?_⟩
      · simp only [OvrView.see] at hf
        split at hf
        · exact hon f hf
        · simp only [true_and] at hf
          split at hf
          · simp at hf
          · exact hon f hf
      · have hX : cutAt off.toNat m (X.val idx.toNat) p = some (v, w) := by
          simp only [OvrView.see] at hX
          split at hX <;> simpa using hX
        obtain ⟨e1, e2, e3⟩ := cutAt_known hval hn ho hod hom hX
        refine .inl ⟨od', om', rfl, e1, e2, fun h0 n' hn' => ?_⟩
        have hn' : ovrSize s.cdts t = .ok n' := hn'
        rw [hn] at hn'; cases hn'
        exact e3 h0
    · have hall : (∀ p v m, X.val idx.toNat p = some (v, m) → KnownByte s t (X.gone idx.toNat) p v m) →
          ¬ ∃ p v k, cutAt off.toNat m (X.val idx.toNat) p = some (v, k) ∧ k ≠ 0 := by
        rintro hval ⟨p, v, k, hX, hk⟩
        obtain ⟨e1, e2, e3⟩ := cutAt_known hval hn ho hod hom hX
        have := e3 hk
        refine hk (hz k (List.mem_iff_getElem?.mpr ⟨p, ?_⟩))
        rw [List.getElem?_take, if_pos (by omega), e2]
      obtain ⟨tt, bb, htt, -, -, -, -, hvv⟩ := h.tag _ hi
      rw [(tag?_eq.mp ht).2] at htt; cases htt
      have hno := hall hvv
      refine ⟨none, _, removal_entry 
        (t1 := { t with ovr := some (od', om'), attr := { t.attr with override := false, ovrSet := false } }) ht hst ht3 hi7, rfl, fun hon f hf => ?_, fun hval p v w hX => ?_⟩
      · simp only [OvrView.see, if_neg hno, true_and] at hf
        split at hf
        · simp at hf
        · rename_i hx
          cases f
          · rfl
          · exact absurd hf hx
      · simp only [OvrView.see, if_neg hno, if_true] at hX ⊢
        refine .inr ⟨rfl, rfl, rfl, ?_⟩
        apply Classical.byContradiction
        intro hw
        exact hno ⟨p, v, w, hX, hw⟩
  · refine ⟨u.ovr, u.attr, ?_, rfl, fun hon f hf => ?_, fun hval p v w hX => ?_⟩
    · rw [hq.same (by rintro (h | h) <;> omega)]; exact hu
    · simp only [OvrView.see] at hf
      split at hf
      · exact hon f hf
      · simp only [hidx, false_and, if_false] at hf
        exact hon f hf
    · simp only [OvrView.see] at hX ⊢
      split at hX
      · rename_i hc
        simp only [hidx, if_false] at hX
        rw [if_pos hc]
        exact hval p v w hX
      · rename_i hc
        simp only [hidx, if_false] at hX
        rw [if_neg hc]
        simp only [hidx, if_false]
        exact hval p v w hX

theorem repView_run {K : Nat → Prop} (h7 : ¬ K 7) (h8 : ¬ K 8) {qs : List (Int × Req)} :
    ∀ {X : OvrView} {s s' : Server} {rs : List Reply}, RepView K X s → (∀ q ∈ qs, q.2.isOvr) →
    runR s qs = .ok (s', rs) → RepView K (((qs.map (·.2)).zip rs).foldl OvrView.see X) s' := by
  induction qs with
  | nil =>
    intro X s s' rs h _ hr
    simp only [runR, C.ok.injEq, Prod.mk.injEq] at hr
    rw [← hr.1, ← hr.2]; exact h
  | cons q qs ih =>
    intro X s s' rs h hq hr
    obtain ⟨fd, q⟩ := q
    simp only [runR] at hr
    obtain ⟨⟨s1, r1⟩, h1, hr⟩ := C.bind_eq_ok.mp hr
    obtain ⟨⟨s2, rs2⟩, h2, hr⟩ := C.bind_eq_ok.mp hr
    simp only [C.ok.injEq, Prod.mk.injEq] at hr
    obtain ⟨rfl, rfl⟩ := hr
    refine ih ?_ (fun q hq' => hq q (List.mem_cons_of_mem _ hq')) h2
    have hq0 := hq (fd, q) List.mem_cons_self
    cases q with
    | ovrAdd i off d m => exact repView_add h h7 hq0 h1
    | ovrDel i off m => exact repView_del h h7 h1
    | ovrSet i f => exact repView_set h h8 h1
    | _ => exact repView_data h hq0 h1

theorem RepView.predicts {K : Nat → Prop} {X : OvrView} {s : Server} (h : RepView K X s) {i : Nat} (hi : K i)
    {fd off n : Int} {d : List Byte} (hh : Answers s fd (.tagRead i off n) (.resp d)) :
    0 ≤ off ∧ d.length = n.toNat ∧ X.Predicts i off d := by
  obtain ⟨s', hh⟩ := hh
  obtain ⟨t, b, ht, hn, hv, hb, ho, hval⟩ := h.tag i hi
  simp only [handle, hTagRead] at hh
  obtain ⟨⟨s1, r1⟩, h1, hh⟩ := C.bind_eq_ok.mp hh
  have hlen : ∀ d1 : List Byte, r1 = .ok d1 → d1.length = n.toNat → d = d1 := by
    rintro d1 rfl hl
    dsimp only at hh
    split at hh
    · simp at hh
    · split at hh
      · simp at hh
      · simp only [C.ok.injEq, Prod.mk.injEq, Reply.resp.injEq] at hh
        rw [← hh.2]
        unfold Env.pad
        rw [← hl]
        simp
  unfold tagRead at h1
  rw [tag?_natCast, ht] at h1
  simp only [hv, hb, Bool.false_eq_true, if_false] at h1
  obtain ⟨e, he, h1⟩ := C.bind_eq_ok.mp h1
  obtain ⟨hr, rfl⟩ := addI32_ok.mp he
  obtain ⟨sz, hsz, h1⟩ := C.bind_eq_ok.mp h1
  split at h1
  · simp only [C.ok.injEq, Prod.mk.injEq] at h1
    obtain ⟨rfl, rfl⟩ := h1
    simp at hh
  rename_i hsz'
  obtain ⟨d0, hd0, h1⟩ := C.bind_eq_ok.mp h1
  have hrd := (rd_ok.mp hd0).1
  have hl0 := rd_length hd0
  have hget : ∀ k, k < d0.length → d0[k]? = some (X.mem i (off.toNat + k)) := by
    intro k hk
    rw [rd_get hd0, if_pos (by omega)]
    exact h.mem i t b ⟨ht, hn, hv, hi, hb⟩ sz hsz _ (by omega) (by omega) (by omega)
  split at h1
  · rename_i hset
    obtain ⟨d1, hd1, h1⟩ := C.bind_eq_ok.mp h1
    simp only [C.ok.injEq, Prod.mk.injEq] at h1
    obtain ⟨rfl, rfl⟩ := h1
    unfold ovrBlend at hd1
    split at hd1
    · rename_i hz
      simp only [C.ok.injEq] at hd1
      subst hd1
      have := hlen d0 rfl hl0
      subst this
      refine ⟨hrd.1, hl0, fun k hk => ?_⟩
      omega
    · split at hd1
      · simp at hd1
      · rename_i od om hov
        obtain ⟨o, hod, hd1⟩ := C.bind_eq_ok.mp hd1
        obtain ⟨m, hom, hd1⟩ := C.bind_eq_ok.mp hd1
        simp only [C.ok.injEq] at hd1
        have hlo := rd_length hod
        have hlm := rd_length hom
        have hl1 : d1.length = n.toNat := by rw [← hd1, maskMerge_length]; omega
        have := hlen d1 rfl hl1
        subst this
        refine ⟨hrd.1, hl1, fun k hk => ⟨fun hon => ?_, fun v w hX c hc => ?_⟩⟩
        · rw [ho _ hon] at hset; simp at hset
        · rcases hval _ _ _ hX with ⟨od', om', e0, e1, e2, -⟩ | ⟨-, e0, -⟩
          · rw [hov] at e0; cases e0
            have f1 : o[k]? = some v := by rw [rd_get hod, if_pos (by omega)]; exact e1
            have f2 : m[k]? = some w := by rw [rd_get hom, if_pos (by omega)]; exact e2
            have f3 := hget k (by omega)
            have := maskMerge_get o m d0 k _ _ _ f1 f2 f3
            rw [hd1] at this
            unfold bitOf
            rw [this]
            simp only [BitVec.getLsbD_or, BitVec.getLsbD_and, BitVec.getLsbD_not]
            refine ⟨fun hw => ?_, fun hw _ => ?_⟩
            · simp only [hw, Bool.and_false, Bool.not_false, Bool.false_or, hc, decide_true, Bool.and_true]
            · simp only [hw, Bool.and_true, Bool.not_true, Bool.and_false, Bool.or_false]
          · rw [hset] at e0; simp at e0
  · rename_i hset
    simp only [C.ok.injEq, Prod.mk.injEq] at h1
    obtain ⟨rfl, rfl⟩ := h1
    have := hlen d0 rfl hl0
    subst this
    refine ⟨hrd.1, hl0, fun k hk => ⟨fun _ => hget k hk, fun v w hX c hc => ⟨fun _ => ?_, fun _ hon => ?_⟩⟩⟩
    · unfold bitOf
      rw [hget k hk]
    · rw [ho _ hon] at hset; simp at hset

theorem repView_start {s : Server} {M : Mem} (h : Reachable s) (hm : ∀ i name, LiveAt s i name → NoMaps s i) (hM : Agrees M s) :
    RepView (fun i => Ordinary s i ∧ i ≠ 7 ∧ i ≠ 8) { mem := M } s := by
  have hw := h.wf
  rw [agrees_iff hw] at hM
  refine ⟨hw, ?_, ?_, ?_⟩
  · intro i t b P
    obtain ⟨t', b', P'⟩ := (ordinary_iff hw).mp P.ovr.1
    have := P.db.symm.trans P'.db
    cases this
    exact hM i t b ⟨P.db, P.name, P.virt, P'.ovr, P.data⟩
  · intro i t ht hf
    have hn : t.name ≠ none := fun hn => hf ((hw.tag i t ht).name.mp hn)
    obtain ⟨n, hn⟩ := Option.ne_none_iff_exists'.mp hn
    exact (noMaps_iff ht).mp (hm i n ((liveAt_iff hw).mpr ⟨t, ht, hn⟩))
  · rintro i ⟨ho, -⟩
    obtain ⟨t, b, P⟩ := (ordinary_iff hw).mp ho
    exact ⟨t, b, P.db, P.name, P.virt, P.data, fun f hf => by cases hf; exact P.ovr, by simp⟩

/-- **C14** (partial: no mappings) On a server without mappings, over any sequence of reads, writes, masked writes,
installations and (partial) removals of overrides and switching them on and off, by any clients: a
read of a tag returns what was written while its override is off; while it is on, in all bytes for
which a value and mask were installed it returns the override value in the bits where the mask is 1
and the written value in the other bits.  Removal clears the given bits of the mask, and the override
stays in force while any bit is set.  What was written meanwhile appears when the override is switched
off or removed.  (Tags 7 and 8 are the server's own counters of overrides.) -/
theorem C14_history_partial {qs : List (Int × Req)} {s s' : Server} {rs : List Reply} {M : Mem} (h : Reachable s)
    (hm : ∀ i name, LiveAt s i name → NoMaps s i) (hM : Agrees M s) (hq : ∀ q ∈ qs, q.2.isOvr)
    (hr : runR s qs = .ok (s', rs)) {i : Nat} (hi : Ordinary s i) (h7 : i ≠ 7) (h8 : i ≠ 8)
    {fd off n : Int} {d : List Byte} (hh : Answers s' fd (.tagRead i off n) (.resp d)) :
    0 ≤ off ∧ d.length = n.toNat ∧
      (((qs.map (·.2)).zip rs).foldl OvrView.see { mem := M }).Predicts i off d := by
  exact (repView_run (by simp) (by simp) (repView_start h hm hM) hq hr).predicts ⟨hi, h7, h8⟩ hh

/-- Instance: tag 13 of the demonstration holds 1..8; an override is installed on bytes 2 and 3,
switched on, and the tag written meanwhile. -/
def ovrDemo : List (Int × Req) :=
  [(6, .ovrAdd 13 2 [0xFF, 0] [0x0F, 0xF0]), (6, .ovrSet 13 true), (5, .tagWrite 13 2 [0x30, 0x77])]

example : Reachable (demo demoOps) ∧ (∀ i name, LiveAt (demo demoOps) i name → NoMaps (demo demoOps) i) ∧
    Ordinary (demo demoOps) 13 ∧ (∀ q ∈ ovrDemo, q.2.isOvr) ∧
    ∃ s' rs, runR (demo demoOps) ovrDemo = .ok (s', rs) ∧
      Answers s' 6 (.tagRead 13 2 2) (.resp [0x3F, 0x07]) := by
  refine ⟨demoOps_reachable, noMaps_demo, ?_, ?_, ?_⟩
  · exact ⟨0, ⟨by decide, nm "Speed", DAX_INT, 4, fun fd => by kernel_rfl⟩, by decide, by decide⟩
  · intro q hq
    simp only [ovrDemo, List.mem_cons, List.not_mem_nil, or_false] at hq
    rcases hq with rfl | rfl | rfl <;> first | rfl | trivial
  · obtain ⟨s', rs, h1, h2⟩ := exists_runR (s := demo demoOps) (qs := ovrDemo)
      (p := fun s' => replyOf (handle s' 6 (.tagRead 13 2 2)) = some (.resp [0x3F, 0x07])) (by decide +kernel)
    exact ⟨s', rs, h1, exists_reply h2⟩

/-- The same with the bits of the first byte removed: the second stays in force, and the written value
shows in the first. -/
example : (∀ q ∈ ovrDemo ++ [(6, Req.ovrDel 13 2 [0xFF])], q.2.isOvr) ∧
    ∃ s' rs, runR (demo demoOps) (ovrDemo ++ [(6, .ovrDel 13 2 [0xFF])]) = .ok (s', rs) ∧
      rs = [.resp [], .resp [], .resp [], .resp []] ∧ Answers s' 6 (.tagRead 13 2 2) (.resp [0x30, 0x07]) := by
  constructor
  · intro q hq
    simp only [ovrDemo, List.cons_append, List.nil_append, List.mem_cons, List.not_mem_nil, or_false] at hq
    rcases hq with rfl | rfl | rfl | rfl <;> first | rfl | trivial
  · exact exists_run2 (p := fun s' => replyOf (handle s' 6 (.tagRead 13 2 2)) = some (.resp [0x30, 0x07]))
      (by decide +kernel) (fun s h => exists_reply h)

/-! ## C16 -/

theorem overrideAdd_mods {s s' : Server} {idx off r : Int} {d m : List Byte}
    (h : overrideAdd s idx off d m = .ok (s', r)) : s'.mods = s.mods := by
  rcases overrideAdd_inv h with ⟨rfl, -⟩ | ⟨t, ht, -, ⟨-, hd⟩ | ⟨-, n, od, om, -, -, -, rfl⟩⟩
  · rfl
  · obtain ⟨n, od, om, od', om', s3, t3, -, -, -, -, -, h6, -, rfl⟩ := hd.ex
    show s3.mods = s.mods
    rcases h6 with ⟨-, rfl⟩ | ⟨-, h6⟩
    · rfl
    · rw [statusWrite_mods h6]; rfl
  · rfl

theorem rd_wr_disjoint' {b b' d : List Byte} {off off' n : Int} (h : wr b off d = .ok b')
    (hd : off + d.length ≤ off' ∨ off' + n ≤ off) : rd b' off' n = rd b off' n := by
  by_cases hr : 0 ≤ off' ∧ 0 ≤ n ∧ off' + n ≤ b.length
  · exact rd_wr_disjoint h hd.symm
  · unfold rd
    rw [wr_length h, if_neg (by omega), if_neg (by omega)]

/-- **C16** (part): on a tag whose override memory exists already — switching the override on is
accepted — an install that is refused changes nothing at all, and an install that is accepted
changes no read of any other tag and no read of bytes of this tag outside the installed
range.  (In the installed range `C14_history_partial` says which bits change.) -/
theorem C16_range_partial {s s' : Server} {fd g off : Int} {i : Nat} {d m : List Byte} {r : Reply}
    (ho : Answers s g (.ovrSet i true) (.resp [])) (h7 : i ≠ 7) (hl : m.length = d.length)
    (hh : handle s fd (.ovrAdd i off d m) = .ok (s', r)) :
    (∀ e, r = .err e → s' = s) ∧
    ∀ (j : Nat) (f off' n : Int) (r' : Reply), j ≠ 7 →
      (j = i → off + d.length ≤ off' ∨ off' + n ≤ off) →
      (Answers s' f (.tagRead j off' n) r' ↔ Answers s f (.tagRead j off' n) r') := by
  have hex : ∀ t, s.tag? (i : Int) = some t → t.ovr ≠ none := by
    intro t ht hn
    obtain ⟨s1, h1⟩ := ho
    simp only [handle] at h1
    obtain ⟨⟨s2, r2⟩, h2, h1⟩ := C.bind_eq_ok.mp h1
    unfold overrideSet at h2
    rw [ht] at h2
    simp only [hn, if_true] at h2
    split at h2 <;> (simp only [C.ok.injEq, Prod.mk.injEq] at h2; rw [← h2.2] at h1; simp [okOrErr, ERR_DELETED, ERR_ILLEGAL] at h1)
  simp only [handle] at hh
  obtain ⟨⟨s1, r1⟩, h1, hh⟩ := C.bind_eq_ok.mp hh
  simp only [C.ok.injEq, Prod.mk.injEq] at hh
  obtain ⟨rfl, rfl⟩ := hh
  have hq := overrideAdd_quiet h1
  have hm := overrideAdd_mods h1
  rcases overrideAdd_inv h1 with ⟨rfl, hr⟩ | ⟨t, ht, -, ⟨rfl, hd⟩ | ⟨hr, n, od, om, hn, hoa, -, hs1⟩⟩
  · exact ⟨fun _ _ => rfl, fun _ _ _ _ _ _ _ => Iff.rfl⟩
  · refine ⟨fun e he => by simp [okOrErr] at he, fun j f off' n r' hj7 hj => ?_⟩
    by_cases hij : j = i
    · subst hij
      replace hj := hj rfl
      obtain ⟨k, od, om, od', om', hk, hal, hle, hod, hom, he⟩ := hd.entry ht (by simpa using h7)
      obtain ⟨o, hov⟩ := Option.ne_none_iff_exists'.mp (hex t ht)
      have := ovrAlloc_some hal hov
      subst this
      have e : (j : Int).toNat = j := by simp
      rw [e] at he
      rw [tag?_natCast] at ht
      refine read_congr_at (hq.readFrame hm) f off' n (fun t' ht' => ?_) r'
      rw [ht] at ht'; cases ht'
      refine ⟨_, he, ⟨rfl, rfl, rfl, rfl, rfl, rfl, rfl⟩, fun x => ?_⟩
      unfold ovrBlend
      dsimp only
      rw [hov]
      dsimp only
      rw [rd_wr_disjoint' hod hj, rd_wr_disjoint' hom (by rw [hl]; exact hj)]
    · exact read_congr hq hm (hq.same (by rintro (h | h) <;> omega)) f off' n r'
  · obtain ⟨o, hov⟩ := Option.ne_none_iff_exists'.mp (hex t ht)
    have := ovrAlloc_some hoa hov
    subst this
    have hid : s1 = s := by
      rw [hs1, ← hov]
      unfold Server.setTag
      have : s.db.set (i : Int).toNat { t with ovr := t.ovr } = s.db := by
        rw [tag?_natCast] at ht
        refine List.ext_getElem? fun j => ?_
        by_cases hj : i = j
        · subst hj
          rw [Int.toNat_natCast, List.getElem?_set_self (List.getElem?_eq_some_iff.mp ht).1, ht]
        · rw [Int.toNat_natCast, List.getElem?_set_ne hj]
      rw [this]
    subst hid
    exact ⟨fun _ _ => rfl, fun _ _ _ _ _ _ _ => Iff.rfl⟩

/-- The demonstration with the override of tag 13. -/
def ovrState : Server := demo (demoOps ++ ovrDemo.map (fun q => .req q.1 q.2))

/-- Instance: the override of tag 13 exists; a second install on byte 5. -/
example : Reachable ovrState ∧ Answers ovrState 6 (.ovrSet 13 true) (.resp []) ∧
    (∃ s' r, handle ovrState 6 (.ovrAdd 13 5 [9] [0xFF]) = .ok (s', r) ∧
      replyOf (handle s' 6 (.tagRead 13 0 8)) = some (.resp [1, 2, 0x3F, 7, 5, 9, 7, 8])) ∧
    Answers ovrState 6 (.ovrAdd 13 7 [9, 9] [0xFF, 0xFF]) (.err ERR_2BIG) :=
  ⟨demo_reachable (by decide +kernel), exists_reply (by decide +kernel),
   exists_after (p := fun s' => replyOf (handle s' 6 (.tagRead 13 0 8)) =
     some (.resp [1, 2, 0x3F, 7, 5, 9, 7, 8])) (by decide +kernel), exists_reply (by decide +kernel)⟩

/-- Memory from the allocator is not zero. -/
def dirty : Env := { junkByte := fun _ => 0xFF }

/-- **C16 fails**: the first install on a part of a tag leaves the rest of mask and value
uninitialised, so switching the override on changes bytes outside the installed range. -/
theorem C16_first_install : Reachable (demo demoOps dirty) ∧
    Answers (demo demoOps dirty) 6 (.tagRead 13 0 8) (.resp [1, 2, 3, 4, 5, 6, 7, 8]) ∧
    ∃ s' rs, runR (demo demoOps dirty) [(6, .ovrAdd 13 0 [0xAA] [0xFF]), (6, .ovrSet 13 true)] = .ok (s', rs) ∧
      rs = [.resp [], .resp []] ∧
      Answers s' 6 (.tagRead 13 0 8) (.resp [0xAA, 0xFF, 0xFF, 0xFF, 0xFF, 0xFF, 0xFF, 0xFF]) := by
  refine ⟨demo_reachable (by decide +kernel), exists_reply (by decide +kernel), ?_⟩
  exact exists_run2 (p := fun s' => replyOf (handle s' 6 (.tagRead 13 0 8)) =
      some (.resp [0xAA, 0xFF, 0xFF, 0xFF, 0xFF, 0xFF, 0xFF, 0xFF])) (by decide +kernel) (fun s h => exists_reply h)

/-- **C16 fails**: an out-of-range install is refused but nevertheless leaves an (uninitialised)
override behind, which can be switched on and then changes reads. -/
theorem C16_refused_install : Reachable (demo demoOps dirty) ∧
    Answers (demo demoOps dirty) 6 (.ovrSet 13 true) (.err ERR_ILLEGAL) ∧
    ∃ s' rs, runR (demo demoOps dirty) [(6, .ovrAdd 13 8 [0xAA] [0xFF]), (6, .ovrSet 13 true)] = .ok (s', rs) ∧
      rs = [.err ERR_2BIG, .resp []] ∧
      Answers s' 6 (.tagRead 13 0 8) (.resp [1, 0xFF, 0xFF, 0xFF, 0xFF, 0xFF, 0xFF, 0xFF]) := by
  refine ⟨demo_reachable (by decide +kernel), exists_reply (by decide +kernel), ?_⟩
  exact exists_run2 (p := fun s' => replyOf (handle s' 6 (.tagRead 13 0 8)) =
      some (.resp [1, 0xFF, 0xFF, 0xFF, 0xFF, 0xFF, 0xFF, 0xFF])) (by decide +kernel) (fun s h => exists_reply h)

/-- **C16 fails**: an out-of-range removal is not refused but accesses memory outside the
override block. -/
theorem C16_removal_range : Reachable (demo demoOps) ∧ ∃ s' rs,
    runR (demo demoOps) [(6, .ovrAdd 13 0 [0xAA] [0xFF])] = .ok (s', rs) ∧
    ∃ w, handle s' 6 (.ovrDel 13 8 [0xFF]) = .ub w := by
  refine ⟨demoOps_reachable, ?_⟩
  obtain ⟨s', rs, h1, h2⟩ := exists_runR (s := demo demoOps) (qs := [(6, .ovrAdd 13 0 [0xAA] [0xFF])])
    (p := fun s' => (handle s' 6 (.ovrDel 13 8 [0xFF])).isOk = false) (by decide +kernel)
  exact ⟨s', rs, h1, isOk_false h2⟩

/-- **C16 fails**: reading the override back returns the plain data, and data and mask always from
the start of the tag. -/
theorem C16_read_back : Reachable (demo demoOps) ∧ ∃ s' rs,
    runR (demo demoOps) [(6, .ovrAdd 13 0 [0xAA, 0xBB] [0xFF, 0x0F])] = .ok (s', rs) ∧ rs = [.resp []] ∧
    Answers s' 6 (.ovrGet 13 0 2) (.resp [1, 2, 0xFF, 0x0F]) ∧
    Answers s' 6 (.ovrGet 13 1 1) (.resp [1, 0xFF]) := by
  refine ⟨demoOps_reachable, ?_⟩
  exact exists_run2 (p := fun s' => replyOf (handle s' 6 (.ovrGet 13 0 2)) = some (.resp [1, 2, 0xFF, 0x0F]) ∧
    replyOf (handle s' 6 (.ovrGet 13 1 1)) = some (.resp [1, 0xFF])) (by decide +kernel)
    (fun s h => ⟨exists_reply h.1, exists_reply h.2⟩)

end Dax
