import Verif.Spec.Events
import Verif.Lemmas.Frame
import Verif.Lemmas.Leave
/-!
# What a request does to a subscription
-/
set_option autoImplicit false
namespace Dax

/-! ## Subscriptions that stay -/

variable {z : Int}

/-- The events of tag `k` with identifier `z` are kept, apart from their options. -/
def EvKeep (k : Nat) (z : Int) (s s' : Server) : Prop := ∀ t, s.db[k]? = some t →
  ∃ t', s'.db[k]? = some t' ∧ ∀ e ∈ t.events, e.id = z → ∃ e' ∈ t'.events,
    { e' with options := 0 } = { e with options := 0 }

theorem EvKeep.refl (k : Nat) (z : Int) (s : Server) : EvKeep k z s s := fun t h => ⟨t, h, fun e he _ => ⟨e, he, rfl⟩⟩

theorem EvKeep.trans {k : Nat} {a b c : Server} (h1 : EvKeep k z a b) (h2 : EvKeep k z b c) : EvKeep k z a c := by
  intro t ht
  obtain ⟨t1, ht1, e1⟩ := h1 t ht
  obtain ⟨t2, ht2, e2⟩ := h2 t1 ht1
  refine ⟨t2, ht2, fun e he hz => ?_⟩
  obtain ⟨x, hx, ex⟩ := e1 e he hz
  obtain ⟨y, hy, ey⟩ := e2 x hx ((congrArg Ev.id ex).trans hz)
  exact ⟨y, hy, ey.trans ex⟩

theorem Quiet.evKeep {F : Nat → Prop} {s s' : Server} {k : Nat} (q : Quiet F s s') (h : ¬ F k) :
    EvKeep k z s s' := by
  intro t ht
  exact ⟨t, by rw [q.same h]; exact ht, fun e he _ => ⟨e, he, rfl⟩⟩

theorem evKeep_set {s s' : Server} {idx : Int} {t t' : Tag} (ht : s.tag? idx = some t)
    (h : s'.db = s.db.set idx.toNat t') (k : Nat)
    (hs : ∀ e ∈ t.events, e.id = z → ∃ e' ∈ t'.events, { e' with options := 0 } = { e with options := 0 }) :
    EvKeep k z s s' := by
  intro u hu
  have ht := (tag?_eq.mp ht).2
  rw [h]
  by_cases hij : idx.toNat = k
  · subst hij
    rw [List.getElem?_set_self (List.getElem?_eq_some_iff.mp ht).1]
    rw [ht] at hu; cases hu
    exact ⟨_, rfl, hs⟩
  · rw [List.getElem?_set_ne hij]
    exact ⟨u, hu, fun e he _ => ⟨e, he, rfl⟩⟩

theorem evKeep_same {s s' : Server} {idx : Int} {t t' : Tag} (ht : s.tag? idx = some t)
    (h : s'.db = s.db.set idx.toNat t') (k : Nat) (he : t'.events = t.events) : EvKeep k z s s' :=
  evKeep_set ht h k (fun e hm _ => ⟨e, by rw [he]; exact hm, rfl⟩)

theorem evKeep_setTag {s : Server} {idx : Int} {t t' : Tag} (ht : s.tag? idx = some t) (k : Nat)
    (he : t'.events = t.events) : EvKeep k z s (s.setTag idx t') := evKeep_same ht rfl k he

theorem mapAdd_evKeep {s s' : Server} {a b : Handle} {r : Int} (h : mapAdd s a b = .ok (s', r))
    (k : Nat) : EvKeep k z s s' := by
  unfold mapAdd at h
  split at h
  · simp only [C.ok.injEq, Prod.mk.injEq] at h; rw [← h.1]; exact .refl _ _ _
  rename_i t ht
  split at h
  · simp only [C.ok.injEq, Prod.mk.injEq] at h; rw [← h.1]; exact .refl _ _ _
  split at h
  · simp only [C.ok.injEq, Prod.mk.injEq] at h; rw [← h.1]; exact .refl _ _ _
  split at h
  · simp only [C.ok.injEq, Prod.mk.injEq] at h; rw [← h.1]; exact .refl _ _ _
  split at h
  · simp only [C.ok.injEq, Prod.mk.injEq] at h; rw [← h.1]; exact .refl _ _ _
  obtain ⟨_, -, h⟩ := C.bind_eq_ok.mp h
  split at h
  · simp only [C.ok.injEq, Prod.mk.injEq] at h; rw [← h.1]; exact .refl _ _ _
  obtain ⟨_, -, h⟩ := C.bind_eq_ok.mp h
  split at h
  · simp only [C.ok.injEq, Prod.mk.injEq] at h; rw [← h.1]; exact .refl _ _ _
  split at h
  · simp only [C.ok.injEq, Prod.mk.injEq] at h; rw [← h.1]; exact .refl _ _ _
  split at h
  · simp at h
  split at h
  · simp only [C.ok.injEq, Prod.mk.injEq] at h; rw [← h.1]; exact .refl _ _ _
  split at h
  · simp at h
  have key : ∀ mask, (C.ok (s.setTag a.index
      { t with nextmap := t.nextmap + 1, maps := ⟨t.nextmap, a, b, mask⟩ :: t.maps,
               attr := { t.attr with mapping := true } }, t.nextmap) : C (Server × Int)) = .ok (s', r) →
      EvKeep k z s s' := by
    intro mask h
    simp only [C.ok.injEq, Prod.mk.injEq] at h; rw [← h.1]
    exact evKeep_setTag ht k rfl
  dsimp only at h
  split at h
  · split at h
    · simp at h
    · obtain ⟨m, -, h⟩ := C.bind_eq_ok.mp h
      exact key _ h
  · exact key _ h

theorem mapDel_evKeep {s s' : Server} {idx id : Int} {r : Int} (h : mapDel s idx id = .ok (s', r))
    (k : Nat) : EvKeep k z s s' := by
  unfold mapDel at h
  split at h
  · simp only [C.ok.injEq, Prod.mk.injEq] at h; rw [← h.1]; exact .refl _ _ _
  rename_i t ht
  split at h
  · simp at h
  split at h
  · simp at h
  split at h
  · simp only [C.ok.injEq, Prod.mk.injEq] at h; rw [← h.1]
    exact evKeep_setTag ht k rfl
  split at h
  · simp only [C.ok.injEq, Prod.mk.injEq] at h; rw [← h.1]
    exact evKeep_setTag ht k rfl
  · simp only [C.ok.injEq, Prod.mk.injEq] at h; rw [← h.1]; exact .refl _ _ _

theorem eventAdd_evKeep {s s' : Server} {hd : Handle} {et : Int} {arg : List Byte} {m : Module}
    {r : Int} (h : eventAdd s hd et arg m = .ok (s', r)) (k : Nat) : EvKeep k z s s' := by
  unfold eventAdd at h
  split at h
  · simp only [C.ok.injEq, Prod.mk.injEq] at h; rw [← h.1]; exact .refl _ _ _
  rename_i t ht
  split at h
  · simp only [C.ok.injEq, Prod.mk.injEq] at h; rw [← h.1]; exact .refl _ _ _
  split at h
  · split at h
    · simp only [C.ok.injEq, Prod.mk.injEq] at h; rw [← h.1]; exact .refl _ _ _
    · simp at h
  obtain ⟨_, -, h⟩ := C.bind_eq_ok.mp h
  split at h
  · simp only [C.ok.injEq, Prod.mk.injEq] at h; rw [← h.1]; exact .refl _ _ _
  split at h
  · simp only [C.ok.injEq, Prod.mk.injEq] at h; rw [← h.1]; exact .refl _ _ _
  split at h
  · simp at h
  obtain ⟨⟨d, tst⟩, -, h⟩ := C.bind_eq_ok.mp h
  simp only [C.ok.injEq, Prod.mk.injEq] at h; rw [← h.1]
  exact evKeep_set ht rfl k (fun e he _ => ⟨e, List.mem_cons_of_mem _ he, rfl⟩)

theorem eventOpt_evKeep {s s' : Server} {idx id : Int} {o : Nat} {m : Option Nat} {r : Int}
    (h : eventOpt s idx id o m = .ok (s', r)) (k : Nat) : EvKeep k z s s' := by
  unfold eventOpt at h
  split at h
  · simp only [C.ok.injEq, Prod.mk.injEq] at h; rw [← h.1]; exact .refl _ _ _
  rename_i t ht
  split at h
  · simp only [C.ok.injEq, Prod.mk.injEq] at h; rw [← h.1]; exact .refl _ _ _
  · simp only [C.ok.injEq, Prod.mk.injEq] at h; rw [← h.1]; exact .refl _ _ _
  · rename_i evs he
    simp only [C.ok.injEq, Prod.mk.injEq] at h; rw [← h.1]
    refine evKeep_set ht rfl k (fun e hm _ => ?_)
    have : { e with options := 0 } ∈ t.events.map (fun e => { e with options := 0 }) :=
      List.mem_map.mpr ⟨e, hm, rfl⟩
    rw [← evSetOpt_same he] at this
    obtain ⟨e', h1, h2⟩ := List.mem_map.mp this
    exact ⟨e', h1, h2⟩

theorem evRemove_keeps {id z : Int} {m : Option Nat} (hz : z ≠ id) : ∀ {evs r : List Ev},
    evRemove id m evs = .ok (some r) → ∀ e ∈ evs, e.id = z → e ∈ r := by
  intro evs
  induction evs with
  | nil => intro r h; simp [evRemove] at h
  | cons x evs ih =>
    intro r h e he hez
    simp only [evRemove] at h
    split at h
    · split at h
      · simp at h
      · simp only [Except.ok.injEq, Option.some.injEq] at h; subst h
        rcases List.mem_cons.mp he with rfl | he
        · omega
        · exact he
    · split at h
      · simp at h
      · simp at h
      · rename_i r' hr'
        simp only [Except.ok.injEq, Option.some.injEq] at h; subst h
        rcases List.mem_cons.mp he with rfl | he
        · exact List.mem_cons_self ..
        · exact List.mem_cons_of_mem _ (ih hr' e he hez)

theorem eventDel_evKeep {s s' : Server} {idx id : Int} {m : Option Nat} {r : Int} {k : Nat}
    (h : eventDel s idx id m = .ok (s', r)) (hk : idx = k → z ≠ id) : EvKeep k z s s' := by
  unfold eventDel at h
  split at h
  · simp only [C.ok.injEq, Prod.mk.injEq] at h; rw [← h.1]; exact .refl _ _ _
  rename_i t ht
  have key : ∀ (t' : Tag) (u : Nat) (f : Module → Module),
      (∀ e ∈ t.events, e.id = z → z ≠ id → e ∈ t'.events) → EvKeep k z s ((s.setTag idx t').updMod u f) := by
    intro t' u f hs x hx
    simp only [Server.updMod, Server.setTag]
    by_cases hne : idx.toNat = k
    · have h0 := (tag?_eq.mp ht).1
      have hd := (tag?_eq.mp ht).2
      rw [hne] at hd
      rw [hx] at hd
      cases hd
      refine ⟨t', by rw [hne]; simp [(List.getElem?_eq_some_iff.mp hx).1], fun e he hz => ⟨e, hs e he hz (hk (by omega)), rfl⟩⟩
    · exact ⟨x, by rw [List.getElem?_set_ne hne]; exact hx, fun e he _ => ⟨e, he, rfl⟩⟩
  split at h
  · simp only [C.ok.injEq, Prod.mk.injEq] at h; rw [← h.1]; exact .refl _ _ _
  rename_i ev evs hevs
  split at h
  · rename_i hid
    split at h
    · simp only [C.ok.injEq, Prod.mk.injEq] at h; rw [← h.1]; exact .refl _ _ _
    split at h
    · simp at h
    split at h
    · simp at h
    · simp only [C.ok.injEq, Prod.mk.injEq] at h; rw [← h.1]
      refine key _ _ _ fun e he hez hne => ?_
      rw [hevs] at he
      rcases List.mem_cons.mp he with rfl | he
      · omega
      · exact he
  · split at h
    · simp only [C.ok.injEq, Prod.mk.injEq] at h; rw [← h.1]; exact .refl _ _ _
    · split at h
      · simp at h
      · simp only [C.ok.injEq, Prod.mk.injEq] at h; rw [← h.1]; exact EvKeep.refl k z s
    · rename_i r' hr'
      split at h
      · simp at h
      · simp only [C.ok.injEq, Prod.mk.injEq] at h; rw [← h.1]
        refine key _ _ _ fun e he hez hne => ?_
        rw [hevs] at he
        rcases List.mem_cons.mp he with rfl | he
        · exact List.mem_cons_self ..
        · exact List.mem_cons_of_mem _ (evRemove_keeps hne hr' e he hez)

theorem tagRead_evKeep {s s' : Server} {fd idx off n : Int} {r} (k : Nat)
    (h : tagRead s fd idx off n = .ok (s', r)) : EvKeep k z s s' := by
  rcases tagRead_inv h with rfl | ⟨t, q, q', b, ht, hv', hq, hr, rfl, -⟩
  · exact .refl _ _ _
  · exact evKeep_setTag ht k rfl

theorem groupReadLoop_evKeep {hs : List Handle} (k : Nat) : ∀ {s s' : Server} {buf : List Byte}
    {off : Int} {r}, groupReadLoop s hs buf off = .ok (s', r) → EvKeep k z s s' := by
  induction hs with
  | nil =>
    intro s s' buf off r h
    simp only [groupReadLoop, C.ok.injEq, Prod.mk.injEq] at h; rw [← h.1]; exact .refl _ _ _
  | cons x hs ih =>
    intro s s' buf off r h
    simp only [groupReadLoop] at h
    obtain ⟨⟨s1, r1⟩, h1, h⟩ := C.bind_eq_ok.mp h
    have k1 := tagRead_evKeep (z := z) k h1
    cases r1 with
    | error e => simp only [C.ok.injEq, Prod.mk.injEq] at h; rw [← h.1]; exact k1
    | ok d =>
      dsimp only at h
      obtain ⟨b, -, h⟩ := C.bind_eq_ok.mp h
      exact k1.trans (ih h)

theorem away_mild {q : Req} {k z : Nat} (h : q.away k z) :
    q.mild = true ∧ (∀ i, q.target = some i → 0 ≤ i → i.toNat ≠ k) ∧ ∀ f n, q ≠ .modReg f n := by
  cases q with
  | tagWrite j off d =>
    simp only [Req.away] at h
    refine ⟨rfl, fun i hi h0 => ?_, fun _ _ => by simp⟩
    simp only [Req.target, Option.some.injEq] at hi; omega
  | tagMWrite j off d m =>
    simp only [Req.away] at h
    refine ⟨rfl, fun i hi h0 => ?_, fun _ _ => by simp⟩
    simp only [Req.target, Option.some.injEq] at hi; omega
  | atomic hd op buf =>
    simp only [Req.away] at h
    refine ⟨rfl, fun i hi h0 => ?_, fun _ _ => by simp⟩
    simp only [Req.target, Option.some.injEq] at hi; omega
  | modReg _ _ => exact absurd h (by simp [Req.away])
  | tagAdd _ _ _ _ => exact absurd h (by simp [Req.away])
  | tagDel _ => exact absurd h (by simp [Req.away])
  | cdtCreate _ => exact absurd h (by simp [Req.away])
  | grpWrite _ _ => exact absurd h (by simp [Req.away])
  | ovrAdd _ _ _ _ => exact absurd h (by simp [Req.away])
  | ovrDel _ _ _ => exact absurd h (by simp [Req.away])
  | ovrSet _ _ => exact absurd h (by simp [Req.away])
  | _ => exact ⟨rfl, fun i hi => by simp [Req.target] at hi, fun _ _ => by simp⟩

theorem away_evKeep {s s' : Server} {fd : Int} {q : Req} {r : Reply} {k z : Nat} (hq : q.away k z)
    (hn : NoneInto s k) (hids : ∀ (i : Nat) (t : Tag), s.db[i]? = some t → IdsOK i t)
    (hh : handle s fd q = .ok (s', r)) : EvKeep k z s s' := by
  have ht := (away_mild hq).2.1
  cases q with
  | modReg flags name => exact absurd hq (by simp [Req.away])
  | tagAdd type count attr name => exact absurd hq (by simp [Req.away])
  | tagDel idx => exact absurd hq (by simp [Req.away])
  | cdtCreate str => exact absurd hq (by simp [Req.away])
  | grpWrite i buf => exact absurd hq (by simp [Req.away])
  | ovrAdd idx off d m => exact absurd hq (by simp [Req.away])
  | ovrDel idx off m => exact absurd hq (by simp [Req.away])
  | ovrSet idx flag => exact absurd hq (by simp [Req.away])
  | modUnreg => simp only [handle, C.ok.injEq, Prod.mk.injEq] at hh; rw [← hh.1]; exact .refl _ _ _
  | tagGetIdx idx =>
    simp only [handle, hTagGet] at hh
    obtain ⟨o, ho, hh⟩ := C.bind_eq_ok.mp hh
    cases o <;> (simp only [C.ok.injEq, Prod.mk.injEq] at hh; rw [← hh.1]; exact .refl _ _ _)
  | tagGetName name =>
    simp only [handle, hTagGet] at hh
    obtain ⟨o, ho, hh⟩ := C.bind_eq_ok.mp hh
    cases o <;> (simp only [C.ok.injEq, Prod.mk.injEq] at hh; rw [← hh.1]; exact .refl _ _ _)
  | tagList => simp only [handle, C.ok.injEq, Prod.mk.injEq] at hh; rw [← hh.1]; exact .refl _ _ _
  | tagRead idx off size =>
    simp only [handle, hTagRead] at hh
    obtain ⟨⟨s1, r1⟩, h1, hh⟩ := C.bind_eq_ok.mp hh
    have k1 := tagRead_evKeep (z := z) k h1
    cases r1 with
    | error e => simp only [C.ok.injEq, Prod.mk.injEq] at hh; rw [← hh.1]; exact k1
    | ok d =>
      dsimp only at hh
      split at hh
      · simp at hh
      · split at hh
        · simp only [C.ok.injEq, Prod.mk.injEq] at hh; rw [← hh.1]; exact k1
        · simp only [C.ok.injEq, Prod.mk.injEq] at hh; rw [← hh.1]; exact k1
  | tagWrite idx off d =>
    simp only [handle, hTagWrite] at hh
    obtain ⟨b, hb, hh⟩ := C.bind_eq_ok.mp hh
    have h0 : 0 ≤ idx := by
      unfold roForeign rawAttr at hb
      split at hb
      · simp at hb
      · omega
    have hk := ht idx rfl h0
    split at hh
    · simp only [C.ok.injEq, Prod.mk.injEq] at hh; rw [← hh.1]; exact .refl _ _ _
    · obtain ⟨⟨s1, r1⟩, h1, hh⟩ := C.bind_eq_ok.mp hh
      have st1 := (tagWrite_quiet h1).evKeep (k := k) (z := z) (Ne.symm hk)
      dsimp only at hh
      split at hh
      · simp only [C.ok.injEq, Prod.mk.injEq] at hh; rw [← hh.1]; exact st1
      · obtain ⟨s2, h2, hh⟩ := C.bind_eq_ok.mp hh
        simp only [C.ok.injEq, Prod.mk.injEq] at hh; rw [← hh.1]
        exact st1.trans ((mapCheck_frame (tagWrite_maps h1) hn hids hk h2).evKeep (by simp))
  | tagMWrite idx off d m =>
    simp only [handle, hTagMWrite] at hh
    obtain ⟨⟨a, f⟩, hb, hh⟩ := C.bind_eq_ok.mp hh
    have h0 : 0 ≤ idx := by
      unfold rawAttr at hb
      split at hb
      · simp at hb
      · omega
    have hk := ht idx rfl h0
    dsimp only at hh
    split at hh
    · simp only [C.ok.injEq, Prod.mk.injEq] at hh; rw [← hh.1]; exact .refl _ _ _
    · obtain ⟨⟨s1, r1⟩, h1, hh⟩ := C.bind_eq_ok.mp hh
      have st1 := (tagMaskWrite_quiet h1).evKeep (k := k) (z := z) (Ne.symm hk)
      dsimp only at hh
      split at hh
      · simp only [C.ok.injEq, Prod.mk.injEq] at hh; rw [← hh.1]; exact st1
      · obtain ⟨s2, h2, hh⟩ := C.bind_eq_ok.mp hh
        simp only [C.ok.injEq, Prod.mk.injEq] at hh; rw [← hh.1]
        exact st1.trans ((mapCheck_frame (tagMaskWrite_maps h1) hn hids hk h2).evKeep (by simp))
  | evAdd h etype arg =>
    simp only [handle, hEvAdd] at hh
    split at hh
    · simp only [C.ok.injEq, Prod.mk.injEq] at hh; rw [← hh.1]; exact .refl _ _ _
    · obtain ⟨⟨s1, r1⟩, h1, hh⟩ := C.bind_eq_ok.mp hh
      simp only [C.ok.injEq, Prod.mk.injEq] at hh; rw [← hh.1]
      exact eventAdd_evKeep h1 k
  | evDel idx id =>
    simp only [handle, hEvDel] at hh
    obtain ⟨⟨s1, r1⟩, h1, hh⟩ := C.bind_eq_ok.mp hh
    simp only [C.ok.injEq, Prod.mk.injEq] at hh; rw [← hh.1]
    exact eventDel_evKeep h1 (fun h => Ne.symm (hq h))
  | evGet => simp only [handle, C.ok.injEq, Prod.mk.injEq] at hh; rw [← hh.1]; exact .refl _ _ _
  | evOpt idx id opts =>
    simp only [handle, hEvOpt] at hh
    obtain ⟨⟨s1, r1⟩, h1, hh⟩ := C.bind_eq_ok.mp hh
    simp only [C.ok.injEq, Prod.mk.injEq] at hh; rw [← hh.1]
    exact eventOpt_evKeep h1 k
  | cdtGetType t =>
    simp only [handle, hCdtGet] at hh
    obtain ⟨o, ho, hh⟩ := C.bind_eq_ok.mp hh
    cases o with
    | none => simp only [C.ok.injEq, Prod.mk.injEq] at hh; rw [← hh.1]; exact .refl _ _ _
    | some x =>
      dsimp only at hh
      split at hh <;> (simp only [C.ok.injEq, Prod.mk.injEq] at hh; rw [← hh.1]; exact .refl _ _ _)
  | cdtGetName n =>
    simp only [handle, hCdtGet] at hh
    obtain ⟨o, ho, hh⟩ := C.bind_eq_ok.mp hh
    cases o with
    | none => simp only [C.ok.injEq, Prod.mk.injEq] at hh; rw [← hh.1]; exact .refl _ _ _
    | some x =>
      dsimp only at hh
      split at hh <;> (simp only [C.ok.injEq, Prod.mk.injEq] at hh; rw [← hh.1]; exact .refl _ _ _)
  | mapAdd a b =>
    simp only [handle] at hh
    obtain ⟨⟨s1, r1⟩, h1, hh⟩ := C.bind_eq_ok.mp hh
    simp only [C.ok.injEq, Prod.mk.injEq] at hh; rw [← hh.1]
    exact mapAdd_evKeep h1 k
  | mapDel idx id =>
    simp only [handle] at hh
    obtain ⟨⟨s1, r1⟩, h1, hh⟩ := C.bind_eq_ok.mp hh
    simp only [C.ok.injEq, Prod.mk.injEq] at hh; rw [← hh.1]
    exact mapDel_evKeep h1 k
  | mapGet idx id =>
    simp only [handle, hMapGet] at hh
    obtain ⟨o, ho, hh⟩ := C.bind_eq_ok.mp hh
    cases o <;> (simp only [C.ok.injEq, Prod.mk.injEq] at hh; rw [← hh.1]; exact .refl _ _ _)
  | grpAdd hs =>
    simp only [handle, hGrpAdd] at hh
    split at hh
    · simp at hh
    · obtain ⟨⟨m', r1⟩, h1, hh⟩ := C.bind_eq_ok.mp hh
      simp only [C.ok.injEq, Prod.mk.injEq] at hh; rw [← hh.1]
      exact EvKeep.refl k z s
  | grpDel i =>
    simp only [handle, hGrpDel] at hh
    split at hh
    · simp at hh
    · obtain ⟨⟨m', r1⟩, h1, hh⟩ := C.bind_eq_ok.mp hh
      simp only [C.ok.injEq, Prod.mk.injEq] at hh; rw [← hh.1]
      exact EvKeep.refl k z s
  | grpRead i =>
    simp only [handle, hGrpRead] at hh
    split at hh
    · simp at hh
    · obtain ⟨⟨s1, r1⟩, h1, hh⟩ := C.bind_eq_ok.mp hh
      have k1 : EvKeep k z s s1 := by
        unfold groupRead at h1
        split at h1
        · simp at h1
        split at h1
        · split at h1
          · simp at h1
          · obtain ⟨⟨s2, r2⟩, h2, h1⟩ := C.bind_eq_ok.mp h1
            have k2 := groupReadLoop_evKeep (z := z) k h2
            cases r2 with
            | error e => simp only [C.ok.injEq, Prod.mk.injEq] at h1; rw [← h1.1]; exact k2
            | ok d =>
              obtain ⟨d1, d2⟩ := d
              dsimp only at h1
              split at h1
              · simp only [C.ok.injEq, Prod.mk.injEq] at h1; rw [← h1.1]; exact k2
              · obtain ⟨_, -, h1⟩ := C.bind_eq_ok.mp h1
                simp only [C.ok.injEq, Prod.mk.injEq] at h1; rw [← h1.1]; exact k2
        · simp only [C.ok.injEq, Prod.mk.injEq] at h1; rw [← h1.1]; exact .refl _ _ _
      cases r1 <;> (simp only [C.ok.injEq, Prod.mk.injEq] at hh; rw [← hh.1]; exact k1)
  | grpMWrite => simp only [handle, C.ok.injEq, Prod.mk.injEq] at hh; rw [← hh.1]; exact .refl _ _ _
  | atomic h op buf =>
    simp only [handle, hAtomic] at hh
    obtain ⟨b, hb, hh⟩ := C.bind_eq_ok.mp hh
    have h0 : 0 ≤ h.index := by
      unfold roForeign rawAttr at hb
      split at hb
      · simp at hb
      · omega
    have hk := ht h.index rfl h0
    split at hh
    · simp only [C.ok.injEq, Prod.mk.injEq] at hh; rw [← hh.1]; exact .refl _ _ _
    · obtain ⟨⟨s1, r1⟩, h1, hh⟩ := C.bind_eq_ok.mp hh
      have st1 := (atomicOp_quiet h1).evKeep (k := k) (z := z) (Ne.symm hk)
      dsimp only at hh
      split at hh
      · simp only [C.ok.injEq, Prod.mk.injEq] at hh; rw [← hh.1]; exact st1
      · obtain ⟨s2, h2, hh⟩ := C.bind_eq_ok.mp hh
        simp only [C.ok.injEq, Prod.mk.injEq] at hh; rw [← hh.1]
        exact st1.trans ((mapCheck_frame (atomicOp_maps h1) hn hids hk h2).evKeep (by simp))
  | ovrGet idx off size =>
    simp only [handle] at hh
    obtain ⟨o, ho, hh⟩ := C.bind_eq_ok.mp hh
    cases o <;> (simp only [C.ok.injEq, Prod.mk.injEq] at hh; rw [← hh.1]; exact .refl _ _ _)

/-! ## One pass over the events -/

theorem sendEvent_one {s : Server} {i : Int} {ev : Ev} {b : List Byte} {ns : List Notif}
    (hz : ev.size + 16 ≤ DAX_MSGMAX) (h : sendEvent s i ev b = .ok ns) : ∃ n, ns = [n] := by
  unfold sendEvent at h
  split at h
  · simp at h
  split at h
  · split at h
    · rename_i hb
      simp only [DAX_MSGMAX] at hz hb
      omega
    · obtain ⟨d, -, h⟩ := C.bind_eq_ok.mp h
      simp only [C.ok.injEq] at h; subst h
      exact ⟨_, rfl⟩
  · simp only [C.ok.injEq] at h; subst h
    exact ⟨_, rfl⟩

theorem filter_other {ns : List Notif} {i : Int} {x id : Int} (h : ∀ n ∈ ns, n.idx = i ∧ n.id = x)
    (hx : x ≠ id) : ns.filter (fun n => n.idx = i ∧ n.id = id) = [] := by
  rw [List.filter_eq_nil_iff]
  intro n hn
  have := h n hn
  simp only [decide_eq_true_eq]
  intro ⟨_, h2⟩
  exact hx (this.2.symm.trans h2)

/-- What one pass over the events does to one of them. -/
theorem eventCheck_one {s : Server} {i : Int} {b : List Byte} {off size : Int} :
    ∀ {evs evs' : List Ev} {ns : List Notif}, eventCheck s i b off size evs = .ok (evs', ns) →
      (evs.Pairwise (fun a b => b.id < a.id)) →
      (∀ n ∈ ns, n.idx = i ∧ ∃ e ∈ evs, n.id = e.id) ∧
      ∀ ev ∈ evs, 
        (evOverlap ev off size = false → ev ∈ evs' ∧
          ns.filter (fun n => n.idx = i ∧ n.id = ev.id) = []) ∧
        (evOverlap ev off size = true → ∃ hit test', evHit s.env ev b off size = .ok (hit, test') ∧
          { ev with test := test' } ∈ evs' ∧
          (hit = false → ns.filter (fun n => n.idx = i ∧ n.id = ev.id) = []) ∧
          (hit = true → ∃ n0, sendEvent s i ev b = .ok n0 ∧
            ns.filter (fun n => n.idx = i ∧ n.id = ev.id) = n0)) := by
  intro evs
  induction evs with
  | nil =>
    intro evs' ns h _
    simp only [eventCheck, C.ok.injEq, Prod.mk.injEq] at h
    rw [← h.2]
    exact ⟨by simp, by simp⟩
  | cons e evs ih =>
    intro evs' ns h hp
    rw [List.pairwise_cons] at hp
    simp only [eventCheck] at h
    split at h
    · rename_i ho
      obtain ⟨⟨hit, test'⟩, h1, h⟩ := C.bind_eq_ok.mp h
      dsimp only at h
      have key : ∀ n0, (∀ n ∈ n0, n.idx = i ∧ n.id = e.id) → (hit = false → n0 = []) →
          (hit = true → sendEvent s i e b = .ok n0) → (do
          let (evs', ns') ← eventCheck s i b off size evs
          C.ok ({ e with test := test' } :: evs', n0 ++ ns')) = .ok (evs', ns) →
          (∀ n ∈ ns, n.idx = i ∧ ∃ x ∈ e :: evs, n.id = x.id) ∧
          ∀ ev ∈ e :: evs, 
            (evOverlap ev off size = false → ev ∈ evs' ∧
              ns.filter (fun n => n.idx = i ∧ n.id = ev.id) = []) ∧
            (evOverlap ev off size = true → ∃ hit test', evHit s.env ev b off size = .ok (hit, test') ∧
              { ev with test := test' } ∈ evs' ∧
              (hit = false → ns.filter (fun n => n.idx = i ∧ n.id = ev.id) = []) ∧
              (hit = true → ∃ n0, sendEvent s i ev b = .ok n0 ∧
                ns.filter (fun n => n.idx = i ∧ n.id = ev.id) = n0)) := by
        intro n0 hn0 hf htr h
        obtain ⟨⟨e2, n2⟩, h2, h⟩ := C.bind_eq_ok.mp h
        simp only [C.ok.injEq, Prod.mk.injEq] at h
        obtain ⟨rfl, rfl⟩ := h
        obtain ⟨q1, q2⟩ := ih h2 hp.2
        refine ⟨?_, ?_⟩
        · intro n hn
          rcases List.mem_append.mp hn with hn | hn
          · exact ⟨(hn0 n hn).1, e, List.mem_cons_self .., (hn0 n hn).2⟩
          · obtain ⟨a, x, hx, hb⟩ := q1 n hn
            exact ⟨a, x, List.mem_cons_of_mem _ hx, hb⟩
        · intro ev hev
          rcases List.mem_cons.mp hev with hev | hev
          · subst hev
            have hn2 : n2.filter (fun n => n.idx = i ∧ n.id = ev.id) = [] := by
              rw [List.filter_eq_nil_iff]
              intro n hn
              obtain ⟨_, x, hx, hb⟩ := q1 n hn
              have := hp.1 x hx
              simp only [decide_eq_true_eq]
              omega
            refine ⟨fun h => by rw [ho] at h; simp at h, fun _ => ⟨hit, test', h1, List.mem_cons_self .., ?_, ?_⟩⟩
            · intro hh; rw [hf hh, List.nil_append, hn2]
            · intro hh
              refine ⟨n0, htr hh, ?_⟩
              rw [List.filter_append, hn2, List.append_nil, List.filter_eq_self]
              intro n hn
              simp only [decide_eq_true_eq]
              exact hn0 n hn
          · have hne : e.id ≠ ev.id := by have := hp.1 ev hev; omega
            have h0 := filter_other hn0 hne
            obtain ⟨r1, r2⟩ := q2 ev hev
            refine ⟨fun h => ?_, fun h => ?_⟩
            · obtain ⟨a, b⟩ := r1 h
              exact ⟨List.mem_cons_of_mem _ a, by rw [List.filter_append, h0, b]; rfl⟩
            · obtain ⟨hit', t', a, b, c, d⟩ := r2 h
              refine ⟨hit', t', a, List.mem_cons_of_mem _ b, ?_, ?_⟩
              · intro hh; rw [List.filter_append, h0, c hh]; rfl
              · intro hh
                obtain ⟨n3, x1, x2⟩ := d hh
                exact ⟨n3, x1, by rw [List.filter_append, h0, x2]; rfl⟩
      cases hit with
      | true =>
        obtain ⟨n0, hn, h⟩ := C.bind_eq_ok.mp h
        exact key n0 (fun n hm => ⟨(sendEvent_ids hn n hm).1, (sendEvent_ids hn n hm).2.1⟩) (by simp) (fun _ => hn) h
      | false =>
        simp only [Bool.false_eq_true, if_false, C.ok_bind] at h
        exact key [] (by simp) (fun _ => rfl) (by simp) h
    · rename_i ho
      obtain ⟨⟨e2, n2⟩, h2, h⟩ := C.bind_eq_ok.mp h
      simp only [C.ok.injEq, Prod.mk.injEq] at h
      obtain ⟨rfl, rfl⟩ := h
      obtain ⟨q1, q2⟩ := ih h2 hp.2
      refine ⟨?_, ?_⟩
      · intro n hn
        obtain ⟨a, x, hx, hb⟩ := q1 n hn
        exact ⟨a, x, List.mem_cons_of_mem _ hx, hb⟩
      · intro ev hev
        rcases List.mem_cons.mp hev with hev | hev
        · subst hev
          refine ⟨fun _ => ⟨List.mem_cons_self .., ?_⟩, fun h => absurd h ho⟩
          rw [List.filter_eq_nil_iff]
          intro n hn
          obtain ⟨_, x, hx, hb⟩ := q1 n hn
          have := hp.1 x hx
          simp only [decide_eq_true_eq]
          omega
        · obtain ⟨r1, r2⟩ := q2 ev hev
          refine ⟨fun h => ?_, fun h => ?_⟩
          · obtain ⟨a, b⟩ := r1 h
            exact ⟨List.mem_cons_of_mem _ a, b⟩
          · obtain ⟨hit', t', a, b, c⟩ := r2 h
            exact ⟨hit', t', a, List.mem_cons_of_mem _ b, c⟩

end Dax
