import Verif.Lemmas.Moves
/-!
# Identifiers of events and mappings
-/
set_option autoImplicit false
namespace Dax

/-- Event and mapping ids of a tag: newest first, no id twice, all below the next id; a mapping
is stored with its source tag. -/
structure IdsOK (i : Nat) (t : Tag) : Prop where
  evLt : t.events.Pairwise (fun a b => b.id < a.id)
  evRange : ∀ e ∈ t.events, 1 ≤ e.id ∧ e.id < t.nextevent
  evNext : 1 ≤ t.nextevent
  mapLt : t.maps.Pairwise (fun a b => b.id < a.id)
  mapRange : ∀ m ∈ t.maps, 1 ≤ m.id ∧ m.id < t.nextmap ∧ m.src.index = i ∧ m.src.size ≤ m.dst.size
  mapNext : 1 ≤ t.nextmap
  ovr : ∀ od om, t.ovr = some (od, om) → od.length = om.length

/-- The event part of `IdsOK` depends on the ids alone. -/
theorem evIds_congr {evs evs' : List Ev} {n : Int}
    (h : evs'.map (·.id) = evs.map (·.id))
    (h1 : evs.Pairwise (fun a b => b.id < a.id)) (h2 : ∀ e ∈ evs, 1 ≤ e.id ∧ e.id < n) :
    evs'.Pairwise (fun a b => b.id < a.id) ∧ ∀ e ∈ evs', 1 ≤ e.id ∧ e.id < n := by
  have e1 : (evs.map (·.id)).Pairwise (fun a b => b < a) := List.pairwise_map.mpr h1
  have e2 : ∀ x ∈ evs.map (·.id), 1 ≤ x ∧ x < n := by
    intro x hx
    obtain ⟨e, he, rfl⟩ := List.mem_map.mp hx
    exact h2 e he
  rw [← h] at e1 e2
  rw [List.pairwise_map] at e1
  exact ⟨e1, fun e he => e2 _ (List.mem_map.mpr ⟨e, he, rfl⟩)⟩

theorem face_ids {evs evs' : List Ev} (h : evs'.map Ev.face = evs.map Ev.face) :
    evs'.map (·.id) = evs.map (·.id) := by
  have := congrArg (List.map (·.id)) h
  simpa [List.map_map, Function.comp_def, Ev.face] using this

theorem IdsOK.move {fl : Kind → Bool} {s : Server} {i : Nat} {t t' : Tag} (h : IdsOK i t) (m : TagMove fl s i t t') :
    IdsOK i t' := by
  cases m with
  | write hv hb hl he =>
    obtain ⟨e1, e2⟩ := evIds_congr (face_ids he) h.evLt h.evRange
    exact ⟨e1, e2, h.evNext, h.mapLt, h.mapRange, h.mapNext, h.ovr⟩
  | qwrite hv hb hl he =>
    obtain ⟨e1, e2⟩ := evIds_congr (face_ids he) h.evLt h.evRange
    exact ⟨e1, e2, h.evNext, h.mapLt, h.mapRange, h.mapNext, h.ovr⟩
  | qread hv hq hr => exact ⟨h.evLt, h.evRange, h.evNext, h.mapLt, h.mapRange, h.mapNext, h.ovr⟩
  | restore hb hl => exact ⟨h.evLt, h.evRange, h.evNext, h.mapLt, h.mapRange, h.mapNext, h.ovr⟩
  | attr => exact ⟨h.evLt, h.evRange, h.evNext, h.mapLt, h.mapRange, h.mapNext, h.ovr⟩
  | special => exact ⟨h.evLt, h.evRange, h.evNext, h.mapLt, h.mapRange, h.mapNext, h.ovr⟩
  | ovrFlags a b => exact ⟨h.evLt, h.evRange, h.evNext, h.mapLt, h.mapRange, h.mapNext, h.ovr⟩
  | ovrNew hn ho h1 h2 =>
    refine ⟨h.evLt, h.evRange, h.evNext, h.mapLt, h.mapRange, h.mapNext, ?_⟩
    intro od om hh
    simp only [Option.some.injEq, Prod.mk.injEq] at hh
    rw [← hh.1, ← hh.2, h1, h2]
  | ovrSet ho h1 h2 =>
    refine ⟨h.evLt, h.evRange, h.evNext, h.mapLt, h.mapRange, h.mapNext, ?_⟩
    intro od om hh
    simp only [Option.some.injEq, Prod.mk.injEq] at hh
    rw [← hh.1, ← hh.2, h1, h2]
    exact h.ovr _ _ ho
  | ovrFree =>
    exact ⟨h.evLt, h.evRange, h.evNext, h.mapLt, h.mapRange, h.mapNext, fun _ _ h => by simp at h⟩
  | evAdd hid hv hm =>
    refine ⟨?_, ?_, ?_, h.mapLt, h.mapRange, h.mapNext, h.ovr⟩
    · refine List.pairwise_cons.mpr ⟨fun e he => ?_, h.evLt⟩
      rw [hid]; exact (h.evRange e he).2
    · intro e he
      have := h.evNext
      rcases List.mem_cons.mp he with rfl | he
      · dsimp only; rw [hid]; omega
      · have := h.evRange e he; dsimp only; omega
    · have := h.evNext; dsimp only; omega
  | evDel hs =>
    exact ⟨h.evLt.sublist hs, fun e he => h.evRange e (hs.mem he), h.evNext, h.mapLt, h.mapRange,
      h.mapNext, h.ovr⟩
  | evOpt ho =>
    have hi := congrArg (List.map (·.id)) ho
    simp only [List.map_map, Function.comp_def] at hi
    obtain ⟨e1, e2⟩ := evIds_congr hi h.evLt h.evRange
    exact ⟨e1, e2, h.evNext, h.mapLt, h.mapRange, h.mapNext, h.ovr⟩
  | mapAdd hid hi hw hv hd hu hs =>
    refine ⟨h.evLt, h.evRange, h.evNext, ?_, ?_, ?_, h.ovr⟩
    · refine List.pairwise_cons.mpr ⟨fun e he => ?_, h.mapLt⟩
      rw [hid]; exact (h.mapRange e he).2.1
    · intro e he
      have := h.mapNext
      rcases List.mem_cons.mp he with rfl | he
      · refine ⟨by rw [hid]; omega, by dsimp only; rw [hid]; omega, hi, hs⟩
      · have := h.mapRange e he; dsimp only; exact ⟨this.1, by omega, this.2.2⟩
    · have := h.mapNext; dsimp only; omega
  | mapDel hs =>
    exact ⟨h.evLt, h.evRange, h.evNext, h.mapLt.sublist hs, fun e he => h.mapRange e (hs.mem he),
      h.mapNext, h.ovr⟩
  | grow hr hc => exact ⟨h.evLt, h.evRange, h.evNext, h.mapLt, h.mapRange, h.mapNext, h.ovr⟩
  | clear => exact ⟨.nil, by simp, h.evNext, .nil, by simp, h.mapNext, h.ovr⟩
  | kill => exact ⟨h.evLt, h.evRange, h.evNext, h.mapLt, h.mapRange, h.mapNext, h.ovr⟩

/-- An invariant of single tags that holds for new tags and is kept by every change of a tag
is kept by every elementary change. -/
theorem Move.forall_tags {fl : Kind → Bool} {I : Nat → Tag → Prop}
    (hnew : ∀ e i fd name type count size, I i (newTag e i fd name type count size))
    (htag : ∀ s i t t', I i t → TagMove fl s i t t' → I i t') (s s' : Server)
    (h : ∀ (i : Nat) (t : Tag), s.db[i]? = some t → I i t) (m : Move fl s s') :
    ∀ (i : Nat) (t : Tag), s'.db[i]? = some t → I i t := by
  cases m with
  | @tag i t t' rt ht hm _ =>
    intro j u hu
    by_cases hij : i = j
    · subst hij
      have hlt := (List.getElem?_eq_some_iff.mp ht).1
      simp only [List.getElem?_set_self hlt, Option.some.injEq] at hu
      subst hu
      exact htag s i t _ (h i t ht) hm
    · simp only [List.getElem?_set_ne hij] at hu
      exact h j u hu
  | push fd name type count size =>
    intro j u hu
    dsimp only at hu
    rw [List.getElem?_append] at hu
    split at hu
    · exact h j u hu
    · rename_i hge
      rw [List.getElem?_singleton] at hu
      split at hu
      · rename_i hz
        simp only [Option.some.injEq] at hu
        have : j = s.db.length := by omega
        subst this; subst hu
        exact hnew _ _ _ _ _ _ _
      · simp at hu
  | send => exact h
  | other h1 h2 h3 h4 h5 h6 => intro j u hu; exact h j u (by rw [← h1]; exact hu)
  | env e => exact h
  | evCount uid f => exact h
  | groups hm g n => exact h
  | modAdd _ name fd hn => exact h
  | modUuid _ n => exact h
  | modIdx _ uid hr => exact h
  | modDel _ uid => exact h

theorem Reachable.forall_tags {I : Nat → Tag → Prop}
    (hinit : ∀ e s, initServer e = .ok s → ∀ (i : Nat) (t : Tag), s.db[i]? = some t → I i t)
    (hnew : ∀ e i fd name type count size, I i (newTag e i fd name type count size))
    (htag : ∀ s i t t', I i t → TagMove (fun _ => true) s i t t' → I i t') {s : Server} (h : Reachable s) :
    ∀ (i : Nat) (t : Tag), s.db[i]? = some t → I i t :=
  h.inv (I := fun s => ∀ (i : Nat) (t : Tag), s.db[i]? = some t → I i t) hinit
    (fun _ _ => Move.forall_tags hnew htag _ _)

theorem Reachable.ids {s : Server} (h : Reachable s) {i : Nat} {t : Tag}
    (ht : s.db[i]? = some t) : IdsOK i t := by
  refine h.forall_tags (I := IdsOK) ?_ ?_ (fun _ _ _ _ => IdsOK.move) i t ht
  · intro e s0 h0 j u hu
    obtain ⟨h1, h2, h3, h4, h5⟩ := (init_mods h0).2 j u hu
    exact ⟨by rw [h3]; exact .nil, by rw [h3]; simp, by omega, by rw [h4]; exact .nil,
      by rw [h4]; simp, by omega, by rw [h5]; simp⟩
  · intro e j fd name type count size
    exact ⟨.nil, by simp [newTag], by simp [newTag], .nil, by simp [newTag], by simp [newTag],
      by simp [newTag]⟩

theorem find_map {ms : List DMap} (h1 : ms.Pairwise (fun a b => b.id < a.id))
    {m : DMap} (hm : m ∈ ms) : ms.find? (fun x => x.id = m.id) = some m := by
  induction ms with
  | nil => simp at hm
  | cons a ms ih =>
    rw [List.pairwise_cons] at h1
    rcases List.mem_cons.mp hm with rfl | hm'
    · simp
    · have := h1.1 m hm'
      rw [List.find?_cons_of_neg (by simp; omega)]
      exact ih h1.2 hm'

end Dax
