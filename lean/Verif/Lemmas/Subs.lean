import Verif.Spec.Subs
import Verif.Lemmas.EventStep
/-!
# The list of subscriptions
-/
set_option autoImplicit false
namespace Dax

theorem subsOf_some {s : Server} {i : Nat} {t : Tag} (h : s.db[i]? = some t) : subsOf s i = t.events := by
  unfold subsOf; rw [h]

theorem mem_subsOf {s : Server} {i : Nat} {e : Ev} (h : e ∈ subsOf s i) : ∃ t, s.db[i]? = some t ∧ e ∈ t.events := by
  unfold subsOf at h
  split at h
  · exact ⟨_, by assumption, h⟩
  · simp at h

theorem TagMove.nextevent {fl : Kind → Bool} {s : Server} {i : Nat} {t t' : Tag} (h : TagMove fl s i t t') :
    t.nextevent ≤ t'.nextevent := by
  cases h <;> dsimp only <;> omega

theorem Move.nextevent {fl : Kind → Bool} {s s' : Server} (m : Move fl s s') {i : Nat} {t : Tag}
    (ht : s.db[i]? = some t) : ∃ t', s'.db[i]? = some t' ∧ t.nextevent ≤ t'.nextevent := by
  cases m with
  | @tag j u u' rt hu hm _ =>
    by_cases hij : j = i
    · subst hij
      have hlt := (List.getElem?_eq_some_iff.mp ht).1
      rw [hu] at ht; cases ht
      exact ⟨u', by simp [hlt], hm.nextevent⟩
    · exact ⟨t, by rw [List.getElem?_set_ne hij]; exact ht, Int.le_refl _⟩
  | push =>
    have hlt := (List.getElem?_eq_some_iff.mp ht).1
    exact ⟨t, by rw [List.getElem?_append_left hlt]; exact ht, Int.le_refl _⟩
  | other h1 => exact ⟨t, by rw [h1]; exact ht, Int.le_refl _⟩
  | _ => exact ⟨t, ht, Int.le_refl _⟩

theorem Path.nextevent {fl : Kind → Bool} {s s' : Server} (p : Path fl s s') {i : Nat} {t : Tag}
    (ht : s.db[i]? = some t) : ∃ t', s'.db[i]? = some t' ∧ t.nextevent ≤ t'.nextevent := by
  induction p with
  | refl => exact ⟨t, ht, Int.le_refl _⟩
  | snoc _ m ih =>
    obtain ⟨t1, h1, e1⟩ := ih
    obtain ⟨t2, h2, e2⟩ := m.nextevent h1
    exact ⟨t2, h2, Int.le_trans e1 e2⟩

/-! ## Subscriptions stay -/

theorem face_core {l l' : List Ev} (h : l'.map Ev.face = l.map Ev.face) : l'.map Ev.core = l.map Ev.core := by
  have := congrArg (List.map Ev.core) h
  rw [List.map_map, List.map_map] at this
  exact this

theorem opt_core {l l' : List Ev}
    (h : l'.map (fun e => { e with options := 0 }) = l.map (fun e => { e with options := 0 })) :
    l'.map Ev.core = l.map Ev.core := by
  have := congrArg (List.map Ev.core) h
  rw [List.map_map, List.map_map] at this
  exact this

/-- What changes other than deletions do to the subscriptions of a tag. -/
def SubsGrow (fl : Kind → Bool) (a b : List Ev) : Prop :=
  (∃ new, b.map Ev.core = new ++ a.map Ev.core ∧ (fl .evAdd = false → new = [])) ∧
  (fl .evOpt = false → ∃ new, b.map Ev.face = new ++ a.map Ev.face)

theorem SubsGrow.refl (fl : Kind → Bool) (a : List Ev) : SubsGrow fl a a :=
  ⟨⟨[], rfl, fun _ => rfl⟩, fun _ => ⟨[], rfl⟩⟩

theorem SubsGrow.trans {fl : Kind → Bool} {a b c : List Ev} (h1 : SubsGrow fl a b) (h2 : SubsGrow fl b c) :
    SubsGrow fl a c := by
  obtain ⟨⟨n1, e1, f1⟩, g1⟩ := h1
  obtain ⟨⟨n2, e2, f2⟩, g2⟩ := h2
  refine ⟨⟨n2 ++ n1, by rw [e2, e1, List.append_assoc], fun h => by rw [f1 h, f2 h]; rfl⟩, fun h => ?_⟩
  obtain ⟨x1, y1⟩ := g1 h
  obtain ⟨x2, y2⟩ := g2 h
  exact ⟨x2 ++ x1, by rw [y2, y1, List.append_assoc]⟩

theorem TagMove.subs {fl : Kind → Bool} (hd : fl .evDel = false) (hk : fl .del = false) {s : Server} {i : Nat}
    {t t' : Tag} (h : TagMove fl s i t t') : SubsGrow fl t.events t'.events := by
  cases h with
  | write _ _ _ he => exact ⟨⟨[], by simpa using face_core he, fun _ => rfl⟩, fun _ => ⟨[], by simpa using he⟩⟩
  | qwrite _ _ _ he => exact ⟨⟨[], by simpa using face_core he, fun _ => rfl⟩, fun _ => ⟨[], by simpa using he⟩⟩
  | @evAdd ev _ _ _ _ hf =>
    exact ⟨⟨[ev.core], rfl, fun h => by rw [hf] at h; simp at h⟩, fun _ => ⟨[ev.face], rfl⟩⟩
  | evDel _ hf => rw [hd] at hf; simp at hf
  | evOpt h hf => exact ⟨⟨[], by simpa using opt_core h, fun _ => rfl⟩, fun h => by rw [hf] at h; simp at h⟩
  | clear hf => rw [hk] at hf; simp at hf
  | kill hf => rw [hk] at hf; simp at hf
  | _ => exact .refl _ _

theorem Move.subs {fl : Kind → Bool} (hd : fl .evDel = false) (hk : fl .del = false) {s s' : Server}
    (m : Move fl s s') (i : Nat) : SubsGrow fl (subsOf s i) (subsOf s' i) := by
  cases m with
  | @tag j u u' rt hu hm _ =>
    by_cases hij : j = i
    · subst hij
      have hlt := (List.getElem?_eq_some_iff.mp hu).1
      rw [subsOf_some hu, subsOf_some (t := u') (by simp [hlt])]
      exact hm.subs hd hk
    · unfold subsOf
      rw [List.getElem?_set_ne hij]
      exact .refl _ _
  | push =>
    unfold subsOf
    by_cases hlt : i < s.db.length
    · rw [List.getElem?_append_left hlt]; exact .refl _ _
    · rw [List.getElem?_eq_none (l := s.db) (by omega)]
      dsimp only
      split
      · rename_i t ht
        rw [List.getElem?_append_right (by omega), List.getElem?_singleton] at ht
        split at ht
        · cases ht; exact .refl _ _
        · simp at ht
      · exact .refl _ _
  | other h1 => unfold subsOf; rw [h1]; exact .refl _ _
  | _ => exact .refl _ _

theorem Path.subs {fl : Kind → Bool} (hd : fl .evDel = false) (hk : fl .del = false) {s s' : Server}
    (p : Path fl s s') (i : Nat) : SubsGrow fl (subsOf s i) (subsOf s' i) := by
  induction p with
  | refl => exact .refl _ _
  | snoc _ m ih => exact ih.trans (m.subs hd hk i)

/-! ## Notifications -/

/-- Every change only appends notifications. -/
theorem Path.sent {fl : Kind → Bool} {s s' : Server} (p : Path fl s s') : ∃ ns, s'.sent = s.sent ++ ns := by
  induction p with
  | refl => exact ⟨[], by simp⟩
  | snoc _ m ih =>
    obtain ⟨ns, e⟩ := ih
    cases m with
    | other _ _ _ _ _ _ h7 => exact ⟨ns, by rw [h7, e]⟩
    | @send ns' _ => exact ⟨ns ++ ns', by dsimp only; rw [e, List.append_assoc]⟩
    | _ => exact ⟨ns, e⟩

/-- A fact about the state that every change keeps, and that speaks about notifications it sends. -/
theorem Path.sent_inv {fl : Kind → Bool} {I : Server → Prop} {P : Notif → Prop}
    (hI : ∀ s s', I s → Move fl s s' → I s') (hP : ∀ s n, I s → FromSub s n → P n)
    {s s' : Server} (p : Path fl s s') (h : I s) : ∀ n ∈ newNotices s s', P n := by
  suffices h' : I s' ∧ s.sent.length ≤ s'.sent.length ∧ ∀ n ∈ newNotices s s', P n from h'.2.2
  induction p with
  | refl => exact ⟨h, Nat.le_refl _, by simp [newNotices]⟩
  | snoc p m ih =>
    obtain ⟨h1, h2, h3⟩ := ih
    refine ⟨hI _ _ h1 m, ?_⟩
    unfold newNotices at *
    cases m with
    | other _ _ _ _ _ _ h7 => rw [h7]; exact ⟨h2, h3⟩
    | send hf =>
      dsimp only
      refine ⟨by rw [List.length_append]; omega, fun n hn => ?_⟩
      rw [List.drop_append_of_le_length h2] at hn
      rcases List.mem_append.mp hn with hn | hn
      · exact h3 n hn
      · exact hP _ n h1 (hf n hn)
    | _ => exact ⟨h2, h3⟩

/-! ## Deletion -/

theorem evRemove_owner {id : Int} {uid : Nat} {evs : List Ev} {ev : Ev} (hp : evs.Pairwise (fun a b => b.id < a.id))
    (he : ev ∈ evs) (hid : ev.id = id) (hn : ev.notify = uid) :
    evRemove id (some uid) evs = .ok (some (evs.filter (fun e => e.id ≠ id))) := by
  induction evs with
  | nil => simp at he
  | cons e evs ih =>
    rw [List.pairwise_cons] at hp
    simp only [evRemove]
    by_cases h : e.id = id
    · have hev : ev = e := by
        rcases List.mem_cons.mp he with rfl | hm
        · rfl
        · have := hp.1 ev hm; omega
      subst hev
      rw [if_pos h, if_neg (by simp [hn])]
      congr 2
      rw [List.filter_cons_of_neg (by simp [h]), List.filter_eq_self.mpr]
      intro x hx
      have := hp.1 x hx
      simp only [decide_eq_true_eq]; omega
    · rw [if_neg h]
      have hm : ev ∈ evs := by
        rcases List.mem_cons.mp he with rfl | hm
        · exact absurd hid h
        · exact hm
      rw [ih hp.2 hm, List.filter_cons_of_pos (by simp [h])]

theorem evRemove_other {id : Int} {uid : Option Nat} {evs : List Ev} {ev : Ev}
    (hp : evs.Pairwise (fun a b => b.id < a.id)) (he : ev ∈ evs) (hid : ev.id = id) (hn : some ev.notify ≠ uid) :
    evRemove id uid evs = .error () := by
  induction evs with
  | nil => simp at he
  | cons e evs ih =>
    rw [List.pairwise_cons] at hp
    simp only [evRemove]
    by_cases h : e.id = id
    · have hev : ev = e := by
        rcases List.mem_cons.mp he with rfl | hm
        · rfl
        · have := hp.1 ev hm; omega
      subst hev
      rw [if_pos h, if_pos hn]
    · rw [if_neg h]
      have hm : ev ∈ evs := by
        rcases List.mem_cons.mp he with rfl | hm
        · exact absurd hid h
        · exact hm
      rw [ih hp.2 hm]

theorem evSetOpt_other {id : Int} {o : Nat} {uid : Option Nat} {evs : List Ev} {ev : Ev}
    (hp : evs.Pairwise (fun a b => b.id < a.id)) (he : ev ∈ evs) (hid : ev.id = id) (hn : some ev.notify ≠ uid) :
    evSetOpt id o uid evs = .error () := by
  induction evs with
  | nil => simp at he
  | cons e evs ih =>
    rw [List.pairwise_cons] at hp
    simp only [evSetOpt]
    by_cases h : e.id = id
    · have hev : ev = e := by
        rcases List.mem_cons.mp he with rfl | hm
        · rfl
        · have := hp.1 ev hm; omega
      subst hev
      rw [if_pos h, if_pos hn]
    · rw [if_neg h]
      have hm : ev ∈ evs := by
        rcases List.mem_cons.mp he with rfl | hm
        · exact absurd hid h
        · exact hm
      rw [ih hp.2 hm]

/-- Deletion by the owner. -/
theorem eventDel_owner {s : Server} {i : Nat} {t : Tag} {ev : Ev} {uid : Nat} (ht : s.db[i]? = some t)
    (hp : t.events.Pairwise (fun a b => b.id < a.id)) (he : ev ∈ t.events) (hn : ev.notify = uid)
    (hf : s.env.freedReadable = true ∨ ∃ e0 es, t.events = e0 :: es ∧ e0.id ≠ ev.id) :
    ∃ a r, (a = t.attr ∨ a = { t.attr with event := false }) ∧
    eventDel s i ev.id (some uid) = .ok ((s.setTag i { t with events := t.events.filter (fun e => e.id ≠ ev.id), attr := a }).updMod uid
      (fun m => { m with eventCount := m.eventCount - 1 }), r) := by
  unfold eventDel
  rw [tag?_natCast, ht]
  dsimp only
  split
  · rename_i h; rw [h] at he; simp at he
  · rename_i e evs hev
    rw [hev] at hp he
    rw [List.pairwise_cons] at hp
    by_cases h : e.id = ev.id
    · have hee : e = ev := by
        rcases List.mem_cons.mp he with rfl | hm
        · rfl
        · have := hp.1 ev hm; omega
      subst hee
      have hfr : s.env.freedReadable = true := by
        rcases hf with h | ⟨e0, es, h1, h2⟩
        · exact h
        · rw [hev] at h1; simp only [List.cons.injEq] at h1; exact absurd (by rw [h1.1]) h2
      rw [if_pos rfl, if_neg (by simp [hn]), if_neg (by simp [hfr])]
      refine ⟨if evs.isEmpty then { t.attr with event := false } else t.attr, ERR_NOTFOUND, ?_, ?_⟩
      rotate_left
      · have : evs = t.events.filter (fun x => x.id ≠ e.id) := by
          rw [hev, List.filter_cons_of_neg (by simp), List.filter_eq_self.mpr]
          intro x hx
          have := hp.1 x hx
          simp only [decide_eq_true_eq]; omega
        rw [← this]
      · split
        · exact .inr rfl
        · exact .inl rfl
    · have hm : ev ∈ evs := by
        rcases List.mem_cons.mp he with rfl | hm
        · exact absurd rfl h
        · exact hm
      rw [if_neg h, evRemove_owner hp.2 hm rfl hn]
      refine ⟨t.attr, 0, .inl rfl, ?_⟩
      rw [hev, List.filter_cons_of_pos (by simp [h])]

/-- Deletion by somebody else. -/
theorem eventDel_other {s : Server} {i : Nat} {t : Tag} {ev : Ev} {uid : Option Nat} (ht : s.db[i]? = some t)
    (hp : t.events.Pairwise (fun a b => b.id < a.id)) (he : ev ∈ t.events) (hn : some ev.notify ≠ uid) :
    eventDel s i ev.id uid = .ok (s, ERR_AUTH) := by
  unfold eventDel
  rw [tag?_natCast, ht]
  dsimp only
  split
  · rename_i h; rw [h] at he; simp at he
  · rename_i e evs hev
    rw [hev] at hp he
    rw [List.pairwise_cons] at hp
    by_cases h : e.id = ev.id
    · have hee : e = ev := by
        rcases List.mem_cons.mp he with rfl | hm
        · rfl
        · have := hp.1 ev hm; omega
      subst hee
      rw [if_pos rfl, if_pos hn]
    · have hm : ev ∈ evs := by
        rcases List.mem_cons.mp he with rfl | hm
        · exact absurd rfl h
        · exact hm
      rw [if_neg h, evRemove_other hp.2 hm rfl hn]

theorem eventOpt_other {s : Server} {i : Nat} {t : Tag} {ev : Ev} {o : Nat} {uid : Option Nat} (ht : s.db[i]? = some t)
    (hp : t.events.Pairwise (fun a b => b.id < a.id)) (he : ev ∈ t.events) (hn : some ev.notify ≠ uid) :
    eventOpt s i ev.id o uid = .ok (s, ERR_AUTH) := by
  unfold eventOpt
  rw [tag?_natCast, ht]
  dsimp only
  rw [evSetOpt_other hp he rfl hn]

end Dax
