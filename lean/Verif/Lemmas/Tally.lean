import Verif.Lemmas.Subs
import Verif.Lemmas.Leave
/-!
# The event counters of modules
-/
set_option autoImplicit false
namespace Dax

/-- Number of subscriptions of module `u`. -/
def evTotal (s : Server) (u : Nat) : Nat := (s.db.map (fun t => t.events.countP (fun e => e.notify = u))).sum

theorem sum_set {α : Type} {f : α → Nat} {l : List α} {i : Nat} {a b : α} (h : l[i]? = some a) :
    ((l.set i b).map f).sum + f a = (l.map f).sum + f b := by
  induction l generalizing i with
  | nil => simp at h
  | cons x l ih =>
    cases i with
    | zero => simp only [List.getElem?_cons_zero, Option.some.injEq] at h; subst h; simp; omega
    | succ i =>
      simp only [List.getElem?_cons_succ] at h
      have := ih h
      simp only [List.set_cons_succ, List.map_cons, List.sum_cons]; omega

theorem le_sum {α : Type} {f : α → Nat} {l : List α} {a : α} (h : a ∈ l) : f a ≤ (l.map f).sum := by
  induction l with
  | nil => simp at h
  | cons x l ih =>
    simp only [List.map_cons, List.sum_cons]
    rcases List.mem_cons.mp h with rfl | h
    · omega
    · have := ih h; omega

theorem evTotal_set {s : Server} {i : Nat} {t t' : Tag} {u : Nat} (h : s.db[i]? = some t) :
    evTotal { s with db := s.db.set i t' } u + t.events.countP (fun e => e.notify = u) =
      evTotal s u + t'.events.countP (fun e => e.notify = u) := by
  unfold evTotal
  exact sum_set (f := fun t : Tag => t.events.countP (fun e => e.notify = u)) h

theorem evTotal_setTag {s : Server} {i : Nat} {t t' : Tag} {u : Nat} (h : s.db[i]? = some t) :
    evTotal (s.setTag i t') u + t.events.countP (fun e => e.notify = u) =
      evTotal s u + t'.events.countP (fun e => e.notify = u) := evTotal_set h

theorem evTotal_updMod (s : Server) (x u : Nat) (f : Module → Module) : evTotal (s.updMod x f) u = evTotal s u := rfl

theorem mem_evTotal {s : Server} {i : Nat} {e : Ev} (h : e ∈ subsOf s i) : 0 < evTotal s e.notify := by
  obtain ⟨t, ht, he⟩ := mem_subsOf h
  have h1 : 0 < t.events.countP (fun x => x.notify = e.notify) := List.countP_pos_iff.mpr ⟨e, he, by simp⟩
  have := le_sum (f := fun t : Tag => t.events.countP (fun x => x.notify = e.notify)) (List.mem_of_getElem? ht)
  unfold evTotal; omega

theorem evTotal_pos {s : Server} {u : Nat} (h : 0 < evTotal s u) : ∃ i, ∃ e ∈ subsOf s i, e.notify = u := by
  have : ∃ t ∈ s.db, 0 < t.events.countP (fun x => x.notify = u) := by
    apply Classical.byContradiction
    intro hn
    have : (s.db.map (fun t => t.events.countP (fun e => e.notify = u))).sum = 0 := by
      rw [List.sum_eq_zero_iff_forall_eq_nat]
      intro x hx
      obtain ⟨t, ht, rfl⟩ := List.mem_map.mp hx
      apply Classical.byContradiction
      intro hc
      exact hn ⟨t, ht, by omega⟩
    unfold evTotal at h; omega
  obtain ⟨t, ht, hc⟩ := this
  obtain ⟨e, he, hu⟩ := List.countP_pos_iff.mp hc
  obtain ⟨i, hi⟩ := List.getElem?_of_mem ht
  exact ⟨i, e, by rw [subsOf_some hi]; exact he, by simpa using hu⟩

/-- Identity and event counter of the modules. -/
def Server.counts (s : Server) : List (Nat × Int) := s.mods.map (fun m => (m.uid, m.eventCount))

theorem updMod_counts (s : Server) (uid : Nat) (f : Module → Module)
    (hf : ∀ m ∈ s.mods, m.uid = uid → (f m).uid = m.uid ∧ (f m).eventCount = m.eventCount) :
    (s.updMod uid f).counts = s.counts := by
  unfold Server.counts Server.updMod
  simp only [List.map_map]
  apply List.map_congr_left
  intro m hm
  simp only [Function.comp_apply]
  split
  · rename_i h; have := hf m hm h; rw [this.1, this.2]
  · rfl

/-- Changes that add no subscription and leave the modules and their counters alone. -/
structure Calm (s s' : Server) : Prop where
  total : ∀ u, evTotal s' u ≤ evTotal s u
  counts : s'.counts = s.counts

theorem Calm.refl (s : Server) : Calm s s := ⟨fun _ => Nat.le_refl _, rfl⟩
theorem Calm.trans {a b c : Server} (h1 : Calm a b) (h2 : Calm b c) : Calm a c :=
  ⟨fun u => Nat.le_trans (h2.total u) (h1.total u), h2.counts.trans h1.counts⟩

theorem countP_core {l l' : List Ev} {u : Nat} (h : l'.map Ev.core = l.map Ev.core) :
    l'.countP (fun e => e.notify = u) = l.countP (fun e => e.notify = u) := by
  have h1 : ∀ l : List Ev, l.countP (fun e => e.notify = u) = (l.map Ev.core).countP (fun e => e.notify = u) := by
    intro l; rw [List.countP_map]; rfl
  rw [h1 l', h1 l, h]

theorem TagMove.calm {fl : Kind → Bool} (ha : fl .evAdd = false) {s : Server} {i : Nat}
    {t t' : Tag} (h : TagMove fl s i t t') (u : Nat) :
    t'.events.countP (fun e => e.notify = u) ≤ t.events.countP (fun e => e.notify = u) := by
  cases h with
  | write _ _ _ he => exact Nat.le_of_eq (countP_core (face_core he))
  | qwrite _ _ _ he => exact Nat.le_of_eq (countP_core (face_core he))
  | evAdd _ _ _ hf => rw [ha] at hf; simp at hf
  | evDel h => exact h.countP_le
  | evOpt h => exact Nat.le_of_eq (countP_core (opt_core h))
  | clear => simp
  | _ => exact Nat.le_refl _

theorem Move.calm {fl : Kind → Bool} (ha : fl .evAdd = false) (hc : fl .evCount = false) (hr : ∀ fd, fl (.reg fd) = false)
    (hd : fl .modDel = false) {s s' : Server} (hk : ModsOK s) (m : Move fl s s') : Calm s s' := by
  cases m with
  | tag ht hm =>
    refine ⟨fun u => ?_, rfl⟩
    rename_i i t t' _ _
    have := hm.calm ha u
    have := evTotal_set (u := u) (t' := t') ht
    show evTotal { s with db := s.db.set i t' } u ≤ _
    omega
  | push =>
    refine ⟨fun u => ?_, rfl⟩
    unfold evTotal
    simp [newTag]
  | other h1 h2 => exact ⟨fun u => by unfold evTotal; rw [h1]; exact Nat.le_refl _, by unfold Server.counts; rw [h2]⟩
  | evCount _ _ hf => rw [hc] at hf; simp at hf
  | groups hm =>
    refine ⟨fun u => Nat.le_refl _, updMod_counts _ _ _ fun m hm' he => ?_⟩
    have := hk.inj hm' hm he
    subst this
    exact ⟨rfl, rfl⟩
  | modAdd _ _ hf => rw [hr] at hf; simp at hf
  | modIdx => exact ⟨fun u => Nat.le_refl _, updMod_counts _ _ _ fun m _ _ => ⟨rfl, rfl⟩⟩
  | modDel hf => rw [hd] at hf; simp at hf
  | _ => exact ⟨fun u => Nat.le_refl _, rfl⟩

theorem Path.calm {fl : Kind → Bool} (ha : fl .evAdd = false) (hc : fl .evCount = false) (hr : ∀ fd, fl (.reg fd) = false)
    (hd : fl .modDel = false) {s s' : Server} (hk : ModsOK s) (p : Path fl s s') : Calm s s' := by
  suffices h : ModsOK s' ∧ Calm s s' from h.2
  induction p with
  | refl => exact ⟨hk, .refl _⟩
  | snoc _ m ih => exact ⟨modsOK_move _ _ ih.1 m, ih.2.trans (m.calm ha hc hr hd ih.1)⟩

/-! ## The invariant -/

/-- Every subscription belongs to a registered module, whose counter is at least the number of its
subscriptions. -/
structure EvTally (s : Server) : Prop where
  live : ∀ u, 0 < evTotal s u → ∃ x ∈ s.counts, x.1 = u
  le : ∀ x ∈ s.counts, (evTotal s x.1 : Int) ≤ x.2

theorem EvTally.calm {s s' : Server} (h : EvTally s) (c : Calm s s') : EvTally s' := by
  refine ⟨fun u hu => ?_, fun x hx => ?_⟩
  · rw [c.counts]; exact h.live u (Nat.lt_of_lt_of_le hu (c.total u))
  · rw [c.counts] at hx
    have := h.le x hx
    have := c.total x.1
    omega

/-- Add to the counter of one module. -/
def bump (l : List (Nat × Int)) (u : Nat) (d : Int) : List (Nat × Int) :=
  l.map fun x => if x.1 = u then (x.1, x.2 + d) else x

theorem counts_bump (s : Server) (u : Nat) (d : Int) :
    (s.updMod u (fun m => { m with eventCount := m.eventCount + d })).counts = bump s.counts u d := by
  unfold Server.counts Server.updMod bump
  simp only [List.map_map]
  apply List.map_congr_left
  intro m _
  simp only [Function.comp_apply]
  split <;> rfl

theorem counts_bump_sub (s : Server) (u : Nat) :
    (s.updMod u (fun m => { m with eventCount := m.eventCount - 1 })).counts = bump s.counts u (-1) :=
  counts_bump s u (-1)

theorem setTag_counts (s : Server) (i : Int) (t : Tag) : (s.setTag i t).counts = s.counts := rfl

/-- The totals and the counter of one module change by the same amount. -/
theorem EvTally.shift {s s' : Server} (h : EvTally s) {u : Nat} {d : Int}
    (hc : s'.counts = bump s.counts u d) (ht : (evTotal s' u : Int) ≤ evTotal s u + d)
    (ho : ∀ v, v ≠ u → evTotal s' v ≤ evTotal s v) (hr : ∃ x ∈ s.counts, x.1 = u) : EvTally s' := by
  refine ⟨fun v hv => ?_, fun x hx => ?_⟩
  · have : ∃ x ∈ s.counts, x.1 = v := by
      by_cases hvu : v = u
      · subst hvu; exact hr
      · exact h.live v (Nat.lt_of_lt_of_le hv (ho v hvu))
    obtain ⟨x, hx, hxu⟩ := this
    rw [hc]
    refine ⟨_, List.mem_map.mpr ⟨x, hx, rfl⟩, ?_⟩
    split <;> exact hxu
  · rw [hc] at hx
    obtain ⟨y, hy, rfl⟩ := List.mem_map.mp hx
    have := h.le y hy
    by_cases hyu : y.1 = u
    · rw [if_pos hyu]; dsimp only; rw [hyu] at this ⊢; omega
    · rw [if_neg hyu]; have := ho y.1 hyu; omega

theorem counts_mem {s : Server} {m : Module} (h : m ∈ s.mods) : (m.uid, m.eventCount) ∈ s.counts :=
  List.mem_map.mpr ⟨m, h, rfl⟩

theorem eventAdd_inv {s s' : Server} {h : Handle} {et : Int} {arg : List Byte} {m : Module} {r : Int}
    (hh : eventAdd s h et arg m = .ok (s', r)) : (s' = s ∧ r < 0) ∨ ∃ t ev a, s.tag? h.index = some t ∧
      ev.id = t.nextevent ∧ ev.notify = m.uid ∧ r = t.nextevent ∧ t.nextevent < 2147483647 ∧
      s' = (s.setTag h.index { t with nextevent := t.nextevent + 1, events := ev :: t.events, attr := a }).updMod m.uid
        (fun m => { m with eventCount := m.eventCount + 1 }) := by
  unfold eventAdd at hh
  split at hh
  · simp only [C.ok.injEq, Prod.mk.injEq] at hh; rw [← hh.1, ← hh.2]; exact .inl ⟨rfl, by decide⟩
  rename_i t htag
  split at hh
  · simp only [C.ok.injEq, Prod.mk.injEq] at hh; rw [← hh.1, ← hh.2]; exact .inl ⟨rfl, by decide⟩
  split at hh
  · split at hh
    · simp only [C.ok.injEq, Prod.mk.injEq] at hh; rw [← hh.1, ← hh.2]; exact .inl ⟨rfl, by decide⟩
    · simp at hh
  obtain ⟨n, -, hh⟩ := C.bind_eq_ok.mp hh
  split at hh
  · simp only [C.ok.injEq, Prod.mk.injEq] at hh; rw [← hh.1, ← hh.2]; exact .inl ⟨rfl, by decide⟩
  split at hh
  · simp only [C.ok.injEq, Prod.mk.injEq] at hh; rw [← hh.1, ← hh.2]; exact .inl ⟨rfl, by decide⟩
  split at hh
  · simp at hh
  rename_i hlt
  obtain ⟨⟨d, tst⟩, -, hh⟩ := C.bind_eq_ok.mp hh
  simp only [C.ok.injEq, Prod.mk.injEq] at hh
  obtain ⟨rfl, hr⟩ := hh
  exact .inr ⟨t, _, _, htag, rfl, rfl, hr.symm, by omega, rfl⟩

theorem evTotal_cons {s : Server} {i : Nat} {t t' : Tag} {ev : Ev} (h : s.db[i]? = some t)
    (he : t'.events = ev :: t.events) (u : Nat) :
    evTotal { s with db := s.db.set i t' } u = evTotal s u + if ev.notify = u then 1 else 0 := by
  have := evTotal_set (u := u) (t' := t') h
  rw [he, List.countP_cons] at this
  simp only [decide_eq_true_eq] at this
  omega

theorem eventAdd_tally {s s' : Server} {h : Handle} {et : Int} {arg : List Byte} {m : Module} {r : Int}
    (hh : eventAdd s h et arg m = .ok (s', r)) (hm : m ∈ s.mods) (ht : EvTally s) : EvTally s' := by
  rcases eventAdd_inv hh with ⟨rfl, -⟩ | ⟨t, ev, a, htag, -, hn, -, -, rfl⟩
  · exact ht
  have hdb := (tag?_eq.mp htag).2
  refine ht.shift (u := m.uid) (d := 1) (by rw [counts_bump]; rfl) ?_ ?_ ⟨_, counts_mem hm, rfl⟩
  · rw [evTotal_updMod, Server.setTag, evTotal_cons hdb rfl, hn, if_pos rfl]; omega
  · intro v hv
    rw [evTotal_updMod, Server.setTag, evTotal_cons hdb rfl, hn, if_neg (fun h => hv h.symm)]; omega

/-! ## Deletions -/

theorem countP_filter_id {l : List Ev} {ev : Ev} (hp : l.Pairwise (fun a b => b.id < a.id)) (he : ev ∈ l) (u : Nat) :
    (l.filter (fun e => e.id ≠ ev.id)).countP (fun e => e.notify = u) + (if ev.notify = u then 1 else 0) =
      l.countP (fun e => e.notify = u) := by
  induction l with
  | nil => simp at he
  | cons e l ih =>
    rw [List.pairwise_cons] at hp
    by_cases h : e.id = ev.id
    · have hee : e = ev := by
        rcases List.mem_cons.mp he with rfl | hm
        · rfl
        · have := hp.1 ev hm; omega
      subst hee
      rw [List.filter_cons_of_neg (by simp), List.filter_eq_self.mpr, List.countP_cons]
      · simp only [decide_eq_true_eq]
      · intro x hx
        have := hp.1 x hx
        simp only [decide_eq_true_eq]; omega
    · have hm : ev ∈ l := by
        rcases List.mem_cons.mp he with rfl | hm
        · exact absurd rfl h
        · exact hm
      rw [List.filter_cons_of_pos (by simp [h]), List.countP_cons, List.countP_cons, ← ih hp.2 hm]
      omega

/-- Effect of a deletion by the owner. -/
structure Deleted (s s' : Server) (i : Nat) (id : Int) (u : Nat) : Prop where
  counts : s'.counts = bump s.counts u (-1)
  env : s'.env = s.env
  len : s'.db.length = s.db.length
  tags : ∀ j, j ≠ i → s'.db[j]? = s.db[j]?
  tag : ∀ t, s.db[i]? = some t → ∃ a, s'.db[i]? = some { t with events := t.events.filter (fun e => e.id ≠ id), attr := a }
  total : ∀ v, evTotal s' v + (if u = v then 1 else 0) = evTotal s v

theorem eventDel_deleted {s s' : Server} {i : Nat} {t : Tag} {ev : Ev} {r : Int} (ht : s.db[i]? = some t)
    (hp : t.events.Pairwise (fun a b => b.id < a.id)) (he : ev ∈ t.events)
    (h : eventDel s i ev.id (some ev.notify) = .ok (s', r)) : Deleted s s' i ev.id ev.notify := by
  have hf : s.env.freedReadable = true ∨ ∃ e0 es, t.events = e0 :: es ∧ e0.id ≠ ev.id := by
    by_cases hfr : s.env.freedReadable = true
    · exact .inl hfr
    · right
      cases hev : t.events with
      | nil => rw [hev] at he; simp at he
      | cons e0 es =>
        refine ⟨e0, es, rfl, fun hid => ?_⟩
        rw [hev] at hp he
        rw [List.pairwise_cons] at hp
        have hee : e0 = ev := by
          rcases List.mem_cons.mp he with rfl | hm
          · rfl
          · have := hp.1 ev hm; omega
        subst hee
        unfold eventDel at h
        rw [tag?_natCast, ht] at h
        dsimp only at h
        rw [hev] at h
        dsimp only at h
        rw [if_pos rfl, if_neg (by simp), if_pos (by simpa using hfr)] at h
        simp at h
  obtain ⟨a, r', -, h'⟩ := eventDel_owner ht hp he rfl hf
  rw [h'] at h
  simp only [C.ok.injEq, Prod.mk.injEq] at h
  obtain ⟨rfl, -⟩ := h
  have hlt := (List.getElem?_eq_some_iff.mp ht).1
  refine ⟨counts_bump_sub _ _, rfl, by simp [Server.setTag, Server.updMod], fun j hj => ?_, fun t1 ht1 => ?_, fun v => ?_⟩
  · simp only [Server.setTag, Server.updMod, Int.toNat_natCast]
    rw [List.getElem?_set_ne (fun h => hj h.symm)]
  · rw [ht] at ht1; cases ht1
    exact ⟨a, by simp [Server.setTag, Server.updMod, hlt]⟩
  · rw [evTotal_updMod, Server.setTag, Int.toNat_natCast]
    have h1 := countP_filter_id hp he v
    have h2 := evTotal_set (s := s) (u := v)
      (t' := { t with events := t.events.filter (fun e => e.id ≠ ev.id), attr := a }) ht
    dsimp only at h2
    omega

theorem eventDel_tally {s s' : Server} {idx id : Int} {m : Option Nat} {r : Int}
    (hids : ∀ (i : Nat) (t : Tag), s.db[i]? = some t → IdsOK i t)
    (hc : 0 ≤ idx → subsOf s idx.toNat = [] ∨ ∃ ev ∈ subsOf s idx.toNat, ev.id = id)
    (h : eventDel s idx id m = .ok (s', r)) (hm : ∀ u, m = some u → ∃ x ∈ s.counts, x.1 = u) (ht : EvTally s) :
    EvTally s' := by
  cases htag : s.tag? idx with
  | none =>
    unfold eventDel at h; rw [htag] at h
    simp only [C.ok.injEq, Prod.mk.injEq] at h; rw [← h.1]; exact ht
  | some t =>
    obtain ⟨h0, hdb⟩ := tag?_eq.mp htag
    have hidx := natCast_toNat htag
    rw [subsOf_some hdb] at hc
    rcases hc h0 with he | ⟨ev, he, rfl⟩
    · unfold eventDel at h; rw [htag] at h
      dsimp only at h
      rw [he] at h
      simp only [C.ok.injEq, Prod.mk.injEq] at h; rw [← h.1]; exact ht
    · rw [← hidx] at h
      by_cases hn : some ev.notify = m
      · subst hn
        have d := eventDel_deleted hdb (hids _ _ hdb).evLt he h
        refine ht.shift d.counts ?_ ?_ (hm _ rfl)
        · have := d.total ev.notify; rw [if_pos rfl] at this; omega
        · intro v hv
          have := d.total v; rw [if_neg (fun h => hv h.symm)] at this; omega
      · rw [eventDel_other hdb (hids _ _ hdb).evLt he hn] at h
        simp only [C.ok.injEq, Prod.mk.injEq] at h; rw [← h.1]; exact ht

/-! ## A module leaves -/

/-- Progress of the clean-up: subscriptions of `u` above `n` are gone. -/
structure Cleaning (u : Nat) (s : Server) : Prop where
  ids : ∀ (i : Nat) (t : Tag), s.db[i]? = some t → IdsOK i t
  tally : EvTally s
  reg : ∃ x ∈ s.counts, x.1 = u

theorem Deleted.cleaning {s s' : Server} {i : Nat} {id : Int} {u : Nat} (h : Cleaning u s) (d : Deleted s s' i id u) :
    Cleaning u s' := by
  refine ⟨fun j t ht => ?_, h.tally.shift d.counts ?_ ?_ h.reg, ?_⟩
  · by_cases hj : j = i
    · subst hj
      cases ht0 : s.db[j]? with
      | none =>
        have := List.getElem?_eq_none_iff.mp ht0
        rw [List.getElem?_eq_none (by rw [d.len]; exact this)] at ht; simp at ht
      | some t0 =>
        obtain ⟨a, ha⟩ := d.tag t0 ht0
        rw [ha] at ht
        simp only [Option.some.injEq] at ht
        subst ht
        have hi := h.ids j t0 ht0
        exact ⟨hi.evLt.sublist List.filter_sublist, fun e he => hi.evRange e (List.mem_filter.mp he).1, hi.evNext, hi.mapLt, hi.mapRange, hi.mapNext, hi.ovr⟩
    · rw [d.tags j hj] at ht; exact h.ids j t ht
  · have := d.total u; rw [if_pos rfl] at this; omega
  · intro v hv
    have := d.total v; rw [if_neg (fun h => hv h.symm)] at this; omega
  · obtain ⟨x, hx, hu⟩ := h.reg
    rw [d.counts]
    refine ⟨_, List.mem_map.mpr ⟨x, hx, rfl⟩, ?_⟩
    split <;> exact hu

theorem filter_comm_id {l evs : List Ev} {e : Ev} {u : Nat}
    (h : l.filter (fun x => x.notify = u) = (e :: evs).filter (fun x => x.notify = u)) (he : e.notify = u)
    (hp : l.Pairwise (fun a b => b.id < a.id)) :
    (l.filter (fun x => x.id ≠ e.id)).filter (fun x => x.notify = u) = evs.filter (fun x => x.notify = u) := by
  rw [List.filter_filter]
  have : (fun x : Ev => decide (x.notify = u) && decide (x.id ≠ e.id)) = fun x => decide (x.id ≠ e.id) && decide (x.notify = u) := by
    funext x; rw [Bool.and_comm]
  rw [this, ← List.filter_filter, h, List.filter_cons_of_pos (by simp [he]), List.filter_cons_of_neg (by simp),
    List.filter_eq_self.mpr]
  intro x hx
  have h2 : ((e :: evs).filter (fun x => x.notify = u)).Pairwise (fun a b => b.id < a.id) := by
    rw [← h]; exact hp.sublist List.filter_sublist
  rw [List.filter_cons_of_pos (by simp [he]), List.pairwise_cons] at h2
  have := h2.1 x hx
  simp only [decide_eq_true_eq]; omega

theorem cleanupTag_done {u n : Nat} : ∀ {evs : List Ev} {s s' : Server}, cleanupTag s n u evs = .ok s' → Cleaning u s →
    (∀ t, s.db[n]? = some t → t.events.filter (fun x => x.notify = u) = evs.filter (fun x => x.notify = u)) →
    n < s.db.length →
    Cleaning u s' ∧ s'.db.length = s.db.length ∧ (∀ j, j ≠ n → s'.db[j]? = s.db[j]?) ∧
      ∀ e ∈ subsOf s' n, e.notify ≠ u := by
  intro evs
  induction evs with
  | nil =>
    intro s s' h hc hf hn
    simp only [cleanupTag, C.ok.injEq] at h; subst h
    refine ⟨hc, rfl, fun _ _ => rfl, fun e he hu => ?_⟩
    obtain ⟨t, ht, he⟩ := mem_subsOf he
    have := hf t ht
    simp only [List.filter_nil, List.filter_eq_nil_iff, decide_eq_true_eq] at this
    exact this e he hu
  | cons e evs ih =>
    intro s s' h hc hf hn
    obtain ⟨t, ht⟩ : ∃ t, s.db[n]? = some t := ⟨_, List.getElem?_eq_getElem hn⟩
    simp only [cleanupTag] at h
    split at h
    · rename_i he
      obtain ⟨⟨s1, r⟩, h1, h⟩ := C.bind_eq_ok.mp h
      dsimp only at h
      split at h
      · have hmem : e ∈ t.events := by
          have : e ∈ t.events.filter (fun x => x.notify = u) := by
            rw [hf t ht, List.filter_cons_of_pos (by simp [he])]; exact List.mem_cons_self ..
          exact (List.mem_filter.mp this).1
        have d := eventDel_deleted ht (hc.ids n t ht).evLt hmem (by rw [he]; exact h1)
        rw [he] at d
        obtain ⟨a1, a2, a3, a4⟩ := ih h (d.cleaning hc) (by
          intro t1 ht1
          obtain ⟨a, ha⟩ := d.tag t ht
          rw [ha] at ht1
          simp only [Option.some.injEq] at ht1
          subst ht1
          exact filter_comm_id (hf t ht) he (hc.ids n t ht).evLt) (by rw [d.len]; exact hn)
        exact ⟨a1, a2.trans d.len, fun j hj => (a3 j hj).trans (d.tags j hj), a4⟩
      · simp at h
    · rename_i he
      exact ih h hc (fun t ht => by rw [hf t ht, List.filter_cons_of_neg (by simpa using he)]) hn

theorem cleanupFrom_done {u : Nat} : ∀ {n : Nat} {s s' : Server}, cleanupFrom s u n = .ok s' → Cleaning u s →
    n ≤ s.db.length → (∀ j, n ≤ j → ∀ e ∈ subsOf s j, e.notify ≠ u) →
    Cleaning u s' ∧ evTotal s' u = 0 := by
  intro n
  induction n with
  | zero =>
    intro s s' h hc _ hj
    simp only [cleanupFrom, C.ok.injEq] at h; subst h
    refine ⟨hc, ?_⟩
    apply Classical.byContradiction
    intro h0
    obtain ⟨i, e, he, hu⟩ := evTotal_pos (s := s) (u := u) (by omega)
    exact hj i (Nat.zero_le _) e he hu
  | succ n ih =>
    intro s s' h hc hn hj
    simp only [cleanupFrom] at h
    split at h
    · simp at h
    rename_i m hm
    split at h
    · split at h
      · simp at h
      rename_i t ht
      obtain ⟨s1, h1, h⟩ := C.bind_eq_ok.mp h
      obtain ⟨a1, a2, a3, a4⟩ := cleanupTag_done h1 hc (fun t' ht' => by rw [ht] at ht'; cases ht'; rfl) (by omega)
      refine ih h a1 (by omega) fun j hjn => ?_
      by_cases hjn' : j = n
      · subst hjn'; exact a4
      · intro e he
        refine hj j (by omega) e ?_
        unfold subsOf at he ⊢
        rw [a3 j hjn'] at he; exact he
    · rename_i hcnt
      simp only [C.ok.injEq] at h; subst h
      refine ⟨hc, ?_⟩
      have hmem := List.mem_of_find?_eq_some hm
      have huid := List.find?_some hm
      simp only [beq_iff_eq] at huid
      have := hc.tally.le _ (counts_mem hmem)
      dsimp only at this
      rw [huid] at this
      omega

/-- Kinds of changes made by the deletion of tags. -/
def delOnly : Kind → Bool
  | .del => true
  | _ => false

/-- Kinds of changes made for the status tag of a module. -/
def modsOnly : Kind → Bool
  | .mods => true
  | _ => false

theorem unregister_tally {s s' : Server} {fd : Int} (hk : ModsOK s)
    (hids : ∀ (i : Nat) (t : Tag), s.db[i]? = some t → IdsOK i t) (ht : EvTally s)
    (h : moduleUnregister s fd = .ok s') : EvTally s' := by
  unfold moduleUnregister at h
  split at h
  · simp only [C.ok.injEq] at h; subst h; exact ht
  rename_i m hm
  obtain ⟨hmem, -⟩ := modByFd_some hm
  obtain ⟨s1, h1, h⟩ := C.bind_eq_ok.mp h
  have hk1 : ModsOK s1 := (cleanupFrom_path (fl := fun _ => true) rfl rfl .refl _ h1).modsOK hk
  obtain ⟨c, hz⟩ := cleanupFrom_done h1 ⟨hids, ht, _, counts_mem hmem, rfl⟩ (Nat.le_refl _) (by
    intro j hj e he
    obtain ⟨t, ht, -⟩ := mem_subsOf he
    have := (List.getElem?_eq_some_iff.mp ht).1; omega)
  split at h
  · simp at h
  obtain ⟨s2, h2, h⟩ := C.bind_eq_ok.mp h
  obtain ⟨⟨s3, r⟩, h3, h⟩ := C.bind_eq_ok.mp h
  simp only [C.ok.injEq] at h
  subst h
  have p2 := delOwned_path (fl := delOnly) rfl .refl _ h2
  have p3 := tagDel_path (fl := delOnly) rfl p2 _ h3
  have cm := p3.calm rfl rfl (fun _ => rfl) rfl hk1
  have t3 := c.tally.calm cm
  have z3 : evTotal s3 m.uid = 0 := by have := cm.total m.uid; dsimp only at this; omega
  have hcounts : ∀ s : Server, Server.counts { s with mods := s.mods.filter (fun x => x.uid ≠ m.uid) } = s.counts.filter (fun x => x.1 ≠ m.uid) := by
    intro s; unfold Server.counts; rw [List.filter_map]; rfl
  refine ⟨fun u hu => ?_, fun x hx => ?_⟩
  · have hu' : 0 < evTotal s3 u := hu
    obtain ⟨x, hx, hxu⟩ := t3.live u hu'
    rw [hcounts]
    refine ⟨x, List.mem_filter.mpr ⟨hx, ?_⟩, hxu⟩
    simp only [ne_eq, decide_eq_true_eq]
    intro h0
    rw [hxu] at h0; subst h0; omega
  · rw [hcounts] at hx
    exact t3.le x (List.mem_filter.mp hx).1

theorem register_tally {s s' : Server} {name : Name} {fd : Int} (hk : ModsOK s)
    (hids : ∀ (i : Nat) (t : Tag), s.db[i]? = some t → IdsOK i t) (ht : EvTally s)
    (h : moduleRegister s name fd = .ok s') : EvTally s' := by
  obtain ⟨s1, h1, hn, h2⟩ := moduleRegister_inv hk h
  have hk1 := moduleUnregister_modsOK hk h1
  have t1 := unregister_tally hk hids ht h1
  have hc : (moduleAdd s1 name fd).counts = s1.counts ++ [(s1.nextUid, 0)] := by
    simp [Server.counts, moduleAdd]
  have t2 : EvTally (moduleAdd s1 name fd) := by
    refine ⟨fun u hu => ?_, fun x hx => ?_⟩
    · obtain ⟨x, hx, hxu⟩ := t1.live u hu
      rw [hc]; exact ⟨x, List.mem_append_left _ hx, hxu⟩
    · rw [hc] at hx
      rcases List.mem_append.mp hx with hx | hx
      · exact t1.le x hx
      · simp only [List.mem_singleton] at hx
        subst hx
        dsimp only
        have : evTotal s1 s1.nextUid = 0 := by
          apply Classical.byContradiction
          intro h0
          obtain ⟨x, hx, hxu⟩ := t1.live _ (Nat.pos_of_ne_zero h0)
          obtain ⟨m, hm, rfl⟩ := List.mem_map.mp hx
          have := hk1.lt m hm
          dsimp only at hxu
          omega
        have h3 : evTotal (moduleAdd s1 name fd) s1.nextUid = evTotal s1 s1.nextUid := rfl
        omega
  rcases h2 with rfl | h2
  · exact t2
  · have p := moduleTag_path (fl := modsOnly) rfl .refl _ h2
    exact t2.calm (p.calm rfl rfl (fun _ => rfl) rfl (moduleAdd_modsOK hk1 hn))

theorem start_tally {e : Env} {f : Option Ret} {s : Server} (h : startServer e f = .ok s) : EvTally s := by
  obtain ⟨s0, h0, p⟩ := startServer_path (fl := fun | .restore => true | .grow _ => true | _ => false) rfl (fun _ => rfl) h
  obtain ⟨hm, hdb⟩ := init_mods h0
  have t0 : EvTally s0 := by
    refine ⟨fun u hu => ?_, fun x hx => ?_⟩
    · obtain ⟨i, e, he, -⟩ := evTotal_pos hu
      obtain ⟨t, ht, he⟩ := mem_subsOf he
      rw [(hdb i t ht).2.2.1] at he; simp at he
    · rw [Server.counts, hm] at hx; simp at hx
  exact t0.calm (p.calm rfl rfl (fun _ => rfl) rfl ⟨by rw [hm]; exact .nil, by rw [hm]; exact .nil, by rw [hm]; simp⟩)

theorem step_tally {s s' : Server} {o : Op} (hr : Reachable s) (ht : EvTally s)
    (hd : ∀ fd idx id, o = .req fd (.evDel idx id) → 0 ≤ idx →
      subsOf s idx.toNat = [] ∨ ∃ ev ∈ subsOf s idx.toNat, ev.id = id)
    (h : step s o = .ok s') : EvTally s' := by
  have hk := hr.modsOK
  have hids : ∀ (i : Nat) (t : Tag), s.db[i]? = some t → IdsOK i t := fun i t => hr.ids
  cases o with
  | env e => simp only [step, C.ok.injEq] at h; subst h; exact ht.calm ⟨fun _ => Nat.le_refl _, rfl⟩
  | close fd => exact unregister_tally hk hids ht h
  | req fd q =>
    simp only [step] at h
    obtain ⟨⟨s1, r⟩, h1, h⟩ := C.bind_eq_ok.mp h
    simp only [C.ok.injEq] at h; subst h
    have p := handle_path_kinds hk h1
    cases q with
    | modReg flags name =>
      simp only [handle, hModReg] at h1
      split at h1
      · obtain ⟨s2, h2, h1⟩ := C.bind_eq_ok.mp h1
        obtain ⟨⟨s3, r3⟩, h3, h1⟩ := C.bind_eq_ok.mp h1
        have t2 := register_tally hk hids ht h2
        have hk2 : ModsOK s2 := (moduleRegister_path (fl := fun _ => true) (fun _ _ => rfl) hk .refl _ h2).modsOK hk
        have p3 := tagRead_path (fl := fun _ => false) .refl _ h3
        have t3 := t2.calm (p3.calm rfl rfl (fun _ => rfl) rfl hk2)
        dsimp only at h1 t3
        split at h1 <;> simp only [C.ok.injEq, Prod.mk.injEq] at h1 <;> (rw [← h1.1]; exact t3)
      · simp only [C.ok.injEq, Prod.mk.injEq] at h1; rw [← h1.1]; exact ht
    | evAdd hd' et arg =>
      simp only [handle, hEvAdd] at h1
      split at h1
      · simp only [C.ok.injEq, Prod.mk.injEq] at h1; rw [← h1.1]; exact ht
      · rename_i m hm
        obtain ⟨⟨s2, r2⟩, h2, h1⟩ := C.bind_eq_ok.mp h1
        simp only [C.ok.injEq, Prod.mk.injEq] at h1
        rw [← h1.1]
        exact eventAdd_tally h2 (modByFd_some hm).1 ht
    | evDel idx id =>
      simp only [handle, hEvDel] at h1
      obtain ⟨⟨s2, r2⟩, h2, h1⟩ := C.bind_eq_ok.mp h1
      simp only [C.ok.injEq, Prod.mk.injEq] at h1
      rw [← h1.1]
      refine eventDel_tally hids (hd fd idx id rfl) h2 ?_ ht
      intro u hu
      cases hm : s.modByFd fd with
      | none => rw [hm] at hu; simp at hu
      | some m => rw [hm] at hu; simp at hu; exact ⟨_, counts_mem (modByFd_some hm).1, hu⟩
    | _ => exact ht.calm (p.calm rfl rfl (fun _ => rfl) rfl hk)

theorem Reachable.start {e : Env} {f : Option Ret} {s : Server} (h : startServer e f = .ok s) : Reachable s :=
  ⟨e, f, s, [], h, rfl⟩

theorem Careful.reachable {s : Server} (h : Careful s) : Reachable s := by
  induction h with
  | start h => exact .start h
  | @step s s' o _ _ hs ih => exact ih.run (os := [o]) (by simp only [run, hs, C.ok_bind])

theorem Careful.tally {s : Server} (h : Careful s) : EvTally s := by
  induction h with
  | start h => exact start_tally h
  | step hc hd hs ih => exact step_tally hc.reachable ih hd hs

end Dax
