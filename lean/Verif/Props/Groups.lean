import Verif.Lemmas.Groups
import Verif.Lemmas.Demo
import Verif.Props.Maps
/-!
# Tag groups (C37–C39)
-/
set_option autoImplicit false
namespace Dax

theorem groupsOK_move {fl : Kind → Bool} {s s' : Server} (h : ∀ m ∈ s.mods, GroupsOK m.groups) (mv : Move fl s s') :
    ∀ m ∈ s'.mods, GroupsOK m.groups := by
  have upd : ∀ (uid : Nat) (f : Module → Module), (∀ m ∈ s.mods, m.uid = uid → GroupsOK (f m).groups) →
      ∀ m ∈ (s.updMod uid f).mods, GroupsOK m.groups := by
    intro uid f hf m hm
    simp only [Server.updMod, List.mem_map] at hm
    obtain ⟨y, hy, rfl⟩ := hm
    split
    · rename_i he; exact hf y hy he
    · exact h y hy
  cases mv with
  | tag ht hm => exact h
  | push fd name type count size => exact h
  | send => exact h
  | other h1 h2 h3 h4 h5 h6 => rw [h2]; exact h
  | env e => exact h
  | evCount uid f => exact upd _ _ (fun m hm _ => h m hm)
  | @groups m0 hm g n hf hg => exact upd _ _ (fun m _ _ => hg (h m0 hm))
  | modAdd name fd =>
    intro m hm
    simp only [moduleAdd, List.mem_append, List.mem_singleton] at hm
    rcases hm with hm | rfl
    · exact h m hm
    · intro g hg; simp at hg
  | modUuid => exact h
  | modIdx => exact upd _ _ (fun m hm _ => h m hm)
  | modDel hfl uid => exact fun m hm => h m (List.mem_filter.mp hm).1

theorem Reachable.groupsOK {s : Server} (hr : Reachable s) : ∀ m ∈ s.mods, GroupsOK m.groups :=
  hr.inv (I := fun s => ∀ m ∈ s.mods, GroupsOK m.groups)
    (fun e s hi m hm => by rw [(init_mods hi).1] at hm; simp at hm) (fun _ _ h m => groupsOK_move h m)

/-- The group limits hold for every group in use. -/
theorem GroupAt.ok {s : Server} {fd : Int} {i : Nat} {hs : List Handle} (hr : Reachable s) (h : GroupAt s fd i hs) :
    ∃ m g, s.modByFd fd = some m ∧ m.groups[i]? = some g ∧ g.notEmpty = true ∧ g.members = some hs ∧
      g.count = hs.length ∧ hs.length ≤ 150 ∧ sizeTooBig 0 hs = false := by
  obtain ⟨m, g, hm, hg, hne, hmem⟩ := h
  obtain ⟨hs', h1, h2, h3, h4⟩ := hr.groupsOK m (modByFd_some hm).1 g (List.mem_of_getElem? hg) hne
  rw [hmem] at h1
  cases h1
  exact ⟨m, g, hm, hg, hne, hmem, h2, h3, h4⟩

theorem GroupAt.bytes {s : Server} {fd : Int} {i : Nat} {hs : List Handle} (hr : Reachable s) (h : GroupAt s fd i hs)
    (hsm : SmallSizes hs) : groupBytes hs ≤ 4084 := by
  obtain ⟨m, g, -, -, -, -, -, -, hb⟩ := h.ok hr
  have := sizeTooBig_iff (acc := 0) hsm (by omega)
  simp only [Nat.zero_add, Int.natCast_zero, hb] at this
  simpa using this

/-! ## C37 -/

/-- **C37**, reading: reading a group is reading its members one by one, in order, and concatenating
the answers; it is refused exactly when one of these is, for the same reason.  (For members that
are stored tags, and whose sizes are not near 2³¹.) -/
theorem C37_read_partial {s : Server} {fd : Int} {i : Nat} {hs : List Handle} (hr : Reachable s) (hg : GroupAt s fd i hs)
    (hsm : SmallSizes hs) (hv : ∀ h ∈ hs, StoredTag s h) :
    handle s fd (.grpRead i) = readAll s fd hs [] := by
  have hb := hg.bytes hr hsm
  obtain ⟨m, g, hm, hi, hne, hmem, hc, -, -⟩ := hg.ok hr
  simp only [handle, hGrpRead, hm, groupRead, hi, hne, if_true, hmem, hc, List.take_length]
  have hjl : (s.env.junk GROUP_DATA_SIZE).length = 4084 := by simp [Env.junk, GROUP_DATA_SIZE]
  have := groupReadLoop_readAll (s := s) (fd := fd) (hs := hs) (acc := []) (rest := s.env.junk GROUP_DATA_SIZE) hv hsm (by simpa using hjl) (by simpa using hb)
  simp only [List.nil_append, List.length_nil, Int.natCast_zero] at this
  rcases this with ⟨w, h1, h2⟩ | ⟨e, h1, h2⟩ | ⟨d, rest, h1, h2⟩
  · rw [h1, h2]; rfl
  · rw [h1, h2]; rfl
  · rw [h1, h2]
    have hrd : rd (d ++ rest) 0 d.length = .ok d := rd_ok.mpr ⟨⟨by omega, by omega, by rw [List.length_append]; omega⟩, by simp⟩
    simp only [C.ok_bind, hrd, if_neg (show ¬ ((d.length : Int) < 0) by omega)]

/-- **C37**, writing: writing a group is writing its members one by one, in order, from consecutive
parts of the data, up to the first refusal.  Missing from the full statement: members that are
read-only, status tags or the source of a mapping are treated differently from ordinary writes
(`C37_skips_mapping`, `C13_group_write`). -/
theorem C37_write_partial {s : Server} {fd : Int} {i : Nat} {hs : List Handle} {buf : List Byte} (hr : Reachable s)
    (hg : GroupAt s fd i hs) (hsm : SmallSizes hs) (hv : ∀ h ∈ hs, FreeTag s h) (hl : groupBytes hs ≤ buf.length) :
    handle s fd (.grpWrite i buf) = writeAll s fd hs buf := by
  have hb := hg.bytes hr hsm
  obtain ⟨m, g, hm, hi, hne, hmem, hc, -, -⟩ := hg.ok hr
  simp only [handle, hGrpWrite, hm, groupWrite, hi, hne, if_true, hmem, hc, List.take_length]
  have := groupWriteLoop_writeAll (fd := fd) (hs := hs) (s := s) (buf0 := buf) (buf := buf) (off := 0) hr.wf.dbsz hv hsm rfl (by omega) (by omega)
  simp only [Int.natCast_zero] at this
  rcases this with ⟨w, h1, h2⟩ | ⟨s', r, hneg, h1, h2⟩ | ⟨s', r, hpos, h1, h2⟩
  · rw [h1, h2]; rfl
  · rw [h1, h2]
    simp only [C.ok_bind, okOrErr, if_pos hneg]
  · rw [h1, h2]
    simp only [C.ok_bind, okOrErr, if_neg (show ¬ r < 0 by omega)]

/-! ## C38 -/

theorem roomy_module {s : Server} {fd : Int} (h : Roomy s fd) : ∃ m, s.modByFd fd = some m ∧ m.roomy := h

/-- Groups of other connections are unaffected by group requests. -/
theorem groups_elsewhere {s s' : Server} {fd fd' : Int} {q : Req} {r : Reply} (hr : Reachable s) (hq : q.noGroup = false)
    (hh : handle s fd q = .ok (s', r)) (hne : fd' ≠ fd) (i : Nat) (hs : List Handle) :
    GroupAt s' fd' i hs ↔ GroupAt s fd' i hs := by
  obtain ⟨m, m', n, hm, rfl, hu, hf, -, -⟩ := handle_group hq hh
  have hk := hr.modsOK
  have hk' := (hr.handle hh).modsOK
  constructor
  · rintro ⟨x, g, hx, h1, h2, h3⟩
    obtain ⟨y, hy, e1, e2⟩ := of_mem_grps hk ((updMod_grps_other hk hm hf (by exact hne)).mp (mem_grps hx))
    exact ⟨y, g, hy, by rw [e1]; exact h1, h2, h3⟩
  · rintro ⟨x, g, hx, h1, h2, h3⟩
    obtain ⟨y, hy, e1, e2⟩ := of_mem_grps hk' ((updMod_grps_other hk hm hf (by exact hne)).mpr (mem_grps hx))
    exact ⟨y, g, hy, by rw [e1]; exact h1, h2, h3⟩

/-- **C38**, adding: with the book-keeping in order, an accepted group gets an id that no group of
the connection has, and all other groups, of this and of other connections, stay as they are.  The
book-keeping is in order as long as the connection has not deleted a group (`C38_history_partial`).
Missing from the full statement: after a deletion the next growth of the array overwrites or
loses groups (`C38_overwrites`, `C38_loses_all`). -/
theorem C38_add_partial {s s' : Server} {fd : Int} {hs : List Handle} {d : List Byte} (hr : Reachable s) (hroom : Roomy s fd)
    (hh : handle s fd (.grpAdd hs) = .ok (s', .resp d)) :
    ∃ n : Nat, d = le4 n ∧ (∀ hs', ¬ GroupAt s fd n hs') ∧
      ∀ fd' j hs', GroupAt s' fd' j hs' ↔ GroupAt s fd' j hs' ∨ (fd' = fd ∧ j = n ∧ hs' = hs) := by
  obtain ⟨m, m', r, hm, hs', hu, hf, hrep, hor⟩ := handle_group (q := .grpAdd hs) rfl hh
  have hk := hr.modsOK
  have hk' := (hr.handle hh).modsOK
  have hadd : groupAdd m hs = .ok (m', r) := by
    rcases hor with ⟨_, he, hadd⟩ | ⟨_, he, -⟩
    · cases he; exact hadd
    · simp at he
  have hpos : 0 ≤ r := by
    unfold idOrErr at hrep
    split at hrep
    · simp at hrep
    · omega
  have hd : d = le4 r := by
    unfold idOrErr at hrep
    rw [if_neg (by omega)] at hrep
    simpa using hrep
  obtain ⟨m0, hm0, hroomy⟩ := roomy_module hroom
  rw [hm] at hm0
  cases hm0
  obtain ⟨k1, -, k3, k4⟩ := groupAdd_safe hadd hroomy
  obtain ⟨k5, k6⟩ := k3 hpos
  subst hs'
  have hm' := updMod_same hk hm hu hf hk'
  refine ⟨r.toNat, by rw [hd]; congr 1; omega, ?_, fun fd' j hs' => ?_⟩
  · rintro hs' ⟨x, g, hx, h1, h2, h3⟩
    rw [hm] at hx; cases hx
    rw [k5 g h1] at h2
    simp at h2
  · by_cases hfd : fd' = fd
    · subst hfd
      constructor
      · rintro ⟨x, g, hx, h1, h2, h3⟩
        rw [hm'] at hx; cases hx
        by_cases hj : j = r.toNat
        · subst hj
          rw [k6] at h1
          cases h1
          simp only [Option.some.injEq] at h3
          exact .inr ⟨rfl, rfl, h3.symm⟩
        · exact .inl ⟨m, g, hm, k4 j g (.inr hj) h1 h2, h2, h3⟩
      · rintro (⟨x, g, hx, h1, h2, h3⟩ | ⟨-, rfl, rfl⟩)
        · rw [hm] at hx; cases hx
          exact ⟨m', g, hm', k1 j g h1 h2, h2, h3⟩
        · exact ⟨m', _, hm', k6, rfl, rfl⟩
    · rw [groups_elsewhere hr rfl hh hfd]
      simp [hfd]

/-- **C38**, a refused group leaves all groups as they are, with the book-keeping in order. -/
theorem C38_refused_partial {s s' : Server} {fd e : Int} {hs : List Handle} (hr : Reachable s) (hroom : Roomy s fd)
    (hh : handle s fd (.grpAdd hs) = .ok (s', .err e)) (fd' : Int) (j : Nat) (hs' : List Handle) :
    GroupAt s' fd' j hs' ↔ GroupAt s fd' j hs' := by
  obtain ⟨m, m', r, hm, hs'', hu, hf, hrep, hor⟩ := handle_group (q := .grpAdd hs) rfl hh
  have hk := hr.modsOK
  have hk' := (hr.handle hh).modsOK
  have hadd : groupAdd m hs = .ok (m', r) := by
    rcases hor with ⟨_, he, hadd⟩ | ⟨_, he, -⟩
    · cases he; exact hadd
    · simp at he
  have hneg : r < 0 := by
    unfold idOrErr at hrep
    split at hrep
    · assumption
    · simp at hrep
  obtain ⟨m0, hm0, hroomy⟩ := roomy_module hroom
  rw [hm] at hm0
  cases hm0
  obtain ⟨k1, -, -, k4⟩ := groupAdd_safe hadd hroomy
  subst hs''
  have hm' := updMod_same hk hm hu hf hk'
  by_cases hfd : fd' = fd
  · subst hfd
    constructor
    · rintro ⟨x, g, hx, h1, h2, h3⟩
      rw [hm'] at hx; cases hx
      exact ⟨m, g, hm, k4 j g (.inl hneg) h1 h2, h2, h3⟩
    · rintro ⟨x, g, hx, h1, h2, h3⟩
      rw [hm] at hx; cases hx
      exact ⟨m', g, hm', k1 j g h1 h2, h2, h3⟩
  · exact groups_elsewhere hr rfl hh hfd j hs'

/-- **C38**, deleting: a successful deletion removes exactly that group. -/
theorem C38_delete {s s' : Server} {fd : Int} {i : Nat} {d : List Byte} (hr : Reachable s)
    (hh : handle s fd (.grpDel i) = .ok (s', .resp d)) (fd' : Int) (j : Nat) (hs' : List Handle) :
    GroupAt s' fd' j hs' ↔ GroupAt s fd' j hs' ∧ ¬ (fd' = fd ∧ j = i) := by
  obtain ⟨m, m', r, hm, hs'', hu, hf, hrep, hor⟩ := handle_group (q := .grpDel i) rfl hh
  have hk := hr.modsOK
  have hk' := (hr.handle hh).modsOK
  rcases hor with ⟨_, he, -⟩ | ⟨_, he, hdel⟩
  · simp at he
  cases he
  subst hs''
  have hm' := updMod_same hk hm hu hf hk'
  have hpos : 0 ≤ r := by
    unfold idOrErr at hrep
    split at hrep
    · simp at hrep
    · omega
  unfold groupDel at hdel
  split at hdel
  · simp at hdel
  rename_i g0 hg0
  have hl := (List.getElem?_eq_some_iff.mp hg0).1
  split at hdel
  · simp only [C.ok.injEq, Prod.mk.injEq] at hdel
    obtain ⟨rfl, -⟩ := hdel
    by_cases hfd : fd' = fd
    · subst hfd
      constructor
      · rintro ⟨x, g, hx, h1, h2, h3⟩
        rw [hm'] at hx; cases hx
        dsimp only at h1
        by_cases hj : i = j
        · subst hj
          rw [List.getElem?_set_self hl] at h1
          cases h1
          simp at h2
        · rw [List.getElem?_set_ne hj] at h1
          exact ⟨⟨m, g, hm, h1, h2, h3⟩, fun h => hj h.2.symm⟩
      · rintro ⟨⟨x, g, hx, h1, h2, h3⟩, hne⟩
        rw [hm] at hx; cases hx
        refine ⟨_, g, hm', ?_, h2, h3⟩
        dsimp only
        rw [List.getElem?_set_ne (fun h => hne ⟨rfl, h.symm⟩)]
        exact h1
    · rw [groups_elsewhere hr rfl hh hfd]
      simp [hfd]
  · simp only [C.ok.injEq, Prod.mk.injEq] at hdel
    rw [← hdel.2] at hpos
    exact absurd hpos (by decide)

/-- **C38**, keeping: whatever else happens — other requests of the same client, group requests of
others, others coming and going — a group stays. -/
theorem C38_kept {fd : Int} {i : Nat} {hs : List Handle} {os : List Op} : ∀ {s s' : Server}, Reachable s →
    (∀ o ∈ os, o.leavesGroups fd) → run s os = .ok s' → GroupAt s fd i hs → GroupAt s' fd i hs := by
  induction os with
  | nil => intro s s' _ _ h hg; simp only [run, C.ok.injEq] at h; subst h; exact hg
  | cons o os ih =>
    intro s s' hr ho h hg
    simp only [run] at h
    obtain ⟨s1, h1, h⟩ := C.bind_eq_ok.mp h
    have hr1 : Reachable s1 := hr.run (os := [o]) (by simp only [run, h1, C.ok_bind])
    refine ih hr1 (fun x hx => ho x (by simp [hx])) h ?_
    obtain ⟨m, g, hm, a, b, c⟩ := hg
    obtain ⟨m', hm', e1, -⟩ := of_mem_grps hr1.modsOK (step_grps hr.modsOK (ho o (by simp)) h1 (mem_grps hm) rfl)
    exact ⟨m', g, hm', by rw [e1]; exact a, b, c⟩

theorem neat_step {s s' : Server} {o : Op} {fd : Int} (hr : Reachable s) (ho : o.keepsGroups fd) (h : step s o = .ok s')
    (hn : ∀ m ∈ s.mods, m.fd = fd → m.neat) : ∀ m ∈ s'.mods, m.fd = fd → m.neat := by
  have hk := hr.modsOK
  have back : (∀ x ∈ s'.grps, x ∈ s.grps ∨ (x.2.2.1 = [] ∧ x.2.2.2 = 0)) → ∀ m ∈ s'.mods, m.fd = fd → m.neat := by
    intro hb m hm hf
    rcases hb (m.uid, m.fd, m.groups, m.groupsSize) (List.mem_map.mpr ⟨m, hm, rfl⟩) with h | ⟨h1, h2⟩
    · obtain ⟨y, hy, he⟩ := List.mem_map.mp h
      simp only [Prod.mk.injEq] at he
      have := hn y hy (by rw [he.2.1]; exact hf)
      unfold Module.neat at this ⊢
      rw [← he.2.2.1, ← he.2.2.2]
      exact this
    · unfold Module.neat
      dsimp only at h1 h2
      rw [h1, h2]; rfl
  cases o with
  | req f q =>
    simp only [step] at h
    obtain ⟨⟨s1, r1⟩, h1, h⟩ := C.bind_eq_ok.mp h
    simp only [C.ok.injEq] at h; subst h
    cases hq : q.noGroup with
    | true => exact back ((handle_path_kinds hk h1).grps (Req.kinds_groups hq f)).2
    | false =>
      obtain ⟨m0, m', n, hm0, rfl, hu, hfd, -, hor⟩ := handle_group hq h1
      intro m hm hf
      simp only [Server.updMod, List.mem_map] at hm
      obtain ⟨y, hy, rfl⟩ := hm
      split
      · rename_i he
        rw [if_pos he] at hf
        have hm0' := modByFd_some hm0
        have hff : f = fd := by rw [← hm0'.2, ← hfd, hf]
        subst hff
        rcases hor with ⟨hs, rfl, ha⟩ | ⟨i, rfl, -⟩
        · have hneat := hn m0 hm0'.1 hm0'.2
          exact (groupAdd_safe ha (.inl hneat)).2.1 hneat
        · exact absurd rfl (ho i)
      · rename_i he
        rw [if_neg he] at hf
        exact hn y hy hf
  | close f =>
    simp only [step] at h
    exact back ((moduleUnregister_path (fl := noAdd) (fun _ h => h) .refl _ h).grps rfl).2
  | env e => simp only [step, C.ok.injEq] at h; subst h; exact hn

theorem neat_run {fd : Int} {os : List Op} : ∀ {s0 s : Server}, Reachable s0 →
    (∀ m ∈ s0.mods, m.fd = fd → m.neat) → (∀ o ∈ os, o.keepsGroups fd) → run s0 os = .ok s →
    ∀ m ∈ s.mods, m.fd = fd → m.neat := by
  induction os with
  | nil =>
    intro s0 s hr hn _ h
    simp only [run, C.ok.injEq] at h; subst h
    exact hn
  | cons o os ih =>
    intro s0 s hr hn ho h
    simp only [run] at h
    obtain ⟨s1, h1, h⟩ := C.bind_eq_ok.mp h
    exact ih (hr.run (os := [o]) (by simp only [run, h1, C.ok_bind])) (neat_step hr (ho o (by simp)) h1 hn)
      (fun x hx => ho x (by simp [hx])) h

/-- **C38**, histories: for a connection that registered after `s0` and has not deleted a group, the
book-keeping is in order, so that every group it adds gets a fresh id and disturbs no other
(`C38_add_partial`). -/
theorem C38_history_partial {fd : Int} {os : List Op} {s0 s : Server} (hr : Reachable s0)
    (h0 : NoModule s0 fd) (ho : ∀ o ∈ os, o.keepsGroups fd) (h : run s0 os = .ok s)
    (hm : ∃ m, s.modByFd fd = some m) : Roomy s fd := by
  obtain ⟨m, hm⟩ := hm
  exact ⟨m, hm, .inl (neat_run hr (fun m hm hf => absurd hf (h0 m hm)) ho h m (modByFd_some hm).1 (modByFd_some hm).2)⟩

/-! ## C39 -/

/-- **C39**, limits: a connection that has deleted no group and has not used up its places gets a
group accepted exactly when it has at most 150 members and at most 4084 bytes of data.  Missing from
the full statement: sizes near or above 2³¹, for which the sum overflows (`C39_overflow`). -/
theorem C39_accept_partial {fd : Int} {os : List Op} {s0 s : Server} {hs : List Handle} (hr : Reachable s0)
    (h0 : NoModule s0 fd) (ho : ∀ o ∈ os, o.keepsGroups fd) (h : run s0 os = .ok s) (hm : ∃ m, s.modByFd fd = some m)
    (hplace : ∃ i, i < 2048 ∧ ∀ hs', ¬ GroupAt s fd i hs') (hsm : SmallSizes hs) :
    (∃ s' d, handle s fd (.grpAdd hs) = .ok (s', .resp d)) ↔ hs.length ≤ 150 ∧ groupBytes hs ≤ 4084 := by
  obtain ⟨m, hm⟩ := hm
  have hneat : m.neat := neat_run hr (fun m hm hf => absurd hf (h0 m hm)) ho h m (modByFd_some hm).1 (modByFd_some hm).2
  have hgok := (hr.run h).groupsOK m (modByFd_some hm).1
  have hsb := sizeTooBig_iff (acc := 0) hsm (by omega)
  simp only [Nat.zero_add, Int.natCast_zero] at hsb
  have hslot : ∃ m1 n, groupSlot m = .ok (m1, (n : Nat)) ∧ ∃ g, m1.groups[n]? = some g := by
    unfold groupSlot
    dsimp only
    by_cases hz : m.groupsSize = 0
    · have hfr : freeSlot (List.replicate GROUP_START emptyGroup) GROUP_START = some 0 := by decide
      have hlen : ¬ (GROUP_START > (List.replicate GROUP_START emptyGroup).length) := by decide
      unfold groupInit
      rw [if_pos hz]
      dsimp only
      rw [if_neg hlen, hfr]
      exact ⟨_, 0, rfl, emptyGroup, rfl⟩
    · unfold groupInit
      rw [if_neg hz, if_neg (by unfold Module.neat at hneat; omega)]
      split
      · rename_i n hn
        refine ⟨m, n, rfl, ?_⟩
        unfold freeSlot at hn
        rw [List.findIdx?_eq_some_iff_getElem] at hn
        obtain ⟨hl, -⟩ := hn
        have : n < m.groups.length := by
          have := List.length_take_le m.groupsSize m.groups
          rw [List.length_take] at hl
          omega
        exact ⟨_, List.getElem?_eq_getElem this⟩
      · rename_i hfree
        have hle : m.groupsSize ≤ 2048 := by
          apply Classical.byContradiction
          intro hgt
          obtain ⟨i, hi, hno⟩ := hplace
          unfold Module.neat at hneat
          have hil : i < m.groups.length := by omega
          have hgi := List.getElem?_eq_getElem hil
          unfold freeSlot at hfree
          rw [List.findIdx?_eq_none_iff] at hfree
          have hne := hfree m.groups[i] (List.mem_of_getElem? (i := i) (by rw [List.getElem?_take, if_pos (by omega), hgi]))
          simp only [Bool.not_eq_eq_eq_not, Bool.not_false] at hne
          obtain ⟨hs', e1, -⟩ := hgok _ (List.mem_of_getElem? hgi) hne
          exact hno hs' ⟨m, _, hm, hgi, hne, e1⟩
        rw [if_neg (by unfold GROUP_MAX; omega)]
        refine ⟨_, m.groupsSize, rfl, emptyGroup, ?_⟩
        unfold Module.neat at hneat
        dsimp only
        rw [hneat, List.take_length, List.getElem?_append_right (by omega), List.getElem?_replicate, if_pos (by omega)]
  obtain ⟨m1, n, hs1, g, hg⟩ := hslot
  simp only [handle, hGrpAdd, hm, groupAdd]
  have h150 : GROUP_MAX_MEMBERS = 150 := rfl
  by_cases hl : hs.length > GROUP_MAX_MEMBERS
  · simp only [if_pos hl, C.ok_bind]
    constructor
    · rintro ⟨s', d, he⟩
      simp [idOrErr, ERR_ARG] at he
    · omega
  · simp only [if_neg hl, hs1, C.ok_bind, if_neg (show ¬ ((n : Int) < 0) by omega), Int.toNat_natCast, hg]
    by_cases hb : 4084 < groupBytes hs
    · simp only [hsb.mpr hb, if_true, C.ok_bind]
      constructor
      · rintro ⟨s', d, he⟩
        simp [idOrErr, ERR_2BIG] at he
      · omega
    · have : sizeTooBig 0 hs = false := by
        cases hc : sizeTooBig 0 hs with
        | false => rfl
        | true => exact absurd (hsb.mp hc) hb
      simp only [this, Bool.false_eq_true, if_false, C.ok_bind, idOrErr, if_neg (show ¬ ((n : Int) < 0) by omega)]
      exact ⟨fun _ => ⟨by omega, by omega⟩, fun _ => ⟨_, _, rfl⟩⟩

/-- **C39**, transfers: the answer to a group read always fits in one message. -/
theorem C39_fits {s s' : Server} {fd : Int} {i : Nat} {d : List Byte}
    (hh : handle s fd (.grpRead i) = .ok (s', .resp d)) : d.length ≤ 4084 := by
  have loop : ∀ (hs : List Handle) (s s' : Server) (buf b : List Byte) (off o : Int),
      groupReadLoop s hs buf off = .ok (s', .ok (b, o)) → b.length = buf.length := by
    intro hs
    induction hs with
    | nil =>
      intro s s' buf b off o h
      simp only [groupReadLoop, C.ok.injEq, Prod.mk.injEq, Except.ok.injEq] at h
      rw [h.2.1]
    | cons h hs ih =>
      intro s s' buf b off o hl
      simp only [groupReadLoop] at hl
      obtain ⟨⟨s1, r1⟩, h1, hl⟩ := C.bind_eq_ok.mp hl
      cases r1 with
      | error e => simp at hl
      | ok d =>
        obtain ⟨b1, h2, hl⟩ := C.bind_eq_ok.mp hl
        rw [ih _ _ _ _ _ _ hl, wr_length h2]
  simp only [handle, hGrpRead] at hh
  split at hh
  · simp at hh
  obtain ⟨⟨s1, r1⟩, h1, hh⟩ := C.bind_eq_ok.mp hh
  cases r1 with
  | error e => simp at hh
  | ok d1 =>
    simp only [C.ok.injEq, Prod.mk.injEq, Reply.resp.injEq] at hh
    obtain ⟨rfl, rfl⟩ := hh
    unfold groupRead at h1
    split at h1
    · simp at h1
    split at h1
    · split at h1
      · simp at h1
      · obtain ⟨⟨s2, r2⟩, h2, h1⟩ := C.bind_eq_ok.mp h1
        cases r2 with
        | error e => simp at h1
        | ok x =>
          obtain ⟨b, o⟩ := x
          dsimp only at h1
          split at h1
          · simp at h1
          · obtain ⟨d2, h3, h1⟩ := C.bind_eq_ok.mp h1
            simp only [C.ok.injEq, Prod.mk.injEq, Except.ok.injEq] at h1
            have hbl := loop _ _ _ _ _ _ _ h2
            have h4 := rd_length h3
            obtain ⟨⟨_, _, h5⟩, -⟩ := rd_ok.mp h3
            rw [← h1.2, h4]
            rw [hbl] at h5
            simp only [Env.junk, List.length_map, List.length_range, GROUP_DATA_SIZE] at h5
            omega
    · simp at h1

/-! ## The hypotheses of the theorems are met, and the witnesses -/

/-- Bytes 2 and 3 of "Speed" and the first two bytes of "Flags". -/
def pair : List Handle := [⟨13, 2, 0, 1, 2, DAX_INT⟩, ⟨14, 0, 0, 16, 2, DAX_BOOL⟩]

def grpOps : List Op := demoOps ++ [.req 5 (.grpAdd pair), .req 5 (.grpAdd [⟨13, 0, 0, 1, 2, DAX_INT⟩])]

theorem grpOps_reachable : Reachable (demo grpOps) := demo_reachable (by decide +kernel)

theorem groupAt_of {s : Server} {fd : Int} {i : Nat} {hs : List Handle}
    (h : (s.modByFd fd).bind (fun m => m.groups[i]?) = some ⟨true, hs.length, some hs⟩) : GroupAt s fd i hs := by
  cases hm : s.modByFd fd with
  | none => rw [hm] at h; simp at h
  | some m => rw [hm] at h; exact ⟨m, _, hm, h, rfl, rfl⟩

theorem storedTag_of {s : Server} {h : Handle} (hh : (s.tag? h.index).all (fun t => !t.attr.virt) = true) : StoredTag s h := by
  intro t ht
  rw [ht] at hh
  simpa using hh

theorem freeTag_of {s : Server} {h : Handle}
    (hh : (s.tag? h.index).any (fun t => !t.attr.readonly && !t.attr.special && t.maps.isEmpty && !t.wildMaps) = true) : FreeTag s h := by
  cases ht : s.tag? h.index with
  | none => rw [ht] at hh; simp at hh
  | some t =>
    rw [ht] at hh
    simp only [Option.any_some, Bool.and_eq_true, Bool.not_eq_true', List.isEmpty_iff] at hh
    exact ⟨t, ht, hh.1.1.1, hh.1.1.2, hh.1.2, hh.2⟩

theorem pair_small : SmallSizes pair := by unfold SmallSizes; decide

/-- The hypotheses of `C37_read_partial` are met. -/
example : handle (demo grpOps) 5 (.grpRead 0) = readAll (demo grpOps) 5 pair [] :=
  C37_read_partial grpOps_reachable (groupAt_of (by decide +kernel)) pair_small (by
    intro h hh
    simp only [pair, List.mem_cons, List.not_mem_nil, or_false] at hh
    rcases hh with rfl | rfl <;> exact storedTag_of (by decide +kernel))

example : ∃ s', handle (demo grpOps) 5 (.grpRead 0) = .ok (s', .resp [3, 4, 0, 0]) := exists_reply (by decide +kernel)

/-- The hypotheses of `C37_write_partial` are met. -/
example : handle (demo grpOps) 5 (.grpWrite 0 [9, 8, 7, 6]) = writeAll (demo grpOps) 5 pair [9, 8, 7, 6] :=
  C37_write_partial grpOps_reachable (groupAt_of (by decide +kernel)) pair_small (by
    intro h hh
    simp only [pair, List.mem_cons, List.not_mem_nil, or_false] at hh
    rcases hh with rfl | rfl <;> exact freeTag_of (by decide +kernel)) (by decide)

example : ∃ s' s'', handle (demo grpOps) 5 (.grpWrite 0 [9, 8, 7, 6]) = .ok (s', .resp []) ∧
    handle s' 5 (.grpRead 0) = .ok (s'', .resp [9, 8, 7, 6]) :=
  ⟨demo (grpOps ++ [.req 5 (.grpWrite 0 [9, 8, 7, 6])]), _, demo_handle (by decide +kernel) (by decide +kernel),
    demo_handle (by decide +kernel) (by decide +kernel)⟩

/-- **C37** fails: a group write does not set off the mappings of its members, an ordinary write of
the same member does. -/
theorem C37_skips_mapping : ∃ s s1 s2, Reachable s ∧ GroupAt s 5 0 [⟨13, 0, 0, 1, 2, DAX_INT⟩] ∧
    handle s 5 (.grpWrite 0 [9, 9]) = .ok (s1, .resp []) ∧ writeAll s 5 [⟨13, 0, 0, 1, 2, DAX_INT⟩] [9, 9] = .ok (s2, .resp []) ∧
    (∃ s', handle s1 5 (.tagRead 16 4 2) = .ok (s', .resp [0, 0])) ∧ ∃ s', handle s2 5 (.tagRead 16 4 2) = .ok (s', .resp [9, 9]) := by
  refine ⟨demo (mapOps ++ [.req 5 (.grpAdd [⟨13, 0, 0, 1, 2, DAX_INT⟩])]),
    demo (mapOps ++ [.req 5 (.grpAdd [⟨13, 0, 0, 1, 2, DAX_INT⟩])] ++ [.req 5 (.grpWrite 0 [9, 9])]),
    demo (mapOps ++ [.req 5 (.grpAdd [⟨13, 0, 0, 1, 2, DAX_INT⟩])] ++ [.req 5 (.tagWrite 13 0 [9, 9])]),
    demo_reachable (by decide +kernel), groupAt_of (by decide +kernel), demo_handle (by decide +kernel) (by decide +kernel),
    ?_, exists_reply (by decide +kernel), exists_reply (by decide +kernel)⟩
  have h : handle (demo (mapOps ++ [.req 5 (.grpAdd [⟨13, 0, 0, 1, 2, DAX_INT⟩])])) 5 (.tagWrite 13 0 [9, 9]) = _ :=
    demo_handle (r := .resp []) (by decide +kernel) (by decide +kernel)
  have e : i32 (0 : Nat) = 0 := by decide
  simp only [writeAll, List.take_succ_cons, List.take_zero, e, h, C.ok_bind]

/-- **C37** fails: a member that names the reader cannot be read in a group. -/
theorem C37_own_name : ∃ s, Reachable s ∧ GroupAt s 5 0 [⟨10, 0, 0, 32, 32, DAX_CHAR⟩] ∧
    handle s 5 (.grpRead 0) = .ok (s, .err ERR_NOTFOUND) ∧ ∃ s' d, readAll s 5 [⟨10, 0, 0, 32, 32, DAX_CHAR⟩] [] = .ok (s', .resp d) := by
  refine ⟨demo (demoOps ++ [.req 5 (.grpAdd [⟨10, 0, 0, 32, 32, DAX_CHAR⟩])]), demo_reachable (by decide +kernel),
    groupAt_of (by decide +kernel), by kernel_rfl, ?_⟩
  have : (replyOf (readAll (demo (demoOps ++ [.req 5 (.grpAdd [⟨10, 0, 0, 32, 32, DAX_CHAR⟩])])) 5
    [⟨10, 0, 0, 32, 32, DAX_CHAR⟩] [])).any (fun r => match r with | .resp _ => true | _ => false) = true := by decide +kernel
  cases h : readAll (demo (demoOps ++ [.req 5 (.grpAdd [⟨10, 0, 0, 32, 32, DAX_CHAR⟩])])) 5 [⟨10, 0, 0, 32, 32, DAX_CHAR⟩] [] with
  | ub w => rw [h] at this; simp [replyOf] at this
  | ok x =>
    obtain ⟨s', r⟩ := x
    rw [h] at this
    simp only [replyOf, Option.any_some] at this
    split at this
    · exact ⟨s', _, rfl⟩
    · simp at this

/-- The hypotheses of `C38_add_partial`, `C38_history_partial` and `C39_accept_partial` are met. -/
example : ∃ s0, Reachable s0 ∧ NoModule s0 5 ∧ run s0 grpOps = .ok (demo grpOps) ∧ (∀ o ∈ grpOps, o.keepsGroups 5) ∧
    (∃ m, (demo grpOps).modByFd 5 = some m) ∧ (∀ hs', ¬ GroupAt (demo grpOps) 5 2 hs') ∧
    (∃ s' d, handle (demo grpOps) 5 (.grpAdd pair) = .ok (s', .resp d)) := by
  refine ⟨demo [], demo_reachable (by decide +kernel), by unfold NoModule; decide +kernel, demo_run (os := []) (by decide +kernel), ?_,
    Option.isSome_iff_exists.mp (by decide +kernel), ?_, _, le4 2, demo_handle (by decide +kernel) (by decide +kernel)⟩
  · intro o ho i h
    subst h
    simp [grpOps, demoOps] at ho
  · rintro hs ⟨m, g, hm, hg, h1, -⟩
    have : ((demo grpOps).modByFd 5).bind (fun m => m.groups[2]?) = some emptyGroup := by decide +kernel
    rw [hm] at this
    simp only [Option.bind_some, hg, Option.some.injEq] at this
    rw [this] at h1
    simp [emptyGroup] at h1

/-- The hypotheses of `C38_delete` are met. -/
example (fd' : Int) (j : Nat) (hs' : List Handle) : GroupAt (demo (grpOps ++ [.req 5 (.grpDel 0)])) fd' j hs' ↔
    GroupAt (demo grpOps) fd' j hs' ∧ ¬ (fd' = 5 ∧ j = 0) :=
  C38_delete grpOps_reachable (demo_handle (r := .resp (le4 0)) (by decide +kernel) (by decide +kernel)) fd' j hs'

/-- The hypotheses of `C38_kept` are met: another module comes, makes and deletes a group, and
leaves. -/
example : GroupAt (demo (grpOps ++ [.req 7 (.modReg 1 (nm "modC")), .req 7 (.grpAdd pair), .req 7 (.grpDel 0), .req 5 (.grpWrite 0 [1, 2, 3, 4]), .close 7]))
    5 0 pair := by
  refine C38_kept grpOps_reachable ?_ (demo_run (os := grpOps) (by decide +kernel)) (groupAt_of (by decide +kernel))
  intro o ho
  simp only [List.mem_cons, List.not_mem_nil, or_false] at ho
  rcases ho with rfl | rfl | rfl | rfl | rfl <;> simp [Op.leavesGroups]

/-- A one-byte group of "Speed". -/
def byteGroup (k : Nat) : Op := .req 5 (.grpAdd [⟨13, k, 0, 1, 1, DAX_BYTE⟩])

/-- Sixteen groups, of which the first is deleted and made again. -/
def fullGroups : List Op := demoOps ++ (List.range 16).map (fun k => byteGroup (k % 8)) ++ [.req 5 (.grpDel 0), byteGroup 0]

/-- **C38** fails: after a deletion, the array grows from one place too few; the group with the last
id is overwritten and its id given out a second time. -/
theorem C38_overwrites : ∃ s s', Reachable s ∧ GroupAt s 5 15 [⟨13, 7, 0, 1, 1, DAX_BYTE⟩] ∧
    handle s 5 (.grpAdd [⟨13, 3, 0, 1, 1, DAX_BYTE⟩]) = .ok (s', .resp (le4 15)) ∧
    GroupAt s' 5 15 [⟨13, 3, 0, 1, 1, DAX_BYTE⟩] ∧ ¬ GroupAt s' 5 15 [⟨13, 7, 0, 1, 1, DAX_BYTE⟩] := by
  have hg : GroupAt (demo (fullGroups ++ [.req 5 (.grpAdd [⟨13, 3, 0, 1, 1, DAX_BYTE⟩])])) 5 15 [⟨13, 3, 0, 1, 1, DAX_BYTE⟩] :=
    groupAt_of (by decide +kernel)
  refine ⟨demo fullGroups, _, demo_reachable (by decide +kernel), groupAt_of (by decide +kernel),
    demo_handle (by decide +kernel) (by decide +kernel), hg, ?_⟩
  rintro ⟨m, g, hm, h1, -, h2⟩
  obtain ⟨m', g', hm', h1', -, h2'⟩ := hg
  rw [hm] at hm'; cases hm'
  rw [h1] at h1'; cases h1'
  rw [h2] at h2'
  exact absurd h2' (by decide)

/-- Sixteen groups, of which all but the last are deleted; then one more is made and deleted. -/
def churn : List Op := demoOps ++ (List.range 16).map (fun k => byteGroup (k % 8)) ++
  (List.range 15).map (fun k => .req 5 (.grpDel k)) ++ [byteGroup 0, .req 5 (.grpDel 0)]

/-- **C38** fails: after sixteen deletions the whole array is thrown away by the next addition; the
group that was never deleted is gone. -/
theorem C38_loses_all : ∃ s s', Reachable s ∧ GroupAt s 5 15 [⟨13, 7, 0, 1, 1, DAX_BYTE⟩] ∧
    handle s 5 (.grpAdd [⟨13, 2, 0, 1, 1, DAX_BYTE⟩]) = .ok (s', .resp (le4 0)) ∧
    handle s' 5 (.grpRead 15) = .ok (s', .err ERR_NOTFOUND) := by
  have h := demo_handle (os := churn) (e := {}) (fd := 5) (q := .grpAdd [⟨13, 2, 0, 1, 1, DAX_BYTE⟩]) (r := .resp (le4 0))
    (by decide +kernel) (by decide +kernel)
  exact ⟨_, _, demo_reachable (by decide +kernel), groupAt_of (by decide +kernel), h, by kernel_rfl⟩

/-- **C39** fails: the running sum of the sizes overflows, so that a group with members of 2³² − 1
and of 4000 bytes is accepted; reading it is undefined. -/
theorem C39_overflow : ∃ s s' hs, Reachable s ∧ groupBytes hs = 4294971295 ∧ handle s 5 (.grpAdd hs) = .ok (s', .resp (le4 0)) ∧
    ∃ w, handle s' 5 (.grpRead 0) = .ub w :=
  ⟨demo demoOps, _, [⟨13, 0, 0, 1, 4294967295, DAX_BYTE⟩, ⟨13, 0, 0, 1, 4000, DAX_BYTE⟩], demoOps_reachable, by decide,
    demo_handle (by decide +kernel) (by decide +kernel), isOk_false (by decide +kernel)⟩

end Dax
