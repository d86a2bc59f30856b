import Verif.Spec.Groups
import Verif.Spec.Subs
import Verif.Lemmas.Leave
/-!
# Lemmas about tag groups
-/
set_option autoImplicit false
namespace Dax

/-! ## Sizes -/

theorem i32_in {x : Int} (h1 : -2147483648 ≤ x) (h2 : x < 2147483648) : i32 x = x := i32_of_range ⟨h1, h2⟩

theorem sizeTooBig_iff {hs : List Handle} : ∀ {acc : Nat}, SmallSizes hs → acc ≤ 4084 →
    (sizeTooBig acc hs = true ↔ 4084 < acc + groupBytes hs) := by
  induction hs with
  | nil => intro acc _ h; simp [sizeTooBig, groupBytes]; omega
  | cons h hs ih =>
    intro acc hs' hacc
    have h1 := hs' h (by simp)
    have e : i32 ((acc : Int) + h.size) = ((acc + h.size : Nat) : Int) := by
      rw [i32_in (by omega) (by omega)]; omega
    simp only [sizeTooBig, e, groupBytes, List.map_cons, List.sum_cons, GROUP_DATA_SIZE]
    split
    · simp; omega
    · rw [ih (fun x hx => hs' x (by simp [hx])) (by omega)]
      simp only [groupBytes]; omega

/-! ## Reading and writing -/

theorem tagRead_stored {s : Server} {h : Handle} (hv : StoredTag s h) (fd fd' off size : Int) :
    tagRead s fd h.index off size = tagRead s fd' h.index off size := by
  unfold tagRead
  cases ht : s.tag? h.index with
  | none => rfl
  | some t => simp only [hv t ht, Bool.false_eq_true, if_false]

theorem tagRead_state {s s' : Server} {h : Handle} (hv : StoredTag s h) {fd off size : Int} {r}
    (hr : tagRead s fd h.index off size = .ok (s', r)) :
    s' = s ∧ ∀ d, r = .ok d → (d.length : Int) = size := by
  unfold tagRead at hr
  cases ht : s.tag? h.index with
  | none =>
    rw [ht] at hr
    simp only [C.ok.injEq, Prod.mk.injEq] at hr
    exact ⟨hr.1.symm, fun d hd => by rw [← hr.2] at hd; simp at hd⟩
  | some t =>
    rw [ht] at hr
    simp only [hv t ht, Bool.false_eq_true, if_false] at hr
    obtain ⟨e, -, hr⟩ := C.bind_eq_ok.mp hr
    obtain ⟨sz, -, hr⟩ := C.bind_eq_ok.mp hr
    split at hr
    · simp only [C.ok.injEq, Prod.mk.injEq] at hr
      exact ⟨hr.1.symm, fun d hd => by rw [← hr.2] at hd; simp at hd⟩
    split at hr
    · simp only [C.ok.injEq, Prod.mk.injEq] at hr
      exact ⟨hr.1.symm, fun d hd => by rw [← hr.2] at hd; simp at hd⟩
    · obtain ⟨d, hd, hr⟩ := C.bind_eq_ok.mp hr
      have hl : (d.length : Int) = size := by
        have h1 := rd_length hd
        obtain ⟨⟨_, h2, _⟩, -⟩ := rd_ok.mp hd
        omega
      split at hr
      · obtain ⟨d', hd', hr⟩ := C.bind_eq_ok.mp hr
        simp only [C.ok.injEq, Prod.mk.injEq] at hr
        refine ⟨hr.1.symm, fun x hx => ?_⟩
        rw [← hr.2] at hx
        cases hx
        unfold ovrBlend at hd'
        split at hd'
        · simp only [C.ok.injEq] at hd'; rw [← hd']; exact hl
        split at hd'
        · simp at hd'
        · obtain ⟨o, ho, hd'⟩ := C.bind_eq_ok.mp hd'
          obtain ⟨m, hm, hd'⟩ := C.bind_eq_ok.mp hd'
          simp only [C.ok.injEq] at hd'
          have h1 := rd_length ho
          have h2 := rd_length hm
          rw [← hd', maskMerge_length]
          omega
      · simp only [C.ok.injEq, Prod.mk.injEq] at hr
        refine ⟨hr.1.symm, fun x hx => ?_⟩
        rw [← hr.2] at hx
        cases hx
        exact hl
    · simp at hr

theorem pad_self {e : Env} {d : List Byte} {n : Nat} (h : d.length = n) : e.pad d n = d := by
  unfold Env.pad
  subst h
  simp

theorem groupReadLoop_readAll {s : Server} {fd : Int} {hs : List Handle} : ∀ {acc rest : List Byte},
    (∀ h ∈ hs, StoredTag s h) → SmallSizes hs →
    acc.length + rest.length = 4084 → acc.length + groupBytes hs ≤ 4084 →
    (∃ w, groupReadLoop s hs (acc ++ rest) acc.length = .ub w ∧ readAll s fd hs acc = .ub w) ∨
    (∃ e, groupReadLoop s hs (acc ++ rest) acc.length = .ok (s, .error e) ∧ readAll s fd hs acc = .ok (s, .err e)) ∨
    (∃ d rest', groupReadLoop s hs (acc ++ rest) acc.length = .ok (s, .ok (d ++ rest', d.length)) ∧
      readAll s fd hs acc = .ok (s, .resp d)) := by
  induction hs with
  | nil =>
    intro acc rest _ _ _ _
    exact .inr (.inr ⟨acc, rest, by simp [groupReadLoop], by simp [readAll]⟩)
  | cons h hs ih =>
    intro acc rest hv hsm hl hb
    have hv0 := hv h (by simp)
    have hs0 := hsm h (by simp)
    have hb0 : acc.length + (h.size + groupBytes hs) ≤ 4084 := by simpa [groupBytes] using hb
    have ei : i32 (h.size : Int) = h.size := i32_in (by omega) (by omega)
    simp only [groupReadLoop, readAll, handle, hTagRead, ei, tagRead_stored hv0 fd (-1)]
    cases ht : tagRead s (-1) h.index (i32 h.byte) h.size with
    | ub w => exact .inl ⟨w, rfl, rfl⟩
    | ok x =>
      obtain ⟨s1, r⟩ := x
      obtain ⟨rfl, hlen⟩ := tagRead_state hv0 ht
      cases r with
      | error e => exact .inr (.inl ⟨e, rfl, rfl⟩)
      | ok d =>
        have hd : d.length = h.size := by have := hlen d rfl; omega
        have hw : wr (acc ++ rest) acc.length d = .ok (acc ++ d ++ rest.drop d.length) := by
          refine wr_ok.mpr ⟨⟨by omega, by rw [List.length_append]; omega⟩, ?_⟩
          simp [List.drop_append, List.take_append]
        have eo : i32 ((acc.length : Int) + h.size) = ((acc ++ d).length : Nat) := by
          rw [i32_in (by omega) (by omega), List.length_append]; omega
        have c1 : ¬ (d.length > MSG_DATA_SIZE ∨ (h.size : Int) < 0) := by unfold MSG_DATA_SIZE; omega
        have c2 : ¬ ((h.size : Int) > MSG_DATA_SIZE) := by unfold MSG_DATA_SIZE; omega
        simp only [C.ok_bind, hw, eo, if_neg c1, if_neg c2, Int.toNat_natCast, pad_self hd]
        refine ih (acc := acc ++ d) (rest := rest.drop d.length) (fun x hx => hv x (by simp [hx])) (fun x hx => hsm x (by simp [hx])) ?_ ?_
        · simp; omega
        · rw [List.length_append]; omega

theorem tagWrite_neg {s s' : Server} {fd idx off : Int} {d : List Byte} {r : Int}
    (h : tagWrite s fd idx off d = .ok (s', r)) : r ≤ 0 := by
  unfold tagWrite at h
  split at h
  · simp only [C.ok.injEq, Prod.mk.injEq] at h; rw [← h.2]; decide
  rename_i t ht
  split at h
  · unfold virtWrite at h
    split at h
    · simp only [C.ok.injEq, Prod.mk.injEq] at h; rw [← h.2]; decide
    · simp only [C.ok.injEq, Prod.mk.injEq] at h; rw [← h.2]; decide
    · obtain ⟨q, -, h⟩ := C.bind_eq_ok.mp h
      split at h
      · simp only [C.ok.injEq, Prod.mk.injEq] at h; rw [← h.2]; decide
      · obtain ⟨⟨e, n⟩, -, h⟩ := C.bind_eq_ok.mp h
        simp only [C.ok.injEq, Prod.mk.injEq] at h; rw [← h.2]; decide
    · simp at h
  obtain ⟨e, -, h⟩ := C.bind_eq_ok.mp h
  obtain ⟨sz, -, h⟩ := C.bind_eq_ok.mp h
  split at h
  · simp only [C.ok.injEq, Prod.mk.injEq] at h; rw [← h.2]; decide
  split at h
  · simp only [C.ok.injEq, Prod.mk.injEq] at h; rw [← h.2]; decide
  · dsimp only at h
    have hsw : ∀ t fd idx off n, specialWrite s t fd idx off n ≤ 0 := by
      intro t fd idx off n
      unfold specialWrite
      repeat' split
      all_goals first | decide | omega
    generalize hrr : (if t.attr.special = true then specialWrite s t fd idx off d.length else 0) = rr at h
    have hrr0 : rr ≤ 0 := by
      rw [← hrr]
      split
      · exact hsw _ _ _ _ _
      · decide
    split at h
    · simp only [C.ok.injEq, Prod.mk.injEq] at h
      rw [← h.2]; exact hrr0
    · obtain ⟨b', -, h⟩ := C.bind_eq_ok.mp h
      rw [(commitWrite_inv h).1]; decide
  · simp at h

theorem FreeTag.write {s s' : Server} {h h' : Handle} {fd idx off : Int} {d : List Byte} {r : Int} (hf : FreeTag s h)
    (hw : tagWrite s fd idx off d = .ok (s', r)) : FreeTag s' h := by
  have key : ∀ t t', s.tag? idx = some t → t'.attr = t.attr → t'.maps = t.maps → t'.wildMaps = t.wildMaps →
      ∀ s1 : Server, s1.db = (s.setTag idx t').db → FreeTag s1 h := by
    intro t t' ht e1 e2 e3 s1 hdb
    obtain ⟨u, hu, h1, h2, h3, h4⟩ := hf
    obtain ⟨hi, hu'⟩ := tag?_eq.mp hu
    obtain ⟨hj, ht'⟩ := tag?_eq.mp ht
    by_cases hij : idx.toNat = h.index.toNat
    · rw [hij] at ht'
      rw [ht'] at hu'
      cases hu'
      refine ⟨t', tag?_eq.mpr ⟨hi, ?_⟩, by rw [e1, h1], by rw [e1, h2], by rw [e2, h3], by rw [e3, h4]⟩
      rw [hdb]
      simp only [Server.setTag, hij]
      rw [List.getElem?_set_self (List.getElem?_eq_some_iff.mp ht').1]
    · refine ⟨u, tag?_eq.mpr ⟨hi, ?_⟩, h1, h2, h3, h4⟩
      rw [hdb]
      simp only [Server.setTag]
      rw [List.getElem?_set_ne hij]
      exact hu'
  rcases tagWrite_inv hw with ⟨rfl, -⟩ | ⟨-, h⟩ | ⟨-, h⟩
  · exact hf
  · obtain ⟨t, b, b', evs, ns, rt, ht, -, -, -, -, rfl⟩ := h.ex
    exact key t { t with data := .mem b', events := evs } ht rfl rfl rfl _ rfl
  · obtain ⟨t, q, q', evs, ns, ht, -, -, -, -, rfl⟩ := h
    exact key t { t with data := .queue q', events := evs } ht rfl rfl rfl _ rfl

/-- For a tag anybody may write, the writer does not matter. -/
theorem tagWrite_free {s : Server} {h : Handle} (hf : FreeTag s h) (fd fd' off : Int) (d : List Byte) :
    tagWrite s fd h.index off d = tagWrite s fd' h.index off d := by
  obtain ⟨t, ht, -, h2, -, -⟩ := hf
  unfold tagWrite
  simp only [ht, h2, Bool.false_eq_true, if_false]

theorem groupWriteLoop_writeAll {fd : Int} {hs : List Handle} : ∀ {s : Server} {buf0 buf : List Byte} {off : Nat},
    s.db.length ≤ s.dbsize →
    (∀ h ∈ hs, FreeTag s h) → SmallSizes hs → buf = buf0.drop off → off + groupBytes hs ≤ buf0.length →
    off + groupBytes hs ≤ 4084 →
    (∃ w, groupWriteLoop s hs buf0 off = .ub w ∧ writeAll s fd hs buf = .ub w) ∨
    (∃ s' r, r < 0 ∧ groupWriteLoop s hs buf0 off = .ok (s', r) ∧ writeAll s fd hs buf = .ok (s', .err r)) ∨
    (∃ s' r, 0 ≤ r ∧ groupWriteLoop s hs buf0 off = .ok (s', r) ∧ writeAll s fd hs buf = .ok (s', .resp [])) := by
  induction hs with
  | nil =>
    intro s buf0 buf off _ _ _ _ _ _
    exact .inr (.inr ⟨s, off, by omega, by simp [groupWriteLoop], by simp [writeAll]⟩)
  | cons h hs ih =>
    intro s buf0 buf off hdb hf hsm hbuf hl hb
    have hf0 := hf h (by simp)
    have hs0 := hsm h (by simp)
    have hb0 : off + (h.size + groupBytes hs) ≤ 4084 := by simpa [groupBytes] using hb
    have hl0 : off + (h.size + groupBytes hs) ≤ buf0.length := by simpa [groupBytes] using hl
    have hl1 : off + h.size + groupBytes hs ≤ buf0.length := by omega
    have hb1 : off + h.size + groupBytes hs ≤ 4084 := by omega
    have ei : i32 (h.size : Int) = h.size := i32_in (by omega) (by omega)
    have hrd : rd buf0 off h.size = .ok (buf.take h.size) := by
      refine rd_ok.mpr ⟨⟨by omega, by omega, by omega⟩, ?_⟩
      rw [hbuf]; rfl
    obtain ⟨t, ht, h1, h2, h3, h4⟩ := id hf0
    obtain ⟨hi, ht'⟩ := tag?_eq.mp ht
    have hlt := (List.getElem?_eq_some_iff.mp ht').1
    have hro : roForeign s fd h.index = .ok false := by
      unfold roForeign rawAttr
      rw [if_neg (by omega), ht]
      simp [h1]
    simp only [groupWriteLoop, writeAll, handle, hTagWrite, ei, hrd, C.ok_bind, hro, Bool.false_eq_true, if_false,
      tagWrite_free hf0 fd (-1)]
    cases hw : tagWrite s (-1) h.index (i32 h.byte) (buf.take h.size) with
    | ub w => exact .inl ⟨w, rfl, rfl⟩
    | ok x =>
      obtain ⟨s1, r⟩ := x
      have hneg := tagWrite_neg hw
      simp only [C.ok_bind]
      by_cases hr : r = 0
      · subst hr
        have hf1 : FreeTag s1 h := hf0.write (h' := h) hw
        obtain ⟨t1, ht1, -, -, m3, m4⟩ := hf1
        have hmc : mapCheck s1 h.index (i32 h.byte) (buf.take h.size).length = .ok s1 := by
          unfold mapCheck
          simp only [ht1, m4, Bool.false_eq_true, if_false, m3, mapLoop]
        have eo : i32 ((off : Int) + h.size) = ((off + h.size : Nat) : Int) := by
          rw [i32_in (by omega) (by omega)]; omega
        simp only [ne_eq, not_true, if_false, hmc, C.ok_bind, eo]
        have hq := tagWrite_quiet hw
        refine ih (by rw [hq.len, hq.dbsize]; exact hdb) (fun x hx => (hf x (by simp [hx])).write (h' := x) hw)
          (fun x hx => hsm x (by simp [hx])) ?_ hl1 hb1
        rw [hbuf, List.drop_drop]
      · simp only [ne_eq, hr, not_false_eq_true, if_true, C.ok_bind]
        exact .inr (.inl ⟨s1, r, by omega, rfl, rfl⟩)

/-! ## The group array of a module -/

/-- The recorded size is the true one. -/
def Module.neat (m : Module) : Prop := m.groupsSize = m.groups.length

/-- Adding does not disturb: the recorded size is right, or there is a free place. -/
def Module.roomy (m : Module) : Prop :=
  m.neat ∨ ∃ (j : Nat) (g : Group), j < m.groupsSize ∧ m.groups[j]? = some g ∧ g.notEmpty = false

theorem empty_mem {j n : Nat} {g : Group} (h : (List.replicate n emptyGroup)[j]? = some g) : g.notEmpty = false := by
  rw [(List.mem_replicate.mp (List.mem_of_getElem? h)).2]; rfl

theorem groupSlot_safe {m m' : Module} {r : Int} (h : groupSlot m = .ok (m', r)) (hs : m.roomy) :
    (∀ (j : Nat) (g : Group), m.groups[j]? = some g → m'.groups[j]? = some g) ∧ (m.neat → m'.neat) ∧
    (∀ (j : Nat) (g : Group), m'.groups[j]? = some g → g.notEmpty = true → m.groups[j]? = some g) := by
  unfold groupSlot at h
  dsimp only at h
  by_cases h0 : m.groupsSize = 0
  · have hnil : m.groups = [] := by
      rcases hs with hs | ⟨j, g, hj, -⟩
      · unfold Module.neat at hs
        rw [h0] at hs
        exact List.length_eq_zero_iff.mp hs.symm
      · omega
    unfold groupInit at h
    rw [if_pos h0] at h
    have hfr : freeSlot (List.replicate GROUP_START emptyGroup) GROUP_START = some 0 := by decide
    have hlen : ¬ (GROUP_START > (List.replicate GROUP_START emptyGroup).length) := by decide
    dsimp only at h
    rw [if_neg hlen, hfr] at h
    simp only [C.ok.injEq, Prod.mk.injEq] at h
    rw [← h.1]
    refine ⟨fun j g hj => by rw [hnil] at hj; simp at hj, fun _ => by simp [Module.neat], fun j g hj hg => ?_⟩
    rw [empty_mem hj] at hg; simp at hg
  · unfold groupInit at h
    rw [if_neg h0] at h
    split at h
    · simp at h
    split at h
    · simp only [C.ok.injEq, Prod.mk.injEq] at h
      rw [← h.1]; exact ⟨fun _ _ h => h, fun h => h, fun _ _ h _ => h⟩
    · rename_i hfree
      have hneat : m.neat := by
        rcases hs with hs | ⟨j, g, hj, hg, he⟩
        · exact hs
        · exfalso
          unfold freeSlot at hfree
          rw [List.findIdx?_eq_none_iff] at hfree
          have := hfree g (List.mem_of_getElem? (i := j) (by rw [List.getElem?_take, if_pos hj, hg]))
          simp [he] at this
      split at h
      · simp only [C.ok.injEq, Prod.mk.injEq] at h
        rw [← h.1]; exact ⟨fun _ _ h => h, fun h => h, fun _ _ h _ => h⟩
      · simp only [C.ok.injEq, Prod.mk.injEq] at h
        rw [← h.1]
        unfold Module.neat at hneat ⊢
        refine ⟨fun j g hj => ?_, fun _ => ?_, fun j g hj hg => ?_⟩
        · have hl := (List.getElem?_eq_some_iff.mp hj).1
          show (List.take m.groupsSize m.groups ++ _)[j]? = some g
          rw [hneat, List.take_length, List.getElem?_append_left hl, hj]
        · dsimp only
          rw [hneat, List.take_length]
          simp; omega
        · dsimp only at hj
          rw [hneat, List.take_length] at hj
          by_cases hl : j < m.groups.length
          · rwa [List.getElem?_append_left hl] at hj
          · rw [List.getElem?_append_right (by omega)] at hj
            rw [empty_mem hj] at hg; simp at hg

/-- What adding a group does when the book-keeping is in order. -/
theorem groupAdd_safe {m m' : Module} {hs : List Handle} {r : Int} (h : groupAdd m hs = .ok (m', r)) (hsafe : m.roomy) :
    (∀ (j : Nat) (g : Group), m.groups[j]? = some g → g.notEmpty = true → m'.groups[j]? = some g) ∧ (m.neat → m'.neat) ∧
    (0 ≤ r → (∀ g, m.groups[r.toNat]? = some g → g.notEmpty = false) ∧
      m'.groups[r.toNat]? = some ⟨true, hs.length, some hs⟩) ∧
    (∀ (j : Nat) (g : Group), (r < 0 ∨ j ≠ r.toNat) → m'.groups[j]? = some g → g.notEmpty = true → m.groups[j]? = some g) := by
  unfold groupAdd at h
  split at h
  · simp only [C.ok.injEq, Prod.mk.injEq] at h
    obtain ⟨rfl, rfl⟩ := h
    exact ⟨fun _ _ h _ => h, fun h => h, fun h => absurd h (by decide), fun _ _ _ h _ => h⟩
  obtain ⟨⟨m1, n1⟩, h1, h⟩ := C.bind_eq_ok.mp h
  obtain ⟨k1, k2, k3⟩ := groupSlot_safe h1 hsafe
  obtain ⟨gs, n, rfl, -, hfree⟩ := groupSlot_inv h1
  dsimp only at h k1 k2 k3
  split at h
  · rename_i hneg
    simp only [C.ok.injEq, Prod.mk.injEq] at h
    obtain ⟨rfl, rfl⟩ := h
    exact ⟨fun j g h _ => k1 j g h, k2, fun h => absurd h (by omega), fun j g _ h => k3 j g h⟩
  rename_i hpos
  split at h
  · simp at h
  rename_i g0 hg0
  have hg0e := hfree g0 hg0 (by omega)
  have hl := (List.getElem?_eq_some_iff.mp hg0).1
  have hneat : ∀ g', m.neat → ({ m with groups := gs.set n1.toNat g', groupsSize := n } : Module).neat := by
    intro g' h
    have := k2 h
    unfold Module.neat at this ⊢
    simpa using this
  have hkeep : ∀ g' (j : Nat) (g : Group), m.groups[j]? = some g → g.notEmpty = true →
      (gs.set n1.toNat g')[j]? = some g := by
    intro g' j g hj hne
    have hj' := k1 j g hj
    by_cases he : n1.toNat = j
    · subst he
      rw [hg0] at hj'; cases hj'
      rw [hg0e] at hne; simp at hne
    · rw [List.getElem?_set_ne he]; exact hj'
  split at h
  · simp only [C.ok.injEq, Prod.mk.injEq] at h
    obtain ⟨rfl, rfl⟩ := h
    refine ⟨hkeep _, hneat _, fun h => absurd h (by decide), fun j g _ hj hne => ?_⟩
    dsimp only at hj
    by_cases he : n1.toNat = j
    · subst he
      rw [List.getElem?_set_self hl] at hj
      cases hj
      simp [hg0e] at hne
    · rw [List.getElem?_set_ne he] at hj
      exact k3 j g hj hne
  · simp only [C.ok.injEq, Prod.mk.injEq] at h
    obtain ⟨rfl, rfl⟩ := h
    refine ⟨hkeep _, hneat _, fun _ => ⟨fun g hg => ?_, ?_⟩, fun j g hor hj hne => ?_⟩
    · have := k1 _ _ hg
      rw [hg0] at this; cases this
      exact hg0e
    · dsimp only
      rw [List.getElem?_set_self hl]
    · dsimp only at hj
      have he : n1.toNat ≠ j := by
        rcases hor with h | h
        · omega
        · exact Ne.symm h
      rw [List.getElem?_set_ne he] at hj
      exact k3 j g hj hne

/-! ## The group arrays along a history -/

theorem modByFd_of {s : Server} (hk : ModsOK s) {m : Module} {fd : Int} (hm : m ∈ s.mods) (hf : m.fd = fd) :
    s.modByFd fd = some m := by
  cases h : s.modByFd fd with
  | none => exact absurd hf (modByFd_none h m hm)
  | some m' =>
    obtain ⟨h1, h2⟩ := modByFd_some h
    rw [hk.inj_fd h1 hm (h2.trans hf.symm)]

/-- Connection, group array and recorded size of the modules. -/
def Server.grps (s : Server) : List (Nat × Int × List Group × Nat) :=
  s.mods.map (fun m => (m.uid, m.fd, m.groups, m.groupsSize))

theorem updMod_grps (s : Server) (uid : Nat) (f : Module → Module)
    (hf : ∀ m ∈ s.mods, m.uid = uid → ((f m).uid, (f m).fd, (f m).groups, (f m).groupsSize) = (m.uid, m.fd, m.groups, m.groupsSize)) :
    (s.updMod uid f).grps = s.grps := by
  simp only [Server.grps, Server.updMod, List.map_map]
  apply List.map_congr_left
  intro m hm
  simp only [Function.comp_apply]
  split
  · rename_i h
    exact hf m hm h
  · rfl

theorem grps_move {fl : Kind → Bool} {s s' : Server} (hg : fl .groups = false) (m : Move fl s s') :
    (fl .modDel = false → ∀ x ∈ s.grps, x ∈ s'.grps) ∧
    (∀ x ∈ s'.grps, x ∈ s.grps ∨ (x.2.2.1 = [] ∧ x.2.2.2 = 0)) := by
  have same : ∀ s' : Server, s'.grps = s.grps → (fl .modDel = false → ∀ x ∈ s.grps, x ∈ s'.grps) ∧
      (∀ x ∈ s'.grps, x ∈ s.grps ∨ (x.2.2.1 = [] ∧ x.2.2.2 = 0)) := by
    intro s' h
    rw [h]
    exact ⟨fun _ _ h => h, fun _ h => .inl h⟩
  cases m with
  | tag ht hm => exact same _ rfl
  | push fd name type count size => exact same _ rfl
  | send => exact same _ rfl
  | other h1 h2 h3 h4 h5 h6 => exact same _ (by simp only [Server.grps, h2])
  | env e => exact same _ rfl
  | evCount uid f => exact same _ (updMod_grps _ _ _ (fun _ _ _ => rfl))
  | groups hm g n hf => rw [hg] at hf; simp at hf
  | modAdd name fd =>
    simp only [Server.grps, moduleAdd, List.map_append, List.mem_append]
    refine ⟨fun _ x hx => .inl hx, fun x hx => ?_⟩
    rcases hx with hx | hx
    · exact .inl hx
    · simp only [List.map_cons, List.map_nil, List.mem_singleton] at hx
      subst hx
      exact .inr ⟨rfl, rfl⟩
  | modUuid => exact same _ rfl
  | modIdx => exact same _ (updMod_grps _ _ _ (fun _ _ _ => rfl))
  | modDel hfl uid =>
    refine ⟨fun h => by rw [hfl] at h; simp at h, fun x hx => .inl ?_⟩
    simp only [Server.grps, List.mem_map, List.mem_filter] at hx ⊢
    obtain ⟨m, ⟨hm, -⟩, rfl⟩ := hx
    exact ⟨m, hm, rfl⟩

theorem Path.grps {fl : Kind → Bool} {s s' : Server} (hg : fl .groups = false) (p : Path fl s s') :
    (fl .modDel = false → ∀ x ∈ s.grps, x ∈ s'.grps) ∧
    (∀ x ∈ s'.grps, x ∈ s.grps ∨ (x.2.2.1 = [] ∧ x.2.2.2 = 0)) := by
  refine p.inv (I := fun z => (fl .modDel = false → ∀ x ∈ s.grps, x ∈ z.grps) ∧
    (∀ x ∈ z.grps, x ∈ s.grps ∨ (x.2.2.1 = [] ∧ x.2.2.2 = 0))) (fun a b ha m => ?_) ⟨fun _ _ h => h, fun _ h => .inl h⟩
  obtain ⟨m1, m2⟩ := grps_move hg m
  refine ⟨fun hd x hx => m1 hd x (ha.1 hd x hx), fun x hx => ?_⟩
  rcases m2 x hx with h | h
  · exact ha.2 x h
  · exact .inr h

theorem EvOnly.grps {s s' : Server} (h : EvOnly s s') : s'.grps = s.grps := by
  have := congrArg (List.map (fun m : Module => (m.uid, m.fd, m.groups, m.groupsSize))) h.mods
  simpa [Server.grps, List.map_map, Function.comp_def] using this

theorem moduleUnregister_grps {s s' : Server} {fd : Int} (hk : ModsOK s) (h : moduleUnregister s fd = .ok s')
    {x : Nat × Int × List Group × Nat} (hx : x ∈ s.grps) (hf : x.2.1 ≠ fd) : x ∈ s'.grps := by
  cases hm : s.modByFd fd with
  | none => unfold moduleUnregister at h; rw [hm] at h; simp only [C.ok.injEq] at h; rw [← h]; exact hx
  | some m =>
    obtain ⟨hmem, hfd⟩ := modByFd_some hm
    unfold moduleUnregister at h
    rw [hm] at h
    dsimp only at h
    obtain ⟨s1, h1, h⟩ := C.bind_eq_ok.mp h
    split at h
    · simp at h
    obtain ⟨s2, h2, h⟩ := C.bind_eq_ok.mp h
    obtain ⟨⟨s3, r3⟩, h3, h⟩ := C.bind_eq_ok.mp h
    simp only [C.ok.injEq] at h
    subst h
    have e2 : s3.mods = s1.mods := (tagDel_mods h3).trans (delOwned_mods h2)
    rw [← (eventsCleanup_evOnly h1).grps] at hx
    obtain ⟨y, hy, rfl⟩ := List.mem_map.mp hx
    simp only [Server.grps, e2]
    refine List.mem_map.mpr ⟨y, List.mem_filter.mpr ⟨hy, ?_⟩, rfl⟩
    simp only [ne_eq, decide_not, Bool.not_eq_eq_eq_not, Bool.not_true, decide_eq_false_iff_not]
    intro he
    have hy' : (y.uid, y.fd, y.tagindex) ∈ s1.stat := List.mem_map.mpr ⟨y, hy, rfl⟩
    rw [(eventsCleanup_evOnly h1).stat] at hy'
    obtain ⟨z, hz, hze⟩ := List.mem_map.mp hy'
    simp only [Prod.mk.injEq] at hze
    have : z = m := hk.inj hz hmem (by rw [hze.1, he])
    subst this
    exact hf (by rw [← hze.2.1]; exact hfd)

theorem moduleRegister_grps {s s' : Server} {name : Name} {fd : Int} (hk : ModsOK s)
    (h : moduleRegister s name fd = .ok s') {x : Nat × Int × List Group × Nat} (hx : x ∈ s.grps) (hf : x.2.1 ≠ fd) :
    x ∈ s'.grps := by
  obtain ⟨s1, h1, hn, h2⟩ := moduleRegister_inv hk h
  have k1 := moduleUnregister_grps hk h1 hx hf
  have k2 : x ∈ (moduleAdd s1 name fd).grps := by
    simp only [Server.grps, moduleAdd, List.map_append]
    exact List.mem_append_left _ k1
  rcases h2 with rfl | h2
  · exact k2
  · exact ((moduleTag_path (fl := fun k => k = .mods) rfl .refl _ h2).grps rfl).1 rfl x k2

/-- Requests that do not concern groups. -/
def Req.noGroup : Req → Bool
  | .grpAdd _ => false
  | .grpDel _ => false
  | _ => true

theorem Req.kinds_groups {q : Req} (h : q.noGroup = true) (fd : Int) : q.kinds fd .groups = false := by
  cases q <;> first | rfl | simp [Req.noGroup] at h

/-- What a group request does to the modules. -/
theorem handle_group {s s' : Server} {fd : Int} {q : Req} {r : Reply} (hq : q.noGroup = false)
    (h : handle s fd q = .ok (s', r)) : ∃ m m' n, s.modByFd fd = some m ∧ s' = s.updMod m.uid (fun _ => m') ∧
      m'.uid = m.uid ∧ m'.fd = m.fd ∧ r = idOrErr n ∧
      ((∃ hs, q = .grpAdd hs ∧ groupAdd m hs = .ok (m', n)) ∨ (∃ i, q = .grpDel i ∧ groupDel m i = .ok (m', n))) := by
  cases q <;> simp only [Req.noGroup, Bool.true_eq_false] at hq
  · rename_i hs
    simp only [handle, hGrpAdd] at h
    split at h
    · simp at h
    · rename_i m hm
      obtain ⟨⟨m', n⟩, h1, h⟩ := C.bind_eq_ok.mp h
      simp only [C.ok.injEq, Prod.mk.injEq] at h
      obtain ⟨g, k, e, -⟩ := hGrp_inv h1
      exact ⟨m, m', n, hm, h.1.symm, by rw [e], by rw [e], h.2.symm, .inl ⟨hs, rfl, h1⟩⟩
  · rename_i i
    simp only [handle, hGrpDel] at h
    split at h
    · simp at h
    · rename_i m hm
      obtain ⟨⟨m', n⟩, h1, h⟩ := C.bind_eq_ok.mp h
      simp only [C.ok.injEq, Prod.mk.injEq] at h
      obtain ⟨g, k, e, -⟩ := groupDel_inv h1
      exact ⟨m, m', n, hm, h.1.symm, by rw [e], by rw [e], h.2.symm, .inr ⟨i, rfl, h1⟩⟩

theorem updMod_same {s : Server} {m m' : Module} {fd : Int} (hk : ModsOK s) (hm : s.modByFd fd = some m)
    (hu : m'.uid = m.uid) (hf : m'.fd = m.fd) (hk' : ModsOK (s.updMod m.uid (fun _ => m'))) :
    (s.updMod m.uid (fun _ => m')).modByFd fd = some m' := by
  obtain ⟨h1, h2⟩ := modByFd_some hm
  refine modByFd_of hk' ?_ (hf.trans h2)
  simp only [Server.updMod, List.mem_map]
  exact ⟨m, h1, if_pos rfl⟩

theorem updMod_grps_other {s : Server} {m m' : Module} {fd : Int} (hk : ModsOK s) (hm : s.modByFd fd = some m)
    (hf : m'.fd = m.fd) {x : Nat × Int × List Group × Nat} (hxf : x.2.1 ≠ fd) :
    x ∈ (s.updMod m.uid (fun _ => m')).grps ↔ x ∈ s.grps := by
  obtain ⟨h1, h2⟩ := modByFd_some hm
  simp only [Server.grps, Server.updMod, List.map_map, List.mem_map, Function.comp_apply]
  constructor
  · rintro ⟨y, hy, rfl⟩
    refine ⟨y, hy, ?_⟩
    split
    · rename_i he
      exfalso
      apply hxf
      rw [if_pos he, ← h2]
      exact hf
    · rfl
  · rintro ⟨y, hy, rfl⟩
    refine ⟨y, hy, ?_⟩
    rw [if_neg]
    intro he
    have := hk.inj hy h1 he
    subst this
    exact hxf h2

theorem mem_grps {s : Server} {m : Module} {fd : Int} (h : s.modByFd fd = some m) :
    (m.uid, fd, m.groups, m.groupsSize) ∈ s.grps := by
  obtain ⟨h1, h2⟩ := modByFd_some h
  exact List.mem_map.mpr ⟨m, h1, by rw [h2]⟩

theorem of_mem_grps {s : Server} (hk : ModsOK s) {uid : Nat} {fd : Int} {gs : List Group} {n : Nat}
    (h : (uid, fd, gs, n) ∈ s.grps) : ∃ m, s.modByFd fd = some m ∧ m.groups = gs ∧ m.groupsSize = n := by
  obtain ⟨m, hm, he⟩ := List.mem_map.mp h
  simp only [Prod.mk.injEq] at he
  exact ⟨m, modByFd_of hk hm he.2.1, he.2.2.1, he.2.2.2⟩

theorem step_grps {s s' : Server} {o : Op} {fd : Int} (hk : ModsOK s) (ho : o.leavesGroups fd)
    (h : step s o = .ok s') {x : Nat × Int × List Group × Nat} (hx : x ∈ s.grps) (hf : x.2.1 = fd) : x ∈ s'.grps := by
  cases o with
  | req f q =>
    simp only [step] at h
    obtain ⟨⟨s1, r1⟩, h1, h⟩ := C.bind_eq_ok.mp h
    simp only [C.ok.injEq] at h; subst h
    cases hq : q.noGroup with
    | false =>
      obtain ⟨m, m', n, hm, rfl, hu, hfd, -, hor⟩ := handle_group hq h1
      refine (updMod_grps_other hk hm hfd ?_).mpr hx
      rw [hf]
      rcases hor with ⟨hs, rfl, -⟩ | ⟨i, rfl, -⟩ <;> exact fun h => ho h.symm
    | true =>
      have hg := Req.kinds_groups hq f
      by_cases hreg : ∃ flags name, q = .modReg flags name
      · obtain ⟨flags, name, rfl⟩ := hreg
        have hne : x.2.1 ≠ f := by rw [hf]; exact fun h => ho h.symm
        simp only [handle, hModReg] at h1
        split at h1
        · obtain ⟨s2, h2, h1⟩ := C.bind_eq_ok.mp h1
          obtain ⟨⟨s3, r3⟩, h3, h1⟩ := C.bind_eq_ok.mp h1
          have e3 : s3.grps = s2.grps := by
            rcases tagRead_inv h3 with rfl | ⟨t, q, q', b, ht, hv', hq, hr, rfl, -⟩ <;> rfl
          have : s1 = s3 := by
            cases r3 <;> (simp only [C.ok.injEq, Prod.mk.injEq] at h1; exact h1.1.symm)
          rw [this, e3]
          exact moduleRegister_grps hk h2 hx hne
        · simp only [C.ok.injEq, Prod.mk.injEq] at h1; rw [← h1.1]; exact hx
      · refine ((handle_path_kinds hk h1).grps hg).1 ?_ x hx
        cases q <;> first | rfl | (exfalso; exact hreg ⟨_, _, rfl⟩)
  | close f =>
    simp only [step] at h
    refine moduleUnregister_grps hk h hx ?_
    rw [hf]; exact fun h => ho h.symm
  | env e => simp only [step, C.ok.injEq] at h; subst h; exact hx

end Dax
