import Verif.Lemmas.Ids
import Verif.Lemmas.HandleQuiet
/-!
# Requests that cannot touch a given tag
-/
set_option autoImplicit false
namespace Dax

/-- The mappings of every tag are the same. -/
def SameMaps (s s' : Server) : Prop := ∀ (i : Nat) (t' : Tag), s'.db[i]? = some t' →
  ∃ t, s.db[i]? = some t ∧ t'.maps = t.maps ∧ t'.wildMaps = t.wildMaps

theorem SameMaps.refl (s : Server) : SameMaps s s := fun _ t h => ⟨t, h, rfl, rfl⟩

theorem SameMaps.trans {a b c : Server} (h1 : SameMaps a b) (h2 : SameMaps b c) : SameMaps a c := by
  intro i t ht
  obtain ⟨u, hu, e1, e2⟩ := h2 i t ht
  obtain ⟨v, hv, e3, e4⟩ := h1 i u hu
  exact ⟨v, hv, e1.trans e3, e2.trans e4⟩

theorem sameMaps_set {s s' : Server} {idx : Int} {t t' : Tag} (ht : s.tag? idx = some t)
    (h : s'.db = s.db.set idx.toNat t') (h1 : t'.maps = t.maps) (h2 : t'.wildMaps = t.wildMaps) :
    SameMaps s s' := by
  intro j u hu
  rw [h] at hu
  have ht := (tag?_eq.mp ht).2
  by_cases hij : idx.toNat = j
  · subst hij
    rw [List.getElem?_set_self (List.getElem?_eq_some_iff.mp ht).1] at hu
    cases hu
    exact ⟨t, ht, h1, h2⟩
  · rw [List.getElem?_set_ne hij] at hu
    exact ⟨u, hu, rfl, rfl⟩

theorem tagWrite_maps {s s' : Server} {fd idx off : Int} {d : List Byte} {r : Int}
    (h : tagWrite s fd idx off d = .ok (s', r)) : SameMaps s s' := by
  rcases tagWrite_inv h with ⟨rfl, -⟩ | ⟨-, h⟩ | ⟨-, h⟩
  · exact .refl _
  · obtain ⟨t, b, b', evs, ns, rt, ht, -, -, -, -, rfl⟩ := h.ex
    exact sameMaps_set ht rfl rfl rfl
  · obtain ⟨t, q, q', evs, ns, ht, -, -, -, -, rfl⟩ := h
    exact sameMaps_set ht rfl rfl rfl

theorem statusWrite_maps {s s' : Server} {i v : Int} (h : statusWrite s i v = .ok s') :
    SameMaps s s' := by
  unfold statusWrite at h
  split at h
  · simp only [C.ok.injEq] at h; subst h; exact .refl _
  split at h
  · simp only [C.ok.injEq] at h; subst h; exact .refl _
  · obtain ⟨⟨s1, r1⟩, h1, h⟩ := C.bind_eq_ok.mp h
    simp only [C.ok.injEq] at h; subst h
    exact tagWrite_maps h1

theorem tagMaskWrite_maps {s s' : Server} {fd idx off : Int} {d m : List Byte} {r : Int}
    (h : tagMaskWrite s fd idx off d m = .ok (s', r)) : SameMaps s s' := by
  rcases tagMaskWrite_inv h with ⟨rfl, -⟩ | ⟨-, t, b, old, -, -, -, h⟩
  · exact .refl _
  · obtain ⟨t, b, b', evs, ns, rt, ht, -, -, -, -, rfl⟩ := h.ex
    exact sameMaps_set ht rfl rfl rfl

theorem atomicOp_maps {s s' : Server} {h : Handle} {d : List Byte} {op : Nat} {r : Int}
    (hh : atomicOp s h d op = .ok (s', r)) : SameMaps s s' := by
  rcases atomicOp_inv hh with rfl | ⟨-, t, block, b, evs, ns, rt, ht, hv, hsp, hb, ha, he, rfl⟩
  · exact .refl _
  · exact sameMaps_set ht rfl rfl rfl

/-- No mapping of any tag has tag `k` as destination. -/
def NoneInto (s : Server) (k : Nat) : Prop := ∀ (i : Nat) (t : Tag), s.db[i]? = some t →
  t.wildMaps = false → ∀ m ∈ t.maps, m.dst.index.toNat ≠ k

theorem mapCheck_frame {s s1 s' : Server} {idx off size : Int} {k : Nat} (hm : SameMaps s s1)
    (hn : NoneInto s k) (hids : ∀ (i : Nat) (t : Tag), s.db[i]? = some t → IdsOK i t)
    (hk : idx.toNat ≠ k) (h : mapCheck s1 idx off size = .ok s') : Quiet (· ≠ k) s1 s' := by
  unfold mapCheck at h
  split at h
  · simp at h
  rename_i t1 ht1
  split at h
  · simp at h
  rename_i hw
  obtain ⟨t, ht, e1, e2⟩ := hm _ _ (tag?_eq.mp ht1).2
  refine mapLoop_quiet ?_ ?_ h
  · intro m hmem
    rw [e1] at hmem
    exact hn _ t ht (by rw [← e2]; simpa using hw) m hmem
  · intro m hmem
    rw [e1] at hmem
    have := ((hids _ t ht).mapRange m hmem).2.2.1
    have h2 := (tag?_eq.mp ht1).1
    rw [this]
    show ¬ ((idx.toNat : Int).toNat = k)
    omega

/-- A tag reads as before. -/
def Reads (k : Nat) (s s' : Server) : Prop := ∀ t, s.db[k]? = some t →
  ∃ t', s'.db[k]? = some t' ∧ SameRead t t' ∧ t'.attr.special = t.attr.special ∧ t'.attr.owned = t.attr.owned

theorem Reads.refl (k : Nat) (s : Server) : Reads k s s :=
  fun t h => ⟨t, h, SameRead.refl t, rfl, rfl⟩

theorem Reads.trans {k : Nat} {a b c : Server} (h1 : Reads k a b) (h2 : Reads k b c) :
    Reads k a c := by
  intro t ht
  obtain ⟨t1, ht1, e1, p1⟩ := h1 t ht
  obtain ⟨t2, ht2, e2, p2⟩ := h2 t1 ht1
  exact ⟨t2, ht2, e1.trans e2, p2.1.trans p1.1, p2.2.trans p1.2⟩

theorem Quiet.reads {F : Nat → Prop} {s s' : Server} {k : Nat} (q : Quiet F s s') (h : ¬ F k) :
    Reads k s s' := by
  intro t ht
  exact ⟨t, by rw [q.same h]; exact ht, SameRead.refl t, rfl, rfl⟩

theorem Quiet.reads' {s s' : Server} {k j : Nat} (q : Quiet (· = j) s s') (h : k ≠ j) :
    Reads k s s' := q.reads h

theorem EvOnly.reads {s s' : Server} (h : EvOnly s s') (k : Nat) : Reads k s s' := by
  intro t ht
  obtain ⟨evs, b, h⟩ := h.tag k t ht
  exact ⟨_, h, ⟨rfl, rfl, rfl, rfl, rfl, rfl, rfl⟩, rfl, rfl⟩

theorem reads_set {s s' : Server} {idx : Int} {t t' : Tag} (ht : s.tag? idx = some t)
    (h : s'.db = s.db.set idx.toNat t') (hs : SameRead t t')
    (hp : t'.attr.special = t.attr.special ∧ t'.attr.owned = t.attr.owned) (k : Nat) : Reads k s s' := by
  intro u hu
  have ht := (tag?_eq.mp ht).2
  rw [h]
  by_cases hij : idx.toNat = k
  · subst hij
    rw [List.getElem?_set_self (List.getElem?_eq_some_iff.mp ht).1]
    rw [ht] at hu; cases hu
    exact ⟨_, rfl, hs, hp⟩
  · rw [List.getElem?_set_ne hij]
    exact ⟨u, hu, SameRead.refl u, rfl, rfl⟩

theorem reads_setTag {s : Server} {idx : Int} {t t' : Tag} (ht : s.tag? idx = some t) (k : Nat)
    (hs : SameRead t t') (hp : t'.attr.special = t.attr.special ∧ t'.attr.owned = t.attr.owned) : Reads k s (s.setTag idx t') :=
  reads_set ht rfl hs hp k

theorem Reads.updMod {k : Nat} {s s' : Server} (h : Reads k s s') (u : Nat) (f : Module → Module) :
    Reads k s (s'.updMod u f) := h

theorem mapAdd_reads {s s' : Server} {a b : Handle} {r : Int} (h : mapAdd s a b = .ok (s', r))
    (k : Nat) : Reads k s s' := by
  by_cases hk : k = a.index.toNat
  · unfold mapAdd at h
    split at h
    · simp only [C.ok.injEq, Prod.mk.injEq] at h; rw [← h.1]; exact .refl _ _
    rename_i t ht
    split at h
    · simp only [C.ok.injEq, Prod.mk.injEq] at h; rw [← h.1]; exact .refl _ _
    split at h
    · simp only [C.ok.injEq, Prod.mk.injEq] at h; rw [← h.1]; exact .refl _ _
    split at h
    · simp only [C.ok.injEq, Prod.mk.injEq] at h; rw [← h.1]; exact .refl _ _
    split at h
    · simp only [C.ok.injEq, Prod.mk.injEq] at h; rw [← h.1]; exact .refl _ _
    obtain ⟨_, -, h⟩ := C.bind_eq_ok.mp h
    split at h
    · simp only [C.ok.injEq, Prod.mk.injEq] at h; rw [← h.1]; exact .refl _ _
    obtain ⟨_, -, h⟩ := C.bind_eq_ok.mp h
    split at h
    · simp only [C.ok.injEq, Prod.mk.injEq] at h; rw [← h.1]; exact .refl _ _
    split at h
    · simp only [C.ok.injEq, Prod.mk.injEq] at h; rw [← h.1]; exact .refl _ _
    split at h
    · simp at h
    split at h
    · simp only [C.ok.injEq, Prod.mk.injEq] at h; rw [← h.1]; exact .refl _ _
    split at h
    · simp at h
    have key : ∀ mask, (C.ok (s.setTag a.index
        { t with nextmap := t.nextmap + 1, maps := ⟨t.nextmap, a, b, mask⟩ :: t.maps,
                 attr := { t.attr with mapping := true } }, t.nextmap) : C (Server × Int)) = .ok (s', r) →
        Reads k s s' := by
      intro mask h
      simp only [C.ok.injEq, Prod.mk.injEq] at h; rw [← h.1]
      exact reads_setTag ht k ⟨rfl, rfl, rfl, rfl, rfl, rfl, rfl⟩ ⟨rfl, rfl⟩
    dsimp only at h
    split at h
    · split at h
      · simp at h
      · obtain ⟨m, -, h⟩ := C.bind_eq_ok.mp h
        exact key _ h
    · exact key _ h
  · exact (mapAdd_quiet h).reads' hk

theorem mapDel_reads {s s' : Server} {idx id : Int} {r : Int} (h : mapDel s idx id = .ok (s', r))
    (k : Nat) : Reads k s s' := by
  unfold mapDel at h
  split at h
  · simp only [C.ok.injEq, Prod.mk.injEq] at h; rw [← h.1]; exact .refl _ _
  rename_i t ht
  split at h
  · simp at h
  split at h
  · simp at h
  split at h
  · simp only [C.ok.injEq, Prod.mk.injEq] at h; rw [← h.1]
    exact reads_setTag ht k ⟨rfl, rfl, rfl, rfl, rfl, rfl, rfl⟩ ⟨rfl, rfl⟩
  split at h
  · simp only [C.ok.injEq, Prod.mk.injEq] at h; rw [← h.1]
    exact reads_setTag ht k ⟨rfl, rfl, rfl, rfl, rfl, rfl, rfl⟩ ⟨rfl, rfl⟩
  · simp only [C.ok.injEq, Prod.mk.injEq] at h; rw [← h.1]; exact .refl _ _

theorem eventAdd_reads {s s' : Server} {hd : Handle} {et : Int} {arg : List Byte} {m : Module}
    {r : Int} (h : eventAdd s hd et arg m = .ok (s', r)) (k : Nat) : Reads k s s' := by
  unfold eventAdd at h
  split at h
  · simp only [C.ok.injEq, Prod.mk.injEq] at h; rw [← h.1]; exact .refl _ _
  rename_i t ht
  split at h
  · simp only [C.ok.injEq, Prod.mk.injEq] at h; rw [← h.1]; exact .refl _ _
  split at h
  · split at h
    · simp only [C.ok.injEq, Prod.mk.injEq] at h; rw [← h.1]; exact .refl _ _
    · simp at h
  obtain ⟨_, -, h⟩ := C.bind_eq_ok.mp h
  split at h
  · simp only [C.ok.injEq, Prod.mk.injEq] at h; rw [← h.1]; exact .refl _ _
  split at h
  · simp only [C.ok.injEq, Prod.mk.injEq] at h; rw [← h.1]; exact .refl _ _
  split at h
  · simp at h
  obtain ⟨⟨d, tst⟩, -, h⟩ := C.bind_eq_ok.mp h
  simp only [C.ok.injEq, Prod.mk.injEq] at h; rw [← h.1]
  refine Reads.updMod ?_ _ _
  refine reads_setTag ht k ?_ ?_
  · refine ⟨rfl, rfl, rfl, rfl, rfl, ?_, ?_⟩ <;> (dsimp only; split <;> rfl)
  · dsimp only; split <;> exact ⟨rfl, rfl⟩

/-- A read of an ordinary tag changes nothing in it. -/
theorem tagRead_reads {s s' : Server} {fd idx off n : Int} {r} {k : Nat}
    (h : tagRead s fd idx off n = .ok (s', r))
    (hv : ∀ t, s.db[k]? = some t → t.attr.virt = false) : Reads k s s' := by
  rcases tagRead_inv h with rfl | ⟨t, q, q', b, ht, hv', hq, hr, rfl, -⟩
  · exact .refl _ _
  · by_cases hk : idx.toNat = k
    · subst hk
      have := hv t (tag?_eq.mp ht).2
      rw [hv'] at this; simp at this
    · intro u hu
      exact ⟨u, by simp only [Server.setTag]; rw [List.getElem?_set_ne hk]; exact hu, SameRead.refl u, rfl, rfl⟩

theorem groupReadLoop_reads {hs : List Handle} {k : Nat} : ∀ {s s' : Server} {buf : List Byte}
    {off : Int} {r}, (∀ t, s.db[k]? = some t → t.attr.virt = false) →
    groupReadLoop s hs buf off = .ok (s', r) → Reads k s s' := by
  induction hs with
  | nil =>
    intro s s' buf off r _ h
    simp only [groupReadLoop, C.ok.injEq, Prod.mk.injEq] at h; rw [← h.1]; exact .refl _ _
  | cons x hs ih =>
    intro s s' buf off r hv h
    simp only [groupReadLoop] at h
    obtain ⟨⟨s1, r1⟩, h1, h⟩ := C.bind_eq_ok.mp h
    have k1 := tagRead_reads h1 hv
    cases r1 with
    | error e => simp only [C.ok.injEq, Prod.mk.injEq] at h; rw [← h.1]; exact k1
    | ok d =>
      dsimp only at h
      obtain ⟨b, -, h⟩ := C.bind_eq_ok.mp h
      refine k1.trans (ih ?_ h)
      intro t ht
      have hl := (tagRead_quiet h1).len
      have : k < s.db.length := by rw [← hl]; exact (List.getElem?_eq_some_iff.mp ht).1
      obtain ⟨t', ht', e, -⟩ := k1 _ (List.getElem?_eq_getElem this)
      rw [ht] at ht'; cases ht'
      rw [e.virt]; exact hv _ (List.getElem?_eq_getElem this)

/-- Requests other than registration, tag creation and deletion, type creation, group write and
the override requests. -/
def Req.mild : Req → Bool
  | .modReg _ _ => false
  | .tagAdd _ _ _ _ => false
  | .tagDel _ => false
  | .cdtCreate _ => false
  | .grpWrite _ _ => false
  | .ovrAdd _ _ _ _ => false
  | .ovrDel _ _ _ => false
  | .ovrSet _ _ => false
  | _ => true

/-- The tag a direct write is aimed at. -/
def Req.target : Req → Option Int
  | .tagWrite i _ _ => some i
  | .tagMWrite i _ _ _ => some i
  | .atomic h _ _ => some h.index
  | _ => none

/-- Requests that may take something from tag `k` by reading it. -/
def Req.drains (k : Nat) : Req → Bool
  | .tagRead i _ _ => decide (i = k)
  | .grpRead _ => true
  | _ => false

theorem tagRead_reads_ne {s s' : Server} {fd idx off n : Int} {r} {k : Nat}
    (h : tagRead s fd idx off n = .ok (s', r)) (hk : idx ≠ k) : Reads k s s' := by
  rcases tagRead_inv h with rfl | ⟨t, q, q', b, ht, hv', hq, hr, rfl, -⟩
  · exact .refl _ _
  · have := (tag?_eq.mp ht).1
    intro u hu
    exact ⟨u, by simp only [Server.setTag]; rw [List.getElem?_set_ne (by omega)]; exact hu, SameRead.refl u, rfl, rfl⟩

/-- A mild request that is not a direct write to tag `k` leaves its contents alone, unless a
mapping leads to it. -/
theorem mild_reads' {s s' : Server} {fd : Int} {q : Req} {r : Reply} {k : Nat}
    (hq : q.mild = true) (ht : ∀ i, q.target = some i → 0 ≤ i → i.toNat ≠ k)
    (hn : NoneInto s k) (hids : ∀ (i : Nat) (t : Tag), s.db[i]? = some t → IdsOK i t)
    (hv : q.drains k = false ∨ ∀ t, s.db[k]? = some t → t.attr.virt = false)
    (hh : handle s fd q = .ok (s', r)) : Reads k s s' := by
  cases q with
  | modReg flags name => simp [Req.mild] at hq
  | modUnreg => simp only [handle, C.ok.injEq, Prod.mk.injEq] at hh; rw [← hh.1]; exact .refl _ _
  | tagAdd type count attr name => simp [Req.mild] at hq
  | tagDel idx => simp [Req.mild] at hq
  | tagGetIdx idx =>
    simp only [handle, hTagGet] at hh
    obtain ⟨o, ho, hh⟩ := C.bind_eq_ok.mp hh
    cases o <;> (simp only [C.ok.injEq, Prod.mk.injEq] at hh; rw [← hh.1]; exact .refl _ _)
  | tagGetName name =>
    simp only [handle, hTagGet] at hh
    obtain ⟨o, ho, hh⟩ := C.bind_eq_ok.mp hh
    cases o <;> (simp only [C.ok.injEq, Prod.mk.injEq] at hh; rw [← hh.1]; exact .refl _ _)
  | tagList => simp only [handle, C.ok.injEq, Prod.mk.injEq] at hh; rw [← hh.1]; exact .refl _ _
  | tagRead idx off size =>
    simp only [handle, hTagRead] at hh
    obtain ⟨⟨s1, r1⟩, h1, hh⟩ := C.bind_eq_ok.mp hh
    have k1 : Reads k s s1 := by
      rcases hv with hv | hv
      · exact tagRead_reads_ne h1 (by simpa [Req.drains] using hv)
      · exact tagRead_reads h1 hv
    cases r1 with
    | error e => simp only [C.ok.injEq, Prod.mk.injEq] at hh; rw [← hh.1]; exact k1
    | ok d =>
      dsimp only at hh
      split at hh
      · simp at hh
      · split at hh
        · simp only [C.ok.injEq, Prod.mk.injEq] at hh; rw [← hh.1]; exact k1
        · simp only [C.ok.injEq, Prod.mk.injEq] at hh; rw [← hh.1]; exact k1
  | tagWrite idx off d =>
    simp only [handle, hTagWrite] at hh
    obtain ⟨b, hb, hh⟩ := C.bind_eq_ok.mp hh
    have h0 : 0 ≤ idx := by
      unfold roForeign rawAttr at hb
      split at hb
      · simp at hb
      · omega
    have hk := ht idx rfl h0
    split at hh
    · simp only [C.ok.injEq, Prod.mk.injEq] at hh; rw [← hh.1]; exact .refl _ _
    · obtain ⟨⟨s1, r1⟩, h1, hh⟩ := C.bind_eq_ok.mp hh
      have st1 := (tagWrite_quiet h1).reads' (k := k) (Ne.symm hk)
      dsimp only at hh
      split at hh
      · simp only [C.ok.injEq, Prod.mk.injEq] at hh; rw [← hh.1]; exact st1
      · obtain ⟨s2, h2, hh⟩ := C.bind_eq_ok.mp hh
        simp only [C.ok.injEq, Prod.mk.injEq] at hh; rw [← hh.1]
        exact st1.trans ((mapCheck_frame (tagWrite_maps h1) hn hids hk h2).reads (by simp))
  | tagMWrite idx off d m =>
    simp only [handle, hTagMWrite] at hh
    obtain ⟨⟨a, f⟩, hb, hh⟩ := C.bind_eq_ok.mp hh
    have h0 : 0 ≤ idx := by
      unfold rawAttr at hb
      split at hb
      · simp at hb
      · omega
    have hk := ht idx rfl h0
    dsimp only at hh
    split at hh
    · simp only [C.ok.injEq, Prod.mk.injEq] at hh; rw [← hh.1]; exact .refl _ _
    · obtain ⟨⟨s1, r1⟩, h1, hh⟩ := C.bind_eq_ok.mp hh
      have st1 := (tagMaskWrite_quiet h1).reads' (k := k) (Ne.symm hk)
      dsimp only at hh
      split at hh
      · simp only [C.ok.injEq, Prod.mk.injEq] at hh; rw [← hh.1]; exact st1
      · obtain ⟨s2, h2, hh⟩ := C.bind_eq_ok.mp hh
        simp only [C.ok.injEq, Prod.mk.injEq] at hh; rw [← hh.1]
        exact st1.trans ((mapCheck_frame (tagMaskWrite_maps h1) hn hids hk h2).reads (by simp))
  | evAdd h etype arg =>
    simp only [handle, hEvAdd] at hh
    split at hh
    · simp only [C.ok.injEq, Prod.mk.injEq] at hh; rw [← hh.1]; exact .refl _ _
    · obtain ⟨⟨s1, r1⟩, h1, hh⟩ := C.bind_eq_ok.mp hh
      simp only [C.ok.injEq, Prod.mk.injEq] at hh; rw [← hh.1]
      exact eventAdd_reads h1 k
  | evDel idx id =>
    simp only [handle, hEvDel] at hh
    obtain ⟨⟨s1, r1⟩, h1, hh⟩ := C.bind_eq_ok.mp hh
    simp only [C.ok.injEq, Prod.mk.injEq] at hh; rw [← hh.1]
    exact (eventDel_evOnly h1).reads k
  | evGet => simp only [handle, C.ok.injEq, Prod.mk.injEq] at hh; rw [← hh.1]; exact .refl _ _
  | evOpt idx id opts =>
    simp only [handle, hEvOpt] at hh
    obtain ⟨⟨s1, r1⟩, h1, hh⟩ := C.bind_eq_ok.mp hh
    simp only [C.ok.injEq, Prod.mk.injEq] at hh; rw [← hh.1]
    exact (eventOpt_evOnly h1).reads k
  | cdtCreate str => simp [Req.mild] at hq
  | cdtGetType t =>
    simp only [handle, hCdtGet] at hh
    obtain ⟨o, ho, hh⟩ := C.bind_eq_ok.mp hh
    cases o with
    | none => simp only [C.ok.injEq, Prod.mk.injEq] at hh; rw [← hh.1]; exact .refl _ _
    | some x =>
      dsimp only at hh
      split at hh <;> (simp only [C.ok.injEq, Prod.mk.injEq] at hh; rw [← hh.1]; exact .refl _ _)
  | cdtGetName n =>
    simp only [handle, hCdtGet] at hh
    obtain ⟨o, ho, hh⟩ := C.bind_eq_ok.mp hh
    cases o with
    | none => simp only [C.ok.injEq, Prod.mk.injEq] at hh; rw [← hh.1]; exact .refl _ _
    | some x =>
      dsimp only at hh
      split at hh <;> (simp only [C.ok.injEq, Prod.mk.injEq] at hh; rw [← hh.1]; exact .refl _ _)
  | mapAdd a b =>
    simp only [handle] at hh
    obtain ⟨⟨s1, r1⟩, h1, hh⟩ := C.bind_eq_ok.mp hh
    simp only [C.ok.injEq, Prod.mk.injEq] at hh; rw [← hh.1]
    exact mapAdd_reads h1 k
  | mapDel idx id =>
    simp only [handle] at hh
    obtain ⟨⟨s1, r1⟩, h1, hh⟩ := C.bind_eq_ok.mp hh
    simp only [C.ok.injEq, Prod.mk.injEq] at hh; rw [← hh.1]
    exact mapDel_reads h1 k
  | mapGet idx id =>
    simp only [handle, hMapGet] at hh
    obtain ⟨o, ho, hh⟩ := C.bind_eq_ok.mp hh
    cases o <;> (simp only [C.ok.injEq, Prod.mk.injEq] at hh; rw [← hh.1]; exact .refl _ _)
  | grpAdd hs =>
    simp only [handle, hGrpAdd] at hh
    split at hh
    · simp at hh
    · obtain ⟨⟨m', r1⟩, h1, hh⟩ := C.bind_eq_ok.mp hh
      simp only [C.ok.injEq, Prod.mk.injEq] at hh; rw [← hh.1]
      exact Reads.refl k s
  | grpDel i =>
    simp only [handle, hGrpDel] at hh
    split at hh
    · simp at hh
    · obtain ⟨⟨m', r1⟩, h1, hh⟩ := C.bind_eq_ok.mp hh
      simp only [C.ok.injEq, Prod.mk.injEq] at hh; rw [← hh.1]
      exact Reads.refl k s
  | grpRead i =>
    simp only [handle, hGrpRead] at hh
    split at hh
    · simp at hh
    · obtain ⟨⟨s1, r1⟩, h1, hh⟩ := C.bind_eq_ok.mp hh
      have k1 : Reads k s s1 := by
        unfold groupRead at h1
        split at h1
        · simp at h1
        split at h1
        · split at h1
          · simp at h1
          · obtain ⟨⟨s2, r2⟩, h2, h1⟩ := C.bind_eq_ok.mp h1
            have k2 := groupReadLoop_reads (hv.resolve_left (by simp [Req.drains])) h2
            cases r2 with
            | error e => simp only [C.ok.injEq, Prod.mk.injEq] at h1; rw [← h1.1]; exact k2
            | ok d =>
              obtain ⟨d1, d2⟩ := d
              dsimp only at h1
              split at h1
              · simp only [C.ok.injEq, Prod.mk.injEq] at h1; rw [← h1.1]; exact k2
              · obtain ⟨_, -, h1⟩ := C.bind_eq_ok.mp h1
                simp only [C.ok.injEq, Prod.mk.injEq] at h1; rw [← h1.1]; exact k2
        · simp only [C.ok.injEq, Prod.mk.injEq] at h1; rw [← h1.1]; exact .refl _ _
      cases r1 <;> (simp only [C.ok.injEq, Prod.mk.injEq] at hh; rw [← hh.1]; exact k1)
  | grpWrite i buf => simp [Req.mild] at hq
  | grpMWrite => simp only [handle, C.ok.injEq, Prod.mk.injEq] at hh; rw [← hh.1]; exact .refl _ _
  | atomic h op buf =>
    simp only [handle, hAtomic] at hh
    obtain ⟨b, hb, hh⟩ := C.bind_eq_ok.mp hh
    have h0 : 0 ≤ h.index := by
      unfold roForeign rawAttr at hb
      split at hb
      · simp at hb
      · omega
    have hk := ht h.index rfl h0
    split at hh
    · simp only [C.ok.injEq, Prod.mk.injEq] at hh; rw [← hh.1]; exact .refl _ _
    · obtain ⟨⟨s1, r1⟩, h1, hh⟩ := C.bind_eq_ok.mp hh
      have st1 := (atomicOp_quiet h1).reads' (k := k) (Ne.symm hk)
      dsimp only at hh
      split at hh
      · simp only [C.ok.injEq, Prod.mk.injEq] at hh; rw [← hh.1]; exact st1
      · obtain ⟨s2, h2, hh⟩ := C.bind_eq_ok.mp hh
        simp only [C.ok.injEq, Prod.mk.injEq] at hh; rw [← hh.1]
        exact st1.trans ((mapCheck_frame (atomicOp_maps h1) hn hids hk h2).reads (by simp))
  | ovrAdd idx off d m => simp [Req.mild] at hq
  | ovrDel idx off m => simp [Req.mild] at hq
  | ovrGet idx off size =>
    simp only [handle] at hh
    obtain ⟨o, ho, hh⟩ := C.bind_eq_ok.mp hh
    cases o <;> (simp only [C.ok.injEq, Prod.mk.injEq] at hh; rw [← hh.1]; exact .refl _ _)
  | ovrSet idx flag => simp [Req.mild] at hq

theorem mild_reads {s s' : Server} {fd : Int} {q : Req} {r : Reply} {k : Nat}
    (hq : q.mild = true) (ht : ∀ i, q.target = some i → 0 ≤ i → i.toNat ≠ k)
    (hn : NoneInto s k) (hids : ∀ (i : Nat) (t : Tag), s.db[i]? = some t → IdsOK i t)
    (hv : ∀ t, s.db[k]? = some t → t.attr.virt = false)
    (hh : handle s fd q = .ok (s', r)) : Reads k s s' :=
  mild_reads' hq ht hn hids (.inr hv) hh

end Dax
