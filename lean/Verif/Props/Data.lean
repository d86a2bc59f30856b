import Verif.Lemmas.Access
import Verif.Lemmas.Demo
import Verif.Spec.Data
/-!
# C03 to C06: contents of tags
-/
set_option autoImplicit false
namespace Dax

/-! ## C03 -/

/-- **C03** (partial: tags with mappings are missing, see `C03_mapped`) After a successful write to an ordinary tag without mappings, reading any part of the
written range returns exactly the bytes written, on any connection and without effect. -/
theorem C03_read_after_write_partial {s s1 : Server} {fd off : Int} {i : Nat} {d : List Byte}
    (h : Reachable s) (ho : Ordinary s i) (hm : NoMaps s i)
    (hh : handle s fd (.tagWrite i off d) = .ok (s1, .resp [])) (fd' o n : Int)
    (h1 : off ≤ o) (h2 : 0 ≤ n) (h3 : o + n ≤ off + d.length) (h4 : n ≤ 4088) :
    handle s1 fd' (.tagRead i o n) =
      .ok (s1, .resp ((d.drop (o - off).toNat).take n.toNat)) := by
  have hw := h.wf
  obtain ⟨t, b, P⟩ := (ordinary_iff hw).mp ho
  obtain ⟨hlt, hfit⟩ := write_fits hw P hh
  rcases write_inv hm.rep hh with ⟨-, e, he⟩ | ⟨-, hd | hd⟩
  · simp at he
  · obtain ⟨t', b', P', hwr, hty, hc, -, -, -, hcd⟩ := hd.plain P
    have hr := (wr_ok.mp hwr).1
    obtain ⟨hsz, hin⟩ := hfit hr.1
    have hbl := wr_length hwr
    refine read_ok P' ?_ h4 ?_ (by omega) fd'
    · rw [rd_ok]
      refine ⟨⟨by omega, h2, by omega⟩, ?_⟩
      apply List.ext_getElem?
      intro k
      rw [List.getElem?_take, List.getElem?_take, List.getElem?_drop, List.getElem?_drop]
      split
      · rw [wr_get hwr, if_pos (by omega)]
        congr 1; omega
      · rfl
    · rw [hcd, hbl]
      unfold tagGetSize at hsz ⊢
      rw [hty, hc]; exact hsz
  · obtain ⟨t', q, q', evs, ns, ht, hv, -⟩ := hd
    rw [tag?_natCast, P.db] at ht; cases ht
    rw [P.virt] at hv; simp at hv

/-- Writing the second and third element of `Speed` in the sample history. -/
example : Ordinary (demo demoOps) 13 ∧ NoMaps (demo demoOps) 13 ∧
    ∃ s1, handle (demo demoOps) 6 (.tagWrite 13 2 [9, 8, 7, 6]) = .ok (s1, .resp []) :=
  ⟨⟨0, ⟨by decide, nm "Speed", DAX_INT, 4, fun fd => by kernel_rfl⟩, by decide, by decide⟩,
    fun fd id => ⟨ERR_NOTFOUND, by kernel_rfl⟩, exists_reply (by decide +kernel)⟩

/-- Every state has a memory that agrees with it. -/
theorem agrees_exists {s : Server} (h : Reachable s) : ∃ M, Agrees M s := by
  have hw := h.wf
  refine ⟨fun i k => match s.db[i]? with
    | some t => (t.data.block[k]?).getD 0
    | none => 0, ?_⟩
  rintro i fd off n d ho ⟨s', hh⟩
  obtain ⟨t, b, P⟩ := (ordinary_iff hw).mp ho
  obtain ⟨-, hr⟩ := read_inv hw P hh
  rcases hr with hr | ⟨d', hd, -, hr⟩
  · simp at hr
  · cases hr
    have hrd := (rd_ok.mp hd).1
    refine ⟨hrd.1, rd_length hd, fun k hk => ?_⟩
    have hl := rd_length hd
    rw [rd_get hd, if_pos (by omega)]
    simp only [P.db, P.data, Store.block]
    rw [List.getElem?_eq_getElem (by omega)]
    rfl

/-- A live tag with a data block; `Q` tells which ones count, by index and by whether an override
is in force. -/
structure PlainOn (Q : Nat → Bool → Prop) (s : Server) (i : Nat) (t : Tag) (b : List Byte) : Prop where
  db : s.db[i]? = some t
  name : t.name ≠ none
  virt : t.attr.virt = false
  ovr : Q i t.attr.ovrSet
  data : t.data = .mem b

/-- `Agrees` on the level of the representation, for some of the tags. -/
def RepAgreesOn (Q : Nat → Bool → Prop) (M : Mem) (s : Server) : Prop :=
  ∀ (i : Nat) (t : Tag) (b : List Byte), PlainOn Q s i t b → ∀ sz : Int,
    tagGetSize s.cdts t = .ok sz → ∀ k : Nat, k < b.length → (k : Int) + 1 ≤ sz →
      (k : Int) + 1 < 2147483648 → b[k]? = some (M i k)

/-- `Agrees` on the level of the representation. -/
def RepAgrees (M : Mem) (s : Server) : Prop := RepAgreesOn (fun _ b => b = false) M s

theorem agrees_iff {s : Server} (hw : WF s) {M : Mem} : Agrees M s ↔ RepAgrees M s := by
  constructor
  · intro H i t b P sz hsz k hk h1 h2
    replace P : Plain s i t b := ⟨P.db, P.name, P.virt, P.ovr, P.data⟩
    have := H i 0 k 1 [b[k]] ((ordinary_iff hw).mpr ⟨t, b, P⟩) ?_
    · have := this.2.2 0 (by simp)
      simp only [List.getElem?_cons_zero, Int.toNat_natCast, Nat.add_zero] at this
      rw [List.getElem?_eq_getElem hk]; exact this
    · refine ⟨s, ?_⟩
      rw [read_eq P]
      have ha : addI32 (k : Int) 1 = .ok ((k : Int) + 1) := by unfold addI32; rw [if_pos (by omega)]
      have hr : rd b (k : Int) 1 = .ok [b[k]] := by
        rw [rd_ok]
        refine ⟨by omega, ?_⟩
        simp only [Int.toNat_natCast]
        rw [show (1 : Int).toNat = 1 from rfl, List.drop_eq_getElem_cons hk]
        rfl
      simp only [ha, hsz, hr, C.ok_bind]
      rw [if_neg (by omega), if_neg (by omega)]
  · rintro H i fd off n d ho ⟨s', hh⟩
    obtain ⟨t, b, P⟩ := (ordinary_iff hw).mp ho
    rw [read_eq P] at hh
    obtain ⟨e, he, hh⟩ := C.bind_eq_ok.mp hh
    obtain ⟨sz, hsz, hh⟩ := C.bind_eq_ok.mp hh
    split at hh
    · simp at hh
    · obtain ⟨d', hd, hh⟩ := C.bind_eq_ok.mp hh
      split at hh
      · simp at hh
      · simp only [C.ok.injEq, Prod.mk.injEq, Reply.resp.injEq] at hh
        obtain ⟨-, rfl⟩ := hh
        obtain ⟨he, rfl⟩ := addI32_ok.mp he
        have hrd := (rd_ok.mp hd).1
        have hl := rd_length hd
        refine ⟨hrd.1, hl, fun k hk => ?_⟩
        rw [rd_get hd, if_pos (by omega)]
        exact H i t b ⟨P.db, P.name, P.virt, P.ovr, P.data⟩ sz hsz _ (by omega) (by omega) (by omega)

/-- No live tag has a mapping, on the level of the representation. -/
def RepNoMaps (s : Server) : Prop :=
  ∀ (i : Nat) (t : Tag), s.db[i]? = some t → t.data ≠ .freed → t.wildMaps = false ∧ t.maps = []

theorem read_unchanged {s s' : Server} {i : Nat} {fd off n : Int} {r : Reply} {M : Mem} {Q : Nat → Bool → Prop}
    (hM : RepAgreesOn Q M s) (hh : handle s fd (.tagRead i off n) = .ok (s', r)) :
    RepAgreesOn Q M s' ∧ (RepNoMaps s → RepNoMaps s') := by
  simp only [handle, hTagRead] at hh
  obtain ⟨⟨s1, r1⟩, h1, hh⟩ := C.bind_eq_ok.mp hh
  have hs : s' = s1 := by
    cases r1 with
    | error e => simp only [C.ok.injEq, Prod.mk.injEq] at hh; exact hh.1.symm
    | ok d =>
      dsimp only at hh
      split at hh
      · simp at hh
      · split at hh <;> (simp only [C.ok.injEq, Prod.mk.injEq] at hh; exact hh.1.symm)
  subst hs
  rcases tagRead_inv h1 with rfl | ⟨t, q, q', b, ht, hv, hq, -, rfl, -⟩
  · exact ⟨hM, id⟩
  · rw [tag?_natCast] at ht
    have hlt := (List.getElem?_eq_some_iff.mp ht).1
    have key : ∀ j u, ({ s with db := s.db.set i { t with data := .queue q' } }).db[j]? = some u →
        (j = i ∧ u = { t with data := .queue q' }) ∨ (j ≠ i ∧ s.db[j]? = some u) := by
      intro j u hu
      simp only at hu
      by_cases hij : j = i
      · subst hij
        rw [List.getElem?_set_self (by simpa using hlt)] at hu
        cases hu; exact .inl ⟨rfl, rfl⟩
      · rw [List.getElem?_set_ne (fun h => hij h.symm)] at hu; exact .inr ⟨hij, hu⟩
    simp only [Server.setTag, Int.toNat_natCast] at *
    refine ⟨?_, ?_⟩
    · intro j u b' P sz hsz k
      rcases key j u P.db with ⟨-, rfl⟩ | ⟨-, hu⟩
      · have := P.virt; simp [hv] at this
      · exact hM j u b' ⟨hu, P.name, P.virt, P.ovr, P.data⟩ sz hsz k
    · intro hm j u hu hf
      rcases key j u hu with ⟨rfl, rfl⟩ | ⟨-, hu⟩
      · exact hm j t ht (by rw [hq]; simp)
      · exact hm j u hu hf

theorem set_cases {α : Type} {l : List α} {i j : Nat} {x u : α} (hlt : i < l.length) (hu : (l.set i x)[j]? = some u) :
    (j = i ∧ u = x) ∨ (j ≠ i ∧ l[j]? = some u) := by
  by_cases hij : j = i
  · subst hij
    rw [List.getElem?_set_self (by simpa using hlt)] at hu
    cases hu; exact .inl ⟨rfl, rfl⟩
  · rw [List.getElem?_set_ne (fun h => hij h.symm)] at hu; exact .inr ⟨hij, hu⟩

theorem WriteDone.mem {s s' : Server} {i : Nat} {off : Int} {d : List Byte} {size : Nat}
    (hd : WriteDone s i off d size s') {M M' : Mem} {Q : Nat → Bool → Prop} (hM : RepAgreesOn Q M s)
    (hstep : ∀ t b b', PlainOn Q s i t b → wr b off d = .ok b' →
      (∀ k, b[k]? = some (M i k) → ∀ x, b'[k]? = some x → M' i k = x)) (hother : ∀ j k, j ≠ i → M' j k = M j k) :
    RepAgreesOn Q M' s' := by
  obtain ⟨t, b, b', evs, ns, rt, ht, hv, hb, hwr, -, rfl⟩ := hd.ex
  rw [tag?_natCast] at ht
  have hlt := (List.getElem?_eq_some_iff.mp ht).1
  simp only [Server.setTag, Int.toNat_natCast] at *
  have hbl := wr_length hwr
  intro j u c P sz hsz k hk h1 h2
  rcases set_cases hlt P.db with ⟨rfl, rfl⟩ | ⟨hij, hu⟩
  · have hc := P.data
    simp only [Store.mem.injEq] at hc
    subst hc
    have P0 : PlainOn Q s j t b := ⟨ht, P.name, hv, P.ovr, hb⟩
    have h0 := hM j t b P0 sz (by unfold tagGetSize at hsz ⊢; exact hsz) k (by omega) h1 h2
    have hx : b'[k]? = some b'[k] := List.getElem?_eq_getElem hk
    rw [hx, hstep t b b' P0 hwr k h0 _ hx]
  · rw [hother j k hij]
    exact hM j u c ⟨hu, P.name, P.virt, P.ovr, P.data⟩ sz (by unfold tagGetSize at hsz ⊢; exact hsz)
      k hk h1 h2

theorem WriteDone.noMaps {s s' : Server} {i : Nat} {off : Int} {d : List Byte} {size : Nat}
    (hd : WriteDone s i off d size s') (hm : RepNoMaps s) : RepNoMaps s' := by
  obtain ⟨t, b, b', evs, ns, rt, ht, hv, hb, hwr, -, rfl⟩ := hd.ex
  rw [tag?_natCast] at ht
  have hlt := (List.getElem?_eq_some_iff.mp ht).1
  simp only [Server.setTag, Int.toNat_natCast] at *
  intro j u hu hf
  rcases set_cases hlt hu with ⟨rfl, rfl⟩ | ⟨-, hu⟩
  · exact hm j t ht (by rw [hb]; simp)
  · exact hm j u hu hf

theorem QueueDone.mem {s s' : Server} {i : Nat} {off : Int} {d : List Byte}
    (hd : QueueDone s i off d s') {M M' : Mem} {Q : Nat → Bool → Prop} (hM : RepAgreesOn Q M s)
    (hother : ∀ j k, j ≠ i → M' j k = M j k) : RepAgreesOn Q M' s' := by
  obtain ⟨t, q, q', evs, ns, ht, hv, hb, -, -, rfl⟩ := hd
  rw [tag?_natCast] at ht
  have hlt := (List.getElem?_eq_some_iff.mp ht).1
  simp only [Server.setTag, Int.toNat_natCast] at *
  intro j u c P sz hsz k hk h1 h2
  rcases set_cases hlt P.db with ⟨rfl, rfl⟩ | ⟨hij, hu⟩
  · have := P.data; simp at this
  · rw [hother j k hij]
    exact hM j u c ⟨hu, P.name, P.virt, P.ovr, P.data⟩ sz (by unfold tagGetSize at hsz ⊢; exact hsz)
      k hk h1 h2

theorem QueueDone.noMaps {s s' : Server} {i : Nat} {off : Int} {d : List Byte}
    (hd : QueueDone s i off d s') (hm : RepNoMaps s) : RepNoMaps s' := by
  obtain ⟨t, q, q', evs, ns, ht, hv, hb, -, -, rfl⟩ := hd
  rw [tag?_natCast] at ht
  have hlt := (List.getElem?_eq_some_iff.mp ht).1
  simp only [Server.setTag, Int.toNat_natCast] at *
  intro j u hu hf
  rcases set_cases hlt hu with ⟨rfl, rfl⟩ | ⟨-, hu⟩
  · exact hm j t ht (by rw [hb]; simp)
  · exact hm j u hu hf

theorem store_other (M : Mem) (i off : Nat) (d : List Byte) (j k : Nat) (h : j ≠ i) :
    M.store i off d j k = M j k := by
  simp [Mem.store, h]

theorem storeMasked_other (M : Mem) (i off : Nat) (d m : List Byte) (j k : Nat) (h : j ≠ i) :
    M.storeMasked i off d m j k = M j k := by
  simp [Mem.storeMasked, h]

/-- The memory after a write. -/
theorem WriteDone.stored {s s' : Server} {i : Nat} {off : Int} {d : List Byte}
    (hd : WriteDone s i off d d.length s') {M : Mem} {Q : Nat → Bool → Prop} (hM : RepAgreesOn Q M s) :
    RepAgreesOn Q (M.store i off.toNat d) s' := by
  refine hd.mem hM ?_ (fun j k h => store_other _ _ _ _ _ _ h)
  intro t b b' P hwr k hk x hx
  rw [wr_get hwr] at hx
  simp only [Mem.store, true_and]
  split
  · split at hx
    · rw [hx]; rfl
    · rw [hk] at hx; cases hx
      rw [List.getElem?_eq_none (by omega)]; rfl
  · rw [if_neg (by omega), hk] at hx; cases hx; rfl

/-- The memory after a masked write. -/
theorem WriteDone.storedMasked {s s' : Server} {i : Nat} {off : Int} {d m old : List Byte} {t0 : Tag} {b0 : List Byte}
    (ht0 : s.tag? i = some t0) (hb0 : t0.data = .mem b0) (hold : rd b0 off d.length = .ok old)
    (hd : WriteDone s i off (maskMerge d m old) d.length s') (hlm : m.length = d.length)
    {M : Mem} {Q : Nat → Bool → Prop} (hM : RepAgreesOn Q M s) :
    RepAgreesOn Q (M.storeMasked i off.toNat d m) s' := by
  refine hd.mem hM ?_ (fun j k h => storeMasked_other _ _ _ _ _ _ _ h)
  intro t b b' P hwr k hk x hx
  rw [tag?_natCast, P.db] at ht0; cases ht0
  rw [P.data] at hb0; cases hb0
  have hol := rd_length hold
  have hml := maskMerge_length d m old
  rw [wr_get hwr] at hx
  simp only [Mem.storeMasked, true_and]
  have hrd := (rd_ok.mp hold).1
  split
  · rename_i hok
    split at hx
    · rename_i hin
      have h1 : d[k - off.toNat]? = some d[k - off.toNat] := List.getElem?_eq_getElem (by omega)
      have h2 : m[k - off.toNat]? = some m[k - off.toNat] := List.getElem?_eq_getElem (by omega)
      have h3 : old[k - off.toNat]? = some (M i k) := by
        rw [rd_get hold, if_pos (by omega), ← hk]; congr 1; omega
      rw [maskMerge_get d m old _ _ _ _ h1 h2 h3] at hx
      rw [h1, h2]; cases hx; rfl
    · rw [hk] at hx; cases hx
      rw [List.getElem?_eq_none (by omega)]
  · rw [if_neg (by omega), hk] at hx; cases hx; rfl

/-- One data request. -/
theorem data_step {s s' : Server} {fd : Int} {q : Req} {r : Reply} {M : Mem} {Q : Nat → Bool → Prop}
    (hq : q.isData) (hM : RepAgreesOn Q M s) (hm : RepNoMaps s)
    (hh : handle s fd q = .ok (s', r)) : RepAgreesOn Q (remember M (q, r)) s' ∧ RepNoMaps s' := by
  cases q with
  | tagRead idx off n =>
    by_cases h0 : 0 ≤ idx
    · obtain ⟨i, rfl⟩ := Int.eq_ofNat_of_zero_le h0
      exact ⟨(read_unchanged hM hh).1, (read_unchanged hM hh).2 hm⟩
    · simp only [handle, hTagRead, tagRead] at hh
      rw [tag?_none.mpr (.inl (by omega))] at hh
      simp only [C.ok_bind, C.ok.injEq, Prod.mk.injEq] at hh
      rw [← hh.1]; exact ⟨hM, hm⟩
  | tagWrite idx off d =>
    by_cases h0 : 0 ≤ idx
    · obtain ⟨i, rfl⟩ := Int.eq_ofNat_of_zero_le h0
      rcases write_inv (hm i) hh with ⟨rfl, e, rfl⟩ | ⟨rfl, hd | hd⟩
      · exact ⟨hM, hm⟩
      · exact ⟨hd.stored hM, hd.noMaps hm⟩
      · exact ⟨hd.mem hM (fun j k h => store_other _ _ _ _ _ _ h), hd.noMaps hm⟩
    · simp only [handle, hTagWrite, roForeign, rawAttr] at hh
      rw [if_pos (.inl (by omega))] at hh
      simp at hh
  | tagMWrite idx off d m =>
    by_cases h0 : 0 ≤ idx
    · obtain ⟨i, rfl⟩ := Int.eq_ofNat_of_zero_le h0
      rcases mwrite_inv (hm i) hh with ⟨rfl, e, rfl⟩ | ⟨rfl, t0, b0, old, ht0, hb0, hold, hd⟩
      · exact ⟨hM, hm⟩
      · exact ⟨hd.storedMasked ht0 hb0 hold hq hM, hd.noMaps hm⟩
    · simp only [handle, hTagMWrite, rawAttr] at hh
      rw [if_pos (.inl (by omega))] at hh
      simp at hh
  | _ => simp [Req.isData] at hq

/-- **C03, C04, C06** (partial: no mappings) Over any sequence of reads, writes and masked writes by any clients, on a
server without mappings, reads of ordinary tags return exactly what a client computes from the
requests and replies: the bytes last written, masked bits only where the mask says so, and the
former contents everywhere else and in every other tag. -/
theorem C03_history_partial {qs : List (Int × Req)} {s s' : Server} {rs : List Reply} {M : Mem}
    (h : Reachable s) (hm : ∀ i name, LiveAt s i name → NoMaps s i) (hM : Agrees M s)
    (hq : ∀ q ∈ qs, q.2.isData) (hr : runR s qs = .ok (s', rs)) :
    Agrees (((qs.map (·.2)).zip rs).foldl remember M) s' := by
  have hw := h.wf
  rw [agrees_iff hw] at hM
  replace hm : RepNoMaps s := by
    intro i t ht hf
    have hn : t.name ≠ none := fun hn => hf ((hw.tag i t ht).name.mp hn)
    obtain ⟨n, hn⟩ := Option.ne_none_iff_exists'.mp hn
    exact (noMaps_iff ht).mp (hm i n ((liveAt_iff hw).mpr ⟨t, ht, hn⟩))
  clear h
  induction qs generalizing s rs M with
  | nil =>
    simp only [runR, C.ok.injEq, Prod.mk.injEq] at hr
    rw [← hr.1, ← hr.2, agrees_iff hw]; exact hM
  | cons q qs ih =>
    obtain ⟨fd, q⟩ := q
    simp only [runR] at hr
    obtain ⟨⟨s1, r1⟩, h1, hr⟩ := C.bind_eq_ok.mp hr
    obtain ⟨⟨s2, rs2⟩, h2, hr⟩ := C.bind_eq_ok.mp hr
    simp only [C.ok.injEq, Prod.mk.injEq] at hr
    obtain ⟨rfl, rfl⟩ := hr
    obtain ⟨hM1, hm1⟩ := data_step (hq (fd, q) List.mem_cons_self) hM hm h1
    have hq1 : ∀ q ∈ qs, q.2.isData := fun q hq' => hq q (List.mem_cons_of_mem _ hq')
    have hw1 := (handle_step hw h1).wf
    apply ih <;> assumption

theorem noMaps_demo (i : Nat) (name : Name) (h : LiveAt (demo demoOps) i name) :
    NoMaps (demo demoOps) i := by
  obtain ⟨t, ht, -⟩ := (liveAt_iff demoOps_reachable.wf).mp h
  have key : ∀ t ∈ (demo demoOps).db, t.wildMaps = false ∧ t.maps = [] := by decide +kernel
  exact (noMaps_iff ht).mpr (key t (List.mem_of_getElem? ht))

/-- A history with an accepted write, an accepted masked write and a refused write. -/
example : (∃ M, Agrees M (demo demoOps)) ∧
    (∀ i name, LiveAt (demo demoOps) i name → NoMaps (demo demoOps) i) ∧
    ∃ s' rs, runR (demo demoOps) [(5, .tagWrite 13 2 [9, 8]), (6, .tagMWrite 13 3 [255] [15]),
      (6, .tagWrite 13 4 [1, 2, 3, 4, 5, 6])] = .ok (s', rs) ∧ True :=
  ⟨agrees_exists demoOps_reachable, noMaps_demo, exists_runR (p := fun _ => True) (by decide +kernel)⟩

/-! ## C04 -/

/-- `s'` differs from `s` at most in the contents and events of tag `i`, the messages sent and the
retention file. -/
def OnlyTag (i : Nat) (s s' : Server) : Prop :=
  s' = s ∨ ∃ t D evs ns rt, s.db[i]? = some t ∧ (D = .freed ↔ t.data = .freed) ∧
    s' = { s with db := s.db.set i { t with data := D, events := evs }, sent := ns, ret := rt }

theorem WriteDone.only {s s' : Server} {i : Nat} {off : Int} {d : List Byte} {size : Nat}
    (h : WriteDone s i off d size s') : OnlyTag i s s' := by
  obtain ⟨t, b, b', evs, ns, rt, ht, hv, hb, hwr, -, rfl⟩ := h.ex
  rw [tag?_natCast] at ht
  exact .inr ⟨t, _, _, _, _, ht, by rw [hb]; simp, rfl⟩

theorem QueueDone.only {s s' : Server} {i : Nat} {off : Int} {d : List Byte}
    (h : QueueDone s i off d s') : OnlyTag i s s' := by
  obtain ⟨t, q, q', evs, ns, ht, hv, hb, -, -, rfl⟩ := h
  rw [tag?_natCast] at ht
  exact .inr ⟨t, _, _, _, s.ret, ht, by rw [hb]; simp, rfl⟩

theorem OnlyTag.get {s s' : Server} {i : Nat} (h : OnlyTag i s s') (k : Int) :
    tagGetIndex s' k = tagGetIndex s k := by
  rcases h with rfl | ⟨t, D, evs, ns, rt, ht, hD, rfl⟩
  · rfl
  · unfold tagGetIndex Server.tag?
    by_cases hk : 0 ≤ k
    · simp only [hk, if_true]
      by_cases hi : i = k.toNat
      · subst hi
        rw [List.getElem?_set_self (List.getElem?_eq_some_iff.mp ht).1, ht]
        simp only [tagInfo]
        simp only [hD]
      · rw [List.getElem?_set_ne hi]
    · simp only [hk, if_false]

theorem OnlyTag.getName {s s' : Server} {i : Nat} (h : OnlyTag i s s') (n : Name) :
    tagGetName s' n = tagGetName s n := by
  have hg := h.get
  have hx : s'.index = s.index := by
    rcases h with rfl | ⟨t, D, evs, ns, rt, ht, hD, rfl⟩ <;> rfl
  have hl : s'.db.length = s.db.length := by
    rcases h with rfl | ⟨t, D, evs, ns, rt, ht, hD, rfl⟩ <;> simp
  unfold tagGetName
  rw [hx]
  cases getByName s.index n with
  | ub w => rfl
  | ok o =>
    simp only [C.ok_bind]
    cases o with
    | none => rfl
    | some k =>
      have := hg k
      unfold tagGetIndex at this
      rw [tag?_natCast, tag?_natCast] at this
      cases h1 : s.db[k]? with
      | none =>
        have : s'.db[k]? = none := by rw [List.getElem?_eq_none_iff] at h1 ⊢; omega
        simp [this, h1]
      | some t =>
        have hk := (List.getElem?_eq_some_iff.mp h1).1
        have h2 : s'.db[k]? = some (s'.db[k]'(by omega)) := List.getElem?_eq_getElem (by omega)
        simp only [h1, h2, Int.toNat_natCast] at this ⊢
        exact this

/-- The requests C04 is about: a write or masked write to tag `i` at `off`, with `n` bytes. -/
def writeTo (i : Nat) (off : Int) (n : Nat) : Req → Prop
  | .tagWrite j o d => j = i ∧ o = off ∧ d.length = n
  | .tagMWrite j o d m => j = i ∧ o = off ∧ d.length = n ∧ m.length = n
  | _ => False

theorem writeTo_cases {s s' : Server} {i n : Nat} {fd off : Int} {q : Req} {r : Reply}
    (hq : writeTo i off n q) (hm : NoMaps s i) (hh : handle s fd q = .ok (s', r)) :
    (s' = s ∧ ∃ e, r = .err e) ∨ (r = .resp [] ∧ QueueDone s i off (match q with
      | .tagWrite _ _ d => d | _ => []) s') ∨ (r = .resp [] ∧ ∃ d, d.length = n ∧ WriteDone s i off d n s') := by
  cases q with
  | tagWrite j o d =>
    obtain ⟨rfl, rfl, rfl⟩ := hq
    rcases write_inv hm.rep hh with h | ⟨h1, h2 | h2⟩
    · exact .inl h
    · exact .inr (.inr ⟨h1, d, rfl, h2⟩)
    · exact .inr (.inl ⟨h1, h2⟩)
  | tagMWrite j o d m =>
    obtain ⟨rfl, rfl, rfl, hl⟩ := hq
    rcases mwrite_inv hm.rep hh with h | ⟨h1, t, b, old, ht, hb, hold, h2⟩
    · exact .inl h
    · have := rd_length hold
      exact .inr (.inr ⟨h1, _, by rw [maskMerge_length]; omega, h2⟩)
  | _ => simp [writeTo] at hq

/-- **C04** (partial: no mappings) A write or masked write of `n` bytes at `off` of a tag without mappings leaves the
answers to all of these as they were: reads of every other tag (by any client, of any range),
reads of the addressed tag outside the range, and queries of names, types, counts and attributes
by index and by name. -/
theorem C04_isolated_partial {s s' : Server} {i n : Nat} {fd off : Int} {q : Req} {r : Reply}
    (h : Reachable s) (hm : NoMaps s i) (hq : writeTo i off n q)
    (hh : handle s fd q = .ok (s', r)) :
    (∀ (j : Nat) fd' o k a, j ≠ i →
      (Answers s' fd' (.tagRead j o k) a ↔ Answers s fd' (.tagRead j o k) a)) ∧
    (Ordinary s i → ∀ fd' o k a, o + k ≤ off ∨ off + n ≤ o →
      (Answers s' fd' (.tagRead i o k) a ↔ Answers s fd' (.tagRead i o k) a)) ∧
    (∀ fd' k a, Answers s' fd' (.tagGetIdx k) a ↔ Answers s fd' (.tagGetIdx k) a) ∧
    (∀ fd' m a, Answers s' fd' (.tagGetName m) a ↔ Answers s fd' (.tagGetName m) a) := by
  have hw := h.wf
  have hquiet : Quiet (fun _ => True) s s' :=
    handle_quiet (by cases q <;> first | rfl | simp [writeTo] at hq) hh
  have honly : OnlyTag i s s' := by
    rcases writeTo_cases hq hm hh with ⟨h1, -⟩ | ⟨-, h1⟩ | ⟨-, d, -, h1⟩
    · exact .inl h1
    · exact h1.only
    · exact h1.only
  have hmods : s'.mods = s.mods := by
    rcases honly with rfl | ⟨t, D, evs, ns, rt, ht, hD, rfl⟩ <;> rfl
  refine ⟨?_, ?_, ?_, ?_⟩
  · intro j fd' o k a hj
    refine read_congr hquiet hmods ?_ fd' o k a
    rcases honly with rfl | ⟨t, D, evs, ns, rt, ht, hD, rfl⟩
    · rfl
    · exact List.getElem?_set_ne (fun h => hj h.symm)
  · intro ho fd' o k a hdisj
    obtain ⟨t, b, P⟩ := (ordinary_iff hw).mp ho
    rcases writeTo_cases hq hm hh with ⟨rfl, -⟩ | ⟨-, h1⟩ | ⟨-, d, hd, h1⟩
    · rfl
    · obtain ⟨t', q, q', evs, ns, ht, hv, -⟩ := h1
      rw [tag?_natCast, P.db] at ht; cases ht
      rw [P.virt] at hv; simp at hv
    · obtain ⟨t', b', P', hwr, hty, hc, -, -, -, hcd⟩ := h1.plain P
      have hg : tagGetSize s'.cdts t' = tagGetSize s.cdts t := by
        unfold tagGetSize; rw [hcd, hty, hc]
      have hrd : rd b' o k = rd b o k := rd_wr_disjoint hwr (by rw [hd]; omega)
      unfold Answers
      rw [read_eq P, read_eq P', hg, hrd]
      cases addI32 o k with
      | ub w => simp
      | ok e =>
        simp only [C.ok_bind]
        cases tagGetSize s.cdts t with
        | ub w => simp
        | ok sz =>
          simp only [C.ok_bind]
          split
          · simp
          · cases rd b o k with
            | ub w => simp
            | ok d => simp only [C.ok_bind]; split <;> simp
  · intro fd' k a
    unfold Answers
    simp only [handle, hTagGet, honly.get k]
    cases tagGetIndex s k with
    | ub w => simp
    | ok o => cases o <;> simp
  · intro fd' k a
    unfold Answers
    simp only [handle, hTagGet, honly.getName k]
    cases tagGetName s k with
    | ub w => simp
    | ok o => cases o <;> simp

/-- Writing the second element of `Speed`; `Flags` and the rest of `Speed` are readable. -/
example : NoMaps (demo demoOps) 13 ∧ Ordinary (demo demoOps) 13 ∧
    (∃ s1, handle (demo demoOps) 6 (.tagMWrite 13 2 [9, 8] [255, 1]) = .ok (s1, .resp [])) ∧
    Answers (demo demoOps) 6 (.tagRead 13 4 4) (.resp [5, 6, 7, 8]) ∧
    Answers (demo demoOps) 6 (.tagRead 14 0 3) (.resp [0, 0, 0]) :=
  ⟨fun fd id => ⟨ERR_NOTFOUND, by kernel_rfl⟩,
    ⟨0, ⟨by decide, nm "Speed", DAX_INT, 4, fun fd => by kernel_rfl⟩, by decide, by decide⟩,
    exists_reply (by decide +kernel), exists_reply (by decide +kernel),
    exists_reply (by decide +kernel)⟩

/-! ## C06 -/

/-- **C06** (partial: no mappings) After a successful masked write every bit with mask bit 1 is the new bit, every bit
with mask bit 0 is the old bit: `old` and `new` are what reads of the range return before and
after. -/
theorem C06_masked_partial {s s' : Server} {i : Nat} {fd off : Int} {d m old : List Byte}
    (h : Reachable s) (ho : Ordinary s i) (hm : NoMaps s i) (hl : m.length = d.length)
    (hh : handle s fd (.tagMWrite i off d m) = .ok (s', .resp []))
    (hold : Answers s fd (.tagRead i off d.length) (.resp old)) :
    ∃ new, new.length = d.length ∧
      (∀ fd', Answers s' fd' (.tagRead i off d.length) (.resp new)) ∧
      ∀ k, k < d.length → ∀ b, b < 8 →
        bitOf new k b = if bitOf m k b then bitOf d k b else bitOf old k b := by
  have hw := h.wf
  obtain ⟨t, b, P⟩ := (ordinary_iff hw).mp ho
  obtain ⟨s1, hold⟩ := hold
  obtain ⟨-, hr⟩ := read_inv hw P hold
  rcases hr with hr | ⟨d', hrd, hn, hr⟩
  · simp at hr
  cases hr
  obtain ⟨hlt, hfit⟩ := mwrite_fits hw P hh
  rcases mwrite_inv hm.rep hh with ⟨-, e, he⟩ | ⟨-, t0, b0, old0, ht0, hb0, hold0, hd⟩
  · simp at he
  rw [tag?_natCast, P.db] at ht0; cases ht0
  rw [P.data] at hb0; cases hb0
  rw [hrd] at hold0; cases hold0
  have hol := rd_length hrd
  have hr := (rd_ok.mp hrd).1
  obtain ⟨hsz, hin⟩ := hfit hr.1
  obtain ⟨t', b', P', hwr, hty, hc, -, -, -, hcd⟩ := hd.plain P
  have hbl := wr_length hwr
  have hml := maskMerge_length d m old
  have hl2 : (maskMerge d m old).length = d.length := by omega
  refine ⟨maskMerge d m old, hl2, fun fd' => ⟨s', ?_⟩, ?_⟩
  · refine read_ok P' ?_ hn ?_ hlt fd'
    · have := rd_wr_same hwr
      rw [hl2] at this; exact this
    · rw [hcd, hbl]
      unfold tagGetSize at hsz ⊢
      rw [hty, hc]; exact hsz
  · intro k hk bb _
    have h1 : d[k]? = some d[k] := List.getElem?_eq_getElem hk
    have h2 : m[k]? = some m[k] := List.getElem?_eq_getElem (by omega)
    have h3 : old[k]? = some old[k] := List.getElem?_eq_getElem (by omega)
    unfold bitOf
    rw [maskMerge_get d m old k _ _ _ h1 h2 h3, h1, h2, h3]
    simp only [BitVec.getLsbD_or, BitVec.getLsbD_and, BitVec.getLsbD_not]
    cases (m[k]).getLsbD bb <;> simp [*]

/-- The low half of the third byte of `Speed` and all of the fourth. -/
example : (∃ s', handle (demo demoOps) 6 (.tagMWrite 13 2 [0xF0, 0x99] [0x0F, 0xFF]) =
      .ok (s', .resp [])) ∧ Answers (demo demoOps) 6 (.tagRead 13 2 2) (.resp [3, 4]) :=
  ⟨exists_reply (by decide +kernel), exists_reply (by decide +kernel)⟩

/-! ## C05 -/

/-- Why tags with mappings are left out of C03, C04, C06 (and C14): a mapping from the first to the second element of the tag replaces half of what was
just written, by a plain or a masked write, and one to another tag changes that tag. -/
theorem C03_mapped : Reachable (demo demoOps) ∧
    (runR (demo demoOps) [(5, .mapAdd ⟨13, 0, 0, 1, 2, DAX_INT⟩ ⟨13, 2, 0, 1, 2, DAX_INT⟩), (5, .tagWrite 13 0 [9, 9, 7, 7]), (5, .tagRead 13 0 4),
      (5, .tagMWrite 13 0 [1, 1, 5, 5] [255, 255, 255, 255]), (5, .tagRead 13 0 4)] >>= fun x => C.ok x.2) =
      .ok [.resp [1, 0, 0, 0], .resp [], .resp [9, 9, 9, 9], .resp [], .resp [1, 1, 1, 1]] ∧
    (runR (demo demoOps) [(5, .mapAdd ⟨13, 0, 0, 1, 2, DAX_INT⟩ ⟨14, 0, 0, 16, 2, DAX_BOOL⟩), (5, .tagRead 14 0 2), (5, .tagWrite 13 0 [9, 8]),
      (5, .tagRead 14 0 2)] >>= fun x => C.ok (x.2.drop 3)) = .ok [.resp [9, 8]] :=
  ⟨demoOps_reachable, by kernel_rfl, by kernel_rfl⟩

theorem typeSize_elem {tbl : List Cdt} {ty w : Nat} (h : (ty, w) ∈ elemBytes) :
    typeSize tbl ty = .ok (w : Int) ∧ ty ≠ DAX_BOOL := by
  simp only [elemBytes, List.mem_cons, List.not_mem_nil, or_false, Prod.mk.injEq] at h
  rcases h with h|h|h|h|h|h|h|h|h|h|h|h|h|h|h <;> obtain ⟨rfl, rfl⟩ := h <;>
    exact ⟨rfl, by decide⟩

theorem rawAttr_in {s : Server} (hw : WF s) {i : Nat} {t : Tag} (ht : s.db[i]? = some t) :
    rawAttr s i = .ok (t.attr, some t.fd) := by
  have h1 := (List.getElem?_eq_some_iff.mp ht).1
  have h2 := hw.dbsz
  unfold rawAttr
  rw [if_neg (by omega), tag?_natCast, ht]

theorem write_2big {s : Server} {i : Nat} {t : Tag} {b d : List Byte} {off : Int} (hw : WF s)
    (P : Plain s i t b) {sz : Int} (hsz : tagGetSize s.cdts t = .ok sz) (h : sz < off + d.length)
    (hlt : -2147483648 ≤ off + d.length ∧ off + d.length < 2147483648) (fd : Int) :
    Refused s fd (.tagWrite i off d) := by
  unfold Refused
  simp only [handle, hTagWrite, roForeign, rawAttr_in hw P.db, C.ok_bind]
  split
  · exact ⟨_, rfl⟩
  · unfold tagWrite
    have ha : addI32 off d.length = .ok (off + d.length) := by unfold addI32; rw [if_pos hlt]
    rw [tag?_natCast, P.db]
    simp only [P.virt, Bool.false_eq_true, if_false, ha, hsz, C.ok_bind]
    rw [if_pos (by omega)]
    exact ⟨_, rfl⟩

theorem mwrite_2big {s : Server} {i : Nat} {t : Tag} {b d m : List Byte} {off : Int} (hw : WF s)
    (P : Plain s i t b) {sz : Int} (hsz : tagGetSize s.cdts t = .ok sz) (h : sz < off + d.length)
    (hlt : -2147483648 ≤ off + d.length ∧ off + d.length < 2147483648) (fd : Int) :
    Refused s fd (.tagMWrite i off d m) := by
  unfold Refused
  simp only [handle, hTagMWrite, rawAttr_in hw P.db, C.ok_bind]
  split
  · exact ⟨_, rfl⟩
  · unfold tagMaskWrite
    have h1 := (List.getElem?_eq_some_iff.mp P.db).1
    have h2 := hw.dbsz
    have ha : addI32 off d.length = .ok (off + d.length) := by unfold addI32; rw [if_pos hlt]
    rw [if_neg (by omega), tag?_natCast, P.db]
    simp only [P.virt, Bool.false_eq_true, if_false, ha, hsz, C.ok_bind]
    rw [if_pos (by omega)]
    exact ⟨_, rfl⟩

/-- The three claims about one tag, with its size `n`. -/
theorem range_of_size {s : Server} {i : Nat} {t : Tag} {b : List Byte} (hw : WF s)
    (P : Plain s i t b) (hsz : tagGetSize s.cdts t = .ok (b.length : Int)) (fd off size : Int)
    (h0 : 0 ≤ off) (h1 : 0 ≤ size) (h2 : off + size < 2147483648) :
    (off + size ≤ b.length → size ≤ 4088 →
      ∃ d, d.length = size.toNat ∧ handle s fd (.tagRead i off size) = .ok (s, .resp d)) ∧
    (b.length < off + size →
      handle s fd (.tagRead i off size) = .ok (s, .err ERR_2BIG) ∧
      (∀ d, (d.length : Int) = size → Refused s fd (.tagWrite i off d)) ∧
      (∀ d m, (d.length : Int) = size → Refused s fd (.tagMWrite i off d m))) := by
  refine ⟨fun h3 h4 => ?_, fun h3 => ⟨read_2big P hsz (by omega) (by omega) fd, ?_, ?_⟩⟩
  · obtain ⟨d, hd⟩ := rd_total (b := b) ⟨h0, h1, h3⟩
    exact ⟨d, rd_length hd, read_ok P hd h4 hsz h2 fd⟩
  · rintro d rfl; exact write_2big hw P hsz (by omega) (by omega) fd
  · rintro d m rfl; exact mwrite_2big hw P hsz (by omega) (by omega) fd

/-- **C05** (tags of base types) For a tag of `n` bytes, reads inside it return data; reads,
writes and masked writes that reach past its end are refused without effect.
Missing from the full claim: negative offsets and sizes, sums beyond `2^31` (both undefined
behaviour, see below), tags with an override or virtual tags, tags of more than `2^31` bytes. -/
theorem C05_range_partial {s : Server} {i type count n : Nat} {name : Name} (h : Reachable s)
    (ho : Ordinary s i) (hl : LiveTag s i name type count) (hn : TagBytes type count n)
    (hlt : n < 2147483648) (fd off size : Int) (h0 : 0 ≤ off) (h1 : 0 ≤ size)
    (h2 : off + size < 2147483648) :
    (off + size ≤ n → size ≤ 4088 →
      ∃ d, d.length = size.toNat ∧ handle s fd (.tagRead i off size) = .ok (s, .resp d)) ∧
    (n < off + size →
      handle s fd (.tagRead i off size) = .ok (s, .err ERR_2BIG) ∧
      (∀ d, (d.length : Int) = size → Refused s fd (.tagWrite i off d)) ∧
      (∀ d m, (d.length : Int) = size → Refused s fd (.tagMWrite i off d m))) := by
  have hw := h.wf
  obtain ⟨t, b, P⟩ := (ordinary_iff hw).mp ho
  obtain ⟨t', ht', -, rfl, rfl⟩ := (liveTag_iff hw).mp hl
  rw [P.db] at ht'; cases ht'
  have ok := hw.tag i t P.db
  have key : b.length = n ∧ tagGetSize s.cdts t = .ok (b.length : Int) := by
    have ha := (ok.mem b P.data).1
    unfold allocSize at ha
    unfold tagGetSize
    rcases hn with ⟨hb, rfl⟩ | ⟨w, hm, rfl⟩
    · rw [if_pos hb] at ha ⊢
      simp only [C.ok.injEq] at ha ⊢
      omega
    · obtain ⟨hts, hnb⟩ := typeSize_elem (tbl := s.cdts) hm
      rw [if_neg hnb, hts] at ha ⊢
      simp only [C.ok_bind, C.ok.injEq] at ha ⊢
      have e : ((w * t.count : Nat) : Int) = (w : Int) * (t.count : Int) := by simp
      rw [← e] at ha ⊢
      unfold u32 at ha
      unfold i32
      have : b.length = w * t.count := by omega
      refine ⟨this, ?_⟩
      split <;> omega
  obtain ⟨rfl, hsz⟩ := key
  exact range_of_size hw P hsz fd off size h0 h1 h2

/-- **C05** (tags of any type) As above, with the size left open: every ordinary tag that can be
read at all has one size that decides all requests. -/
theorem C05_extent_partial {s : Server} {i : Nat} (h : Reachable s) (ho : Ordinary s i)
    (hr : Answers s 0 (.tagRead i 0 0) (.resp [])) :
    ∃ n : Nat, ∀ fd off size : Int, 0 ≤ off → 0 ≤ size → off + size < 2147483648 →
      (off + size ≤ n → size ≤ 4088 →
        ∃ d, d.length = size.toNat ∧ handle s fd (.tagRead i off size) = .ok (s, .resp d)) ∧
      (n < off + size →
        handle s fd (.tagRead i off size) = .ok (s, .err ERR_2BIG) ∧
        (∀ d, (d.length : Int) = size → Refused s fd (.tagWrite i off d)) ∧
        (∀ d m, (d.length : Int) = size → Refused s fd (.tagMWrite i off d m))) := by
  have hw := h.wf
  obtain ⟨t, b, P⟩ := (ordinary_iff hw).mp ho
  obtain ⟨sz, hsz, hszb, -⟩ := tagGetSize_mem (hw.tag i t P.db) P.data
  obtain ⟨s1, hr⟩ := hr
  rw [read_eq P, hsz] at hr
  have ha : addI32 0 0 = .ok 0 := rfl
  rw [ha] at hr
  simp only [C.ok_bind] at hr
  split at hr
  · simp at hr
  · rcases hszb with rfl | h
    · exact ⟨b.length, fun fd off size h0 h1 h2 => range_of_size hw P hsz fd off size h0 h1 h2⟩
    · omega

/-- **C05** An index that was never given out: reads are refused, and writes and masked writes
have no effect.  Missing from the full claim: outside the allocated part of the tag array the
writes are undefined behaviour, see below. -/
theorem C05_index_partial {s : Server} {idx : Int} (hn : handle s 0 (.tagGetIdx idx) = .ok (s, .err ERR_ARG))
    (fd off : Int) :
    (∀ size, handle s fd (.tagRead idx off size) = .ok (s, .err ERR_ARG)) ∧
    (∀ d s' r, handle s fd (.tagWrite idx off d) = .ok (s', r) → s' = s ∧ ∃ e, r = .err e) ∧
    (∀ d m s' r, handle s fd (.tagMWrite idx off d m) = .ok (s', r) → s' = s ∧ ∃ e, r = .err e) := by
  have hnone : s.tag? idx = none := by
    simp only [handle, hTagGet, tagGetIndex] at hn
    cases ht : s.tag? idx with
    | none => rfl
    | some t =>
      simp only [ht, tagInfo] at hn
      split at hn
      · simp [ERR_DELETED, ERR_ARG] at hn
      · split at hn <;> simp at hn
  refine ⟨fun size => ?_, fun d s' r hh => ?_, fun d m s' r hh => ?_⟩
  · simp only [handle, hTagRead, tagRead, hnone, C.ok_bind]
  · simp only [handle, hTagWrite] at hh
    obtain ⟨ro, -, hh⟩ := C.bind_eq_ok.mp hh
    split at hh
    · simp only [C.ok.injEq, Prod.mk.injEq] at hh
      exact ⟨hh.1.symm, _, hh.2.symm⟩
    · unfold tagWrite at hh
      rw [hnone] at hh
      simp only [C.ok_bind] at hh
      rw [if_pos (by decide)] at hh
      simp only [C.ok.injEq, Prod.mk.injEq] at hh
      exact ⟨hh.1.symm, _, hh.2.symm⟩
  · simp only [handle, hTagMWrite] at hh
    obtain ⟨⟨a, f⟩, -, hh⟩ := C.bind_eq_ok.mp hh
    dsimp only at hh
    split at hh
    · simp only [C.ok.injEq, Prod.mk.injEq] at hh
      exact ⟨hh.1.symm, _, hh.2.symm⟩
    · obtain ⟨⟨s1, r1⟩, h1, hh⟩ := C.bind_eq_ok.mp hh
      unfold tagMaskWrite at h1
      rw [hnone] at h1
      split at h1
      · simp at h1
      · have : s1 = s ∧ r1 ≠ 0 := by
          dsimp only at h1
          split at h1 <;> (simp only [C.ok.injEq, Prod.mk.injEq] at h1; obtain ⟨rfl, rfl⟩ := h1;
                           exact ⟨rfl, by decide⟩)
        dsimp only at hh
        rw [if_pos this.2] at hh
        simp only [C.ok.injEq, Prod.mk.injEq] at hh
        exact ⟨hh.1.symm.trans this.1, _, hh.2.symm⟩

/-- `Speed` has eight bytes. -/
example : Ordinary (demo demoOps) 13 ∧ LiveTag (demo demoOps) 13 (nm "Speed") DAX_INT 4 ∧
    TagBytes DAX_INT 4 8 ∧ Answers (demo demoOps) 0 (.tagRead 13 0 0) (.resp []) ∧
    handle (demo demoOps) 0 (.tagGetIdx 16) = .ok (demo demoOps, .err ERR_ARG) :=
  ⟨⟨0, ⟨by decide, nm "Speed", DAX_INT, 4, fun fd => by kernel_rfl⟩, by decide, by decide⟩,
    ⟨by decide, by decide, 0, fun fd => by kernel_rfl⟩, .inr ⟨2, by decide, rfl⟩,
    exists_reply (by decide +kernel), by kernel_rfl⟩

/-- A tag with more bytes than fit in a message. -/
def bigOps : List Op := demoOps ++ [.req 5 (.tagAdd DAX_LREAL 512 0 (nm "Big"))]

/-- The full claim C05 fails: a client can make the server read and write outside the tag
(negative offset), outside the tag array (bad index), or overrun the reply buffer (a read of more
than 4088 bytes of a large tag). -/
theorem C05_unbounded_access :
    ∃ s, Reachable s ∧ Ordinary s 13 ∧
      ∀ q ∈ [Req.tagRead 13 (-4) 4, .tagWrite 13 (-1) [1], .tagMWrite 13 (-1) [1] [1],
        .tagWrite (-1) 0 [1], .tagMWrite 5000 0 [1] [1], .tagRead 16 0 4096],
        ∃ w, handle s 5 q = .ub w :=
  ⟨demo bigOps, demo_reachable (by decide +kernel),
    ⟨0, ⟨by decide, nm "Speed", DAX_INT, 4, fun fd => by kernel_rfl⟩, by decide, by decide⟩,
    all_ub (by decide +kernel)⟩

/-- **C05**, the other direction: every range of an ordinary tag that can be read can be written, with
and without a mask.  The tag must not be read-only (attribute 0x0001) or a status tag of a module
(0x0010); the request is answered, and never with an error. -/
theorem C05_accepted {s : Server} {i a : Nat} {fd fd' off : Int} {d m x : List Byte} (h : Reachable s)
    (ha : AttrAt s i a) (h0 : a.testBit 0 = false) (h1 : a.testBit 1 = false) (h3 : a.testBit 3 = false)
    (h4 : a.testBit 4 = false) (hr : Answers s fd' (.tagRead i off d.length) (.resp x)) :
    (∀ s' r, handle s fd (.tagWrite i off d) = .ok (s', r) → r = .resp []) ∧
    (∀ s' r, handle s fd (.tagMWrite i off d m) = .ok (s', r) → r = .resp []) := by
  have hw := h.wf
  obtain ⟨t, ht, hn, ha'⟩ := (attrAt_iff hw).mp ha
  obtain ⟨t', b, P⟩ := (ordinary_iff hw).mp ⟨a, ha, h1, h3⟩
  have := ht.symm.trans P.db
  cases this
  obtain ⟨sz, hsz, hszb, -⟩ := tagGetSize_mem (hw.tag i t P.db) P.data
  have hro : t.attr.readonly = false := by rw [← Attr.bit0, ha']; exact h0
  have hsp : t.attr.special = false := by rw [← Attr.bit4, ha']; exact h4
  have hfit : off + d.length ≤ sz := by
    obtain ⟨s1, hr⟩ := hr
    simp only [handle, hTagRead] at hr
    obtain ⟨⟨s2, r2⟩, h2, hr⟩ := C.bind_eq_ok.mp hr
    unfold tagRead at h2
    rw [tag?_natCast, P.db] at h2
    simp only [P.virt, P.ovr, P.data, Bool.false_eq_true, if_false, hsz, C.ok_bind] at h2
    obtain ⟨e, he, h2⟩ := C.bind_eq_ok.mp h2
    obtain ⟨-, rfl⟩ := addI32_ok.mp he
    split at h2
    · simp only [C.ok.injEq, Prod.mk.injEq] at h2
      obtain ⟨rfl, rfl⟩ := h2
      simp at hr
    · omega
  have hraw : ∀ x, rawAttr s i = .ok x → x.1.readonly = false := by
    intro x hx
    unfold rawAttr at hx
    split at hx
    · simp at hx
    · rw [tag?_natCast, P.db] at hx
      simp only [C.ok.injEq] at hx
      rw [← hx]; exact hro
  constructor
  · intro s' r hh
    simp only [handle, hTagWrite] at hh
    obtain ⟨ro, hro', hh⟩ := C.bind_eq_ok.mp hh
    unfold roForeign at hro'
    obtain ⟨⟨a1, f1⟩, hx, hro'⟩ := C.bind_eq_ok.mp hro'
    have := hraw _ hx
    dsimp only at this hro'
    rw [this] at hro'
    simp only [Bool.false_and, C.ok.injEq] at hro'
    subst hro'
    simp only [Bool.false_eq_true, if_false] at hh
    obtain ⟨⟨s2, r2⟩, h2, hh⟩ := C.bind_eq_ok.mp hh
    unfold tagWrite at h2
    rw [tag?_natCast, P.db] at h2
    simp only [P.virt, P.data, hsp, Bool.false_eq_true, if_false, hsz, C.ok_bind] at h2
    obtain ⟨e, he, h2⟩ := C.bind_eq_ok.mp h2
    obtain ⟨-, rfl⟩ := addI32_ok.mp he
    rw [if_neg (by omega)] at h2
    simp only [ne_eq, not_true_eq_false, if_false] at h2
    obtain ⟨b', hb', h2⟩ := C.bind_eq_ok.mp h2
    obtain ⟨rfl, -⟩ := commitWrite_inv h2
    simp only [ne_eq, not_true_eq_false, if_false] at hh
    obtain ⟨s3, -, hh⟩ := C.bind_eq_ok.mp hh
    simp only [C.ok.injEq, Prod.mk.injEq] at hh
    exact hh.2.symm
  · intro s' r hh
    simp only [handle, hTagMWrite] at hh
    obtain ⟨⟨a1, f1⟩, hx, hh⟩ := C.bind_eq_ok.mp hh
    have := hraw _ hx
    dsimp only at this hh
    rw [this] at hh
    simp only [Bool.false_eq_true, if_false] at hh
    obtain ⟨⟨s2, r2⟩, h2, hh⟩ := C.bind_eq_ok.mp hh
    unfold tagMaskWrite at h2
    split at h2
    · simp at h2
    rw [tag?_natCast, P.db] at h2
    simp only [P.virt, P.data, hsp, Bool.false_eq_true, if_false, hsz, C.ok_bind] at h2
    obtain ⟨e, he, h2⟩ := C.bind_eq_ok.mp h2
    obtain ⟨-, rfl⟩ := addI32_ok.mp he
    rw [if_neg (by omega)] at h2
    simp only [ne_eq, not_true_eq_false, if_false] at h2
    obtain ⟨old, -, h2⟩ := C.bind_eq_ok.mp h2
    obtain ⟨b', hb', h2⟩ := C.bind_eq_ok.mp h2
    obtain ⟨rfl, -⟩ := commitWrite_inv h2
    simp only [ne_eq, not_true_eq_false, if_false] at hh
    obtain ⟨s3, -, hh⟩ := C.bind_eq_ok.mp hh
    simp only [C.ok.injEq, Prod.mk.injEq] at hh
    exact hh.2.symm

/-- Instance: the last two bytes of tag 13 of the demonstration; both requests are answered. -/
example : Reachable (demo demoOps) ∧ AttrAt (demo demoOps) 13 0 ∧
    Answers (demo demoOps) 5 (.tagRead 13 6 2) (.resp [7, 8]) ∧
    Answers (demo demoOps) 5 (.tagWrite 13 6 [1, 2]) (.resp []) ∧
    Answers (demo demoOps) 5 (.tagMWrite 13 6 [1, 2] [1, 2]) (.resp []) :=
  ⟨demoOps_reachable, ⟨by decide, nm "Speed", DAX_INT, 4, fun fd => by kernel_rfl⟩,
    exists_reply (by decide +kernel), exists_reply (by decide +kernel), exists_reply (by decide +kernel)⟩

end Dax
