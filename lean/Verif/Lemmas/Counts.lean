import Verif.Lemmas.Leave
import Verif.Props.ReadOnly
/-!
# The status tags `_tagcount` and `_lastindex`
-/
set_option autoImplicit false
namespace Dax

/-- Entry `k` is the system tag called `nk` and holds the number `v`. -/
structure Cell (s : Server) (k : Nat) (nk : Name) (v : Int) (t : Tag) : Prop where
  db : s.db[k]? = some t
  name : t.name = some nk
  type : t.type = DAX_DINT
  count : t.count = 1
  ro : t.attr.readonly = true
  owned : t.attr.owned = false
  virt : t.attr.virt = false
  ovr : t.attr.ovrSet = false
  special : t.attr.special = false
  data : t.data = .mem (le4 v)

/-- The two status tags hold what they should. -/
def Counts (s : Server) : Prop := (∃ t, Cell s 0 (nm "_tagcount") s.tagcount t) ∧
  ∃ t, Cell s 1 (nm "_lastindex") ((s.db.length : Int) - 1) t

theorem Cell.same {s s' : Server} {k : Nat} {nk : Name} {v : Int} {t : Tag} (h : Cell s k nk v t)
    (e : s'.db[k]? = s.db[k]?) : Cell s' k nk v t := { h with db := by rw [e]; exact h.db }

theorem Cell.reads {s s' : Server} {k : Nat} {nk : Name} {v : Int} {t : Tag} (h : Cell s k nk v t)
    (hr : Reads k s s') (hro : ∀ t', s'.db[k]? = some t' → t'.attr.readonly = true) :
    ∃ t', Cell s' k nk v t' := by
  obtain ⟨t', ht', sr, hs, ho⟩ := hr t h.db
  exact ⟨t', ht', sr.name ▸ h.name, sr.type ▸ h.type, sr.count ▸ h.count, hro t' ht', ho ▸ h.owned,
    sr.virt ▸ h.virt, sr.ovrSet ▸ h.ovr, hs ▸ h.special, sr.data ▸ h.data⟩

theorem le4_len (v : Int) : (le4 v).length = 4 := by simp [le4, toLE_length]

theorem wr_all {b d : List Byte} (h : d.length = b.length) : wr b 0 d = .ok d := by
  unfold wr
  simp [h]

/-- The server's write to a status tag succeeds. -/
theorem Cell.write {s s' : Server} {k : Nat} {nk : Name} {v w : Int} {t : Tag} (h : Cell s k nk v t)
    (hh : statusWrite s k w = .ok s') : ∃ t', Cell s' k nk w t' := by
  unfold statusWrite at hh
  rw [tag?_natCast, h.db] at hh
  dsimp only at hh
  rw [h.data] at hh
  rw [if_neg (by simp)] at hh
  obtain ⟨⟨s1, r1⟩, h1, hh⟩ := C.bind_eq_ok.mp hh
  simp only [C.ok.injEq] at hh
  subst hh
  unfold tagWrite at h1
  rw [tag?_natCast, h.db] at h1
  have hsz : tagGetSize s.cdts t = .ok 4 := by
    unfold tagGetSize; rw [h.type, h.count]; rfl
  have ha : addI32 0 4 = .ok 4 := by rfl
  simp only [h.virt, h.special, h.data, Bool.false_eq_true, if_false, le4_len, hsz, C.ok_bind] at h1
  have hcast : ((4 : Nat) : Int) = 4 := rfl
  rw [hcast, ha, C.ok_bind, if_neg (by omega), if_neg (by simp), wr_all (by simp [le4_len]), C.ok_bind] at h1
  obtain ⟨-, evs, ns, rt, -, rfl⟩ := commitWrite_inv h1
  have hk := (List.getElem?_eq_some_iff.mp h.db).1
  exact ⟨{ t with data := .mem (le4 w), events := evs }, by
    show (s.db.set k _)[k]? = _
    exact List.getElem?_set_self hk, h.name, h.type, h.count, h.ro, h.owned, h.virt, h.ovr, h.special, rfl⟩

theorem Counts.congr {s s' : Server} (h : Counts s) (e : s'.db = s.db) (ec : s'.tagcount = s.tagcount) :
    Counts s' := by
  obtain ⟨⟨t0, h0⟩, t1, h1⟩ := h
  unfold Counts
  rw [ec, e]
  exact ⟨⟨t0, h0.same (by rw [e])⟩, t1, h1.same (by rw [e])⟩

theorem Counts.same {s s' : Server} (h : Counts s) (e0 : s'.db[0]? = s.db[0]?) (e1 : s'.db[1]? = s.db[1]?)
    (el : s'.db.length = s.db.length) (ec : s'.tagcount = s.tagcount) : Counts s' := by
  obtain ⟨⟨t0, h0⟩, t1, h1⟩ := h
  unfold Counts
  rw [ec, el]
  exact ⟨⟨t0, h0.same e0⟩, t1, h1.same e1⟩

theorem Counts.quiet {s s' : Server} {F : Nat → Prop} (h : Counts s) (q : Quiet F s s') (h0 : ¬ F 0)
    (h1 : ¬ F 1) : Counts s' := h.same (q.same h0) (q.same h1) q.len q.tagcount

theorem Counts.reads {s s' : Server} {F : Nat → Prop} (h : Counts s) (q : Quiet F s s')
    (r0 : Reads 0 s s') (r1 : Reads 1 s s') : Counts s' := by
  obtain ⟨⟨t0, h0⟩, t1, h1⟩ := h
  unfold Counts
  rw [q.tagcount, q.len]
  refine ⟨h0.reads r0 ?_, h1.reads r1 ?_⟩
  · intro t' ht'
    obtain ⟨u, hu, sh, -⟩ := q.tag 0 t0 h0.db
    rw [hu] at ht'; cases ht'
    exact sh.keep.2 h0.ro
  · intro t' ht'
    obtain ⟨u, hu, sh, -⟩ := q.tag 1 t1 h1.db
    rw [hu] at ht'; cases ht'
    exact sh.keep.2 h1.ro

theorem growDb_counts {s : Server} (h : Counts s) : Counts (growDb s) := by
  unfold growDb
  split
  · exact h.congr rfl rfl
  · exact h

theorem Counts.len {s : Server} (h : Counts s) : 2 ≤ s.db.length := by
  obtain ⟨-, t1, h1⟩ := h
  have := (List.getElem?_eq_some_iff.mp h1.db).1
  omega

theorem setAttribute_counts {s s' : Server} {i a : Nat} (hc : Counts s) (g0 : i ≠ 0) (g1 : i ≠ 1)
    (h : setAttribute s i a = .ok s') : Counts s' ∧ s'.db.length = s.db.length := by
  obtain ⟨t, p, rt, ht, rfl⟩ := setAttribute_inv h
  refine ⟨hc.same ?_ ?_ (by simp) rfl, by simp⟩
  · show (s.db.set i _)[0]? = _
    rw [List.getElem?_set_ne g0]
  · show (s.db.set i _)[1]? = _
    rw [List.getElem?_set_ne g1]

theorem tagAddNew_counts {s s' : Server} {fd : Int} {name : Name} {type count attr size : Nat}
    {r : Int} (hc : Counts s) (h : tagAddNew s fd name type count attr size = .ok (s', r)) :
    Counts s' := by
  have h2l := hc.len
  unfold tagAddNew at h
  dsimp only at h
  split at h
  · simp at h
  obtain ⟨ix, -, h⟩ := C.bind_eq_ok.mp h
  obtain ⟨tbl, -, h⟩ := C.bind_eq_ok.mp h
  obtain ⟨s1, h1, h⟩ := C.bind_eq_ok.mp h
  obtain ⟨s2, h2, h⟩ := C.bind_eq_ok.mp h
  obtain ⟨s3, h3, h⟩ := C.bind_eq_ok.mp h
  obtain ⟨⟨s4, r4⟩, h4, h⟩ := C.bind_eq_ok.mp h
  simp only [C.ok.injEq, Prod.mk.injEq] at h
  rw [← h.1]
  obtain ⟨⟨t0, c0⟩, t1, c1⟩ := hc
  have q1 := statusWrite_quiet h1
  have q2 := statusWrite_quiet h2
  have q4 := tagWrite_quiet h4
  have el1 : s1.db.length = s.db.length := q1.len
  obtain ⟨u1, d1⟩ := (c1.same (s' := { s with index := ix, cdts := tbl }) rfl).write (k := 1) h1
  have d0 : Cell s1 0 (nm "_tagcount") s.tagcount t0 := by
    refine (c0.same (s' := { s with index := ix, cdts := tbl }) rfl).same ?_
    exact q1.same (by show ¬ (0 = 1); omega)
  have e0 := d0.same (s' := { s1 with db := s1.db ++ [newTag s1.env s.db.length fd name type count size],
                                      tagcount := s1.tagcount + 1 })
    (by show (s1.db ++ _)[0]? = _; rw [List.getElem?_append_left (by omega)])
  obtain ⟨v0, e0⟩ := e0.write (k := 0) h2
  have e1 := d1.same (s' := s2) (by
    rw [q2.same (by show ¬ (1 = 0); omega)]
    show (s1.db ++ _)[1]? = _; rw [List.getElem?_append_left (by omega)])
  refine Counts.quiet (s := s3) ?_ q4 (by show ¬ (0 = 2); omega) (by show ¬ (1 = 2); omega)
  refine (setAttribute_counts (s := s2) ?_ (by omega) (by omega) h3).1
  have el2 : s2.db.length = s.db.length + 1 := by rw [q2.len]; simp [el1]
  unfold Counts
  rw [el2, q2.tagcount]
  refine ⟨⟨v0, e0⟩, u1, ?_⟩
  have : ((s.db.length + 1 : Nat) : Int) - 1 = s.db.length := by omega
  rw [this]
  exact e1

/-- Declaring any name but those of the two status tags. -/
theorem tagAdd_counts {s s' : Server} {fd : Int} {name : Name} {type count attr : Nat} {r : Int}
    (hw : WF s) (hc : Counts s) (n0 : name ≠ nm "_tagcount") (n1 : name ≠ nm "_lastindex")
    (h : tagAdd s fd name type count attr = .ok (s', r)) : Counts s' ∧ r ≠ 0 ∧ r ≠ 1 := by
  have h2l := hc.len
  rcases tagAdd_cases hw h with ⟨hr, rfl | rfl⟩ | ⟨-, -, -, size, -, hcs⟩
  · exact ⟨hc, by omega, by omega⟩
  · exact ⟨growDb_counts hc, by omega, by omega⟩
  rcases hcs with ⟨n, hn, rfl, ho⟩ | ⟨-, rfl, ho⟩
  · obtain ⟨t, ht, htn⟩ := hw.ent _ hn
    have g0 : n ≠ 0 := by
      rintro rfl
      obtain ⟨⟨t0, c0⟩, -⟩ := hc
      rw [c0.db] at ht; cases ht
      rw [c0.name] at htn; exact n0 (by simpa using htn.symm)
    have g1 : n ≠ 1 := by
      rintro rfl
      obtain ⟨-, t1, c1⟩ := hc
      rw [c1.db] at ht; cases ht
      rw [c1.name] at htn; exact n1 (by simpa using htn.symm)
    refine ⟨?_, by omega, by omega⟩
    have hg := growDb_counts hc
    have ht' : (growDb s).db[n]? = some t := by unfold growDb; split <;> exact ht
    rcases tagAddOld_inv ht' ho with ⟨rfl, -⟩ | ⟨-, -, -, ⟨-, h1⟩ | ⟨-, d, s2, x, -, h1, h2⟩⟩
    · exact hg
    · exact (setAttribute_counts hg g0 g1 h1).1
    · refine Counts.quiet (s := s2) ?_ (tagWrite_quiet h2) (by show ¬ (0 = 2); omega) (by show ¬ (1 = 2); omega)
      refine (setAttribute_counts ?_ g0 g1 h1).1
      refine hg.same ?_ ?_ (by simp) rfl
      · show ((growDb s).db.set n _)[0]? = _
        rw [List.getElem?_set_ne g0]
      · show ((growDb s).db.set n _)[1]? = _
        rw [List.getElem?_set_ne g1]
  · exact ⟨tagAddNew_counts (growDb_counts hc) ho, by omega, by omega⟩

theorem tagDel_counts {s s' : Server} {idx : Int} {r : Int} (hc : Counts s) (g0 : idx ≠ 0)
    (g1 : idx ≠ 1) (h : tagDel s idx = .ok (s', r)) : Counts s' := by
  have h1 : s'.db[1]? = s.db[1]? := tagDel_frame h (i := 1) (by omega) (by omega) (by omega)
  unfold tagDel at h
  split at h
  · simp only [C.ok.injEq, Prod.mk.injEq] at h; rw [← h.1]; exact hc
  rename_i t ht
  obtain ⟨hi0, hidb⟩ := tag?_eq.mp ht
  split at h
  · simp only [C.ok.injEq, Prod.mk.injEq] at h; rw [← h.1]; exact hc
  split at h
  · simp at h
  rename_i name hname
  obtain ⟨ns, -, h⟩ := C.bind_eq_ok.mp h
  obtain ⟨tbl, htbl, h⟩ := C.bind_eq_ok.mp h
  split at h
  · simp at h
  obtain ⟨ix, hix, h⟩ := C.bind_eq_ok.mp h
  obtain ⟨⟨s2, r2⟩, h2, h⟩ := C.bind_eq_ok.mp h
  dsimp only at h
  split at h
  · simp at h
  rename_i t2 ht2
  obtain ⟨s4, h4, h⟩ := C.bind_eq_ok.mp h
  simp only [C.ok.injEq, Prod.mk.injEq] at h
  obtain ⟨rfl, -⟩ := h
  obtain ⟨⟨t0, c0⟩, t1, c1⟩ := hc
  have q2 := tagWrite_quiet h2
  have q4 := statusWrite_quiet h4
  have el : s4.db.length = s.db.length := by
    rw [q4.len]; simp only [Server.setTag, List.length_set]; rw [q2.len]; simp [Server.setTag]
  have hne : idx.toNat ≠ 0 := by omega
  have d0 := c0.same (s' := { s2.setTag idx { t2 with name := none, data := .freed, attr := {} } with
                       tagcount := s2.tagcount - 1 }) (by
    show (s2.db.set idx.toNat _)[0]? = _
    rw [List.getElem?_set_ne hne, q2.same (by show ¬ (0 = 3); omega)]
    show (s.db.set idx.toNat _)[0]? = _
    rw [List.getElem?_set_ne hne])
  obtain ⟨u0, e0⟩ := d0.write (k := 0) h4
  unfold Counts
  rw [el, q4.tagcount]
  exact ⟨⟨u0, e0⟩, t1, c1.same h1⟩

theorem delOwned_counts {fd : Int} {k : Nat} : ∀ {n : Nat} {s s' : Server}, WF s → Counts s →
    delOwned fd k n s = .ok s' → Counts s' := by
  induction k with
  | zero => intro n s s' _ hc h; simp only [delOwned, C.ok.injEq] at h; subst h; exact hc
  | succ k ih =>
    intro n s s' hw hc h
    simp only [delOwned] at h
    split at h
    · simp at h
    · rename_i u hu
      split at h
      · rename_i ho
        obtain ⟨⟨s1, r1⟩, h1, h⟩ := C.bind_eq_ok.mp h
        simp only [Bool.and_eq_true, beq_iff_eq] at ho
        refine ih (tagDel_step hw h1).wf (tagDel_counts hc ?_ ?_ h1) h
        · intro he
          have : n = 0 := by omega
          subst this
          obtain ⟨⟨t0, c0⟩, -⟩ := hc
          rw [c0.db] at hu; cases hu
          rw [c0.owned] at ho; simp at ho
        · intro he
          have : n = 1 := by omega
          subst this
          obtain ⟨-, t0, c0⟩ := hc
          rw [c0.db] at hu; cases hu
          rw [c0.owned] at ho; simp at ho
      · exact ih hw hc h

/-- Every registered module has a status tag other than the first two tags. -/
def StatOK (s : Server) : Prop := ∀ x ∈ s.stat, x.2.2 ≠ 0 ∧ x.2.2 ≠ 1

theorem moduleUnregister_counts {s s' : Server} {fd : Int} (hw : WF s) (hc : Counts s) (hs : StatOK s)
    (h : moduleUnregister s fd = .ok s') : Counts s' ∧ StatOK s' := by
  cases hm : s.modByFd fd with
  | none =>
    unfold moduleUnregister at h; rw [hm] at h
    simp only [C.ok.injEq] at h; subst h; exact ⟨hc, hs⟩
  | some m =>
    refine ⟨?_, ?_⟩
    · have hmem := (modByFd_some hm).1
      have hx := hs (m.uid, m.fd, m.tagindex) (List.mem_map.mpr ⟨m, hmem, rfl⟩)
      unfold moduleUnregister at h
      rw [hm] at h
      dsimp only at h
      obtain ⟨s1, h1, h⟩ := C.bind_eq_ok.mp h
      have eo := eventsCleanup_evOnly h1
      have c1 : Counts s1 := hc.reads eo.quiet (eo.reads 0) (eo.reads 1)
      have w1 := (eo.quiet.step hw).wf
      split at h
      · simp at h
      obtain ⟨s2, h2, h⟩ := C.bind_eq_ok.mp h
      obtain ⟨⟨s3, r3⟩, h3, h⟩ := C.bind_eq_ok.mp h
      simp only [C.ok.injEq] at h
      subst h
      have c3 := tagDel_counts (delOwned_counts w1 c1 h2) hx.1 hx.2 h3
      exact c3.congr rfl rfl
    · unfold StatOK
      rw [moduleUnregister_stat hm h]
      intro x hx
      exact hs x (List.mem_filter.mp hx).1

theorem moduleTagName_ne {s : Server} {name tn : Name} {u : Nat} (h : moduleTagName s name = .ok (tn, u)) :
    tn ≠ nm "_tagcount" ∧ tn ≠ nm "_lastindex" := by
  have key : ∃ l, tn = nm "_m" ++ l := by
    unfold moduleTagName at h
    obtain ⟨x, -, h⟩ := C.bind_eq_ok.mp h
    have hb : ∀ k, ∃ l', (nm "_m" ++ name.take (TAGNAME_SIZE - 2)).take (k + 2) = nm "_m" ++ l' :=
      fun k => ⟨(name.take (TAGNAME_SIZE - 2)).take k, by
        rw [List.take_append]
        have : (nm "_m").length = 2 := by rfl
        rw [this, Nat.add_sub_cancel, List.take_of_length_le (by omega)]⟩
    cases x with
    | error e =>
      simp only [C.ok.injEq, Prod.mk.injEq] at h
      exact ⟨_, h.1.symm⟩
    | ok i =>
      dsimp only at h
      split at h
      · split at h
        · simp at h
        simp only [C.ok.injEq, Prod.mk.injEq] at h
        obtain ⟨l, e⟩ := hb 27
        exact ⟨l ++ padDec 3 s.modUuid, by rw [← List.append_assoc, ← e]; exact h.1.symm⟩
      · split at h
        · simp at h
        simp only [C.ok.injEq, Prod.mk.injEq] at h
        obtain ⟨l, e⟩ := hb 25
        exact ⟨l ++ padDec 5 s.modUuid, by rw [← List.append_assoc, ← e]; exact h.1.symm⟩
  obtain ⟨l, rfl⟩ := key
  constructor <;> (intro he; have := congrArg (List.take 2) he; rw [List.take_append] at this; revert this; simp only [show (nm "_m").length = 2 from rfl, Nat.sub_self, List.take_zero, List.append_nil]; decide)

theorem moduleTag_counts {s s' : Server} {uid : Nat} {name : Name} {fd : Int} (hw : WF s) (hk : ModsOK s)
    (hc : Counts s) (hs : ∀ x ∈ s.stat, x.1 ≠ uid → x.2.2 ≠ 0 ∧ x.2.2 ≠ 1)
    (h : moduleTag s uid name fd = .ok s') : Counts s' ∧ StatOK s' := by
  unfold moduleTag at h
  obtain ⟨⟨tn, uuid⟩, h1, h⟩ := C.bind_eq_ok.mp h
  obtain ⟨⟨s1, r⟩, h2, h⟩ := C.bind_eq_ok.mp h
  dsimp only at h h2
  have hn := moduleTagName_ne h1
  have hw' : WF { s with modUuid := uuid } :=
    (WF.other (s' := { s with modUuid := uuid }) hw rfl rfl rfl rfl rfl).wf
  obtain ⟨c1, g0, g1⟩ := tagAdd_counts (s := { s with modUuid := uuid }) hw' (hc.congr rfl rfl) hn.1 hn.2 h2
  split at h
  · simp at h
  rename_i hr
  obtain ⟨⟨s3, r3⟩, h3, h⟩ := C.bind_eq_ok.mp h
  obtain ⟨⟨s4, r4⟩, h4, h⟩ := C.bind_eq_ok.mp h
  dsimp only at h h4
  split at h
  · simp at h
  rename_i t ht
  obtain ⟨⟨s5, r5⟩, h5, h⟩ := C.bind_eq_ok.mp h
  simp only [C.ok.injEq] at h
  subst h
  have hr0 : ¬ (0 = r.toNat) := by omega
  have hr1 : ¬ (1 = r.toNat) := by omega
  refine ⟨?_, ?_⟩
  · refine Counts.quiet ?_ (tagWrite_quiet h5) (by show ¬ (0 = 6); omega) (by show ¬ (1 = 6); omega)
    refine Counts.same (s := s4) ?_ ?_ ?_ (by simp [Server.setTag]) rfl
    · refine Counts.quiet ?_ (tagWrite_quiet h4) hr0 hr1
      refine Counts.quiet ?_ (tagWrite_quiet h3) hr0 hr1
      exact c1.congr rfl rfl
    · show (s4.db.set r.toNat _)[0]? = _
      rw [List.getElem?_set_ne (Ne.symm hr0)]
    · show (s4.db.set r.toNat _)[1]? = _
      rw [List.getElem?_set_ne (Ne.symm hr1)]
  · have e : s5.stat = s.stat.map (fun x => if x.1 = uid then (x.1, x.2.1, r) else x) := by
      rw [tagWrite_stat h5]
      show s4.stat = _
      rw [tagWrite_stat h4, tagWrite_stat h3]
      have e := tagAdd_stat (s := { s with modUuid := uuid }) (hk.congr rfl rfl) h2
      have : s.stat = s1.stat := e.symm
      rw [this]
      simp only [Server.stat, Server.updMod, List.map_map]
      apply List.map_congr_left
      intro m hm
      simp only [Function.comp_apply]
      split <;> rfl
    intro x hx
    rw [e] at hx
    obtain ⟨y, hy, rfl⟩ := List.mem_map.mp hx
    split
    · exact ⟨g0, g1⟩
    · rename_i hne
      exact hs y hy hne

theorem moduleRegister_counts {s s' : Server} {name : Name} {fd : Int} (hw : WF s) (hk : ModsOK s)
    (hc : Counts s) (hs : StatOK s) (he : s.env.exclude = [])
    (h : moduleRegister s name fd = .ok s') : Counts s' ∧ StatOK s' := by
  have h' := h
  unfold moduleRegister at h'
  obtain ⟨s1, h1, hn, h2⟩ := moduleRegister_inv hk h
  obtain ⟨c1, o1⟩ := moduleUnregister_counts hw hc hs h1
  have w1 := (moduleUnregister_step hw h1).wf
  have k1 := moduleUnregister_modsOK hk h1
  have e1 := moduleUnregister_env h1
  have w2 := (moduleAdd_step w1 name fd).wf
  have c2 : Counts (moduleAdd s1 name fd) := c1.congr rfl rfl
  have k2 := moduleAdd_modsOK (name := name) k1 hn
  have key : moduleTag (moduleAdd s1 name fd) s1.nextUid name fd = .ok s' → Counts s' ∧ StatOK s' := by
    intro h3
    refine moduleTag_counts w2 k2 c2 ?_ h3
    intro x hx hne
    simp only [Server.stat, moduleAdd, List.map_append, List.mem_append] at hx
    rcases hx with hx | hx
    · exact o1 x hx
    · simp only [List.map_cons, List.map_nil, List.mem_singleton] at hx
      subst hx; exact absurd rfl hne
  dsimp only at h'
  have hex : (moduleAdd s1 name fd).env.exclude = [] := by
    show s1.env.exclude = []; rw [e1, he]
  split at h'
  · rw [h1, C.ok_bind, hex] at h'
    rw [if_neg (by simp)] at h'
    exact key h'
  · have : s1 = s := by
      rename_i hnone
      unfold moduleUnregister at h1; rw [hnone] at h1
      simpa using h1.symm
    subst this
    rw [C.ok_bind, hex] at h'
    rw [if_neg (by simp)] at h'
    exact key h'

/-! ## One step -/

/-- What has to be kept in mind between two requests. -/
def CountsInv (s : Server) : Prop := Counts s ∧ StatOK s ∧ s.env.exclude = []

theorem setAttribute_env {s s' : Server} {i a : Nat} (h : setAttribute s i a = .ok s') :
    s'.env = s.env := by
  obtain ⟨t, p, rt, ht, rfl⟩ := setAttribute_inv h
  rfl

theorem tagAdd_env {s s' : Server} {fd : Int} {name : Name} {type count attr : Nat} {r : Int}
    (hw : WF s) (h : tagAdd s fd name type count attr = .ok (s', r)) : s'.env = s.env := by
  have hg : (growDb s).env = s.env := by unfold growDb; split <;> rfl
  rcases tagAdd_cases hw h with ⟨-, rfl | rfl⟩ | ⟨-, -, -, size, -, hcs⟩
  · rfl
  · exact hg
  rcases hcs with ⟨n, hn, rfl, ho⟩ | ⟨-, -, ho⟩
  · obtain ⟨t, ht, htn⟩ := hw.ent _ hn
    have ht' : (growDb s).db[n]? = some t := by unfold growDb; split <;> exact ht
    rcases tagAddOld_inv ht' ho with ⟨rfl, -⟩ | ⟨-, -, -, ⟨-, h1⟩ | ⟨-, d, s2, x, -, h1, h2⟩⟩
    · exact hg
    · rw [setAttribute_env h1, hg]
    · rw [(tagWrite_quiet h2).env, setAttribute_env h1]; exact hg
  · unfold tagAddNew at ho
    dsimp only at ho
    split at ho
    · simp at ho
    obtain ⟨ix, -, ho⟩ := C.bind_eq_ok.mp ho
    obtain ⟨tbl, -, ho⟩ := C.bind_eq_ok.mp ho
    obtain ⟨s1, h1, ho⟩ := C.bind_eq_ok.mp ho
    obtain ⟨s2, h2, ho⟩ := C.bind_eq_ok.mp ho
    obtain ⟨s3, h3, ho⟩ := C.bind_eq_ok.mp ho
    obtain ⟨⟨s4, r4⟩, h4, ho⟩ := C.bind_eq_ok.mp ho
    simp only [C.ok.injEq, Prod.mk.injEq] at ho
    rw [← ho.1, (tagWrite_quiet h4).env, setAttribute_env h3, (statusWrite_quiet h2).env]
    show s1.env = _
    rw [(statusWrite_quiet h1).env]
    exact hg

theorem moduleTag_env {s s' : Server} {uid : Nat} {name : Name} {fd : Int} (hw : WF s)
    (h : moduleTag s uid name fd = .ok s') : s'.env = s.env := by
  unfold moduleTag at h
  obtain ⟨⟨tn, uuid⟩, h1, h⟩ := C.bind_eq_ok.mp h
  obtain ⟨⟨s1, r⟩, h2, h⟩ := C.bind_eq_ok.mp h
  dsimp only at h h2
  have hw' : WF { s with modUuid := uuid } :=
    (WF.other (s' := { s with modUuid := uuid }) hw rfl rfl rfl rfl rfl).wf
  split at h
  · simp at h
  obtain ⟨⟨s3, r3⟩, h3, h⟩ := C.bind_eq_ok.mp h
  obtain ⟨⟨s4, r4⟩, h4, h⟩ := C.bind_eq_ok.mp h
  dsimp only at h h4
  split at h
  · simp at h
  obtain ⟨⟨s5, r5⟩, h5, h⟩ := C.bind_eq_ok.mp h
  simp only [C.ok.injEq] at h
  subst h
  rw [(tagWrite_quiet h5).env]
  show s4.env = _
  rw [(tagWrite_quiet h4).env, (tagWrite_quiet h3).env]
  exact (tagAdd_env (s := { s with modUuid := uuid }) hw' h2 :)

theorem moduleRegister_env {s s' : Server} {name : Name} {fd : Int} (hw : WF s) (hk : ModsOK s)
    (h : moduleRegister s name fd = .ok s') : s'.env = s.env := by
  obtain ⟨s1, h1, hn, h2⟩ := moduleRegister_inv hk h
  have w2 := (moduleAdd_step (moduleUnregister_step hw h1).wf name fd).wf
  rw [← moduleUnregister_env h1]
  rcases h2 with rfl | h2
  · rfl
  · exact (moduleTag_env (s := moduleAdd s1 name fd) w2 h2 :)

/-- What the two tags hold after start-up. -/
theorem init_cells (e : Env) : (initServer e >>= fun s => .ok
      ((s.db.take 2).map (fun t => (t.data, t.name, t.type, t.count, t.attr)), s.tagcount,
        s.db.length, s.env, s.mods)) =
    .ok ([(.mem (le4 11), some (nm "_tagcount"), DAX_DINT, 1, { readonly := true }),
          (.mem (le4 10), some (nm "_lastindex"), DAX_DINT, 1, { readonly := true })], 11, 11, e, []) := by
  kernel_rfl

theorem init_counts {e : Env} {s : Server} (h : initServer e = .ok s) :
    Counts s ∧ s.mods = [] ∧ s.env = e := by
  have := init_cells e
  rw [h] at this
  simp only [C.ok_bind, C.ok.injEq, Prod.mk.injEq] at this
  obtain ⟨h1, h2, h3, h4, h5⟩ := this
  refine ⟨?_, h5, h4⟩
  have key : ∀ i, i < 2 → ∃ t, s.db[i]? = some t ∧
      some (t.data, t.name, t.type, t.count, t.attr) = [(.mem (le4 11), some (nm "_tagcount"), DAX_DINT, 1, { readonly := true }),
          (.mem (le4 10), some (nm "_lastindex"), DAX_DINT, 1, { readonly := true })][i]? := by
    intro i hi
    refine ⟨_, List.getElem?_eq_getElem (by omega), ?_⟩
    rw [← h1, List.getElem?_map, List.getElem?_take, if_pos hi, List.getElem?_eq_getElem (by omega)]
    rfl
  unfold Counts
  rw [h2, h3]
  obtain ⟨t0, e0, f0⟩ := key 0 (by omega)
  obtain ⟨t1, e1, f1⟩ := key 1 (by omega)
  simp only [List.getElem?_cons_zero, List.getElem?_cons_succ, Option.some.injEq, Prod.mk.injEq] at f0 f1
  obtain ⟨a1, a2, a3, a4, a5⟩ := f0
  obtain ⟨b1, b2, b3, b4, b5⟩ := f1
  exact ⟨⟨t0, e0, a2, a3, a4, by rw [a5], by rw [a5], by rw [a5], by rw [a5], by rw [a5], a1⟩,
    t1, e1, b2, b3, b4, by rw [b5], by rw [b5], by rw [b5], by rw [b5], by rw [b5], b1⟩

/-- The positions counted by `countP`. -/
theorem countP_positions {α : Type} (p : α → Bool) (db : List α) : ∃ l : List Nat, l.Nodup ∧
    (∀ i : Nat, i ∈ l ↔ ∃ t, db[i]? = some t ∧ p t = true) ∧ l.length = db.countP p := by
  induction db with
  | nil => exact ⟨[], by simp, by simp, rfl⟩
  | cons a db ih =>
    obtain ⟨l, h1, h2, h3⟩ := ih
    have hn : (l.map (· + 1)).Nodup := by
      unfold List.Nodup at h1 ⊢
      rw [List.pairwise_map]
      exact h1.imp (by intro a b h; omega)
    have hm : ∀ i, i ∈ l.map (· + 1) ↔ ∃ j, i = j + 1 ∧ ∃ t, db[j]? = some t ∧ p t = true := by
      intro i
      rw [List.mem_map]
      constructor
      · rintro ⟨j, hj, rfl⟩; exact ⟨j, rfl, (h2 j).mp hj⟩
      · rintro ⟨j, rfl, hj⟩; exact ⟨j, (h2 j).mpr hj, rfl⟩
    by_cases hp : p a = true
    · refine ⟨0 :: l.map (· + 1), ?_, ?_, ?_⟩
      · rw [List.nodup_cons]
        exact ⟨by rw [hm]; rintro ⟨j, hj, -⟩; omega, hn⟩
      · intro i
        rw [List.mem_cons, hm]
        cases i with
        | zero => simp [hp]
        | succ i => simp
      · rw [List.countP_cons_of_pos hp]; simp [h3]
    · refine ⟨l.map (· + 1), hn, ?_, ?_⟩
      · intro i
        rw [hm]
        cases i with
        | zero => simp [hp]
        | succ i => simp
      · rw [List.countP_cons_of_neg hp]; simp [h3]

/-- A registration request, taken apart. -/
theorem modReg_inv {s s' : Server} {fd : Int} {flags : Nat} {name : Name} {r : Reply}
    (h : handle s fd (.modReg flags name) = .ok (s', r)) : s' = s ∨
      ∃ s1 x, moduleRegister s name fd = .ok s1 ∧ tagRead s1 (-1) INDEX_STARTED 0 4 = .ok (s', x) := by
  simp only [handle, hModReg] at h
  split at h
  · obtain ⟨s2, h2, h⟩ := C.bind_eq_ok.mp h
    obtain ⟨⟨s3, r3⟩, h3, h⟩ := C.bind_eq_ok.mp h
    refine .inr ⟨s2, r3, h2, ?_⟩
    have : s' = s3 := by
      cases r3 <;> (simp only [C.ok.injEq, Prod.mk.injEq] at h; exact h.1.symm)
    rw [this]
    exact h3
  · simp only [C.ok.injEq, Prod.mk.injEq] at h; exact .inl h.1.symm


/-- Restoring retained tags, none of which has the name of a status tag. -/
theorem restoreTags_counts {l : List RetRow} : ∀ {s s' : Server}, WF s → Counts s →
    (∀ x ∈ l, x.name ≠ nm "_tagcount" ∧ x.name ≠ nm "_lastindex") → restoreTags s l = .ok s' →
    Counts s' ∧ s'.env = s.env := by
  induction l with
  | nil => intro s s' _ hc _ h; simp only [restoreTags, C.ok.injEq] at h; subst h; exact ⟨hc, rfl⟩
  | cons x l ih =>
    intro s s' hw hc hn h
    simp only [restoreTags] at h
    obtain ⟨⟨s1, i⟩, h1, h⟩ := C.bind_eq_ok.mp h
    dsimp only at h
    obtain ⟨c1, g0, g1⟩ := tagAdd_counts hw hc (hn x (by simp)).1 (hn x (by simp)).2 h1
    have e1 := tagAdd_env hw h1
    have w1 := (tagAdd_step hw h1).wf
    split at h
    · obtain ⟨c2, e2⟩ := ih w1 c1 (fun y hy => hn y (by simp [hy])) h
      exact ⟨c2, e2.trans e1⟩
    · rename_i hi
      obtain ⟨s2, h2, h⟩ := C.bind_eq_ok.mp h
      have q := restoreData_quiet h2
      have c2 : Counts s2 := c1.quiet q (by show ¬ (0 = i.toNat); omega) (by show ¬ (1 = i.toNat); omega)
      obtain ⟨c3, e3⟩ := ih (q.step w1).wf c2 (fun y hy => hn y (by simp [hy])) h
      exact ⟨c3, e3.trans (q.env.trans e1)⟩

theorem start_counts {e : Env} {file : Option Ret} {s : Server} (h : startServer e file = .ok s)
    (hf : ∀ f, file = some f → ∀ x ∈ f.rows, x.name ≠ nm "_tagcount" ∧ x.name ≠ nm "_lastindex") :
    Counts s ∧ StatOK s ∧ s.env = e := by
  obtain ⟨s1, h1, p⟩ := startServer_path (fl := noReg) rfl (fun _ => rfl) h
  obtain ⟨c1, m1, e1⟩ := init_counts h1
  have hst : s.stat = [] := by
    rw [p.stat ⟨by simp [m1], by simp [m1], by simp [m1]⟩]
    unfold Server.stat; rw [m1]; rfl
  refine ⟨?_, by unfold StatOK; rw [hst]; simp, ?_⟩
  all_goals
    unfold startServer at h
    rw [h1, C.ok_bind] at h
    cases file with
    | none => simp only [C.ok.injEq] at h; subst h; assumption
    | some f =>
      dsimp only at h
      unfold retInit at h
      obtain ⟨tbl, h2, h⟩ := C.bind_eq_ok.mp h
      obtain ⟨s2, h3, h⟩ := C.bind_eq_ok.mp h
      simp only [C.ok.injEq] at h; subst h
      have w1 := initServer_wf h1
      obtain ⟨w2, x2⟩ := restoreTypes_wf w1.cdts h2
      have c2 : Counts { s1 with cdts := tbl } := c1.congr rfl rfl
      obtain ⟨c3, e3⟩ := restoreTags_counts ((w1.cdts_ext w2 x2).wf) c2 (hf f rfl) h3
      first
      | exact c3.congr rfl rfl
      | exact e3.trans e1

end Dax
