import Verif.Model.Message
import Verif.Lemmas.Write
/-!
# Quiet changes: no tag appears, disappears, moves or changes its shape

Most operations only change the contents of some tags.  `Quiet F s s'` says that this is all
that happened, and only to tags whose index satisfies `F`.
-/
namespace Dax

/-- Same kind of storage of the same size. -/
def Store.Same : Store → Store → Prop
  | .freed, .freed => True
  | .mem b, .mem b' => b'.length = b.length
  | .vTime, .vTime => True
  | .vMyName, .vMyName => True
  | .queue q, .queue q' => q'.size = q.size
  | _, _ => False

theorem Store.Same.refl (a : Store) : a.Same a := by cases a <;> simp [Store.Same]

theorem Store.Same.trans {a b c : Store} (h1 : a.Same b) (h2 : b.Same c) : a.Same c := by
  cases a <;> cases b <;> simp_all [Store.Same] <;> cases c <;> simp_all

/-- Same tag, possibly with other contents. -/
structure SameShape (t t' : Tag) : Prop where
  name : t'.name = t.name
  type : t'.type = t.type
  count : t'.count = t.count
  fd : t'.fd = t.fd
  virt : t'.attr.virt = t.attr.virt
  wild : t'.wildMaps = t.wildMaps
  data : t.data.Same t'.data
  nextevent : t.nextevent ≤ t'.nextevent
  nextmap : t.nextmap ≤ t'.nextmap
  ro : t.name = none → t'.attr.readonly = t.attr.readonly
  keep : (t.attr.owned = true → t'.attr.owned = true) ∧
    (t.attr.readonly = true → t'.attr.readonly = true)

theorem SameShape.refl (t : Tag) : SameShape t t :=
  ⟨rfl, rfl, rfl, rfl, rfl, rfl, Store.Same.refl _, Int.le_refl _, Int.le_refl _, fun _ => rfl,
    id, id⟩

theorem SameShape.trans {a b c : Tag} (h1 : SameShape a b) (h2 : SameShape b c) : SameShape a c :=
  ⟨h2.name.trans h1.name, h2.type.trans h1.type, h2.count.trans h1.count, h2.fd.trans h1.fd,
    h2.virt.trans h1.virt, h2.wild.trans h1.wild, h1.data.trans h2.data,
    Int.le_trans h1.nextevent h2.nextevent, Int.le_trans h1.nextmap h2.nextmap,
    fun h => (h2.ro (by rw [h1.name]; exact h)).trans (h1.ro h),
    fun h => h2.keep.1 (h1.keep.1 h), fun h => h2.keep.2 (h1.keep.2 h)⟩

structure Quiet (F : Nat → Prop) (s s' : Server) : Prop where
  index : s'.index = s.index
  dbsize : s'.dbsize = s.dbsize
  tagcount : s'.tagcount = s.tagcount
  cdts : s'.cdts = s.cdts
  modType : s'.modType = s.modType
  env : s'.env = s.env
  len : s'.db.length = s.db.length
  tag : ∀ (i : Nat) (t : Tag), s.db[i]? = some t →
    ∃ t', s'.db[i]? = some t' ∧ SameShape t t' ∧ (¬ F i → t' = t)

theorem Quiet.refl (F : Nat → Prop) (s : Server) : Quiet F s s :=
  ⟨rfl, rfl, rfl, rfl, rfl, rfl, rfl, fun _ t h => ⟨t, h, SameShape.refl t, fun _ => rfl⟩⟩

theorem Quiet.trans {F : Nat → Prop} {a b c : Server} (h1 : Quiet F a b) (h2 : Quiet F b c) :
    Quiet F a c :=
  ⟨h2.index.trans h1.index, h2.dbsize.trans h1.dbsize, h2.tagcount.trans h1.tagcount,
    h2.cdts.trans h1.cdts, h2.modType.trans h1.modType, h2.env.trans h1.env, h2.len.trans h1.len,
    fun i t h => by
      obtain ⟨t1, ht1, hs1, hf1⟩ := h1.tag i t h
      obtain ⟨t2, ht2, hs2, hf2⟩ := h2.tag i t1 ht1
      exact ⟨t2, ht2, hs1.trans hs2, fun hn => (hf2 hn).trans (hf1 hn)⟩⟩

theorem Quiet.mono {F G : Nat → Prop} {a b : Server} (h : Quiet F a b) (hFG : ∀ i, F i → G i) :
    Quiet G a b :=
  ⟨h.index, h.dbsize, h.tagcount, h.cdts, h.modType, h.env, h.len, fun i t ht => by
    obtain ⟨t', ht', hs, hf⟩ := h.tag i t ht
    exact ⟨t', ht', hs, fun hn => hf (fun hF => hn (hFG i hF))⟩⟩

/-- A tag that is not written keeps everything. -/
theorem Quiet.same {F : Nat → Prop} {a b : Server} (h : Quiet F a b) {i : Nat} (hF : ¬ F i) :
    b.db[i]? = a.db[i]? := by
  cases hi : a.db[i]? with
  | none =>
    have := List.getElem?_eq_none_iff.mp hi
    rw [List.getElem?_eq_none]; rw [h.len]; exact this
  | some t =>
    obtain ⟨t', ht', -, hf⟩ := h.tag i t hi
    rw [ht', hf hF]

/-- Changes to anything but the listed components. -/
theorem Quiet.of_eq {F : Nat → Prop} {s s' : Server} (h1 : s'.index = s.index)
    (h2 : s'.dbsize = s.dbsize) (h3 : s'.tagcount = s.tagcount) (h4 : s'.cdts = s.cdts)
    (h5 : s'.modType = s.modType) (h6 : s'.env = s.env) (h7 : s'.db = s.db) : Quiet F s s' :=
  ⟨h1, h2, h3, h4, h5, h6, by rw [h7], fun i t h => ⟨t, by rw [h7]; exact h, SameShape.refl t, fun _ => rfl⟩⟩

/-- Replacing one tag by one of the same shape. -/
theorem Quiet.of_set {s s' : Server} {i : Nat} {t t' : Tag}
    (h1 : s'.index = s.index)
    (h2 : s'.dbsize = s.dbsize) (h3 : s'.tagcount = s.tagcount) (h4 : s'.cdts = s.cdts)
    (h5 : s'.modType = s.modType) (h6 : s'.env = s.env)
    (ht : s.db[i]? = some t) (hdb : s'.db = s.db.set i t') (hs : SameShape t t') :
    Quiet (· = i) s s' :=
  ⟨h1, h2, h3, h4, h5, h6, by rw [hdb]; simp, fun j u hu => by
    by_cases hij : i = j
    · subst hij
      rw [ht] at hu; cases hu
      exact ⟨t', by simp [hdb, (List.getElem?_eq_some_iff.mp ht).1], hs, fun h => absurd rfl h⟩
    · exact ⟨u, by simp [hdb, List.getElem?_set_ne hij, hu], SameShape.refl u, fun _ => rfl⟩⟩

theorem WriteDone.quiet {s s' : Server} {idx off : Int} {d : List Byte} {size : Nat}
    (h : WriteDone s idx off d size s') : Quiet (· = idx.toNat) s s' := by
  obtain ⟨t, b, b', evs, ns, rt, ht, hv, hb, hw, he, rfl⟩ := h.ex
  exact Quiet.of_set rfl rfl rfl rfl rfl rfl (tag?_eq.mp ht).2
    rfl ⟨rfl, rfl, rfl, rfl, rfl, rfl, by simp [hb, Store.Same, wr_length hw], Int.le_refl _, Int.le_refl _, fun _ => rfl, id, id⟩

theorem queueWrite_size {e : Env} {q q' : Queue} {off : Int} {d : List Byte}
    (h : queueWrite e q off d = .ok (some q')) : q'.size = q.size := by
  unfold queueWrite at h
  split at h
  · simp at h
  · dsimp only at h
    generalize hq : (if q.qcount = q.slots.length then
        { q with slots := q.slots ++ q.slots.take q.qread ++
                   List.replicate (q.slots.length - q.qread)
                     (if e.junkQNull then QPtr.null else QPtr.wild) }
      else q) = q1 at h
    have hs : q1.size = q.size := by rw [← hq]; split <;> rfl
    split at h
    · simp only [C.ok.injEq, Option.some.injEq] at h; rw [← h]; exact hs
    · split at h
      · simp only [C.ok.injEq, Option.some.injEq] at h; rw [← h]; exact hs
      · simp at h
    · simp at h

theorem QueueDone.quiet {s s' : Server} {idx off : Int} {d : List Byte}
    (h : QueueDone s idx off d s') : Quiet (· = idx.toNat) s s' := by
  obtain ⟨t, q, q', evs, ns, ht, hv, hq, hw, he, rfl⟩ := h
  exact Quiet.of_set rfl rfl rfl rfl rfl rfl (tag?_eq.mp ht).2
    rfl ⟨rfl, rfl, rfl, rfl, rfl, rfl, by simp [hq, Store.Same, queueWrite_size hw], Int.le_refl _, Int.le_refl _, fun _ => rfl, id, id⟩

theorem tagWrite_quiet {s s' : Server} {fd idx off : Int} {d : List Byte} {r : Int}
    (h : tagWrite s fd idx off d = .ok (s', r)) : Quiet (· = idx.toNat) s s' := by
  rcases tagWrite_inv h with ⟨rfl, -⟩ | ⟨-, h⟩ | ⟨-, h⟩
  · exact Quiet.refl _ _
  · exact h.quiet
  · exact h.quiet

theorem tagMaskWrite_quiet {s s' : Server} {fd idx off : Int} {d m : List Byte} {r : Int}
    (h : tagMaskWrite s fd idx off d m = .ok (s', r)) : Quiet (· = idx.toNat) s s' := by
  rcases tagMaskWrite_inv h with ⟨rfl, -⟩ | ⟨-, t, b, old, -, -, -, h⟩
  · exact Quiet.refl _ _
  · exact h.quiet

theorem queueRead_size {q q' : Queue} {b : List Byte} (h : queueRead q = .ok (some (b, q'))) :
    q'.size = q.size := by
  unfold queueRead at h
  split at h
  · simp at h
  · split at h
    · split at h
      · simp only [C.ok.injEq, Option.some.injEq, Prod.mk.injEq] at h; rw [← h.2]
      · simp at h
    · simp at h

/-- A read changes the state only when it takes an element from a queue. -/
theorem tagRead_inv {s s' : Server} {fd idx off size : Int} {r : Except Int (List Byte)}
    (h : tagRead s fd idx off size = .ok (s', r)) :
    s' = s ∨ ∃ t q q' b, s.tag? idx = some t ∧ t.attr.virt = true ∧ t.data = .queue q ∧
      queueRead q = .ok (some (b, q')) ∧ s' = s.setTag idx { t with data := .queue q' } ∧
      r = .ok b := by
  unfold tagRead at h
  split at h
  · simp only [C.ok.injEq, Prod.mk.injEq] at h; exact .inl h.1.symm
  · rename_i t ht
    split at h
    · rename_i hv
      unfold virtRead at h
      split at h
      · obtain ⟨d, -, h⟩ := C.bind_eq_ok.mp h
        simp only [C.ok.injEq, Prod.mk.injEq] at h; exact .inl h.1.symm
      · split at h
        · simp only [C.ok.injEq, Prod.mk.injEq] at h; exact .inl h.1.symm
        · split at h
          · simp only [C.ok.injEq, Prod.mk.injEq] at h; exact .inl h.1.symm
          · split at h
            · simp only [C.ok.injEq, Prod.mk.injEq] at h; exact .inl h.1.symm
            · split at h
              · simp only [C.ok.injEq, Prod.mk.injEq] at h; exact .inl h.1.symm
              · simp at h
              · simp only [C.ok.injEq, Prod.mk.injEq] at h; exact .inl h.1.symm
      · rename_i q hq
        obtain ⟨o, ho, h⟩ := C.bind_eq_ok.mp h
        cases o with
        | none => simp only [C.ok.injEq, Prod.mk.injEq] at h; exact .inl h.1.symm
        | some p =>
          obtain ⟨b, q'⟩ := p
          simp only [C.ok.injEq, Prod.mk.injEq] at h
          exact .inr ⟨t, q, q', b, ht, hv, hq, ho, h.1.symm, h.2.symm⟩
      · simp at h
    · obtain ⟨e, -, h⟩ := C.bind_eq_ok.mp h
      obtain ⟨sz, -, h⟩ := C.bind_eq_ok.mp h
      split at h
      · simp only [C.ok.injEq, Prod.mk.injEq] at h; exact .inl h.1.symm
      · split at h
        · simp only [C.ok.injEq, Prod.mk.injEq] at h; exact .inl h.1.symm
        · obtain ⟨d, -, h⟩ := C.bind_eq_ok.mp h
          split at h
          · obtain ⟨d, -, h⟩ := C.bind_eq_ok.mp h
            simp only [C.ok.injEq, Prod.mk.injEq] at h; exact .inl h.1.symm
          · simp only [C.ok.injEq, Prod.mk.injEq] at h; exact .inl h.1.symm
        · simp at h

theorem tagRead_quiet {s s' : Server} {fd idx off size : Int} {r : Except Int (List Byte)}
    (h : tagRead s fd idx off size = .ok (s', r)) : Quiet (· = idx.toNat) s s' := by
  rcases tagRead_inv h with rfl | ⟨t, q, q', b, ht, hv, hq, hr, rfl, -⟩
  · exact Quiet.refl _ _
  · exact Quiet.of_set rfl rfl rfl rfl rfl rfl (tag?_eq.mp ht).2
      rfl ⟨rfl, rfl, rfl, rfl, rfl, rfl, by simp [hq, Store.Same, queueRead_size hr], Int.le_refl _, Int.le_refl _, fun _ => rfl, id, id⟩

theorem statusWrite_quiet {s s' : Server} {i v : Int} (h : statusWrite s i v = .ok s') :
    Quiet (· = i.toNat) s s' := by
  unfold statusWrite at h
  split at h
  · simp only [C.ok.injEq] at h; subst h; exact Quiet.refl _ _
  · split at h
    · simp only [C.ok.injEq] at h; subst h; exact Quiet.refl _ _
    · obtain ⟨⟨s1, r⟩, h1, h⟩ := C.bind_eq_ok.mp h
      simp only [C.ok.injEq] at h; subst h
      exact tagWrite_quiet h1

/-- The attributes after `_set_attribute`. -/
def attrAfter (x : Attr) (a : Nat) : Attr :=
  if wantRetain a then { x with retain := true }
  else if wantOwned a && wantReadonly a then { x with owned := true, readonly := true }
  else if wantOwned a then { x with owned := true }
  else x

theorem attrAfter_virt (x : Attr) (a : Nat) : (attrAfter x a).virt = x.virt := by
  unfold attrAfter; split <;> (try split) <;> (try split) <;> rfl

theorem attrAfter_keep (x : Attr) (a : Nat) :
    (x.owned = true → (attrAfter x a).owned = true) ∧
      (x.readonly = true → (attrAfter x a).readonly = true) := by
  unfold attrAfter
  refine ⟨fun h => ?_, fun h => ?_⟩ <;>
    (split <;> (try split) <;> (try split) <;> first | rfl | exact h)

theorem set_same {α : Type} {l : List α} {i : Nat} {x : α} (h : l[i]? = some x) : l.set i x = l := by
  obtain ⟨hi, rfl⟩ := List.getElem?_eq_some_iff.mp h
  exact List.set_getElem_self hi

/-- What marking tag `t` as retained makes of the retention file; `p` is the number of its row afterwards. -/
def RetInsert (s : Server) (t : Tag) (p : Nat) (rt : Ret) : Prop :=
  ∃ r, (if isCustom t.type then retAddType s.cdts (s.cdts.length + 1) s.ret t.type else .ok s.ret) = .ok r ∧
    ((r.isOpen = false ∧ p = t.retPtr ∧ rt = r) ∨
      (r.isOpen = true ∧ ∃ tn name, cdtGetName s.cdts t.type = some tn ∧ t.name = some name ∧
        (((∃ x ∈ r.rows, x.name = name) ∧ p = t.retPtr ∧ rt = r) ∨
          ((∀ x ∈ r.rows, x.name ≠ name) ∧ p = r.lastId + 1 ∧
            rt = { r with lastId := r.lastId + 1,
                          rows := r.rows ++ [{ id := r.lastId + 1, name := name, type := tn,
                                               count := i32 t.count, data := none }] }))))

theorem retAddTag_ret {s s' : Server} {i : Nat} (h : retAddTag s i = .ok s') :
    ∃ t p rt, s.db[i]? = some t ∧ s' = { s with db := s.db.set i { t with retPtr := p }, ret := rt } ∧
      RetInsert s t p rt := by
  unfold retAddTag at h
  split at h
  · simp at h
  · rename_i t ht
    have hsame : ∀ rt : Ret, ({ s with ret := rt } : Server) =
        { s with db := s.db.set i { t with retPtr := t.retPtr }, ret := rt } := by
      intro rt; congr 1; exact (set_same ht).symm
    obtain ⟨r, hr, h⟩ : ∃ r : Ret,
        (if isCustom t.type then retAddType s.cdts (s.cdts.length + 1) s.ret t.type else .ok s.ret) = .ok r ∧
        ((if r.isOpen then
        match cdtGetName s.cdts t.type, t.name with
        | some tn, some name =>
          if r.rows.any (fun x => x.name = name) then .ok { s with ret := r }
          else
            .ok { s with
                  ret := { r with lastId := r.lastId + 1,
                                  rows := r.rows ++ [{ id := r.lastId + 1, name := name, type := tn,
                                                       count := i32 t.count, data := none }] },
                  db := s.db.set i { t with retPtr := r.lastId + 1 } }
        | _, _ => .ub "NULL string"
      else .ok { s with ret := r }) : C Server) = .ok s' := by
      dsimp only at h
      split at h
      all_goals
        rename_i hc
        obtain ⟨r, hr, h⟩ := C.bind_eq_ok.mp h
        refine ⟨r, ?_, h⟩
        simp only [hc, if_true, if_false, Bool.false_eq_true]
        exact hr
    split at h
    · rename_i ho
      split at h
      · rename_i tn name htn hname
        split at h
        · rename_i ha
          simp only [C.ok.injEq] at h; subst h
          exact ⟨t, t.retPtr, _, ht, hsame _, r, hr, .inr ⟨ho, tn, name, htn, hname, .inl ⟨by simpa using ha, rfl, rfl⟩⟩⟩
        · rename_i ha
          simp only [C.ok.injEq] at h; subst h
          exact ⟨t, _, _, ht, rfl, r, hr, .inr ⟨ho, tn, name, htn, hname, .inr ⟨by simpa using ha, rfl, rfl⟩⟩⟩
      · simp at h
    · rename_i ho
      simp only [C.ok.injEq] at h; subst h
      exact ⟨t, t.retPtr, _, ht, hsame _, r, hr, .inl ⟨by simpa using ho, rfl, rfl⟩⟩

theorem retAddTag_inv {s s' : Server} {i : Nat} (h : retAddTag s i = .ok s') :
    ∃ t p rt, s.db[i]? = some t ∧ s' = { s with db := s.db.set i { t with retPtr := p }, ret := rt } := by
  unfold retAddTag at h
  split at h
  · simp at h
  · rename_i t ht
    have hsame : ∀ rt : Ret, ({ s with ret := rt } : Server) =
        { s with db := s.db.set i { t with retPtr := t.retPtr }, ret := rt } := by
      intro rt; congr 1; exact (set_same ht).symm
    obtain ⟨r, h⟩ : ∃ r : Ret, ((if r.isOpen then
        match cdtGetName s.cdts t.type, t.name with
        | some tn, some name =>
          if r.rows.any (fun x => x.name = name) then .ok { s with ret := r }
          else
            .ok { s with
                  ret := { r with lastId := r.lastId + 1,
                                  rows := r.rows ++ [{ id := r.lastId + 1, name := name, type := tn,
                                                       count := i32 t.count, data := none }] },
                  db := s.db.set i { t with retPtr := r.lastId + 1 } }
        | _, _ => .ub "NULL string"
      else .ok { s with ret := r }) : C Server) = .ok s' := by
      dsimp only at h
      split at h
      all_goals
        obtain ⟨r, -, h⟩ := C.bind_eq_ok.mp h
        exact ⟨r, h⟩
    split at h
    · split at h
      · split at h
        · simp only [C.ok.injEq] at h; subst h; exact ⟨t, t.retPtr, _, ht, hsame _⟩
        · simp only [C.ok.injEq] at h; subst h
          exact ⟨t, _, _, ht, rfl⟩
      · simp at h
    · simp only [C.ok.injEq] at h; subst h; exact ⟨t, t.retPtr, _, ht, hsame _⟩

theorem setAttribute_ret {s s' : Server} {i a : Nat} (h : setAttribute s i a = .ok s') :
    ∃ t p rt, s.db[i]? = some t ∧
      s' = { s with db := s.db.set i { t with attr := attrAfter t.attr a, retPtr := p }, ret := rt } ∧
      ((wantRetain a = false ∧ p = t.retPtr ∧ rt = s.ret) ∨ (wantRetain a = true ∧ RetInsert s t p rt)) := by
  unfold setAttribute at h
  split at h
  · rename_i hr
    obtain ⟨s1, h1, h⟩ := C.bind_eq_ok.mp h
    obtain ⟨t, p, rt, ht, rfl, hi⟩ := retAddTag_ret h1
    have hlt := (List.getElem?_eq_some_iff.mp ht).1
    simp only [List.getElem?_set_self hlt, C.ok.injEq] at h
    subst h
    refine ⟨t, p, rt, ht, ?_, .inr ⟨hr, hi⟩⟩
    simp [attrAfter, hr]
  · rename_i hr
    have hr' : wantRetain a = false := by simpa using hr
    split at h
    · simp at h
    · rename_i t ht
      dsimp only at h
      split at h
      · rename_i h1
        simp only [C.ok.injEq] at h; subst h
        exact ⟨t, t.retPtr, s.ret, ht, by simp only [attrAfter, if_neg hr, if_pos h1], .inl ⟨hr', rfl, rfl⟩⟩
      · rename_i h1
        split at h
        · rename_i h2
          simp only [C.ok.injEq] at h; subst h
          exact ⟨t, t.retPtr, s.ret, ht, by simp only [attrAfter, if_neg hr, if_neg h1, if_pos h2], .inl ⟨hr', rfl, rfl⟩⟩
        · rename_i h2
          simp only [C.ok.injEq] at h; subst h
          refine ⟨t, t.retPtr, s.ret, ht, ?_, .inl ⟨hr', rfl, rfl⟩⟩
          simp only [attrAfter, if_neg hr, if_neg h1, if_neg h2]
          rw [set_same ht]

theorem setAttribute_inv {s s' : Server} {i a : Nat} (h : setAttribute s i a = .ok s') :
    ∃ t p rt, s.db[i]? = some t ∧
      s' = { s with db := s.db.set i { t with attr := attrAfter t.attr a, retPtr := p }, ret := rt } := by
  unfold setAttribute at h
  split at h
  · rename_i hr
    obtain ⟨s1, h1, h⟩ := C.bind_eq_ok.mp h
    obtain ⟨t, p, rt, ht, rfl⟩ := retAddTag_inv h1
    have hi := (List.getElem?_eq_some_iff.mp ht).1
    simp only [List.getElem?_set_self hi, C.ok.injEq] at h
    subst h
    refine ⟨t, p, rt, ht, ?_⟩
    simp [attrAfter, hr]
  · rename_i hr
    split at h
    · simp at h
    · rename_i t ht
      dsimp only at h
      split at h
      · rename_i h1
        simp only [C.ok.injEq] at h; subst h
        exact ⟨t, t.retPtr, s.ret, ht, by simp only [attrAfter, if_neg hr, if_pos h1]⟩
      · rename_i h1
        split at h
        · rename_i h2
          simp only [C.ok.injEq] at h; subst h
          exact ⟨t, t.retPtr, s.ret, ht, by simp only [attrAfter, if_neg hr, if_neg h1, if_pos h2]⟩
        · rename_i h2
          simp only [C.ok.injEq] at h; subst h
          refine ⟨t, t.retPtr, s.ret, ht, ?_⟩
          simp only [attrAfter, if_neg hr, if_neg h1, if_neg h2]
          have := set_same ht
          show s = { s with db := s.db.set i t }
          rw [this]

theorem setAttribute_quiet {s s' : Server} {i a : Nat} (h : setAttribute s i a = .ok s')
    (hn : ∀ t, s.db[i]? = some t → t.name ≠ none) : Quiet (· = i) s s' := by
  obtain ⟨t, p, rt, ht, rfl⟩ := setAttribute_inv h
  exact Quiet.of_set rfl rfl rfl rfl rfl rfl ht rfl
    ⟨rfl, rfl, rfl, rfl, attrAfter_virt _ _, rfl, Store.Same.refl _, Int.le_refl _, Int.le_refl _,
      fun h => absurd h (hn t ht), attrAfter_keep _ _⟩

/-- Replacing one entry through a signed index. -/
theorem setTag_quiet {s : Server} {idx : Int} {t t' : Tag} (ht : s.tag? idx = some t)
    (hs : SameShape t t') : Quiet (· = idx.toNat) s (s.setTag idx t') :=
  Quiet.of_set rfl rfl rfl rfl rfl rfl (tag?_eq.mp ht).2 rfl hs

theorem updMod_quiet (F : Nat → Prop) (s : Server) (uid : Nat) (f : Module → Module) :
    Quiet F s (s.updMod uid f) := Quiet.of_eq rfl rfl rfl rfl rfl rfl rfl

end Dax
