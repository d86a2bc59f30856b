import Verif.Lemmas.QuietOps
import Verif.Lemmas.Index
import Verif.Lemmas.Types
/-!
# The server invariant

`WF` holds in every state the server reaches; `Evolve` relates each state to every later one.
-/
namespace Dax

/-- Number of tags that have not been deleted. -/
def live (db : List Tag) : Nat := db.countP (fun t => t.name.isSome)

/-- Facts about one tag. -/
structure TagOK (tbl : List Cdt) (t : Tag) : Prop where
  name : t.name = none ↔ t.data = .freed
  mem : ∀ b, t.data = .mem b →
    allocSize tbl t.type t.count = .ok b.length ∧ isQueue t.type = false
  chk : checkType tbl t.type = true ∧ 0 < t.count
  virt : t.attr.virt = false → t.data = .freed ∨ ∃ b, t.data = .mem b
  freed : t.data = .freed → t.attr.virt = false ∧ t.attr.readonly = false
  queue : ∀ q, t.data = .queue q → isQueue t.type = true
  cnt : t.count < 4294967296
  valid : ∀ n, t.name = some n → validateName n = 0

/-- Facts about the table of compound types. -/
structure CdtWF (tbl : List Cdt) : Prop where
  small : tbl.length ≤ 1073741824
  acyc : ∀ (i : Nat) (c : Cdt), tbl[i]? = some c → ∀ m ∈ c.members,
    m.type ∈ baseTypes ∨ ∃ j, j < i ∧ m.type = cdtToType j
  valid : ∀ c ∈ tbl, validateName c.name = 0
  nobase : ∀ c ∈ tbl, ∀ p ∈ baseNames, strcaseeq c.name p.1 = false
  uniq : tbl.Pairwise (fun a b => strcaseeq b.name a.name = false)
  mvalid : ∀ c ∈ tbl, ∀ m ∈ c.members, validateName m.name = 0 ∧ m.count < 4294967296
  muniq : ∀ c ∈ tbl, c.members.Pairwise (fun a b => strcaseeq b.name a.name = false)

structure WF (s : Server) : Prop where
  sorted : Sorted s.index
  ent : ∀ e ∈ s.index, ∃ t, s.db[e.tag]? = some t ∧ t.name = some e.name
  named : ∀ (i : Nat) (t : Tag) (n : Name), s.db[i]? = some t → t.name = some n → ⟨n, i⟩ ∈ s.index
  dbsz : s.db.length ≤ s.dbsize
  dbpos : 0 < s.dbsize
  ixlen : s.index.length ≤ s.db.length
  dblt : s.db.length < 2147483648
  tag : ∀ (i : Nat) (t : Tag), s.db[i]? = some t → TagOK s.cdts t
  count : s.tagcount = live s.db
  cdts : CdtWF s.cdts

/-- How a state relates to a later one. -/
structure Evolve (s s' : Server) : Prop where
  tag : ∀ (i : Nat) (t : Tag), s.db[i]? = some t → ∃ t', s'.db[i]? = some t' ∧
    t'.type = t.type ∧ t'.fd = t.fd ∧ (t'.name = t.name ∨ t'.name = none) ∧ t.count ≤ t'.count ∧
    t.nextevent ≤ t'.nextevent ∧ t.nextmap ≤ t'.nextmap ∧
    (t'.name = none ∨ ((t.attr.owned = true → t'.attr.owned = true) ∧
      (t.attr.readonly = true → t'.attr.readonly = true)))
  cdts : CdtExt s.cdts s'.cdts

theorem Evolve.refl (s : Server) : Evolve s s :=
  ⟨fun _ t h => ⟨t, h, rfl, rfl, .inl rfl, Nat.le_refl _, Int.le_refl _, Int.le_refl _,
    .inr ⟨id, id⟩⟩, CdtExt.refl _⟩

theorem Evolve.trans {a b c : Server} (h1 : Evolve a b) (h2 : Evolve b c) : Evolve a c := by
  refine ⟨fun i t h => ?_, h1.cdts.trans h2.cdts⟩
  obtain ⟨t1, e1, a1, b1, c1, d1, f1, g1, k1⟩ := h1.tag i t h
  obtain ⟨t2, e2, a2, b2, c2, d2, f2, g2, k2⟩ := h2.tag i t1 e1
  refine ⟨t2, e2, a2.trans a1, b2.trans b1, ?_, Nat.le_trans d1 d2, Int.le_trans f1 f2,
    Int.le_trans g1 g2, ?_⟩
  · rcases c2 with c2 | c2
    · rw [c2]; exact c1
    · exact .inr c2
  · rcases k2 with k2 | k2
    · exact .inl k2
    · rcases k1 with k1 | k1
      · left
        rcases c2 with c2 | c2
        · rw [c2]; exact k1
        · exact c2
      · exact .inr ⟨fun h => k2.1 (k1.1 h), fun h => k2.2 (k1.2 h)⟩

theorem Evolve.len {a b : Server} (h : Evolve a b) : a.db.length ≤ b.db.length := by
  rcases Nat.lt_or_ge b.db.length a.db.length with hlt | hge
  · obtain ⟨t', ht', -⟩ := h.tag b.db.length _ (List.getElem?_eq_getElem hlt)
    simp at ht'
  · exact hge

/-- One server action: the invariant is kept and the state evolves. -/
structure Step (s s' : Server) : Prop where
  wf : WF s'
  ev : Evolve s s'

theorem Step.refl {s : Server} (h : WF s) : Step s s := ⟨h, Evolve.refl s⟩

theorem Step.trans {a b c : Server} (h1 : Step a b) (h2 : Step b c) : Step a c :=
  ⟨h2.wf, h1.ev.trans h2.ev⟩

/-! ## Quiet changes -/

theorem allocSize_ext {tbl tbl' : List Cdt} (h : CdtExt tbl tbl') {type count n : Nat}
    (hc : checkType tbl type = true) (ha : allocSize tbl type count = .ok n) :
    allocSize tbl' type count = .ok n := by
  unfold allocSize at *
  split at ha
  · rename_i hb; rw [if_pos hb]; exact ha
  · rename_i hb; rw [if_neg hb]
    obtain ⟨ts, hts, ha⟩ := C.bind_eq_ok.mp ha
    rw [typeSize_ext h hts hc]; exact ha

theorem TagOK.ext {tbl tbl' : List Cdt} (h : CdtExt tbl tbl') {t : Tag} (ht : TagOK tbl t) :
    TagOK tbl' t :=
  ⟨ht.name, fun b hb => ⟨allocSize_ext h ht.chk.1 (ht.mem b hb).1, (ht.mem b hb).2⟩,
    ⟨checkType_ext h ht.chk.1, ht.chk.2⟩, ht.virt, ht.freed, ht.queue, ht.cnt, ht.valid⟩

theorem TagOK.shape {tbl : List Cdt} {t t' : Tag} (h : TagOK tbl t) (hs : SameShape t t') :
    TagOK tbl t' := by
  have hd := hs.data
  refine ⟨?_, ?_, ?_, ?_, ?_, ?_, by rw [hs.count]; exact h.cnt,
    fun n hn => h.valid n (by rw [← hs.name]; exact hn)⟩
  · rw [hs.name, h.name]
    cases h1 : t.data <;> cases h2 : t'.data <;> rw [h1, h2] at hd <;> simp [Store.Same] at hd ⊢
  · intro b hb
    rw [hb] at hd
    cases h1 : t.data <;> rw [h1] at hd <;> simp [Store.Same] at hd
    rename_i b0
    have := h.mem b0 h1
    rw [hs.type, hs.count, hd]; exact this
  · rw [hs.type, hs.count]; exact h.chk
  · intro hv
    rw [hs.virt] at hv
    rcases h.virt hv with h1 | ⟨b, h1⟩
    · rw [h1] at hd
      cases h2 : t'.data <;> rw [h2] at hd <;> simp [Store.Same] at hd ⊢
    · rw [h1] at hd
      cases h2 : t'.data <;> rw [h2] at hd <;> simp [Store.Same] at hd ⊢
  · intro hf
    rw [hf] at hd
    have h1 : t.data = .freed := by
      cases h1 : t.data <;> rw [h1] at hd <;> simp [Store.Same] at hd ⊢
    rw [hs.virt, hs.ro (h.name.mpr h1)]
    exact h.freed h1
  · intro q hq
    rw [hq] at hd
    rw [hs.type]
    cases h1 : t.data <;> rw [h1] at hd <;> simp [Store.Same] at hd
    exact h.queue _ h1

theorem countP_congr_get {p : Tag → Bool} :
    ∀ {l l' : List Tag}, l'.length = l.length →
      (∀ (i : Nat) (t : Tag), l[i]? = some t → ∃ t', l'[i]? = some t' ∧ p t' = p t) →
      l'.countP p = l.countP p
  | [], [], _, _ => rfl
  | [], _ :: _, h, _ => by simp at h
  | _ :: _, [], h, _ => by simp at h
  | a :: l, b :: l', h, hg => by
    have h0 := hg 0 a rfl
    obtain ⟨b', hb', hp⟩ := h0
    simp at hb'; subst hb'
    have := countP_congr_get (l := l) (l' := l') (by simpa using h)
      (fun i t ht => by simpa using hg (i + 1) t (by simpa using ht))
    rw [List.countP_cons, List.countP_cons, this, hp]

theorem Quiet.step {F : Nat → Prop} {s s' : Server} (q : Quiet F s s') (h : WF s) : Step s s' := by
  have back : ∀ (i : Nat) (t' : Tag), s'.db[i]? = some t' →
      ∃ t, s.db[i]? = some t ∧ SameShape t t' := by
    intro i t' ht'
    have hlt := (List.getElem?_eq_some_iff.mp ht').1
    rw [q.len] at hlt
    obtain ⟨t1, h1, hs, -⟩ := q.tag i _ (List.getElem?_eq_getElem hlt)
    rw [ht'] at h1; cases h1
    exact ⟨_, List.getElem?_eq_getElem hlt, hs⟩
  refine ⟨⟨?_, ?_, ?_, ?_, ?_, ?_, ?_, ?_, ?_, ?_⟩, ?_, ?_⟩
  · rw [q.index]; exact h.sorted
  · intro e he
    rw [q.index] at he
    obtain ⟨t, ht, hn⟩ := h.ent e he
    obtain ⟨t', ht', hs, -⟩ := q.tag _ t ht
    exact ⟨t', ht', by rw [hs.name, hn]⟩
  · intro i t' n ht' hn
    obtain ⟨t, ht, hs⟩ := back i t' ht'
    rw [q.index]
    exact h.named i t n ht (by rw [← hs.name]; exact hn)
  · rw [q.len, q.dbsize]; exact h.dbsz
  · rw [q.dbsize]; exact h.dbpos
  · rw [q.len, q.index]; exact h.ixlen
  · rw [q.len]; exact h.dblt
  · intro i t' ht'
    obtain ⟨t, ht, hs⟩ := back i t' ht'
    rw [q.cdts]
    exact (h.tag i t ht).shape hs
  · rw [q.tagcount, h.count]
    congr 1
    exact (countP_congr_get q.len (fun i t ht => by
      obtain ⟨t', ht', hs, -⟩ := q.tag i t ht
      exact ⟨t', ht', by rw [hs.name]⟩)).symm
  · rw [q.cdts]; exact h.cdts
  · intro i t ht
    obtain ⟨t', ht', hs, -⟩ := q.tag i t ht
    exact ⟨t', ht', hs.type, hs.fd, .inl hs.name, by rw [hs.count]; exact Nat.le_refl _,
      hs.nextevent, hs.nextmap, .inr hs.keep⟩
  · rw [q.cdts]; exact CdtExt.refl _

/-! ## Adding a tag -/

theorem growDb_step {s : Server} (h : WF s) : Step s (growDb s) := by
  unfold growDb
  split
  · exact ⟨⟨h.sorted, h.ent, h.named, by have := h.dbsz; show s.db.length ≤ s.dbsize * 2; omega,
      by have := h.dbpos; show 0 < s.dbsize * 2; omega, h.ixlen, h.dblt, h.tag, h.count, h.cdts⟩,
      ⟨(Evolve.refl s).tag, (Evolve.refl s).cdts⟩⟩
  · exact Step.refl h

theorem growDb_room {s : Server} (h : WF s) : (growDb s).db.length < (growDb s).dbsize := by
  have h1 := h.dbsz
  have h2 := h.dbpos
  unfold growDb
  split
  · show s.db.length < s.dbsize * 2; omega
  · omega

theorem incRef_ext {tbl tbl' : List Cdt} {type : Nat} (h : incRef tbl type = .ok tbl') :
    CdtExt tbl tbl' ∧ ∃ f : Nat → Cdt → Nat, tbl' = tbl.mapIdx (fun i c => { c with refcount := f i c }) := by
  unfold incRef at h
  split at h
  · split at h
    · simp at h
    · rename_i c hc
      simp only [C.ok.injEq] at h
      refine ⟨by rw [← h]; exact CdtExt.set hc rfl rfl,
        fun i c => if cdtToIndex type = i then c.refcount + 1 else c.refcount, ?_⟩
      rw [← h]
      apply List.ext_getElem?
      intro i
      rw [List.getElem?_set, List.getElem?_mapIdx]
      split
      · rename_i hi; subst hi
        rw [hc]; simp [(List.getElem?_eq_some_iff.mp hc).1]
      · rename_i hi
        cases tbl[i]? <;> simp [hi]
  · simp only [C.ok.injEq] at h
    subst h
    exact ⟨CdtExt.refl _, fun _ c => c.refcount, by
      apply List.ext_getElem?; intro i; rw [List.getElem?_mapIdx]; cases tbl[i]? <;> simp⟩

theorem decRef_ext {tbl tbl' : List Cdt} {type : Nat} (h : decRef tbl type = .ok tbl') :
    CdtExt tbl tbl' ∧ ∃ f : Nat → Cdt → Nat, tbl' = tbl.mapIdx (fun i c => { c with refcount := f i c }) := by
  unfold decRef at h
  split at h
  · split at h
    · simp at h
    · rename_i c hc
      simp only [C.ok.injEq] at h
      refine ⟨by rw [← h]; exact CdtExt.set hc rfl rfl,
        fun i c => if cdtToIndex type = i then c.refcount - 1 else c.refcount, ?_⟩
      rw [← h]
      apply List.ext_getElem?
      intro i
      rw [List.getElem?_set, List.getElem?_mapIdx]
      split
      · rename_i hi; subst hi
        rw [hc]; simp [(List.getElem?_eq_some_iff.mp hc).1]
      · rename_i hi
        cases tbl[i]? <;> simp [hi]
  · simp only [C.ok.injEq] at h
    subst h
    exact ⟨CdtExt.refl _, fun _ c => c.refcount, by
      apply List.ext_getElem?; intro i; rw [List.getElem?_mapIdx]; cases tbl[i]? <;> simp⟩

theorem CdtWF.refs {tbl : List Cdt} (h : CdtWF tbl) (f : Nat → Cdt → Nat) :
    CdtWF (tbl.mapIdx (fun i c => { c with refcount := f i c })) := by
  have hm : ∀ c' ∈ tbl.mapIdx (fun i c => { c with refcount := f i c }),
      ∃ c ∈ tbl, c'.name = c.name ∧ c'.members = c.members := by
    intro c' hc'
    obtain ⟨i, hi, rfl⟩ := List.mem_mapIdx.mp hc'
    exact ⟨tbl[i], List.getElem_mem _, rfl, rfl⟩
  refine ⟨by simpa using h.small, ?_, ?_, ?_, ?_, ?_, ?_⟩
  · intro i c' hc' m hmem
    rw [List.getElem?_mapIdx] at hc'
    cases hc : tbl[i]? with
    | none => rw [hc] at hc'; simp at hc'
    | some c =>
      rw [hc] at hc'
      simp only [Option.map_some, Option.some.injEq] at hc'
      subst hc'
      exact h.acyc i c hc m hmem
  · intro c' hc'
    obtain ⟨c, hc, hn, -⟩ := hm c' hc'
    rw [hn]; exact h.valid c hc
  · intro c' hc' p hp
    obtain ⟨c, hc, hn, -⟩ := hm c' hc'
    rw [hn]; exact h.nobase c hc p hp
  · have hu := h.uniq
    rw [List.pairwise_iff_getElem] at hu ⊢
    intro i j hi hj hij
    simp only [List.getElem_mapIdx]
    exact hu i j (by simpa using hi) (by simpa using hj) hij
  · intro c' hc' m hmem
    obtain ⟨c, hc, -, hms⟩ := hm c' hc'
    rw [hms] at hmem; exact h.mvalid c hc m hmem
  · intro c' hc'
    obtain ⟨c, hc, -, hms⟩ := hm c' hc'
    rw [hms]; exact h.muniq c hc

theorem newTag_ok {tbl : List Cdt} {e : Env} {n : Nat} {fd : Int} {name : Name}
    {type count size : Nat} (hc : checkType tbl type = true) (hz : 0 < count)
    (hlt : count < 4294967296) (hv : validateName name = 0)
    (ha : allocSize tbl type count = .ok size) : TagOK tbl (newTag e n fd name type count size) := by
  unfold newTag
  refine ⟨?_, ?_, ⟨hc, hz⟩, ?_, ?_, ?_, hlt, fun n hn => by simp at hn; rw [← hn]; exact hv⟩
  · simp only [reduceCtorEq, false_iff]
    split <;> simp
  · intro b hb
    dsimp only at hb
    split at hb
    · simp at hb
    · rename_i hq
      simp only [Store.mem.injEq] at hb
      subst hb
      simp only [List.length_replicate]
      exact ⟨ha, by simpa using hq⟩
  · intro hv
    dsimp only at hv ⊢
    split at hv
    · simp at hv
    · rename_i hq
      rw [if_neg hq]; exact .inr ⟨_, rfl⟩
  · intro hf
    dsimp only at hf
    split at hf <;> simp at hf
  · intro q hq
    dsimp only at hq
    split at hq
    · assumption
    · simp at hq

theorem live_append (db : List Tag) (t : Tag) (h : t.name.isSome = true) :
    live (db ++ [t]) = live db + 1 := by
  simp [live, List.countP_append, h]

/-- A new tag: what `tag_add` does to the table. -/
theorem tagAddNew_step {s s' : Server} {fd : Int} {name : Name} {type count attr size : Nat}
    {r : Int} (h : WF s) (hroom : s.db.length < s.dbsize) (hc : checkType s.cdts type = true)
    (hz : 0 < count) (hlt : count < 4294967296) (hv : validateName name = 0)
    (ha : allocSize s.cdts type count = .ok size) (hh : tagAddNew s fd name type count attr size = .ok (s', r)) :
    Step s s' ∧ r = s.db.length ∧ s'.db.length = s.db.length + 1 ∧
      (∀ e, e ∈ s'.index ↔ e = ⟨name, s.db.length⟩ ∨ e ∈ s.index) ∧
      (∃ t p, s'.db[s.db.length]? = some t ∧
        SameShape (newTag s.env s.db.length fd name type count size) t ∧
        (2 < s.db.length → t = { newTag s.env s.db.length fd name type count size with
          attr := attrAfter (newTag s.env s.db.length fd name type count size).attr attr,
          retPtr := p })) ∧
      (∀ i, i ≠ 0 → i ≠ 1 → i ≠ 2 → i < s.db.length → s'.db[i]? = s.db[i]?) := by
  unfold tagAddNew at hh
  dsimp only at hh
  split at hh
  · simp at hh
  rename_i hsmall
  obtain ⟨ix, hix, hh⟩ := C.bind_eq_ok.mp hh
  obtain ⟨tbl, htbl, hh⟩ := C.bind_eq_ok.mp hh
  obtain ⟨s2, h2, hh⟩ := C.bind_eq_ok.mp hh
  obtain ⟨s4, h4, hh⟩ := C.bind_eq_ok.mp hh
  obtain ⟨s5, h5, hh⟩ := C.bind_eq_ok.mp hh
  obtain ⟨⟨s6, r6⟩, h6, hh⟩ := C.bind_eq_ok.mp hh
  simp only [C.ok.injEq, Prod.mk.injEq] at hh
  obtain ⟨rfl, rfl⟩ := hh
  obtain ⟨hsrt, hmem, hlen, -, hnew⟩ := addIndex_ok h.sorted hix
  obtain ⟨hext, f, hf⟩ := incRef_ext htbl
  have q2 := statusWrite_quiet h2
  have hcdts2 : s2.cdts = tbl := q2.cdts
  have hidx2 : s2.index = ix := q2.index
  have hlen2 : s2.db.length = s.db.length := q2.len
  have back : ∀ (i : Nat) (t' : Tag), s2.db[i]? = some t' →
      ∃ t, s.db[i]? = some t ∧ SameShape t t' := by
    intro i t' ht'
    have hlt := (List.getElem?_eq_some_iff.mp ht').1
    rw [hlen2] at hlt
    obtain ⟨t1, h1, hs, -⟩ := q2.tag i _ (List.getElem?_eq_getElem hlt)
    rw [ht'] at h1; cases h1
    exact ⟨_, List.getElem?_eq_getElem hlt, hs⟩
  have wf3 : WF { s2 with db := s2.db ++ [newTag s2.env s.db.length fd name type count size],
                          tagcount := s2.tagcount + 1 } := by
    refine ⟨?_, ?_, ?_, ?_, ?_, ?_, ?_, ?_, ?_, ?_⟩
    · show Sorted s2.index
      rw [hidx2]; exact hsrt
    · intro e he
      have he : e ∈ s2.index := he
      rw [hidx2, hmem] at he
      rcases he with rfl | he
      · refine ⟨newTag s2.env s.db.length fd name type count size, ?_, rfl⟩
        show (s2.db ++ _)[s.db.length]? = _
        rw [← hlen2]; simp
      · obtain ⟨t, ht, hn⟩ := h.ent e he
        obtain ⟨t', ht', hs, -⟩ := q2.tag _ t ht
        refine ⟨t', ?_, by rw [hs.name, hn]⟩
        show (s2.db ++ _)[e.tag]? = _
        rw [List.getElem?_append_left (List.getElem?_eq_some_iff.mp ht').1]; exact ht'
    · intro i t n ht hn
      have ht : (s2.db ++ [newTag s2.env s.db.length fd name type count size])[i]? = some t := ht
      show _ ∈ s2.index
      rw [hidx2, hmem]
      rcases Nat.lt_or_ge i s2.db.length with hi | hi
      · rw [List.getElem?_append_left hi] at ht
        obtain ⟨t0, ht0, hs⟩ := back i t ht
        exact .inr (h.named i t0 n ht0 (by rw [← hs.name]; exact hn))
      · rw [List.getElem?_append_right hi] at ht
        have hi0 : i - s2.db.length = 0 := by
          have := (List.getElem?_eq_some_iff.mp ht).1
          simp at this; omega
        rw [hi0] at ht
        simp at ht
        subst ht
        left
        simp [newTag] at hn
        rw [hn]; congr 1; omega
    · show (s2.db ++ [_]).length ≤ s2.dbsize
      have : s2.dbsize = s.dbsize := q2.dbsize
      simp; omega
    · show 0 < s2.dbsize
      have : s2.dbsize = s.dbsize := q2.dbsize
      omega
    · show s2.index.length ≤ (s2.db ++ [_]).length
      have := h.ixlen
      rw [hidx2, hlen]; simp; omega
    · show (s2.db ++ [_]).length < _
      simp; omega
    · intro i t ht
      have ht : (s2.db ++ [newTag s2.env s.db.length fd name type count size])[i]? = some t := ht
      show TagOK s2.cdts t
      rw [hcdts2]
      rcases Nat.lt_or_ge i s2.db.length with hi | hi
      · rw [List.getElem?_append_left hi] at ht
        obtain ⟨t0, ht0, hs⟩ := back i t ht
        exact ((h.tag i t0 ht0).shape hs).ext hext
      · rw [List.getElem?_append_right hi] at ht
        have hi0 : i - s2.db.length = 0 := by
          have := (List.getElem?_eq_some_iff.mp ht).1
          simp at this; omega
        rw [hi0] at ht
        simp at ht
        subst ht
        exact (newTag_ok hc hz hlt hv ha).ext hext
    · show s2.tagcount + 1 = (live (s2.db ++ [_]) : Nat)
      rw [live_append _ _ rfl]
      have h1 : s2.tagcount = s.tagcount := q2.tagcount
      have h3 : live s2.db = live s.db := countP_congr_get hlen2 (fun i t ht => by
        obtain ⟨t', ht', hs, -⟩ := q2.tag i t ht
        exact ⟨t', ht', by rw [hs.name]⟩)
      rw [h1, h.count, h3]; omega
    · show CdtWF s2.cdts
      rw [hcdts2, hf]; exact h.cdts.refs f
  have ev3 : Evolve s { s2 with db := s2.db ++ [newTag s2.env s.db.length fd name type count size],
                                tagcount := s2.tagcount + 1 } := by
    refine ⟨fun i t ht => ?_, ?_⟩
    · obtain ⟨t', ht', hs, -⟩ := q2.tag i t ht
      refine ⟨t', ?_, hs.type, hs.fd, .inl hs.name, by rw [hs.count]; exact Nat.le_refl _,
        hs.nextevent, hs.nextmap, .inr hs.keep⟩
      show (s2.db ++ _)[i]? = _
      rw [List.getElem?_append_left (List.getElem?_eq_some_iff.mp ht').1]; exact ht'
    · show CdtExt s.cdts s2.cdts
      rw [hcdts2]; exact hext
  have q4 := statusWrite_quiet h4
  have q5 := setAttribute_quiet h5 (fun t ht => by
    obtain ⟨t', ht', hs, -⟩ := q4.tag s.db.length (newTag s2.env s.db.length fd name type count size)
      (by show (s2.db ++ _)[s.db.length]? = _; rw [← hlen2]; simp)
    rw [ht] at ht'; cases ht'
    rw [hs.name]; simp [newTag])
  have q6 := tagWrite_quiet h6
  have st : Step s s6 :=
    Step.trans ⟨wf3, ev3⟩ ((q4.step wf3).trans ((q5.step (q4.step wf3).wf).trans
      (q6.step ((q5.step (q4.step wf3).wf).wf))))
  refine ⟨st, rfl, ?_, ?_, ?_, ?_⟩
  · rw [q6.len, q5.len, q4.len]
    show (s2.db ++ [_]).length = _
    simp [hlen2]
  · intro e
    rw [q6.index, q5.index, q4.index]
    show e ∈ s2.index ↔ _
    rw [hidx2, hmem]
  · have henv2 : s2.env = s.env := q2.env
    rw [henv2] at q4
    have h3 : ({ s2 with db := s2.db ++ [newTag s.env s.db.length fd name type count size],
                         tagcount := s2.tagcount + 1 } : Server).db[s.db.length]? =
        some (newTag s.env s.db.length fd name type count size) := by
      show (s2.db ++ _)[s.db.length]? = _
      rw [← hlen2]; simp
    obtain ⟨t4, ht4, hs4, hf4⟩ := q4.tag _ _ h3
    obtain ⟨t5, p, rt, ht5, rfl⟩ := setAttribute_inv h5
    rw [ht4] at ht5; cases ht5
    have hi := (List.getElem?_eq_some_iff.mp ht4).1
    obtain ⟨t6, ht6, hs6, hf6⟩ := q6.tag s.db.length _ (List.getElem?_set_self hi)
    refine ⟨t6, p, ht6, hs4.trans (SameShape.trans ?_ hs6), ?_⟩
    · exact ⟨rfl, rfl, rfl, rfl, attrAfter_virt _ _, rfl, Store.Same.refl _, Int.le_refl _,
        Int.le_refl _, fun h => absurd (hs4.name.symm.trans h) (by simp [newTag]),
        attrAfter_keep _ _⟩
    · intro h2
      have e4 := hf4 (by show ¬ (s.db.length = 0); omega)
      have e6 := hf6 (by show ¬ (s.db.length = 2); omega)
      rw [e6, e4]
  · intro i h0 h1 h2 hi
    rw [q6.same (by show ¬ (_ = (2 : Int).toNat); simpa using h2), q5.same (by omega),
      q4.same (by show ¬ (_ = (0 : Int).toNat); simpa using h0)]
    show (s2.db ++ _)[i]? = _
    rw [List.getElem?_append_left (by omega), q2.same (by show ¬ (_ = (1 : Int).toNat); simpa using h1)]

/-! ## An existing name -/

theorem Env.pad_length (e : Env) (d : List Byte) (n : Nat) : (e.pad d n).length = n := by
  simp [Env.pad, Env.junk]; omega

theorem live_set {db : List Tag} {i : Nat} {t t' : Tag} (ht : db[i]? = some t)
    (h : t'.name.isSome = t.name.isSome) : live (db.set i t') = live db := by
  refine countP_congr_get (by simp) (fun j u hu => ?_)
  by_cases hij : i = j
  · subst hij
    rw [ht] at hu; cases hu
    exact ⟨t', by simp [(List.getElem?_eq_some_iff.mp ht).1], h⟩
  · exact ⟨u, by rw [List.getElem?_set_ne hij]; exact hu, rfl⟩

/-- Replacing one tag by another with the same name. -/
theorem WF.set {s : Server} (h : WF s) {i : Nat} {t t' : Tag} (ht : s.db[i]? = some t)
    (hn : t'.name = t.name) (hok : TagOK s.cdts t') : WF { s with db := s.db.set i t' } := by
  have hi := (List.getElem?_eq_some_iff.mp ht).1
  refine ⟨h.sorted, ?_, ?_, by simpa using h.dbsz, h.dbpos, by simpa using h.ixlen,
    by simpa using h.dblt, ?_, ?_, h.cdts⟩
  · intro e he
    obtain ⟨u, hu, hun⟩ := h.ent e he
    by_cases hij : i = e.tag
    · subst hij
      rw [ht] at hu; cases hu
      exact ⟨t', by simp [hi], by rw [hn]; exact hun⟩
    · exact ⟨u, by simp [List.getElem?_set_ne hij, hu], hun⟩
  · intro j u n hu hun
    have hu : (s.db.set i t')[j]? = some u := hu
    by_cases hij : i = j
    · subst hij
      rw [List.getElem?_set_self hi] at hu; cases hu
      exact h.named i t n ht (by rw [← hn]; exact hun)
    · rw [List.getElem?_set_ne hij] at hu
      exact h.named j u n hu hun
  · intro j u hu
    have hu : (s.db.set i t')[j]? = some u := hu
    by_cases hij : i = j
    · subst hij
      rw [List.getElem?_set_self hi] at hu; cases hu
      exact hok
    · rw [List.getElem?_set_ne hij] at hu
      exact h.tag j u hu
  · show s.tagcount = (live (s.db.set i t') : Nat)
    rw [live_set ht (by rw [hn])]; exact h.count

theorem Evolve.set {s : Server} {i : Nat} {t t' : Tag} (ht : s.db[i]? = some t)
    (hy : t'.type = t.type) (hf : t'.fd = t.fd) (hn : t'.name = t.name ∨ t'.name = none)
    (hc : t.count ≤ t'.count) (he : t.nextevent ≤ t'.nextevent) (hm : t.nextmap ≤ t'.nextmap)
    (hk : t'.name = none ∨ ((t.attr.owned = true → t'.attr.owned = true) ∧
      (t.attr.readonly = true → t'.attr.readonly = true))) :
    Evolve s { s with db := s.db.set i t' } := by
  have hi := (List.getElem?_eq_some_iff.mp ht).1
  refine ⟨fun j u hu => ?_, CdtExt.refl _⟩
  by_cases hij : i = j
  · subst hij
    rw [ht] at hu; cases hu
    exact ⟨t', by simp [hi], hy, hf, hn, hc, he, hm, hk⟩
  · exact ⟨u, by simp [List.getElem?_set_ne hij, hu], rfl, rfl, .inl rfl, Nat.le_refl _,
      Int.le_refl _, Int.le_refl _, .inr ⟨id, id⟩⟩

theorem realloc_ok {tbl : List Cdt} {e : Env} {t : Tag} {count size : Nat} {d : Store}
    (h : TagOK tbl t) (hc : t.count < count) (hlt : count < 4294967296) (ha : allocSize tbl t.type count = .ok size)
    (hd : reallocStore e t.data size = .ok d) :
    TagOK tbl { t with data := d, count := count } ∧ (d = t.data ∨
      ∃ b, t.data = .mem b ∧ d = .mem (e.pad b size)) := by
  unfold reallocStore at hd
  split at hd
  · rename_i b hb
    split at hd
    · simp at hd
    · simp only [C.ok.injEq] at hd
      subst hd
      refine ⟨⟨?_, ?_, ⟨h.chk.1, by show 0 < count; omega⟩, ?_, ?_, ?_, hlt, h.valid⟩,
        .inr ⟨b, hb, rfl⟩⟩
      · have := h.name
        rw [hb] at this
        simpa using this
      · intro b' hb'
        simp only [Store.mem.injEq] at hb'
        subst hb'
        rw [Env.pad_length]
        exact ⟨ha, (h.mem b hb).2⟩
      · exact fun _ => .inr ⟨_, rfl⟩
      · intro hf; simp at hf
      · intro q hq; simp at hq
  · simp at hd
  · split at hd
    · simp at hd
    · simp only [C.ok.injEq] at hd
      subst hd
      rename_i hnm hnf _
      refine ⟨⟨h.name, ?_, ⟨h.chk.1, by show 0 < count; omega⟩, h.virt, h.freed, h.queue, hlt,
        h.valid⟩,
        .inl rfl⟩
      intro b hb
      exact absurd hb (hnm b)

theorem tagAddOld_step {s s' : Server} {fd : Int} {n : Nat} {type count attr size : Nat}
    {r : Int} (h : WF s) (hnm : ∃ t, s.db[n]? = some t ∧ t.name ≠ none)
    (hlt : count < 4294967296) (ha : allocSize s.cdts type count = .ok size)
    (hh : tagAddOld s fd n type count attr size = .ok (s', r)) :
    Step s s' ∧ s'.db.length = s.db.length ∧ s'.index = s.index ∧ (r = n ∨ r = ERR_TAG_DUPL) := by
  obtain ⟨t0, ht0, hn0⟩ := hnm
  unfold tagAddOld at hh
  split at hh
  · simp at hh
  · rename_i t ht
    have hnt : t.name ≠ none := by rw [ht] at ht0; cases ht0; exact hn0
    split at hh
    · simp only [C.ok.injEq, Prod.mk.injEq] at hh
      obtain ⟨rfl, rfl⟩ := hh
      exact ⟨Step.refl h, rfl, rfl, .inr rfl⟩
    · split at hh
      · rename_i hty
        split at hh
        · obtain ⟨s1, h1, hh⟩ := C.bind_eq_ok.mp hh
          simp only [C.ok.injEq, Prod.mk.injEq] at hh
          obtain ⟨rfl, rfl⟩ := hh
          have q := setAttribute_quiet h1 (fun t' ht' => by rw [ht] at ht'; cases ht'; exact hnt)
          exact ⟨q.step h, q.len, q.index, .inl rfl⟩
        · rename_i hcnt
          obtain ⟨d, hd, hh⟩ := C.bind_eq_ok.mp hh
          obtain ⟨s2, h2, hh⟩ := C.bind_eq_ok.mp hh
          obtain ⟨⟨s3, r3⟩, h3, hh⟩ := C.bind_eq_ok.mp hh
          simp only [C.ok.injEq, Prod.mk.injEq] at hh
          obtain ⟨rfl, rfl⟩ := hh
          obtain ⟨hok, -⟩ := realloc_ok (count := count) (h.tag n t ht) (by omega) hlt
            (by rw [hty]; exact ha) hd
          have st1 : Step s { s with db := s.db.set n { t with data := d, count := count } } :=
            ⟨h.set ht rfl hok, Evolve.set ht rfl rfl (.inl rfl) (by show t.count ≤ count; omega)
              (Int.le_refl _) (Int.le_refl _) (.inr ⟨id, id⟩)⟩
          have hset : (s.db.set n { t with data := d, count := count })[n]? =
              some { t with data := d, count := count } := by
            rw [List.getElem?_set_self]
            exact (List.getElem?_eq_some_iff.mp ht).1
          have q2 := setAttribute_quiet h2 (fun t' ht' => by
            dsimp only at ht'
            rw [hset] at ht'; cases ht'; exact hnt)
          have q3 := tagWrite_quiet h3
          refine ⟨(st1.trans (q2.step st1.wf)).trans (q3.step (q2.step st1.wf).wf), ?_, ?_, .inl rfl⟩
          · rw [q3.len, q2.len]; simp
          · rw [q3.index, q2.index]
      · simp only [C.ok.injEq, Prod.mk.injEq] at hh
        obtain ⟨rfl, rfl⟩ := hh
        exact ⟨Step.refl h, rfl, rfl, .inr rfl⟩

/-- Everything about the result of `tag_add` that later arguments need. -/
structure TagAdded (s : Server) (fd : Int) (name : Name) (type count attr : Nat) (s' : Server)
    (r : Int) : Prop where
  step : Step s s'
  cases : (r < 0 ∧ s'.index = s.index ∧ s'.db = s.db ∧ s'.cdts = s.cdts) ∨
    (∃ n : Nat, r = n ∧ ⟨name, n⟩ ∈ s'.index ∧
      ((n = s.db.length ∧ s'.db.length = s.db.length + 1 ∧ (∀ e ∈ s.index, e.name ≠ name) ∧
        (∀ e, e ∈ s'.index ↔ e = ⟨name, s.db.length⟩ ∨ e ∈ s.index) ∧
        ∃ size t p, allocSize s.cdts type count = .ok size ∧ s'.db[s.db.length]? = some t ∧
          SameShape (newTag s.env s.db.length fd name type count size) t ∧
          (2 < s.db.length → t = { newTag s.env s.db.length fd name type count size with
            attr := attrAfter (newTag s.env s.db.length fd name type count size).attr attr,
            retPtr := p })) ∨
       (⟨name, n⟩ ∈ s.index ∧ s'.db.length = s.db.length ∧ s'.index = s.index)))

theorem growDb_db (s : Server) : (growDb s).db = s.db := by unfold growDb; split <;> rfl
theorem growDb_index (s : Server) : (growDb s).index = s.index := by unfold growDb; split <;> rfl
theorem growDb_cdts (s : Server) : (growDb s).cdts = s.cdts := by unfold growDb; split <;> rfl

theorem growDb_env (s : Server) : (growDb s).env = s.env := by unfold growDb; split <;> rfl

theorem tagAddC_added {s s' : Server} {fd : Int} {name : Name} {type count attr : Nat} {r : Int}
    (h : WF s) (hlt : count < 4294967296) (hh : tagAddC s fd name type count attr = .ok (s', r)) :
    TagAdded s fd name type count attr s' r := by
  unfold tagAddC at hh
  split at hh
  · simp only [C.ok.injEq, Prod.mk.injEq] at hh
    obtain ⟨rfl, rfl⟩ := hh
    exact ⟨Step.refl h, .inl ⟨by decide, rfl, rfl, rfl⟩⟩
  rename_i hz
  have sg := growDb_step h
  have hroom := growDb_room h
  dsimp only at hh
  split at hh
  · simp only [C.ok.injEq, Prod.mk.injEq] at hh
    obtain ⟨rfl, rfl⟩ := hh
    exact ⟨sg, .inl ⟨by decide, growDb_index s, growDb_db s, growDb_cdts s⟩⟩
  rename_i hchk
  split at hh
  · simp only [C.ok.injEq, Prod.mk.injEq] at hh
    obtain ⟨rfl, rfl⟩ := hh
    exact ⟨sg, .inl ⟨by decide, growDb_index s, growDb_db s, growDb_cdts s⟩⟩
  obtain ⟨size, ha, hh⟩ := C.bind_eq_ok.mp hh
  obtain ⟨o, ho, hh⟩ := C.bind_eq_ok.mp hh
  cases o with
  | some n =>
    have hmem := getByName_some sg.wf.sorted ho
    obtain ⟨st, hl, hi, hr⟩ := tagAddOld_step sg.wf (by
      obtain ⟨t, ht, hn⟩ := sg.wf.ent _ hmem
      exact ⟨t, ht, by rw [hn]; simp⟩) hlt ha hh
    refine ⟨sg.trans st, ?_⟩
    rcases hr with rfl | rfl
    · refine .inr ⟨n, rfl, by rw [hi]; exact hmem, .inr ⟨by rw [← growDb_index s]; exact hmem,
        by rw [hl, growDb_db], by rw [hi, growDb_index]⟩⟩
    · left
      have : s' = growDb s := by
        dsimp only at hh
        unfold tagAddOld at hh
        split at hh
        · simp at hh
        · split at hh
          · simp only [C.ok.injEq, Prod.mk.injEq] at hh; exact hh.1.symm
          · split at hh
            · split at hh
              · obtain ⟨s1, h1, hh⟩ := C.bind_eq_ok.mp hh
                simp only [C.ok.injEq, Prod.mk.injEq] at hh
                have := hh.2; simp [ERR_TAG_DUPL] at this
              · obtain ⟨d, hd, hh⟩ := C.bind_eq_ok.mp hh
                obtain ⟨s2, h2, hh⟩ := C.bind_eq_ok.mp hh
                obtain ⟨⟨s3, r3⟩, h3, hh⟩ := C.bind_eq_ok.mp hh
                simp only [C.ok.injEq, Prod.mk.injEq] at hh
                have := hh.2; simp [ERR_TAG_DUPL] at this
            · simp only [C.ok.injEq, Prod.mk.injEq] at hh; exact hh.1.symm
      subst this
      exact ⟨by decide, growDb_index s, growDb_db s, growDb_cdts s⟩
  | none =>
    have hnew := getByName_none sg.wf.sorted ho
    obtain ⟨st, hr, hl, hm, ⟨t, p, h1, h2, h3⟩, -⟩ :=
      tagAddNew_step sg.wf hroom (by simpa using hchk) (by omega) hlt (by omega) ha hh
    rw [growDb_db, growDb_index] at hm
    rw [growDb_db] at h1
    rw [growDb_db, growDb_env] at h2 h3
    rw [growDb_db] at hr hl
    rw [growDb_index] at hnew
    rw [growDb_cdts] at ha
    refine ⟨sg.trans st, .inr ⟨s.db.length, hr, ?_, .inl ⟨rfl, hl, hnew, hm, size, t, p, ha, h1, h2, h3⟩⟩⟩
    rw [hm]; exact .inl rfl

theorem u32_lt' (n : Nat) : u32 n < 4294967296 := by unfold u32; omega

theorem u32_nat {n : Nat} (h : n < 4294967296) : u32 (n : Int) = n := by unfold u32; omega

theorem tagAdd_added {s s' : Server} {fd : Int} {name : Name} {type count attr : Nat} {r : Int}
    (h : WF s) (hh : tagAdd s fd name type count attr = .ok (s', r)) :
    TagAdded s fd name type (u32 count) attr s' r :=
  tagAddC_added h (u32_lt' _) hh

theorem tagAdd_step {s s' : Server} {fd : Int} {name : Name} {type count attr : Nat} {r : Int}
    (h : WF s) (hh : tagAdd s fd name type count attr = .ok (s', r)) : Step s s' :=
  (tagAdd_added h hh).step

/-! ## Deleting a tag -/

theorem live_del {db : List Tag} {i : Nat} {t t' : Tag} (ht : db[i]? = some t)
    (h1 : t.name.isSome = true) (h2 : t'.name.isSome = false) :
    live (db.set i t') + 1 = live db := by
  obtain ⟨hi, hti⟩ := List.getElem?_eq_some_iff.mp ht
  have e1 : db = db.take i ++ t :: db.drop (i + 1) := by
    rw [← hti]; simp
  have e2 : db.set i t' = db.take i ++ t' :: db.drop (i + 1) := by
    rw [List.set_eq_take_append_cons_drop, if_pos hi]
  rw [e2]
  conv => rhs; rw [e1]
  simp [live, List.countP_append, h1, h2]
  omega

structure TagDeleted (s : Server) (idx : Int) (s' : Server) (r : Int) : Prop where
  step : Step s s'
  cases : (r < 0 ∧ s' = s) ∨ (r = 0 ∧ ∃ name t, s.tag? idx = some t ∧ t.name = some name ∧
    (∀ e, e ∈ s'.index ↔ e ∈ s.index ∧ e.name ≠ name) ∧ s'.db.length = s.db.length ∧
    (∃ t', s'.tag? idx = some t' ∧ t'.name = none))

theorem tagDel_deleted {s s' : Server} {idx : Int} {r : Int} (h : WF s)
    (hh : tagDel s idx = .ok (s', r)) : TagDeleted s idx s' r := by
  unfold tagDel at hh
  split at hh
  · simp only [C.ok.injEq, Prod.mk.injEq] at hh
    obtain ⟨rfl, rfl⟩ := hh
    exact ⟨Step.refl h, .inl ⟨by decide, rfl⟩⟩
  rename_i t ht
  split at hh
  · simp only [C.ok.injEq, Prod.mk.injEq] at hh
    obtain ⟨rfl, rfl⟩ := hh
    exact ⟨Step.refl h, .inl ⟨by decide, rfl⟩⟩
  rename_i hfr
  split at hh
  · simp at hh
  rename_i name hname
  obtain ⟨ns, -, hh⟩ := C.bind_eq_ok.mp hh
  obtain ⟨tbl, htbl, hh⟩ := C.bind_eq_ok.mp hh
  split at hh
  · simp at hh
  obtain ⟨ix, hix, hh⟩ := C.bind_eq_ok.mp hh
  obtain ⟨⟨s2, r2⟩, h2, hh⟩ := C.bind_eq_ok.mp hh
  dsimp only at hh
  split at hh
  · simp at hh
  rename_i t2 ht2
  obtain ⟨s4, h4, hh⟩ := C.bind_eq_ok.mp hh
  simp only [C.ok.injEq, Prod.mk.injEq] at hh
  obtain ⟨rfl, rfl⟩ := hh
  have htt := tag?_eq.mp ht
  have hi := (List.getElem?_eq_some_iff.mp htt.2).1
  obtain ⟨hext, f, hf⟩ := decRef_ext htbl
  obtain ⟨hsrt, hmem, hlen⟩ := delIndex_ok h.sorted hix
  have q2 := tagWrite_quiet h2
  have q4 := statusWrite_quiet h4
  have hidx2 : s2.index = ix := q2.index
  have hcdts2 : s2.cdts = tbl := q2.cdts
  have hlen2 : s2.db.length = s.db.length := by rw [q2.len]; simp [Server.setTag]
  have fwd : ∀ (i : Nat) (u : Tag), s.db[i]? = some u →
      ∃ u', s2.db[i]? = some u' ∧ SameShape u u' := by
    intro i u hu
    have h1 : ∃ u1, (s.setTag idx { t with events := [], maps := [] }).db[i]? = some u1 ∧
        SameShape u u1 := by
      by_cases hij : idx.toNat = i
      · subst hij
        rw [htt.2] at hu; cases hu
        exact ⟨{ t with events := [], maps := [] }, by simp [Server.setTag, hi],
          ⟨rfl, rfl, rfl, rfl, rfl, rfl, Store.Same.refl _, Int.le_refl _, Int.le_refl _, fun _ => rfl, id, id⟩⟩
      · exact ⟨u, by simp [Server.setTag, List.getElem?_set_ne hij, hu], SameShape.refl u⟩
    obtain ⟨u1, hu1, hs1⟩ := h1
    obtain ⟨u2, hu2, hs2, -⟩ := q2.tag i u1 hu1
    exact ⟨u2, hu2, hs1.trans hs2⟩
  have back : ∀ (i : Nat) (u' : Tag), s2.db[i]? = some u' →
      ∃ u, s.db[i]? = some u ∧ SameShape u u' := by
    intro i u' hu'
    have hlt := (List.getElem?_eq_some_iff.mp hu').1
    rw [hlen2] at hlt
    obtain ⟨u1, h1, hs⟩ := fwd i _ (List.getElem?_eq_getElem hlt)
    rw [hu'] at h1; cases h1
    exact ⟨_, List.getElem?_eq_getElem hlt, hs⟩
  have ht2' := tag?_eq.mp ht2
  have hi2 := (List.getElem?_eq_some_iff.mp ht2'.2).1
  obtain ⟨t0, ht0, hs0⟩ := back _ _ ht2'.2
  rw [htt.2] at ht0; cases ht0
  have hent : (⟨name, idx.toNat⟩ : IdxEnt) ∈ s.index := h.named _ t name htt.2 hname
  generalize hs3 : ({ s2.setTag idx { t2 with name := none, data := .freed, attr := {} } with
                      tagcount := s2.tagcount - 1 } : Server) = s3 at h4 q4
  have hdb3 : s3.db = s2.db.set idx.toNat { t2 with name := none, data := .freed, attr := {} } := by
    rw [← hs3]; rfl
  have hidx3 : s3.index = ix := by rw [← hs3]; exact hidx2
  have wf3 : WF s3 := by
    refine ⟨?_, ?_, ?_, ?_, ?_, ?_, ?_, ?_, ?_, ?_⟩
    · rw [hidx3]; exact hsrt
    · intro e he
      rw [hidx3, hmem] at he
      obtain ⟨u, hu, hun⟩ := h.ent e he.1
      obtain ⟨u', hu', hs'⟩ := fwd _ u hu
      have hne : idx.toNat ≠ e.tag := by
        intro heq
        rw [← heq, htt.2] at hu; cases hu
        rw [hname] at hun
        simp only [Option.some.injEq] at hun
        exact he.2 hun.symm
      exact ⟨u', by rw [hdb3, List.getElem?_set_ne hne]; exact hu', by rw [hs'.name]; exact hun⟩
    · intro i u n hu hun
      rw [hdb3] at hu
      rw [hidx3, hmem]
      by_cases hij : idx.toNat = i
      · subst hij
        rw [List.getElem?_set_self hi2] at hu; cases hu
        simp at hun
      · rw [List.getElem?_set_ne hij] at hu
        obtain ⟨u0, hu0, hs'⟩ := back i u hu
        have hin := h.named i u0 n hu0 (by rw [← hs'.name]; exact hun)
        refine ⟨hin, ?_⟩
        intro hnn
        have hnn : n = name := hnn
        subst hnn
        have := h.sorted.inj hin hent rfl
        simp at this
        exact hij this.symm
    · have : s3.dbsize = s.dbsize := by rw [← hs3]; exact q2.dbsize
      rw [hdb3, this]; simp [hlen2]; exact h.dbsz
    · have : s3.dbsize = s.dbsize := by rw [← hs3]; exact q2.dbsize
      rw [this]; exact h.dbpos
    · have := h.ixlen
      rw [hidx3, hdb3]; simp [hlen2]; omega
    · rw [hdb3]; simp [hlen2]; exact h.dblt
    · intro i u hu
      have hc3 : s3.cdts = tbl := by rw [← hs3]; exact hcdts2
      rw [hdb3] at hu
      rw [hc3]
      by_cases hij : idx.toNat = i
      · subst hij
        rw [List.getElem?_set_self hi2] at hu; cases hu
        have ho := ((h.tag _ t htt.2).shape hs0).ext hext
        exact ⟨by simp, fun b hb => by simp at hb, ho.chk, fun _ => .inl rfl, fun _ => ⟨rfl, rfl⟩,
          fun q hq => by simp at hq, ho.cnt, fun n hn => by simp at hn⟩
      · rw [List.getElem?_set_ne hij] at hu
        obtain ⟨u0, hu0, hs'⟩ := back i u hu
        exact ((h.tag i u0 hu0).shape hs').ext hext
    · have h1 : s3.tagcount = s.tagcount - 1 := by
        rw [← hs3]
        show s2.tagcount - 1 = _
        rw [q2.tagcount]; rfl
      have h3 : live s2.db = live s.db := countP_congr_get hlen2 (fun i u hu => by
        obtain ⟨u', hu', hs'⟩ := fwd i u hu
        exact ⟨u', hu', by rw [hs'.name]⟩)
      have h5 := live_del (t' := { t2 with name := none, data := .freed, attr := {} }) ht2'.2
        (by rw [hs0.name, hname]; rfl) rfl
      rw [h1, hdb3, h.count, ← h3]; omega
    · have hc3 : s3.cdts = tbl := by rw [← hs3]; exact hcdts2
      rw [hc3, hf]; exact h.cdts.refs f
  have ev3 : Evolve s s3 := by
    refine ⟨fun i u hu => ?_, ?_⟩
    · obtain ⟨u', hu', hs'⟩ := fwd i u hu
      by_cases hij : idx.toNat = i
      · subst hij
        rw [ht2'.2] at hu'; cases hu'
        exact ⟨{ t2 with name := none, data := .freed, attr := {} },
          by rw [hdb3, List.getElem?_set_self hi2], hs'.type, hs'.fd, .inr rfl,
          by rw [← hs'.count]; exact Nat.le_refl _, hs'.nextevent, hs'.nextmap, .inl rfl⟩
      · exact ⟨u', by rw [hdb3, List.getElem?_set_ne hij]; exact hu', hs'.type, hs'.fd,
          .inl hs'.name, by rw [hs'.count]; exact Nat.le_refl _, hs'.nextevent, hs'.nextmap,
          .inr hs'.keep⟩
    · have hc3 : s3.cdts = tbl := by rw [← hs3]; exact hcdts2
      rw [hc3]; exact hext
  refine ⟨Step.trans ⟨wf3, ev3⟩ (q4.step wf3), .inr ⟨rfl, name, t, ht, hname, ?_, ?_, ?_⟩⟩
  · intro e
    rw [q4.index, hidx3, hmem]
  · rw [q4.len, hdb3]; simp [hlen2]
  · have h3 : s3.db[idx.toNat]? = some { t2 with name := none, data := .freed, attr := {} } := by
      rw [hdb3, List.getElem?_set_self hi2]
    obtain ⟨t4, ht4, hs4, -⟩ := q4.tag _ _ h3
    exact ⟨t4, tag?_eq.mpr ⟨htt.1, ht4⟩, hs4.name⟩

theorem tagDel_step {s s' : Server} {idx : Int} {r : Int} (h : WF s)
    (hh : tagDel s idx = .ok (s', r)) : Step s s' := (tagDel_deleted h hh).step

end Dax
