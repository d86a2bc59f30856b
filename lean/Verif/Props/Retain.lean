/- C60: retained tags survive a restart. -/
import Verif.Lemmas.Retain
import Verif.Lemmas.Demo
import Verif.Props.Counts
import Verif.Spec.Retain
set_option autoImplicit false

namespace Dax

theorem few_tags {s : Server} (hw : WF s) (h : ∀ k, Assigned s k → k < 1024) : s.db.length ≤ 1024 := by
  apply Classical.byContradiction
  intro hc
  have hlt : 1024 < s.db.length := by omega
  have ht := List.getElem?_eq_getElem hlt
  have : Assigned s 1024 := by
    cases hn : (s.db[1024]).name with
    | none => exact .inr ((deadAt_iff hw).mpr ⟨_, ht, hn⟩)
    | some n => exact .inl ⟨n, (liveAt_iff hw).mpr ⟨_, ht, hn⟩⟩
  exact absurd (h _ this) (by decide)

theorem reads_alike {s s' : Server} {i j : Nat} {t t' : Tag} {b : List Byte} {z : Int} (P : Plain s i t b) (P' : Plain s' j t' b)
    (h : tagGetSize s.cdts t = .ok z) (h' : tagGetSize s'.cdts t' = .ok z) (fd fd' off n : Int) (r : Reply) :
    Answers s fd (.tagRead i off n) r ↔ Answers s' fd' (.tagRead j off n) r := by
  unfold Answers
  rw [read_eq P, read_eq P', h, h']
  cases addI32 off n with
  | ub w => simp [C.ub_bind]
  | ok e =>
    simp only [C.ok_bind]
    split
    · simp
    · cases rd b off n with
      | ub w => simp [C.ub_bind]
      | ok d =>
        simp only [C.ok_bind]
        split <;> simp

/-- C60 for tags of a base type other than BOOL.  A tag is created as retained under a name that was never retained
before; any sequence of requests, disconnections and changes of the environment follows, among them any number of
writes, masked writes, group writes, atomic operations and mappings into the tag.  If the tag still exists with the
count it was created with, then after a restart it exists under the same name with the same type and count, and it
reads as it did before.

Missing: BOOL tags (`C60_bool`), tags of compound types (they come back, see `C60_compound`, but the type may have
another number), a tag that has grown since (`C60_grown`), was declared as retained only later (`C60_marked_late`), or
shares its name with an earlier retained tag (`C60_readded`), and the restart after the next one (`C60_twice`).  An
override in force is not a value written to the tag, so the reads are compared without one. -/
theorem C60_partial {e e' : Env} {f : Ret} {s0 s s1 s2 s3 : Server} {os os' : List Op} {fd : Int} {name : Name}
    {ty w cnt attr i : Nat} {r : Reply} (h0 : startServer e (some f) = .ok s0) (h1 : run s0 os = .ok s) (hnew : NeverRetained name os)
    (hl : lookup s name = none) (hty : (ty, w) ∈ elemBytes) (hcnt : cnt < 4294967296) (hat : attr.testBit 2 = true)
    (hadd : handle s fd (.tagAdd ty cnt attr name) = .ok (s1, r)) (hi : r.index? = some i) (h2 : run s1 os' = .ok s2)
    (hlive : LiveTag s2 i name ty cnt) (hfew : ∀ k, Assigned s2 k → k < 1024) (h3 : Restarted e' s2 s3)
    (hfew' : ∀ k, Assigned s3 k → k < 1024) :
    ∃ j, lookup s3 name = some j ∧ LiveTag s3 j name ty cnt ∧ (Ordinary s2 i → ReadsAlike s2 s3 i j) := by
  have hR0 : Reachable s0 := ⟨e, some f, s0, [], h0, rfl⟩
  have hR : Reachable s := hR0.run h1
  have hR1 : Reachable s1 := hR.handle hadd
  have hR2 : Reachable s2 := hR1.run h2
  have hR3 : Reachable s3 := ⟨e', some s2.ret, s3, [], h3, rfl⟩
  have hw := hR.wf
  have hk : ModsOK s0 := hR0.modsOK
  have few2 := few_tags hR2.wf hfew
  have few3 := few_tags hR3.wf hfew'
  -- the file knows no such name
  have hfresh : ∀ x ∈ s.ret.rows, x.name ≠ name := by
    intro x hx hxn
    rcases run_rows hR0 h1 name (List.mem_map.mpr ⟨x, hx, hxn⟩) with hm | ⟨-, fd, ty, c, a, hm, ha⟩
    · obtain ⟨y, hy, -⟩ := List.mem_map.mp hm
      rw [(start_noRows h0).1.rows] at hy
      exact absurd hy (by simp)
    · have := hnew fd ty c a hm
      unfold wantRetain at ha
      rw [this] at ha; simp at ha
  have hopen : s.ret.isOpen = true := by
    have := (run_path_noRestore hk h1).inv (I := fun x => x.ret.isOpen = s0.ret.isOpen)
      (fun a b h m => (isOpen_move rfl a b m).trans h) rfl
    rw [this]; exact (start_noRows h0).2.mpr rfl
  have hix : ∀ e ∈ s.index, e.name ≠ name := by
    rintro ⟨n, k⟩ he rfl
    rw [(lookup_mem hw).mpr he] at hl; simp at hl
  have herr : ∀ e, r ≠ .err e := by
    rintro e rfl; simp [Reply.index?] at hi
  obtain ⟨-, -, -, tn, htn, htt⟩ := elem_facts hty
  obtain ⟨hr, p, hkept⟩ := retKept_new hw hR.modsOK hR.retWF hR.len hopen hfresh hix hty htn hcnt hat herr hadd
  have hu : name.head? ≠ some underscore := by
    rcases addReq_cases hw hadd with ⟨e, he, -⟩ | ⟨hu, -⟩
    · exact absurd he (herr e)
    · exact hu
  have hi' : i = s.db.length := by
    rw [hr, index_le4 hw.dblt] at hi
    simpa using hi.symm
  subst hi'
  obtain ⟨-, hk2⟩ := (run_path_noRestore hR1.modsOK h2).inv (retKept_move rfl (typeSize_base hty)) ⟨hR1.retWF, hkept⟩
  obtain ⟨t, ht, hkt⟩ := hk2 few2
  obtain ⟨t', ht', hn, hty', hc⟩ := (liveTag_iff hR2.wf).mp hlive
  rw [ht] at ht'; simp only [Option.some.injEq] at ht'; subst ht'
  have hkt : KeptTag name ty cnt w p tn s2.ret t := by
    rcases hkt with h | h | h
    · rw [hn] at h; simp at h
    · omega
    · exact h
  obtain ⟨j, u, b, P, hun, huty, huc, hb, hs1, hs2⟩ := restart_kept hR2.wf hR2.retWF hu hty htt ht hkt h3 few3
  refine ⟨j, (lookup_some hR3.wf).mpr ⟨u, P.db, hun⟩, (liveTag_iff hR3.wf).mpr ⟨u, P.db, hun, huty, huc⟩, ?_⟩
  intro ho
  obtain ⟨t2, b2, P2⟩ := (ordinary_iff hR2.wf).mp ho
  have e1 := P2.db
  rw [ht] at e1; simp only [Option.some.injEq] at e1; subst e1
  have e2 := P2.data
  rw [hb] at e2; simp only [Store.mem.injEq] at e2; subst e2
  exact fun fd fd' off n r => reads_alike P2 P hs1 hs2 fd fd' off n r


/-! ## An instance -/

/-- A server on an empty retention file, after some requests. -/
def kept (os : List Op) : Server :=
  match run { init0 with ret := { isOpen := true } } os with
  | .ok s => s
  | .ub _ => {}

theorem kept_started : startServer {} (some {}) = .ok { init0 with ret := { isOpen := true } } := by
  unfold startServer; rw [init0_eq]; rfl

theorem kept_run {os : List Op} (h : (run { init0 with ret := { isOpen := true } } os).isOk = true) :
    run { init0 with ret := { isOpen := true } } os = .ok (kept os) := by
  obtain ⟨s, hs⟩ := C.isOk_iff.mp h
  unfold kept; rw [hs]

theorem assigned_lt {s : Server} (hw : WF s) {k : Nat} (h : Assigned s k) : k < s.db.length := by
  unfold Assigned at h
  rw [deadAt_iff hw] at h
  rcases h with ⟨n, hl⟩ | ⟨t, ht, -⟩
  · obtain ⟨t, ht, -⟩ := (liveAt_iff hw).mp hl
    exact (List.getElem?_eq_some_iff.mp ht).1
  · exact (List.getElem?_eq_some_iff.mp ht).1

/-- The hypotheses of `C60_partial`: `Level` is created as a retained array of two INTs, `Other` as a retained DINT,
`Level` is written twice; then the server is restarted. -/
def keptBefore : List Op := [.req 5 (.modReg 1 (nm "modA")), .req 5 (.tagAdd DAX_DINT 1 4 (nm "Other"))]
def keptAdd : List Op := keptBefore ++ [.req 5 (.tagAdd DAX_INT 2 4 (nm "Level"))]
def keptAfter : List Op := [.req 5 (.tagWrite 13 0 [1, 2, 3, 4]), .req 5 (.tagWrite 12 0 [7, 7, 7, 7]), .req 6 (.tagWrite 13 2 [9, 9])]
def kept3 : Server :=
  match startServer {} (some (kept (keptAdd ++ keptAfter)).ret) with
  | .ok s => s
  | .ub _ => {}

example : ∃ s0, startServer {} (some {}) = .ok s0 ∧ run s0 keptBefore = .ok (kept keptBefore) ∧
    NeverRetained (nm "Level") keptBefore ∧ lookup (kept keptBefore) (nm "Level") = none ∧
    handle (kept keptBefore) 5 (.tagAdd DAX_INT 2 4 (nm "Level")) = .ok (kept keptAdd, .resp (le4 13)) ∧
    run (kept keptAdd) keptAfter = .ok (kept (keptAdd ++ keptAfter)) ∧
    LiveTag (kept (keptAdd ++ keptAfter)) 13 (nm "Level") DAX_INT 2 ∧ Ordinary (kept (keptAdd ++ keptAfter)) 13 ∧
    (∀ k, Assigned (kept (keptAdd ++ keptAfter)) k → k < 1024) ∧ Restarted {} (kept (keptAdd ++ keptAfter)) kept3 ∧
    (∀ k, Assigned kept3 k → k < 1024) ∧ Answers kept3 5 (.tagRead 12 0 4) (.resp [1, 2, 9, 9]) := by
  have r1 := kept_run (os := keptBefore) (by decide +kernel)
  have r2 := kept_run (os := keptAdd ++ keptAfter) (by decide +kernel)
  have r3 := kept_run (os := keptAdd) (by decide +kernel)
  have R2 : Reachable (kept (keptAdd ++ keptAfter)) := ⟨{}, some {}, _, _, kept_started, r2⟩
  have st : Restarted {} (kept (keptAdd ++ keptAfter)) kept3 := by
    obtain ⟨s, hs⟩ := C.isOk_iff.mp (show (startServer {} (some (kept (keptAdd ++ keptAfter)).ret)).isOk = true by decide +kernel)
    unfold Restarted kept3
    rw [hs]
  have R3 : Reachable kept3 := ⟨{}, some (kept (keptAdd ++ keptAfter)).ret, _, [], st, rfl⟩
  refine ⟨_, kept_started, r1, ?_, by decide +kernel, ?_, ?_, ⟨by decide, by decide, 4, fun fd => by kernel_rfl⟩,
    ⟨4, ⟨by decide, nm "Level", DAX_INT, 2, fun fd => by kernel_rfl⟩, by decide, by decide⟩, ?_, st, ?_,
    exists_reply (by decide +kernel)⟩
  · intro fd ty c a h
    simp only [keptBefore, List.mem_cons, List.not_mem_nil, or_false, Op.req.injEq, Req.tagAdd.injEq, reduceCtorEq, and_false,
      false_or] at h
    exact absurd h.2.2.2.2 (by decide)
  · obtain ⟨s', h⟩ := exists_reply (c := handle (kept keptBefore) 5 (.tagAdd DAX_INT 2 4 (nm "Level"))) (r := .resp (le4 13))
      (by decide +kernel)
    unfold keptAdd at r3 ⊢
    rw [run_append] at r3
    obtain ⟨a, h1, h2⟩ := r3
    rw [r1] at h1
    simp only [C.ok.injEq] at h1; subst h1
    simp only [run, step] at h2
    rw [h] at h2
    simp only [C.ok_bind, C.ok.injEq] at h2
    rw [h, h2]
  · rw [run_append] at r2
    obtain ⟨a, h1, h2⟩ := r2
    rw [r3] at h1
    simp only [C.ok.injEq] at h1; subst h1
    exact h2
  · intro k hk
    have := assigned_lt R2.wf hk
    have e : (kept (keptAdd ++ keptAfter)).db.length = 14 := by decide +kernel
    omega
  · intro k hk
    have := assigned_lt R3.wf hk
    have e : kept3.db.length = 13 := by decide +kernel
    omega

/-! ## Where it fails -/

/-- The value of a retained BOOL array is lost: `ret_tag_write` stores `type_size(BOOL) * count` = 0 bytes. -/
theorem C60_bool : lives {} [
    [(5, .tagAdd DAX_BOOL 4 4 (nm "A")), (5, .tagWrite 11 0 [5]), (5, .tagRead 11 0 1)],
    [(5, .tagGetName (nm "A")), (5, .tagRead 11 0 1)]] =
  .ok [[.resp [11, 0, 0, 0], .resp [], .resp [5]],
       [.resp (tagReply 11 DAX_BOOL 4 0 (nm "A")), .resp [0]]] := by kernel_rfl

/-- A restored tag is no longer retained: the second restart loses it. -/
theorem C60_twice : lives {} [
    [(5, .tagAdd DAX_INT 1 4 (nm "A")), (5, .tagWrite 11 0 [1, 2])],
    [(5, .tagRead 11 0 2)],
    [(5, .tagGetName (nm "A")), (5, .tagRead 11 0 2)]] =
  .ok [[.resp [11, 0, 0, 0], .resp []], [.resp [1, 2]], [.err ERR_NOTFOUND, .err ERR_ARG]] := by kernel_rfl

/-- Declaring it as retained again after the restart does not save the value it has. -/
theorem C60_redeclared : lives {} [
    [(5, .tagAdd DAX_INT 1 4 (nm "A")), (5, .tagWrite 11 0 [1, 2])],
    [(5, .tagAdd DAX_INT 1 4 (nm "A")), (5, .tagRead 11 0 2)],
    [(5, .tagGetName (nm "A")), (5, .tagRead 11 0 2)]] =
  .ok [[.resp [11, 0, 0, 0], .resp []], [.resp [11, 0, 0, 0], .resp [1, 2]],
       [.resp (tagReply 11 DAX_INT 1 0 (nm "A")), .resp [0, 0]]] := by kernel_rfl

/-- A value written before the tag was declared as retained is lost. -/
theorem C60_marked_late : lives {} [
    [(5, .tagAdd DAX_INT 1 0 (nm "A")), (5, .tagWrite 11 0 [1, 2]), (5, .tagAdd DAX_INT 1 4 (nm "A")), (5, .tagRead 11 0 2)],
    [(5, .tagGetName (nm "A")), (5, .tagRead 11 0 2)]] =
  .ok [[.resp [11, 0, 0, 0], .resp [], .resp [11, 0, 0, 0], .resp [1, 2]],
       [.resp (tagReply 11 DAX_INT 1 0 (nm "A")), .resp [0, 0]]] := by kernel_rfl

/-- A retained tag that has grown comes back with its old count. -/
theorem C60_grown : lives {} [
    [(5, .tagAdd DAX_INT 1 4 (nm "A")), (5, .tagAdd DAX_INT 2 4 (nm "A")), (5, .tagWrite 11 0 [1, 2, 3, 4]), (5, .tagRead 11 0 4)],
    [(5, .tagGetName (nm "A")), (5, .tagRead 11 0 4)]] =
  .ok [[.resp [11, 0, 0, 0], .resp [11, 0, 0, 0], .resp [], .resp [1, 2, 3, 4]],
       [.resp (tagReply 11 DAX_INT 1 0 (nm "A")), .err ERR_2BIG]] := by kernel_rfl

/-- A deleted retained tag comes back. -/
theorem C60_deleted : lives {} [
    [(5, .tagAdd DAX_INT 1 4 (nm "A")), (5, .tagWrite 11 0 [1, 2]), (5, .tagDel 11), (5, .tagGetName (nm "A"))],
    [(5, .tagGetName (nm "A")), (5, .tagRead 11 0 2)]] =
  .ok [[.resp [11, 0, 0, 0], .resp [], .resp [11, 0, 0, 0], .err ERR_NOTFOUND],
       [.resp (tagReply 11 DAX_INT 1 0 (nm "A")), .resp [1, 2]]] := by kernel_rfl

/-- If it was created anew in the meantime, with another type, the old one comes back instead of it. -/
theorem C60_readded : lives {} [
    [(5, .tagAdd DAX_INT 1 4 (nm "A")), (5, .tagWrite 11 0 [1, 2]), (5, .tagDel 11), (5, .tagAdd DAX_DINT 1 4 (nm "A")),
     (5, .tagWrite 12 0 [9, 9, 9, 9])],
    [(5, .tagGetName (nm "A")), (5, .tagRead 11 0 2)]] =
  .ok [[.resp [11, 0, 0, 0], .resp [], .resp [11, 0, 0, 0], .resp [12, 0, 0, 0], .resp []],
       [.resp (tagReply 11 DAX_INT 1 0 (nm "A")), .resp [1, 2]]] := by kernel_rfl

/-- A retained tag of a compound type comes back, but its type may have another number: only the types in use by
retained tags are stored. -/
theorem C60_compound : lives {} [
    [(5, .cdtCreate (nm "T:a,INT,1")), (5, .cdtCreate (nm "U:a,INT,1:b,INT,1")), (5, .tagAdd 0x80000003 1 4 (nm "A")),
     (5, .tagWrite 11 0 [1, 2, 3, 4])],
    [(5, .tagGetName (nm "A")), (5, .tagRead 11 0 4), (5, .cdtGetName (nm "U"))]] =
  .ok [[.resp [2, 0, 0, 128], .resp [3, 0, 0, 128], .resp [11, 0, 0, 0], .resp []],
       [.resp (tagReply 11 0x80000002 1 0 (nm "A")), .resp [1, 2, 3, 4], .resp (le4 0x80000002 ++ nm "U:a,INT,1:b,INT,1" ++ [0])]] := by
  kernel_rfl

/-- Declaring a queue as retained: the name of its type is a NULL pointer. -/
theorem C60_queue : lives {} [[(5, .tagAdd (DAX_INT + DAX_QUEUE) 1 4 (nm "A"))]] = .ub "NULL string" := by kernel_rfl

/-- Declaring a tag of the first compound type (the server's own module type) as retained. -/
theorem C60_first_type : lives {} [[(5, .tagAdd 0x80000000 1 4 (nm "A"))]] = .ub "NULL datatype" := by kernel_rfl

/-! ## C10 across restarts -/

/-- The server never writes rows for its own tags, so what it leaves behind restores none of them. -/
theorem ret_noCounts {s : Server} (h : Reachable s) : NoCounts (some s.ret) := by
  obtain ⟨e, f, s0, os, h0, h1⟩ := h
  rintro g hg x hx
  cases hg
  have hR0 : Reachable s0 := ⟨e, f, s0, [], h0, rfl⟩
  rcases run_rows hR0 h1 x.name (List.mem_map.mpr ⟨x, hx, rfl⟩) with hm | ⟨hu, -⟩
  · obtain ⟨y, hy, -⟩ := List.mem_map.mp hm
    rw [(start_noRows h0).1.rows] at hy
    exact absurd hy (by simp)
  · constructor <;> intro e <;> rw [e] at hu <;> exact hu (by decide)


/-- C10 after a restart: whatever the first life of the server was, the counts are right throughout the next one. -/
theorem C10_restart {e : Env} {qs : List (Int × Req)} {s s0 s' : Server} {rs : List Reply} (h : Reachable s) (h0 : Restarted e s s0)
    (hq : ∀ q ∈ qs, q.2.addDel) (hr : runR s0 qs = .ok (s', rs)) : CountsRight s' :=
  C10 h0 (ret_noCounts h) hq hr

example : (∃ s', runR kept3 [(5, .tagDel 12), (5, .tagRead 0 0 4)] = .ok (s', [.resp (le4 12), .resp (le4 12)])) ∧
    Restarted {} (kept (keptAdd ++ keptAfter)) kept3 := by
  constructor
  · obtain ⟨s', rs, h, h2, -⟩ := exists_run2 (s := kept3) (qs := [(5, .tagDel 12), (5, .tagRead 0 0 4)])
      (rs := [.resp (le4 12), .resp (le4 12)]) (p := fun _ => True) (Q := fun _ => True) (by decide +kernel) (fun _ _ => trivial)
    exact ⟨s', by rw [h, h2]⟩
  · obtain ⟨s, hs⟩ := C.isOk_iff.mp (show (startServer {} (some (kept (keptAdd ++ keptAfter)).ret)).isOk = true by decide +kernel)
    unfold Restarted kept3
    rw [hs]

end Dax
