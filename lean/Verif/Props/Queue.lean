import Verif.Lemmas.Queue
import Verif.Lemmas.Demo
import Verif.Props.Names
/-!
# C40: queues are first-in first-out
-/
set_option autoImplicit false
namespace Dax

/-- A first-in first-out queue gives the values in the order in which it got them. -/
theorem Fifo.order {as : List QAct} : ∀ {p : List (List Byte)}, Fifo p as → gets as <+: p ++ puts as := by
  induction as with
  | nil => intro p _; exact ⟨p, by simp [gets, puts]⟩
  | cons a as ih =>
    intro p h
    cases a with
    | put d =>
      have := ih (show Fifo (p ++ [d]) as from h)
      simpa [gets, puts] using this
    | get b =>
      obtain ⟨rest, rfl, h⟩ := h
      have := ih h
      simpa [gets, puts] using this
    | empty =>
      obtain ⟨rfl, h⟩ := h
      have := ih h
      simpa [gets, puts] using this

/-- **C40** What clients see of a queue, from its creation on and whatever else they do in between,
is the behaviour of a first-in first-out queue.

Missing from the full claim: more than sixteen values waiting (the ring then grows, and the claim
fails: `C40_growth_undefined`, `C40_growth_mixes`), group transfers of queues, and reads that ask for
another number of bytes than a value has (the value is consumed and cut or padded:
`C40_short_read`). -/
theorem C40_fifo_partial {s s1 s2 : Server} {fd : Int} {type count attr k w : Nat} {name : Name} {r : Reply}
    {as : List QAct} (h : Reachable s) (hnew : lookup s name = none) (hq : type.testBit 30 = true)
    (hh : handle s fd (.tagAdd type count attr name) = .ok (s1, r)) (hk : r.index? = some k)
    (hs : Served k w s1 as s2) (hc : Within 16 0 as) (hw : ∀ d ∈ puts as, d.length = w) :
    Fifo [] as := by
  cases r with
  | err e => simp [Reply.index?] at hk
  | none => simp [Reply.index?] at hk
  | resp x =>
    have hn : ∀ e ∈ s.index, e.name ≠ name := by
      rintro ⟨n, i⟩ he rfl
      rw [(lookup_mem h.wf).mpr he] at hnew
      cases hnew
    obtain ⟨hu, q, hq', hp⟩ := HasQ.new h hn hq hh hk
    exact (hq'.served hu (h.handle hh) hp (by simp) hs hc hw).1

/-- **C40** Each value is given once and in order: what was read is a beginning of what was
written. Missing: as in `C40_fifo_partial`. -/
theorem C40_order_partial {s s1 s2 : Server} {fd : Int} {type count attr k w : Nat} {name : Name} {r : Reply}
    {as : List QAct} (h : Reachable s) (hnew : lookup s name = none) (hq : type.testBit 30 = true)
    (hh : handle s fd (.tagAdd type count attr name) = .ok (s1, r)) (hk : r.index? = some k)
    (hs : Served k w s1 as s2) (hc : Within 16 0 as) (hw : ∀ d ∈ puts as, d.length = w) :
    gets as <+: puts as := by
  simpa using (C40_fifo_partial h hnew hq hh hk hs hc hw).order

/-- **C40** Nothing is lost: as long as the tag lives, the next read of any client gives the first
value not read yet, or answers EMPTY if there is none. Missing: as in `C40_fifo_partial`. -/
theorem C40_next_partial {s s1 s2 : Server} {fd : Int} {type count attr k w : Nat} {name : Name} {r : Reply}
    {as : List QAct} (h : Reachable s) (hnew : lookup s name = none) (hq : type.testBit 30 = true)
    (hh : handle s fd (.tagAdd type count attr name) = .ok (s1, r)) (hk : r.index? = some k)
    (hs : Served k w s1 as s2) (hc : Within 16 0 as) (hw : ∀ d ∈ puts as, d.length = w)
    (hlive : LiveAt s2 k name) (hm : w ≤ MSG_DATA_SIZE) (fd' off : Int) :
    Answers s2 fd' (.tagRead k off w)
      (match (puts as).drop (gets as).length with
       | [] => .err ERR_EMPTY
       | d :: _ => .resp d) := by
  cases r with
  | err e => simp [Reply.index?] at hk
  | none => simp [Reply.index?] at hk
  | resp x =>
    have hn : ∀ e ∈ s.index, e.name ≠ name := by
      rintro ⟨n, i⟩ he rfl
      rw [(lookup_mem h.wf).mpr he] at hnew
      cases hnew
    obtain ⟨hu, q, hq', hp⟩ := HasQ.new h hn hq hh hk
    obtain ⟨-, h2, g | ⟨q2, p2, a1, a2, a3, a4⟩⟩ := hq'.served hu (h.handle hh) hp (by simp) hs hc hw
    · obtain ⟨t, ht, hnm⟩ := (liveAt_iff h2.wf).mp hlive
      obtain ⟨t', ht', hnm'⟩ := g
      rw [ht] at ht'; cases ht'
      rw [hnm] at hnm'; cases hnm'
    · rw [List.nil_append] at a3
      rw [← a3, List.drop_left]
      obtain ⟨b1, b2⟩ := a1.read_ok h2 (fd := fd') (off := off) hm
      cases p2 with
      | nil => exact ⟨_, b1 a2.read_nil⟩
      | cons d p2 =>
        obtain ⟨q3, e3, -⟩ := a2.read_cons
        exact b2 d q3 e3 (a4 d (List.mem_cons_self ..))

/-! ## Concrete cases -/

/-- A client that writes (`some d`) and reads (`none`) values of `w` bytes, and what it sees. -/
def seenQ (fd : Int) (k w : Nat) : Server → List (Option (List Byte)) → C (List QAct × Server)
  | s, [] => .ok ([], s)
  | s, some d :: os => do
    let (s, r) ← handle s fd (.tagWrite k 0 d)
    let (as, s') ← seenQ fd k w s os
    match r with
    | .resp _ => .ok (.put d :: as, s')
    | .err _ => .ok (as, s')
    | .none => .ub "silence"
  | s, none :: os => do
    let (s, r) ← handle s fd (.tagRead k 0 w)
    let (as, s') ← seenQ fd k w s os
    match r with
    | .resp b => .ok (.get b :: as, s')
    | .err e => .ok (if e = ERR_EMPTY then .empty :: as else as, s')
    | .none => .ub "silence"

theorem seenQ_served {fd : Int} {k w : Nat} {os : List (Option (List Byte))} :
    ∀ {s s' : Server} {as : List QAct}, seenQ fd k w s os = .ok (as, s') → Served k w s as s' := by
  induction os with
  | nil =>
    intro s s' as h
    simp only [seenQ, C.ok.injEq, Prod.mk.injEq] at h
    obtain ⟨rfl, rfl⟩ := h
    exact .nil
  | cons o os ih =>
    intro s s' as h
    cases o with
    | some d =>
      simp only [seenQ] at h
      obtain ⟨⟨s1, r⟩, h1, h⟩ := C.bind_eq_ok.mp h
      obtain ⟨⟨as1, s2⟩, h2, h⟩ := C.bind_eq_ok.mp h
      cases r with
      | resp x =>
        simp only [C.ok.injEq, Prod.mk.injEq] at h
        obtain ⟨rfl, rfl⟩ := h
        exact .write h1 (ih h2)
      | err e =>
        simp only [C.ok.injEq, Prod.mk.injEq] at h
        obtain ⟨rfl, rfl⟩ := h
        exact .writeRefused h1 (ih h2)
      | none => simp at h
    | none =>
      simp only [seenQ] at h
      obtain ⟨⟨s1, r⟩, h1, h⟩ := C.bind_eq_ok.mp h
      obtain ⟨⟨as1, s2⟩, h2, h⟩ := C.bind_eq_ok.mp h
      cases r with
      | resp x =>
        simp only [C.ok.injEq, Prod.mk.injEq] at h
        obtain ⟨rfl, rfl⟩ := h
        exact .read h1 (ih h2)
      | err e =>
        simp only [C.ok.injEq, Prod.mk.injEq] at h
        obtain ⟨rfl, rfl⟩ := h
        split
        · rename_i he; subst he
          exact .readEmpty h1 (ih h2)
        · rename_i he
          exact .readRefused h1 he (ih h2)
      | none => simp at h

/-- What was seen, if nothing undefined happened. -/
def seen? (fd : Int) (k w : Nat) (s : Server) (os : List (Option (List Byte))) : Option (List QAct) :=
  match seenQ fd k w s os with
  | .ok (as, _) => some as
  | .ub _ => none

theorem seen_served {fd : Int} {k w : Nat} {s : Server} {os : List (Option (List Byte))} {as : List QAct}
    (h : seen? fd k w s os = some as) : ∃ s', Served k w s as s' := by
  unfold seen? at h
  split at h
  · rename_i as' s' e
    simp only [Option.some.injEq] at h
    subst h
    exact ⟨s', seenQ_served e⟩
  · cases h

/-- A queue of INTs is made; its index is 16. -/
def queueOp : Op := .req 5 (.tagAdd (DAX_INT + DAX_QUEUE) 1 0 (nm "Jobs"))

def queueServer (e : Env := {}) : Server := demo (demoOps ++ [queueOp]) e

theorem queueServer_new (e : Env) (h : (run init0 (.env e :: (demoOps ++ [queueOp]))).isOk = true)
    (hr : replyOf (handle (demo demoOps e) 5 (.tagAdd (DAX_INT + DAX_QUEUE) 1 0 (nm "Jobs"))) = some (.resp (le4 16))) :
    handle (demo demoOps e) 5 (.tagAdd (DAX_INT + DAX_QUEUE) 1 0 (nm "Jobs")) = .ok (queueServer e, .resp (le4 16)) :=
  demo_handle h hr

/-- The hypotheses of `C40_fifo_partial`, `C40_order_partial` are met: the queue is read while empty, two values
are written, one is refused (three bytes), two are read, a third is written and read. -/
example : ∃ s2, Served 16 2 queueServer
      [.empty, .put [1, 0], .put [2, 0], .get [1, 0], .get [2, 0], .put [3, 0], .get [3, 0]] s2 ∧
    lookup (demo demoOps) (nm "Jobs") = none ∧
    handle (demo demoOps) 5 (.tagAdd (DAX_INT + DAX_QUEUE) 1 0 (nm "Jobs")) = .ok (queueServer, .resp (le4 16)) ∧
    Within 16 0 [.empty, .put [1, 0], .put [2, 0], .get [1, 0], .get [2, 0], .put [3, 0], .get [3, 0]] ∧
    Fifo [] [.empty, .put [1, 0], .put [2, 0], .get [1, 0], .get [2, 0], .put [3, 0], .get [3, 0]] := by
  have hc := queueServer_new {} (by decide +kernel) (by decide +kernel)
  have hl : lookup (demo demoOps) (nm "Jobs") = none := by decide +kernel
  have hW : Within 16 0 [.empty, .put [1, 0], .put [2, 0], .get [1, 0], .get [2, 0], .put [3, 0], .get [3, 0]] := by
    simp [Within]
  obtain ⟨s2, h⟩ := seen_served (fd := 6) (k := 16) (w := 2) (s := queueServer)
    (os := [none, some [1, 0], some [2, 0], some [9, 9, 9], none, none, some [3, 0], none])
    (as := [.empty, .put [1, 0], .put [2, 0], .get [1, 0], .get [2, 0], .put [3, 0], .get [3, 0]]) (by decide +kernel)
  exact ⟨s2, h, hl, hc, hW, C40_fifo_partial demoOps_reachable hl (by decide) hc (by decide) h hW (by decide)⟩

/-- The hypotheses of `C40_next_partial` are met: one value has been written. -/
example (fd' off : Int) : Answers (demo (demoOps ++ [queueOp] ++ [.req 6 (.tagWrite (16 : Nat) 0 [7, 0])])) fd' (.tagRead (16 : Nat) off (2 : Nat))
    (.resp [7, 0]) :=
  C40_next_partial (as := [.put [7, 0]]) (name := nm "Jobs") demoOps_reachable (by decide +kernel) (by decide)
    (queueServer_new {} (by decide +kernel) (by decide +kernel)) (by decide)
    (.write (demo_handle (r := .resp []) (by decide +kernel) (by decide +kernel)) .nil) (by simp [Within]) (by decide)
    ((liveAt_iff (demo_reachable (by decide +kernel)).wf).mpr (by
      have : ((demo (demoOps ++ [queueOp] ++ [.req 6 (.tagWrite (16 : Nat) 0 [7, 0])])).db[16]?.map (·.name)) = some (some (nm "Jobs")) := by
        decide +kernel
      obtain ⟨t, h1, h2⟩ := Option.map_eq_some_iff.mp this
      exact ⟨t, h1, h2⟩)) (by decide) fd' off

/-- **C40** fails: the seventeenth value that waits goes through an uninitialised pointer. -/
theorem C40_growth_undefined : ∃ s s1 s2 x, Reachable s ∧ lookup s (nm "Jobs") = none ∧
    handle s 5 (.tagAdd (DAX_INT + DAX_QUEUE) 1 0 (nm "Jobs")) = .ok (s1, .resp (le4 x)) ∧
    Served 16 2 s1 (List.replicate 16 (.put [1, 0])) s2 ∧ ∃ w, handle s2 5 (.tagWrite 16 0 [1, 0]) = .ub w := by
  have hb : (match seenQ 5 16 2 queueServer (List.replicate 16 (some [1, 0])) with
      | .ok (as, s2) => decide (as = List.replicate 16 (.put [1, 0])) && !(handle s2 5 (.tagWrite 16 0 [1, 0])).isOk
      | .ub _ => false) = true := by decide +kernel
  split at hb
  · rename_i as s2 he
    rw [Bool.and_eq_true, decide_eq_true_eq, Bool.not_eq_true'] at hb
    have hs := seenQ_served he
    rw [hb.1] at hs
    exact ⟨demo demoOps, queueServer, s2, 16, demoOps_reachable, by decide +kernel,
      queueServer_new {} (by decide +kernel) (by decide +kernel), hs, isOk_false hb.2⟩
  · cases hb

/-- Memory that happens to be zero, so that growth does not go through a wild pointer. -/
def zeroed : Env := { junkQNull := true }

/-- One value has been read when the ring is full and grows; later the ring wraps around. -/
def mixing : List (Option (List Byte)) :=
  (List.range 16).map (fun i => (some [BitVec.ofNat 8 i, 0] : Option (List Byte))) ++ [(none : Option (List Byte))] ++
  (List.range 17).map (fun i => (some [BitVec.ofNat 8 (16 + i), 0] : Option (List Byte))) ++ List.replicate 17 (none : Option (List Byte))

/-- **C40** fails: even if the memory behind the grown ring happens to be zero, a value still waiting
is overwritten by a later one, because the pointers copied by the growth stay in both places. -/
theorem C40_growth_mixes : ∃ s s1 s2 as x, Reachable s ∧ lookup s (nm "Jobs") = none ∧
    handle s 5 (.tagAdd (DAX_INT + DAX_QUEUE) 1 0 (nm "Jobs")) = .ok (s1, .resp (le4 x)) ∧
    Served 16 2 s1 as s2 ∧ (∀ d ∈ puts as, d.length = 2) ∧ ¬ Fifo [] as := by
  have hc := queueServer_new zeroed (by decide +kernel) (by decide +kernel)
  cases h : seen? 6 16 2 (queueServer zeroed) mixing with
  | none =>
    have : (seen? 6 16 2 (queueServer zeroed) mixing).isSome = true := by decide +kernel
    rw [h] at this; cases this
  | some as =>
    obtain ⟨s2, hs⟩ := seen_served h
    refine ⟨demo demoOps zeroed, _, s2, as, 16, demo_reachable (by decide +kernel), by decide +kernel, hc, hs, ?_, ?_⟩
    · have : (seen? 6 16 2 (queueServer zeroed) mixing).all (fun as => (puts as).all (·.length == 2)) = true := by
        decide +kernel
      rw [h] at this
      simpa using this
    · intro hf
      have hp := hf.order
      rw [List.nil_append] at hp
      have : (seen? 6 16 2 (queueServer zeroed) mixing).all (fun as => !((gets as).isPrefixOf (puts as))) = true := by
        decide +kernel
      rw [h] at this
      simp only [Option.all_some, Bool.not_eq_true'] at this
      rw [List.isPrefixOf_iff_prefix.mpr hp] at this
      cases this

/-- **C40** fails: a read of another size consumes the whole value and gives a part of it. -/
theorem C40_short_read : ∃ s, Reachable s ∧ (runR s [(5, .tagWrite 16 0 [1, 2]), (6, .tagRead 16 0 1), (6, .tagRead 16 1 1)]
      >>= fun p => C.ok p.2) = .ok [.resp [], .resp [1], .err ERR_EMPTY] :=
  ⟨queueServer, demo_reachable (by decide +kernel), by kernel_rfl⟩

end Dax
