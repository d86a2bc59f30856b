import Verif.Lemmas.HandleQuiet
import Verif.Lemmas.Demo
import Verif.Spec.Names
/-!
# C01, C02, C11: names and indexes
-/
set_option autoImplicit false
namespace Dax

theorem lookup_mem {s : Server} (h : WF s) {n : Name} {i : Nat} :
    lookup s n = some i ↔ ⟨n, i⟩ ∈ s.index := by
  rw [lookup_some h]
  constructor
  · rintro ⟨t, ht, hn⟩; exact h.named i t n ht hn
  · intro he; exact h.ent _ he

theorem lookup_congr {s s' : Server} (h : WF s) (h' : WF s') (hi : ∀ e, e ∈ s'.index ↔ e ∈ s.index)
    (n : Name) : lookup s' n = lookup s n := by
  cases h1 : lookup s n with
  | none =>
    cases h2 : lookup s' n with
    | none => rfl
    | some i =>
      rw [lookup_mem h', hi, ← lookup_mem h, h1] at h2; simp at h2
  | some i =>
    rw [lookup_mem h, ← hi, ← lookup_mem h'] at h1; exact h1

theorem lookup_lt {s : Server} (h : WF s) {n : Name} {i : Nat} (hl : lookup s n = some i) :
    i < 2147483648 := by
  obtain ⟨t, ht, -⟩ := (lookup_some h).mp hl
  have := (List.getElem?_eq_some_iff.mp ht).1
  have := h.dblt
  omega

theorem leNat_le4_nat {n : Nat} (h : n < 2147483648) : leNat ((le4 (n : Int)).take 4) = n := by
  rw [List.take_of_length_le (by rw [le4_length]; exact Nat.le_refl _)]
  unfold le4 u32
  rw [leNat_toLE]
  omega

theorem handle_lookup {s s' : Server} {fd : Int} {q : Req} {r : Reply} (h : WF s)
    (hq : q.notReg = true) (hh : handle s fd q = .ok (s', r)) (n : Name) :
    lookup s' n = observe (lookup s) (q, r) n := by
  have hw' := (handle_step h hh).wf
  by_cases hqq : q.quiet = true
  · have hi := (handle_quiet hqq hh).index
    have e : observe (lookup s) (q, r) = lookup s := by
      cases q <;> first | rfl | (simp [Req.quiet] at hqq)
    rw [e]
    exact lookup_congr h hw' (fun e => by rw [hi]) n
  · cases q with
    | modReg => simp [Req.notReg] at hq
    | tagAdd type count attr name =>
      simp only [handle, hTagAdd] at hh
      split at hh
      · simp only [C.ok.injEq, Prod.mk.injEq] at hh
        rw [← hh.1, ← hh.2]; rfl
      · obtain ⟨⟨s1, r1⟩, h1, hh⟩ := C.bind_eq_ok.mp hh
        simp only [C.ok.injEq, Prod.mk.injEq] at hh
        obtain ⟨rfl, rfl⟩ := hh
        have ta := tagAdd_added h h1
        rcases ta.cases with ⟨hneg, hix, -⟩ | ⟨k, rfl, hin, hc⟩
        · have : idOrErr r1 = .err r1 := by unfold idOrErr; rw [if_pos hneg]
          rw [this]
          exact lookup_congr h hw' (fun e => by rw [hix]) n
        · have hlt := lookup_lt hw' ((lookup_mem hw').mpr hin)
          have : idOrErr (k : Int) = .resp (le4 k) := by unfold idOrErr; rw [if_neg (by omega)]
          rw [this]
          simp only [observe, leNat_le4_nat hlt]
          split
          · rename_i hn; subst hn; exact (lookup_mem hw').mpr hin
          · rename_i hn
            rcases hc with ⟨rfl, -, -, hix, -⟩ | ⟨-, -, hix⟩
            · cases h0 : lookup s n with
              | some i =>
                rw [lookup_mem hw', hix]; exact .inr ((lookup_mem h).mp h0)
              | none =>
                cases h2 : lookup s1 n with
                | none => rfl
                | some i =>
                  rw [lookup_mem hw', hix] at h2
                  rcases h2 with h2 | h2
                  · simp only [IdxEnt.mk.injEq] at h2; exact absurd h2.1 hn
                  · rw [(lookup_mem h).mpr h2] at h0; simp at h0
            · exact lookup_congr h hw' (fun e => by rw [hix]) n
    | tagDel idx =>
      simp only [handle, hTagDel] at hh
      obtain ⟨o, ho, hh⟩ := C.bind_eq_ok.mp hh
      cases o with
      | error e =>
        simp only [C.ok.injEq, Prod.mk.injEq] at hh
        rw [← hh.1, ← hh.2]; rfl
      | ok t =>
        dsimp only at hh
        split at hh
        · simp only [C.ok.injEq, Prod.mk.injEq] at hh
          rw [← hh.1, ← hh.2]; rfl
        · obtain ⟨⟨s1, r1⟩, h1, hh⟩ := C.bind_eq_ok.mp hh
          simp only [C.ok.injEq, Prod.mk.injEq] at hh
          obtain ⟨rfl, rfl⟩ := hh
          have td := tagDel_deleted h h1
          rcases td.cases with ⟨hneg, rfl⟩ | ⟨rfl, name, t, ht, hname, hix, hlen, t', ht', hn'⟩
          · rw [if_neg (by omega)]; rfl
          · rw [if_pos rfl]
            simp only [observe]
            rw [tag?_eq] at ht
            split
            · rename_i hl
              obtain ⟨u, hu, hun⟩ := (lookup_some h).mp hl
              rw [ht.2] at hu; cases hu
              rw [hname] at hun; cases hun
              cases h2 : lookup s1 n with
              | none => rfl
              | some j =>
                rw [lookup_mem hw', hix] at h2
                exact absurd rfl h2.2
            · rename_i hl
              cases h0 : lookup s n with
              | some i =>
                rw [lookup_mem hw', hix]
                refine ⟨(lookup_mem h).mp h0, ?_⟩
                rintro rfl
                obtain ⟨u, hu, hun⟩ := (lookup_some h).mp h0
                have : i = idx.toNat := h.inj hu hun ht.2 hname
                subst this
                exact hl h0
              | none =>
                cases h2 : lookup s1 n with
                | none => rfl
                | some i =>
                  rw [lookup_mem hw', hix] at h2
                  rw [(lookup_mem h).mpr h2.1] at h0; simp at h0
    | cdtCreate str =>
      simp only [handle, hCdtCreate] at hh
      obtain ⟨⟨tbl, r1⟩, h1, hh⟩ := C.bind_eq_ok.mp hh
      simp only [C.ok.injEq, Prod.mk.injEq] at hh
      obtain ⟨rfl, rfl⟩ := hh
      exact lookup_congr h hw' (fun e => Iff.rfl) n
    | _ => simp [Req.quiet] at hqq

theorem runR_wf {qs : List (Int × Req)} : ∀ {s s' : Server} {rs : List Reply}, WF s →
    runR s qs = .ok (s', rs) → Step s s' := by
  induction qs with
  | nil =>
    intro s s' rs h hh
    simp only [runR, C.ok.injEq, Prod.mk.injEq] at hh; rw [← hh.1]; exact Step.refl h
  | cons q qs ih =>
    intro s s' rs h hh
    obtain ⟨fd, q⟩ := q
    simp only [runR] at hh
    obtain ⟨⟨s1, r1⟩, h1, hh⟩ := C.bind_eq_ok.mp hh
    obtain ⟨⟨s2, rs2⟩, h2, hh⟩ := C.bind_eq_ok.mp hh
    simp only [C.ok.injEq, Prod.mk.injEq] at hh; rw [← hh.1]
    have st := handle_step h h1
    exact st.trans (ih st.wf h2)

/-! ## C01 -/

/-- **C01** In every reachable state: a query by name is answered, on any connection and without
any effect, with the description of the tag that a query by index shows under that name, and
with not-found exactly when there is no such tag. -/
theorem C01_lookup {s : Server} (h : Reachable s) (fd : Int) (name : Name) :
    (∃ i type count attr,
        handle s fd (.tagGetName name) = .ok (s, .resp (tagReply i type count attr name)) ∧
        handle s fd (.tagGetIdx i) = .ok (s, .resp (tagReply i type count attr name))) ∨
    (handle s fd (.tagGetName name) = .ok (s, .err ERR_NOTFOUND) ∧ ∀ i, ¬ LiveAt s i name) := by
  have hw := h.wf
  by_cases hex : ∃ (j : Nat) (t : Tag), s.db[j]? = some t ∧ t.name = some name
  · obtain ⟨j, t, ht, hn⟩ := hex
    exact .inl ⟨j, t.type, t.count, t.attr.bits, getName_live hw ht hn fd, getIdx_live hw ht hn fd⟩
  · refine .inr ⟨getName_none hw (fun j t ht hn => hex ⟨j, t, ht, hn⟩) fd, fun i hl => ?_⟩
    obtain ⟨t, ht, hn⟩ := (liveAt_iff hw).mp hl
    exact hex ⟨i, t, ht, hn⟩

/-- **C01** The index found by name is the live tag with that name, and conversely. -/
theorem C01_index {s : Server} (h : Reachable s) (name : Name) (i : Nat) :
    lookup s name = some i ↔ LiveAt s i name := by
  rw [lookup_some h.wf, liveAt_iff h.wf]

/-- **C01** No two live tags share a name. -/
theorem C01_unique {s : Server} (h : Reachable s) {i j : Nat} {name : Name}
    (hi : LiveAt s i name) (hj : LiveAt s j name) : i = j := by
  obtain ⟨t, ht, hn⟩ := (liveAt_iff h.wf).mp hi
  obtain ⟨u, hu, hm⟩ := (liveAt_iff h.wf).mp hj
  exact h.wf.inj ht hn hu hm

/-- **C01** Over any sequence of client requests (registration apart, which adds the status tag
of a module) the answers to lookups are those a client computes from the replies it has seen. -/
theorem C01_history {qs : List (Int × Req)} : ∀ {s s' : Server} {rs : List Reply},
    Reachable s → (∀ q ∈ qs, q.2.notReg = true) → runR s qs = .ok (s', rs) →
    ∀ name, lookup s' name = ((qs.map (·.2)).zip rs).foldl observe (lookup s) name := by
  suffices H : ∀ {s s' : Server} {rs : List Reply}, WF s → (∀ q ∈ qs, q.2.notReg = true) →
      runR s qs = .ok (s', rs) → lookup s' = ((qs.map (·.2)).zip rs).foldl observe (lookup s) by
    intro s s' rs h hq hr name
    rw [H h.wf hq hr]
  induction qs with
  | nil =>
    intro s s' rs h _ hh
    simp only [runR, C.ok.injEq, Prod.mk.injEq] at hh; rw [← hh.1, ← hh.2]; rfl
  | cons q qs ih =>
    intro s s' rs h hq hh
    obtain ⟨fd, q⟩ := q
    simp only [runR] at hh
    obtain ⟨⟨s1, r1⟩, h1, hh⟩ := C.bind_eq_ok.mp hh
    obtain ⟨⟨s2, rs2⟩, h2, hh⟩ := C.bind_eq_ok.mp hh
    simp only [C.ok.injEq, Prod.mk.injEq] at hh
    obtain ⟨rfl, rfl⟩ := hh
    rw [ih (handle_step h h1).wf (fun q hm => hq q (List.mem_cons_of_mem _ hm)) h2]
    have : lookup s1 = observe (lookup s) (q, r1) :=
      funext (handle_lookup h (hq (fd, q) List.mem_cons_self) h1)
    rw [this]; rfl

/-- The hypotheses of `C01_unique` are met by the tag `Speed` of the sample history, and two
lookups give the expected answers. -/
example : LiveAt (demo demoOps) 13 (nm "Speed") ∧ lookup (demo demoOps) (nm "Speed") = some 13 ∧
    lookup (demo demoOps) (nm "Tmp") = none :=
  ⟨⟨DAX_INT, 4, 0, fun fd => by kernel_rfl⟩, by decide +kernel, by decide +kernel⟩

/-- `C01_history` applies to a sequence that creates, deletes and creates again. -/
example : ∃ s' rs, runR (demo demoOps) [(5, .tagDel 13), (6, .tagAdd DAX_REAL 2 0 (nm "Speed"))] =
    .ok (s', rs) ∧ lookup s' (nm "Speed") = some 16 := by
  refine exists_runR ?_
  decide +kernel

/-! ## C02 -/

theorem deadAt_iff {s : Server} (h : WF s) {i : Nat} :
    DeadAt s i ↔ ∃ t, s.db[i]? = some t ∧ t.name = none := by
  constructor
  · intro hd
    have hd := hd 0
    cases ht : s.db[i]? with
    | none => rw [getIdx_none ht] at hd; simp [ERR_ARG, ERR_DELETED] at hd
    | some t =>
      cases hn : t.name with
      | none => exact ⟨t, rfl, hn⟩
      | some m => rw [getIdx_live h ht hn] at hd; simp at hd
  · rintro ⟨t, ht, hn⟩ fd
    exact getIdx_dead h ht hn fd

/-- **C02** A live tag is later either still the tag of that name and type under that index,
with at least as many elements, or deleted. -/
theorem C02_stable {s s' : Server} {os : List Op} {i type count : Nat} {name : Name}
    (h : Reachable s) (hl : LiveTag s i name type count) (hr : run s os = .ok s') :
    (∃ count', count ≤ count' ∧ LiveTag s' i name type count') ∨ DeadAt s' i := by
  have hw := h.wf
  have st := run_step hw hr
  obtain ⟨t, ht, hn, rfl, rfl⟩ := (liveTag_iff hw).mp hl
  obtain ⟨t', ht', h1, h2, h3, h4, -⟩ := st.ev.tag i t ht
  rcases h3 with h3 | h3
  · exact .inl ⟨t'.count, h4, (liveTag_iff st.wf).mpr ⟨t', ht', h3.trans hn, h1, rfl⟩⟩
  · exact .inr ((deadAt_iff st.wf).mpr ⟨t', ht', h3⟩)

/-- **C02** Once deleted, always deleted: every query, read, write, masked write and deletion of
that index is refused, with the code for a deleted tag or for a bad range or argument, and has
no effect. -/
theorem C02_dead {s s' : Server} {os : List Op} {i : Nat} (h : Reachable s) (hd : DeadAt s i)
    (hr : run s os = .ok s') :
    DeadAt s' i ∧
    (∀ fd off size s2 r, handle s' fd (.tagRead i off size) = .ok (s2, r) →
      s2 = s' ∧ (r = .err ERR_DELETED ∨ r = .err ERR_2BIG)) ∧
    (∀ fd off d s2 r, handle s' fd (.tagWrite i off d) = .ok (s2, r) →
      s2 = s' ∧ (r = .err ERR_DELETED ∨ r = .err ERR_2BIG)) ∧
    (∀ fd off d m s2 r, handle s' fd (.tagMWrite i off d m) = .ok (s2, r) →
      s2 = s' ∧ (r = .err ERR_DELETED ∨ r = .err ERR_2BIG)) ∧
    (∀ fd, handle s' fd (.tagDel i) = .ok (s', .err ERR_ARG)) := by
  have hw := h.wf
  have st := run_step hw hr
  obtain ⟨t0, ht0, hn0⟩ := (deadAt_iff hw).mp hd
  obtain ⟨t, ht, -, -, h3, -⟩ := st.ev.tag i t0 ht0
  have hn : t.name = none := by rcases h3 with h3 | h3 <;> simp [h3, hn0]
  have hw' := st.wf
  have hok := hw'.tag i t ht
  have hf := hok.name.mp hn
  obtain ⟨hv, hro⟩ := hok.freed hf
  have ht' : s'.tag? (i : Int) = some t := by rw [tag?_natCast]; exact ht
  have hlt := (List.getElem?_eq_some_iff.mp ht).1
  have hraw : rawAttr s' (i : Int) = .ok (t.attr, some t.fd) := by
    unfold rawAttr
    rw [if_neg (by have := hw'.dbsz; omega), ht']
  refine ⟨(deadAt_iff hw').mpr ⟨t, ht, hn⟩, ?_, ?_, ?_, ?_⟩
  · intro fd off size s2 r hh
    simp only [handle, hTagRead] at hh
    obtain ⟨⟨s1, r1⟩, h1, hh⟩ := C.bind_eq_ok.mp hh
    unfold tagRead at h1
    rw [ht'] at h1
    simp only [hv, Bool.false_eq_true, if_false, hf] at h1
    obtain ⟨e, -, h1⟩ := C.bind_eq_ok.mp h1
    obtain ⟨sz, -, h1⟩ := C.bind_eq_ok.mp h1
    split at h1 <;>
    · simp only [C.ok.injEq, Prod.mk.injEq] at h1
      obtain ⟨rfl, rfl⟩ := h1
      simp only [C.ok.injEq, Prod.mk.injEq] at hh
      obtain ⟨rfl, rfl⟩ := hh
      simp
  · intro fd off d s2 r hh
    simp only [handle, hTagWrite, roForeign, hraw, C.ok_bind, hro, Bool.false_and] at hh
    simp only [Bool.false_eq_true, if_false] at hh
    obtain ⟨⟨s1, r1⟩, h1, hh⟩ := C.bind_eq_ok.mp hh
    unfold tagWrite at h1
    rw [ht'] at h1
    simp only [hv, Bool.false_eq_true, if_false, hf] at h1
    obtain ⟨e, -, h1⟩ := C.bind_eq_ok.mp h1
    obtain ⟨sz, -, h1⟩ := C.bind_eq_ok.mp h1
    split at h1 <;>
    · simp only [C.ok.injEq, Prod.mk.injEq] at h1
      obtain ⟨rfl, rfl⟩ := h1
      dsimp only at hh
      rw [if_pos (by decide)] at hh
      simp only [C.ok.injEq, Prod.mk.injEq] at hh
      obtain ⟨rfl, rfl⟩ := hh
      simp
  · intro fd off d m s2 r hh
    simp only [handle, hTagMWrite, hraw, C.ok_bind, hro] at hh
    simp only [Bool.false_eq_true, if_false] at hh
    obtain ⟨⟨s1, r1⟩, h1, hh⟩ := C.bind_eq_ok.mp hh
    unfold tagMaskWrite at h1
    rw [if_neg (by have := hw'.dbsz; omega), ht'] at h1
    simp only [hv, Bool.false_eq_true, if_false, hf] at h1
    obtain ⟨e, -, h1⟩ := C.bind_eq_ok.mp h1
    obtain ⟨sz, -, h1⟩ := C.bind_eq_ok.mp h1
    split at h1 <;>
    · simp only [C.ok.injEq, Prod.mk.injEq] at h1
      obtain ⟨rfl, rfl⟩ := h1
      dsimp only at hh
      rw [if_pos (by decide)] at hh
      simp only [C.ok.injEq, Prod.mk.injEq] at hh
      obtain ⟨rfl, rfl⟩ := hh
      simp
  · intro fd
    simp only [handle, hTagDel, tagGetIndex, ht', Int.toNat_natCast]
    rw [tagInfo_dead hok hn]
    rfl

/-- The tag `Tmp` of the sample history has been deleted, `Speed` is live. -/
example : DeadAt (demo demoOps) 15 ∧ LiveTag (demo demoOps) 13 (nm "Speed") DAX_INT 4 :=
  ⟨fun fd => by kernel_rfl, by decide, by decide, 0, fun fd => by kernel_rfl⟩

/-! ## C11 -/

theorem letter_iff (b : Byte) : isAlpha b = true ↔ IsLetter b := by
  simp [isAlpha, IsLetter]

theorem digit_iff (b : Byte) : isDigit b = true ↔ IsDigit b := by
  simp [isDigit, IsDigit]

theorem under_iff (b : Byte) : b = underscore ↔ IsUnderscore b := by
  unfold IsUnderscore underscore
  constructor
  · rintro rfl; rfl
  · intro h; exact BitVec.eq_of_toNat_eq h

/-- The server's name check together with the reserved first character is the grammar. -/
theorem clientName_iff (n : Name) :
    ClientName n ↔ n.head? ≠ some underscore ∧ validateName n = 0 := by
  constructor
  · rintro ⟨hs, ⟨c, hc, hl⟩, hall⟩
    cases n with
    | nil => simp at hc
    | cons a as =>
      simp only [List.getElem?_cons_zero, Option.some.injEq] at hc
      subst hc
      have ha := (letter_iff a).mpr hl
      refine ⟨?_, ?_⟩
      · simp only [List.head?_cons, ne_eq, Option.some.injEq]
        rintro rfl
        revert ha; decide
      · unfold validateName
        rw [if_neg (by have : TAGNAME_SIZE = 32 := rfl; omega)]
        have : as.all (fun d => isAlpha d || decide (d = underscore) || isDigit d) = true := by
          rw [List.all_eq_true]
          intro d hd
          rcases hall d (List.mem_cons_of_mem _ hd) with h | h | h
          · simp [(letter_iff d).mpr h]
          · simp [(digit_iff d).mpr h]
          · simp [(under_iff d).mpr h]
        simp [ha, this]
  · rintro ⟨hu, hv⟩
    unfold validateName at hv
    split at hv
    · simp [ERR_2BIG] at hv
    rename_i hlen
    split at hv
    · simp [ERR_ARG] at hv
    rename_i a as
    simp only [List.head?_cons, ne_eq, Option.some.injEq] at hu
    split at hv
    · simp [ERR_ARG] at hv
    rename_i ha
    split at hv
    · rename_i hall
      have ha : isAlpha a = true := by simpa [hu] using ha
      refine ⟨by have : TAGNAME_SIZE = 32 := rfl; omega, ⟨a, rfl, (letter_iff a).mp ha⟩, ?_⟩
      intro c hc
      rcases List.mem_cons.mp hc with rfl | hc
      · exact .inl ((letter_iff _).mp ha)
      · have := List.all_eq_true.mp hall c hc
        simp only [Bool.or_eq_true, decide_eq_true_eq] at this
        rcases this with (h | h) | h
        · exact .inl ((letter_iff c).mp h)
        · exact .inr (.inr ((under_iff c).mp h))
        · exact .inr (.inl ((digit_iff c).mp h))
    · simp [ERR_ARG] at hv

theorem knownType_check {s : Server} (hw : WF s) {t : Nat} (h : KnownType s t) :
    checkType s.cdts t = true := by
  have hsm := hw.cdts.small
  obtain ⟨u, hu, ht⟩ := h
  have key : isQueue u = false ∧ (t = u + 0x40000000 → isQueue t = true) := by
    unfold isQueue
    rcases hu with hu | ⟨j, hj, rfl⟩
    · have : u < 256 := by
        simp only [List.mem_cons, List.not_mem_nil, or_false] at hu
        rcases hu with h|h|h|h|h|h|h|h|h|h|h|h|h|h|h|h <;> subst h <;> decide
      refine ⟨?_, ?_⟩
      · rw [Nat.testBit_eq_decide_div_mod_eq]; simp; omega
      · intro e; subst e
        rw [Nat.testBit_eq_decide_div_mod_eq]; simp; omega
    · refine ⟨?_, ?_⟩
      · rw [Nat.testBit_eq_decide_div_mod_eq]; simp; omega
      · intro e; subst e
        rw [Nat.testBit_eq_decide_div_mod_eq]; simp; omega
  have hst : stripQueue t = u := by
    unfold stripQueue
    rcases ht with rfl | h
    · rw [if_neg (by simp [key.1])]
    · rw [if_pos (key.2 h), h]; simp [DAX_QUEUE]
  unfold checkType
  simp only [hst, Bool.or_eq_true, Bool.and_eq_true, decide_eq_true_eq]
  rcases hu with hu | ⟨j, hj, rfl⟩
  · left; simpa [baseTypes] using hu
  · right
    have hc : isCustom (0x80000000 + j) = true := by
      unfold isCustom
      rw [Nat.testBit_eq_decide_div_mod_eq]; simp; omega
    refine ⟨hc, ?_⟩
    unfold cdtToIndex
    rw [if_pos hc]; simp only [DAX_CUSTOM]; omega

/-- **C11** With a known type, a nonzero count and an unused name, creating a tag succeeds
exactly when the name follows the grammar. -/
theorem C11_create {s s' : Server} {fd : Int} {type count attr : Nat} {name : Name} {r : Reply}
    (h : Reachable s) (ht : KnownType s type) (hct : 0 < count ∧ count < 4294967296)
    (hn : lookup s name = none) (hh : handle s fd (.tagAdd type count attr name) = .ok (s', r)) :
    (∃ i, r = .resp (le4 i)) ↔ ClientName name := by
  have hw := h.wf
  have hck := knownType_check hw ht
  rw [clientName_iff]
  simp only [handle, hTagAdd] at hh
  split at hh
  · rename_i hu
    simp only [C.ok.injEq, Prod.mk.injEq] at hh
    rw [← hh.2]; simp [hu]
  rename_i hu
  obtain ⟨⟨s1, r1⟩, h1, hh⟩ := C.bind_eq_ok.mp hh
  simp only [C.ok.injEq, Prod.mk.injEq] at hh
  obtain ⟨rfl, rfl⟩ := hh
  have ta := tagAdd_added hw h1
  have hg : checkType (growDb s).cdts type = true := by rw [growDb_cdts]; exact hck
  unfold tagAdd tagAddC at h1
  rw [u32_nat hct.2, if_neg (by omega)] at h1
  simp only [hg, Bool.true_eq_false, if_false] at h1
  split at h1
  · rename_i hv
    simp only [C.ok.injEq, Prod.mk.injEq] at h1
    rw [← h1.2]
    simp [hv, idOrErr, ERR_TAG_BAD]
  · rename_i hv
    have hv : validateName name = 0 := by simpa using hv
    refine ⟨fun _ => ⟨hu, hv⟩, fun _ => ?_⟩
    obtain ⟨size, ha, h1⟩ := C.bind_eq_ok.mp h1
    obtain ⟨o, ho, h1⟩ := C.bind_eq_ok.mp h1
    cases o with
    | some n =>
      have := getByName_some (by rw [growDb_index]; exact hw.sorted) ho
      rw [growDb_index] at this
      rw [(lookup_mem hw).mpr this] at hn
      simp at hn
    | none =>
      have : ∃ n : Nat, r1 = n := by
        dsimp only at h1
        unfold tagAddNew at h1
        dsimp only at h1
        split at h1
        · simp at h1
        · simp only [C.bind_eq_ok] at h1
          obtain ⟨a1, -, a2, -, a3, -, a4, -, a5, -, a6, -, h1⟩ := h1
          simp only [C.ok.injEq, Prod.mk.injEq] at h1
          exact ⟨_, h1.2.symm⟩
      obtain ⟨n, rfl⟩ := this
      exact ⟨n, by unfold idOrErr; rw [if_neg (by omega)]⟩

/-- **C11** Names beginning with an underscore are never created by a client: the request is
refused without effect. -/
theorem C11_reserved (s : Server) (fd : Int) (type count attr : Nat) (rest : Name) {c : Byte}
    (hc : IsUnderscore c) :
    handle s fd (.tagAdd type count attr (c :: rest)) = .ok (s, .err ERR_ILLEGAL) := by
  rw [← under_iff] at hc; subst hc
  simp [handle, hTagAdd]

/-- **C11** A live tag whose name begins with an underscore cannot be deleted by a client. -/
theorem C11_undeletable {s : Server} {i : Nat} {c : Byte} {rest : Name} (h : Reachable s)
    (hc : IsUnderscore c) (hl : LiveAt s i (c :: rest)) (fd : Int) :
    handle s fd (.tagDel i) = .ok (s, .err ERR_ILLEGAL) := by
  rw [← under_iff] at hc; subst hc
  obtain ⟨t, ht, hn⟩ := (liveAt_iff h.wf).mp hl
  simp only [handle, hTagDel, tagGetIndex, tag?_natCast, ht, Int.toNat_natCast]
  rw [tagInfo_live (h.wf.tag i t ht) hn]
  simp

/-- A name that meets the grammar and is unused, a request that creates it, a name that does
not, and a system tag. -/
example : ClientName (nm "Level_2") ∧ lookup (demo demoOps) (nm "Level_2") = none ∧
    (∃ s', handle (demo demoOps) 5 (.tagAdd DAX_REAL 3 0 (nm "Level_2")) =
      .ok (s', .resp (le4 16))) ∧
    (∃ s', handle (demo demoOps) 5 (.tagAdd DAX_REAL 3 0 (nm "2Level")) =
      .ok (s', .err ERR_TAG_BAD)) ∧
    LiveAt (demo demoOps) 0 (nm "_tagcount") :=
  ⟨(clientName_iff _).mpr (by decide), by decide +kernel, exists_reply (by decide +kernel),
    exists_reply (by decide +kernel),
    ⟨DAX_DINT, 1, 1, fun fd => by kernel_rfl⟩⟩

end Dax
