import Verif.Lemmas.Demo
import Verif.Lemmas.Api
import Verif.Spec.Types
/-!
# C17: compound types are immutable and unique
-/
set_option autoImplicit false
namespace Dax

theorem cdtGetName_ext {tbl tbl' : List Cdt} (h : CdtExt tbl tbl') {t : Nat} {n : Name}
    (hn : cdtGetName tbl t = some n) : cdtGetName tbl' t = some n := by
  unfold cdtGetName at hn ⊢
  split
  · rename_i hc
    rw [if_pos hc] at hn
    cases hx : tbl[cdtToIndex t]? with
    | none => rw [hx] at hn; simp at hn
    | some c =>
      obtain ⟨c', hc', h1, -⟩ := h _ _ hx
      rw [hx] at hn
      simp only [Option.map_some, Option.some.injEq] at hn
      rw [hc', Option.map_some, h1, hn]
  · rename_i hc
    rw [if_neg hc] at hn; exact hn

theorem memberText_ext {tbl tbl' : List Cdt} (h : CdtExt tbl tbl') {m : Member} {x : Name}
    (hx : memberText tbl m = .ok x) : memberText tbl' m = .ok x := by
  unfold memberText at hx ⊢
  cases hn : cdtGetName tbl m.type with
  | none => rw [hn] at hx; simp at hx
  | some n => rw [hn] at hx; rw [cdtGetName_ext h hn]; exact hx

theorem membersText_ext {tbl tbl' : List Cdt} (h : CdtExt tbl tbl') {ms : List Member} : ∀ {x : Name},
    membersText tbl ms = .ok x → membersText tbl' ms = .ok x := by
  induction ms with
  | nil => intro x hx; exact hx
  | cons m ms ih =>
    intro x hx
    simp only [membersText] at hx ⊢
    obtain ⟨a, ha, hx⟩ := C.bind_eq_ok.mp hx
    obtain ⟨b, hb, hx⟩ := C.bind_eq_ok.mp hx
    rw [memberText_ext h ha, C.ok_bind, ih hb, C.ok_bind]; exact hx

theorem serialize_ext {tbl tbl' : List Cdt} (h : CdtExt tbl tbl') {t : Nat} {x : Name}
    (hx : serialize tbl t = .ok (some x)) : serialize tbl' t = .ok (some x) := by
  unfold serialize at hx ⊢
  cases hc : tbl[cdtToIndex t]? with
  | none => rw [hc] at hx; simp at hx
  | some c =>
    obtain ⟨c', hc', h1, h2⟩ := h _ _ hc
    rw [hc] at hx
    rw [hc']
    dsimp only at hx ⊢
    obtain ⟨ms, hm, hx⟩ := C.bind_eq_ok.mp hx
    rw [h2, membersText_ext h hm, C.ok_bind, h1]; exact hx

theorem hCdtGet_iff {s : Server} {t t' : Nat} {txt : Name} (ht : t < 4294967296) (ht' : t' < 4294967296) :
    hCdtGet s t' = .ok (s, .resp (toLE 4 t ++ txt ++ [0])) ↔
      t' = t ∧ serialize s.cdts t = .ok (some txt) ∧ txt.length < 4084 := by
  unfold hCdtGet
  constructor
  · intro h
    obtain ⟨o, ho, h⟩ := C.bind_eq_ok.mp h
    cases o with
    | none => simp at h
    | some x =>
      dsimp only at h
      split at h
      · simp at h
      · rename_i hl
        simp only [C.ok.injEq, Prod.mk.injEq, Reply.resp.injEq, true_and, List.append_assoc] at h
        have h1 := List.append_inj h (by rw [toLE_length, toLE_length])
        have h2 := (List.append_inj' h1.2 rfl).1
        have h3 : t' = t := by
          have := congrArg leNat h1.1
          rw [leNat_toLE, leNat_toLE] at this
          omega
        subst h3; subst h2
        refine ⟨rfl, ho, ?_⟩
        have : MSG_DATA_SIZE = 4088 := rfl
        omega
  · rintro ⟨rfl, h1, h2⟩
    rw [h1]
    have : MSG_DATA_SIZE = 4088 := rfl
    simp only [C.ok_bind]
    rw [if_neg (by omega)]

theorem typeText_iff {s : Server} {t : Nat} {txt : Name} :
    TypeText s t txt ↔ Compound t ∧ serialize s.cdts t = .ok (some txt) ∧ txt.length < 4084 := by
  unfold TypeText
  constructor
  · rintro ⟨hc, h⟩
    exact ⟨hc, ((hCdtGet_iff hc.2 hc.2).mp (h 0)).2⟩
  · rintro ⟨hc, h⟩
    exact ⟨hc, fun fd => (hCdtGet_iff hc.2 hc.2).mpr ⟨rfl, h⟩⟩

theorem compound_custom {t : Nat} (h : Compound t) : isCustom t = true := by
  unfold isCustom
  rw [Nat.testBit_eq_decide_div_mod_eq]
  have := h.1; have := h.2
  simp only [decide_eq_true_eq]; omega

/-- **C17**, immutability: whatever happens later, the server keeps answering a query for a type
with the same text, and the size it computes for the type stays the same. -/
theorem C17_immutable {s s' : Server} {os : List Op} {t : Nat} {txt : Name} (h : Reachable s)
    (ht : TypeText s t txt) (hr : run s os = .ok s') :
    TypeText s' t txt ∧ ∀ n, typeSize s.cdts t = .ok n → typeSize s'.cdts t = .ok n := by
  have he := (run_step h.wf hr).ev.cdts
  rw [typeText_iff] at ht ⊢
  obtain ⟨hc, h1, h2⟩ := ht
  refine ⟨⟨hc, serialize_ext he h1, h2⟩, fun n hn => ?_⟩
  by_cases hck : checkType s.cdts t = true
  · exact typeSize_ext he hn hck
  · exfalso
    apply hck
    unfold serialize at h1
    cases hx : s.cdts[cdtToIndex t]? with
    | none => rw [hx] at h1; simp at h1
    | some c =>
      have hl := (List.getElem?_eq_some_iff.mp hx).1
      have hsm := h.wf.cdts.small
      have hcu := compound_custom hc
      have hi : cdtToIndex t = t - 2147483648 := by unfold cdtToIndex; rw [if_pos hcu]; rfl
      have hq : stripQueue t = t := by
        unfold stripQueue isQueue
        have : t.testBit 30 = false := by
          rw [Nat.testBit_eq_decide_div_mod_eq]
          have := hc.1
          simp only [decide_eq_false_iff_not]; omega
        rw [this]; rfl
      simp only [checkType, hq, hcu, Bool.true_and, Bool.or_eq_true, decide_eq_true_eq]
      exact .inr hl

/-- A type that refers to another one. -/
def typeDemo : List Op := demoOps ++
  [.req 5 (.cdtCreate (nm "Pt:x,DINT,1:y,REAL,2")), .req 5 (.cdtCreate (nm "Line:a,Pt,2:f,BOOL,3"))]

/-- Instance: the server's own two types have the codes 0x80000000 and 0x80000001, the new types the next ones. -/
example : Reachable (demo typeDemo) ∧ TypeText (demo typeDemo) 0x80000003 (nm "Line:a,Pt,2:f,BOOL,3") ∧
    typeSize (demo typeDemo).cdts 0x80000003 = .ok 25 ∧
    ∃ s', run (demo typeDemo) [.req 6 (.cdtCreate (nm "New:l,Line,1")), .close 5] = .ok s' :=
  ⟨demo_reachable (by decide +kernel), ⟨⟨by decide, by decide⟩, fun fd => by kernel_rfl⟩, by kernel_rfl,
   C.isOk_iff.mp (by decide +kernel)⟩

/-! ## Creating a type again -/

theorem splitOn_head (d : Byte) (n rest : Name) (h : d ∉ n) :
    splitOn d (n ++ d :: rest) = n :: splitOn d rest := by
  induction n with
  | nil => simp [splitOn]
  | cons c n ih =>
    simp only [List.mem_cons, not_or] at h
    have hne : ¬ c = d := fun e => h.1 e.symm
    simp only [List.cons_append, splitOn, if_neg hne]
    rw [ih h.2]

theorem splitOn_none (d : Byte) (n : Name) (h : d ∉ n) : splitOn d n = [n] := by
  induction n with
  | nil => rfl
  | cons c n ih =>
    simp only [List.mem_cons, not_or] at h
    have hne : ¬ c = d := fun e => h.1 e.symm
    simp only [splitOn, if_neg hne]
    rw [ih h.2]

theorem defines_tokens {str n : Name} (h : Defines str n) : ∃ l, tokens COLON str = n :: l := by
  obtain ⟨hn, hc, rfl | ⟨rest, rfl⟩⟩ := h
  · refine ⟨[], ?_⟩
    unfold tokens
    rw [splitOn_none COLON str hc]
    cases str <;> simp at hn ⊢
  · refine ⟨tokens COLON rest, ?_⟩
    unfold tokens
    rw [show n ++ 58#8 :: rest = n ++ COLON :: rest from rfl, splitOn_head COLON n rest hc]
    cases n <;> simp at hn ⊢

theorem toLower_alpha : ∀ b : Byte, isAlpha (toLower b) = isAlpha b ∧
    (toLower b = underscore ↔ b = underscore) ∧ isDigit (toLower b) = isDigit b := by decide +kernel

theorem validate_case {a b : Name} (h : strcaseeq a b = true) (hb : validateName b = 0) : validateName a = 0 := by
  have e : a.map toLower = b.map toLower := by simpa [strcaseeq] using h
  have hl : a.length = b.length := by have := congrArg List.length e; simpa using this
  have key : ∀ x y : Byte, toLower x = toLower y → isAlpha x = isAlpha y ∧ (x = underscore ↔ y = underscore) ∧
      isDigit x = isDigit y := by
    intro x y hxy
    obtain ⟨a1, a2, a3⟩ := toLower_alpha x
    obtain ⟨b1, b2, b3⟩ := toLower_alpha y
    exact ⟨by rw [← a1, ← b1, hxy], by rw [← a2, ← b2, hxy], by rw [← a3, ← b3, hxy]⟩
  unfold validateName at hb ⊢
  rw [hl]
  split at hb
  · rename_i h0; exact absurd hb (by decide)
  rename_i h0
  rw [if_neg h0]
  cases b with
  | nil => simp [ERR_ARG] at hb
  | cons y ys =>
    cases a with
    | nil => simp at hl
    | cons x xs =>
      simp only [List.map_cons, List.cons.injEq] at e
      obtain ⟨k1, k2, k3⟩ := key x y e.1
      dsimp only at hb ⊢
      split at hb
      · exact absurd hb (by decide)
      · rename_i h1
        rw [if_neg (by rw [k1]; simpa [k2] using h1)]
        split at hb
        · rename_i h2
          rw [if_pos]
          have : ∀ (xs ys : List Byte), xs.map toLower = ys.map toLower →
              ys.all (fun d => isAlpha d || d = underscore || isDigit d) = true →
              xs.all (fun d => isAlpha d || d = underscore || isDigit d) = true := by
            intro xs
            induction xs with
            | nil => intros; rfl
            | cons x xs ih =>
              intro ys he hy
              cases ys with
              | nil => simp at he
              | cons y ys =>
                simp only [List.map_cons, List.cons.injEq] at he
                simp only [List.all_cons, Bool.and_eq_true] at hy ⊢
                obtain ⟨k1, k2, k3⟩ := key x y he.1
                refine ⟨?_, ih ys he.2 hy.2⟩
                rw [k1, k3]
                have := hy.1
                simp only [Bool.or_eq_true, decide_eq_true_eq] at this ⊢
                rw [k2]; exact this
          exact this xs ys e.2 h2
        · exact absurd hb (by decide)

theorem cdtGetType_custom {tbl : List Cdt} {n : Name} {t : Nat} (h : cdtGetType tbl n = t) (hc : Compound t) :
    ∃ i c, tbl[i]? = some c ∧ t = cdtToType i ∧ strcaseeq n c.name = true := by
  unfold cdtGetType at h
  split at h
  · rename_i p hp
    have hm := List.mem_of_find?_eq_some hp
    have : ∀ q ∈ baseNames, q.2 < 2147483648 := by decide
    have h1 := this p hm
    have := hc.1
    omega
  · split at h
    · rename_i i hi
      obtain ⟨hlt, h1, -⟩ := List.findIdx?_eq_some_iff_getElem.mp hi
      exact ⟨i, _, List.getElem?_eq_getElem hlt, h.symm, h1⟩
    · have := hc.1; omega

theorem typeNamed_iff {s : Server} (hw : WF s) {n : Name} {t : Nat} {txt : Name} :
    TypeNamed s n t txt ↔ Compound t ∧ cdtGetType s.cdts n = t ∧ serialize s.cdts t = .ok (some txt) ∧
      txt.length < 4084 := by
  have hlt : cdtGetType s.cdts n < 4294967296 := by
    unfold cdtGetType
    split
    · rename_i p hp
      have hm := List.mem_of_find?_eq_some hp
      have : ∀ q ∈ baseNames, q.2 < 4294967296 := by decide
      exact this p hm
    · split
      · rename_i i hi
        obtain ⟨hlt, -⟩ := List.findIdx?_eq_some_iff_getElem.mp hi
        have := hw.cdts.small
        unfold cdtToType DAX_CUSTOM
        omega
      · omega
  unfold TypeNamed
  constructor
  · rintro ⟨hc, h⟩
    exact ⟨hc, (hCdtGet_iff hc.2 hlt).mp (h 0)⟩
  · rintro ⟨hc, h⟩
    exact ⟨hc, fun fd => (hCdtGet_iff hc.2 hlt).mpr h⟩

/-- **C17**, creating a type whose name exists (in any spelling of upper and lower case): nothing
changes; if the text is the definition text the server reports for that type, the reply is the
code of that type, and otherwise the request is refused as a duplicate.

Missing: in the first case the reply depends on an uninitialised variable of the server
(`C17_uninitialised`); the hypothesis `hj` says it happens to be non-negative.  And the text the
server reports need not be the one the type was created with, so repeating the very same
request may be refused (`C17_same_text_refused`). -/
theorem C17_recreate_partial {s s' : Server} {fd : Int} {n str txt : Name} {t : Nat} {r : Reply} (h : Reachable s)
    (hj : 0 ≤ i32 (leNat (s.env.junk 4)))
    (hn : TypeNamed s n t txt) (hd : Defines str n) (hh : handle s fd (.cdtCreate str) = .ok (s', r)) :
    s' = s ∧ (str = txt → r = .resp (toLE 4 t)) ∧ (str ≠ txt → r = .err ERR_DUPL) := by
  obtain ⟨hc, h1, h2, -⟩ := (typeNamed_iff h.wf).mp hn
  obtain ⟨i, c, hi, rfl, hcase⟩ := cdtGetType_custom h1 hc
  have hv := validate_case hcase (h.wf.cdts.valid c (List.mem_of_getElem? hi))
  obtain ⟨l, hl⟩ := defines_tokens hd
  simp only [handle, hCdtCreate, cdtCreate] at hh
  obtain ⟨⟨tbl, x⟩, hx, hh⟩ := C.bind_eq_ok.mp hh
  rw [hl] at hx
  dsimp only at hx
  rw [hv, h1, if_neg (by simp), if_pos (by simp [cdtToType, DAX_CUSTOM]), h2, C.ok_bind] at hx
  dsimp only at hx
  split at hx
  · rename_i hne
    simp only [C.ok.injEq, Prod.mk.injEq] at hx
    obtain ⟨rfl, rfl⟩ := hx
    simp only [C.ok.injEq, Prod.mk.injEq] at hh
    rw [if_pos (by decide)] at hh
    exact ⟨hh.1.symm, fun e => absurd e.symm hne, fun _ => hh.2.symm⟩
  · rename_i he
    have he : txt = str := by simpa using he
    simp only [C.ok.injEq, Prod.mk.injEq] at hx
    obtain ⟨rfl, rfl⟩ := hx
    simp only [C.ok.injEq, Prod.mk.injEq] at hh
    rw [if_neg (by omega)] at hh
    exact ⟨hh.1.symm, fun _ => hh.2.symm, fun hne => absurd he.symm hne⟩

/-- Instance: the same text, and another definition under the name in upper case. -/
example : Reachable (demo typeDemo) ∧ TypeNamed (demo typeDemo) (nm "PT") 0x80000002 (nm "Pt:x,DINT,1:y,REAL,2") ∧
    Defines (nm "PT:z,INT,1") (nm "PT") ∧
    TypeNamed (demo typeDemo) (nm "Pt") 0x80000002 (nm "Pt:x,DINT,1:y,REAL,2") ∧
    Defines (nm "Pt:x,DINT,1:y,REAL,2") (nm "Pt") ∧
    Answers (demo typeDemo) 6 (.cdtCreate (nm "Pt:x,DINT,1:y,REAL,2")) (.resp [2, 0, 0, 0x80]) ∧
    Answers (demo typeDemo) 6 (.cdtCreate (nm "PT:z,INT,1")) (.err ERR_DUPL) :=
  ⟨demo_reachable (by decide +kernel), ⟨⟨by decide, by decide⟩, fun fd => by kernel_rfl⟩,
   ⟨by decide, by decide, .inr ⟨nm "z,INT,1", by decide⟩⟩, ⟨⟨by decide, by decide⟩, fun fd => by kernel_rfl⟩,
   ⟨by decide, by decide, .inr ⟨nm "x,DINT,1:y,REAL,2", by decide⟩⟩,
   exists_reply (by decide +kernel), exists_reply (by decide +kernel)⟩

/-- **C17 fails**: `cdt_create` does not set its error variable when the type exists already, and
the message handler tests it: with a negative value on the stack the identical definition is
answered with an error. -/
theorem C17_uninitialised : ∃ e : Env, Reachable (demo typeDemo e) ∧
    TypeNamed (demo typeDemo e) (nm "Pt") 0x80000002 (nm "Pt:x,DINT,1:y,REAL,2") ∧
    Answers (demo typeDemo e) 6 (.cdtCreate (nm "Pt:x,DINT,1:y,REAL,2")) (.err (-1)) :=
  ⟨{ junkByte := fun _ => 0xFF }, demo_reachable (by decide +kernel), ⟨⟨by decide, by decide⟩, fun fd => by kernel_rfl⟩,
    exists_reply (by decide +kernel)⟩

/-- **C17 fails**: the same request twice in a row; type names are matched ignoring case but
reported in upper case, so the second is refused. -/
theorem C17_same_text_refused : Reachable (demo demoOps) ∧ ∃ s rs, runR (demo demoOps)
      [(5, .cdtCreate (nm "T:a,int,1")), (5, .cdtCreate (nm "T:a,int,1"))] = .ok (s, rs) ∧
    rs = [.resp [2, 0, 0, 0x80], .err ERR_DUPL] ∧ replyOf (handle s 5 (.cdtGetName (nm "T"))) =
      some (.resp ([2, 0, 0, 0x80] ++ nm "T:a,INT,1" ++ [0])) :=
  ⟨demoOps_reachable, exists_run2 (p := fun s => replyOf (handle s 5 (.cdtGetName (nm "T"))) =
      some (.resp ([2, 0, 0, 0x80] ++ nm "T:a,INT,1" ++ [0]))) (by decide +kernel) (fun _ h => h)⟩

/-! ## Members -/

theorem validate_plain {n : Name} (h : validateName n = 0) : n ≠ [] ∧ 58#8 ∉ n ∧ 44#8 ∉ n := by
  have key : ∀ b : Byte, isAlpha b = true ∨ b = underscore ∨ isDigit b = true → b ≠ 58#8 ∧ b ≠ 44#8 := by
    rintro b hb
    constructor <;> (rintro rfl; revert hb; decide)
  unfold validateName at h
  split at h
  · exact absurd h (by decide)
  split at h
  · exact absurd h (by decide)
  rename_i c cs _
  split at h
  · exact absurd h (by decide)
  rename_i hc
  split at h
  · rename_i ha
    have hc' : isAlpha c = true ∨ c = underscore := by
      by_cases h1 : isAlpha c = true
      · exact .inl h1
      · right
        by_cases h2 : c = underscore
        · exact h2
        · simp [h1, h2] at hc
    have hall : ∀ b ∈ c :: cs, isAlpha b = true ∨ b = underscore ∨ isDigit b = true := by
      intro b hb
      rcases List.mem_cons.mp hb with rfl | hb
      · rcases hc' with h | h
        · exact .inl h
        · exact .inr (.inl h)
      · have := List.all_eq_true.mp ha b hb
        simp only [Bool.or_eq_true, decide_eq_true_eq] at this
        rcases this with (h | h) | h
        · exact .inl h
        · exact .inr (.inl h)
        · exact .inr (.inr h)
    refine ⟨by simp, fun hm => (key _ (hall _ hm)).1 rfl, fun hm => (key _ (hall _ hm)).2 rfl⟩
  · exact absurd h (by decide)

theorem membersText_fields {tbl : List Cdt} {ms : List Member} : ∀ {x : Name}, membersText tbl ms = .ok x →
    ∃ fs : List (Name × Name × Int), x = (fs.map fieldText).flatten ∧ fs.map (·.1) = ms.map (·.name) := by
  induction ms with
  | nil => intro x h; simp only [membersText, C.ok.injEq] at h; subst h; exact ⟨[], rfl, rfl⟩
  | cons m ms ih =>
    intro x h
    simp only [membersText] at h
    obtain ⟨a, ha, h⟩ := C.bind_eq_ok.mp h
    obtain ⟨b, hb, h⟩ := C.bind_eq_ok.mp h
    simp only [C.ok.injEq] at h
    subst h
    obtain ⟨fs, rfl, h2⟩ := ih hb
    unfold memberText at ha
    cases hn : cdtGetName tbl m.type with
    | none => rw [hn] at ha; simp at ha
    | some n =>
      rw [hn] at ha
      simp only [C.ok.injEq] at ha
      subst ha
      have e1 : COLON = 58#8 := rfl
      have e2 : COMMA = 44#8 := rfl
      refine ⟨(m.name, n, i32 m.count) :: fs, ?_, ?_⟩
      · rw [List.map_cons, List.flatten_cons, e1, e2]; simp only [fieldText]
      · rw [List.map_cons, List.map_cons, h2]

/-- **C17**, members: the definition text of a type is its name followed by its members, whose
names contain no separators and are pairwise different ignoring case. -/
theorem C17_members {s : Server} {t : Nat} {txt : Name} (h : Reachable s) (ht : TypeText s t txt) :
    ∃ n, ∃ fs : List (Name × Name × Int), txt = n ++ (fs.map fieldText).flatten ∧ Defines txt n ∧
      TypeNamed s n t txt ∧
      (∀ f ∈ fs, f.1 ≠ [] ∧ 58#8 ∉ f.1 ∧ 44#8 ∉ f.1) ∧
      fs.Pairwise (fun a b => strcaseeq a.1 b.1 = false) := by
  obtain ⟨hc, h1, h2⟩ := typeText_iff.mp ht
  unfold serialize at h1
  cases hx : s.cdts[cdtToIndex t]? with
  | none => rw [hx] at h1; simp at h1
  | some c =>
    have hser : serialize s.cdts t = .ok (some txt) := by unfold serialize; rw [hx]; rw [hx] at h1; exact h1
    rw [hx] at h1
    dsimp only at h1
    obtain ⟨ms, hm, h1⟩ := C.bind_eq_ok.mp h1
    simp only [C.ok.injEq, Option.some.injEq] at h1
    subst h1
    obtain ⟨fs, rfl, h4⟩ := membersText_fields hm
    have hmem := List.mem_of_getElem? hx
    have hv := validate_plain (h.wf.cdts.valid c hmem)
    have hdef : Defines (c.name ++ (fs.map fieldText).flatten) c.name := by
      refine ⟨hv.1, hv.2.1, ?_⟩
      cases fs with
      | nil => exact .inl (by simp)
      | cons f fs => exact .inr ⟨f.1 ++ 44#8 :: f.2.1 ++ 44#8 :: decInt f.2.2 ++ (fs.map fieldText).flatten, by
          simp [fieldText]⟩
    refine ⟨c.name, fs, rfl, hdef, ?_, ?_, ?_⟩
    · rw [typeNamed_iff h.wf]
      refine ⟨hc, ?_, hser, h2⟩
      have hi : cdtToIndex t = t - 2147483648 := by
        unfold cdtToIndex; rw [if_pos (compound_custom hc)]; rfl
      unfold cdtGetType
      have hb : baseNames.find? (fun p => strcaseeq c.name p.1) = none := by
        rw [List.find?_eq_none]
        intro p hp
        rw [h.wf.cdts.nobase c hmem p hp]; simp
      rw [hb]
      dsimp only
      have hf : s.cdts.findIdx? (fun c' => strcaseeq c.name c'.name) = some (t - 2147483648) := by
        rw [List.findIdx?_eq_some_iff_getElem]
        rw [hi] at hx
        obtain ⟨hlt, hg⟩ := List.getElem?_eq_some_iff.mp hx
        refine ⟨hlt, by rw [hg]; simp [strcaseeq], fun j hj => ?_⟩
        have := List.pairwise_iff_getElem.mp h.wf.cdts.uniq j (t - 2147483648) (by omega) hlt hj
        rw [hg] at this
        simp [this]
      rw [hf]
      have := hc.1
      show t - 2147483648 + 2147483648 = t
      omega
    · intro f hf
      have : f.1 ∈ c.members.map (·.name) := by rw [← h4]; exact List.mem_map_of_mem hf
      obtain ⟨m, hm1, hm2⟩ := List.mem_map.mp this
      rw [← hm2]
      exact validate_plain (h.wf.cdts.mvalid c hmem m hm1).1
    · have hp := h.wf.cdts.muniq c hmem
      have hp2 : (c.members.map (·.name)).Pairwise (fun a b => strcaseeq b a = false) := by
        rw [List.pairwise_map]; exact hp
      rw [← h4, List.pairwise_map] at hp2
      exact hp2.imp (fun {a b} hab => by
        have : strcaseeq a.1 b.1 = strcaseeq b.1 a.1 := by unfold strcaseeq; rw [Bool.eq_iff_iff, beq_iff_eq, beq_iff_eq]; exact ⟨Eq.symm, Eq.symm⟩
        rw [this]; exact hab)

/-- Instance: a member name repeated in another case is refused. -/
example : Reachable (demo typeDemo) ∧ TypeText (demo typeDemo) 0x80000003 (nm "Line:a,Pt,2:f,BOOL,3") ∧
    Answers (demo typeDemo) 6 (.cdtCreate (nm "Q:ab,INT,1:AB,INT,1")) (.err ERR_DUPL) :=
  ⟨demo_reachable (by decide +kernel), ⟨⟨by decide, by decide⟩, fun fd => by kernel_rfl⟩, exists_reply (by decide +kernel)⟩

end Dax
