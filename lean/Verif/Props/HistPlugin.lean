import Verif.Lemmas.HistPlugin
import Verif.Lemmas.Tactic
/-!
# The plugins of the logger of histories: C96, C97
-/
set_option autoImplicit false
namespace Dax
open Dax.Conv Dax.HistPlugin

/-! ## C96: text files -/

/-- A record that can be read again from a line. -/
structure GoodRec (fmt : Int → Name) (r : Rec) : Prop where
  name : 44#8 ∉ r.name ∧ 10#8 ∉ r.name
  time : 44#8 ∉ fmt r.time ∧ 10#8 ∉ fmt r.time
  value : ∀ v, r.value = some v → Plain r.type v

/-- The fields of a line are the record. -/
def Shown (fmt : Int → Name) (r : Rec) (f : Name × Name × Name) : Prop :=
  f.1 = r.name ∧ f.2.1 = fmt r.time ∧ (r.value = none → f.2.2 = nm "NULL") ∧ ∀ v, r.value = some v → TextOf r.type v f.2.2 ∧ f.2.2 ≠ nm "NULL"

/-- The records of a run, in order. -/
def recsOf : List FileOp → List Rec
  | [] => []
  | .write r :: os => r :: recsOf os
  | _ :: os => recsOf os

/-- For each record the entry at the same place. -/
def AllShown (fmt : Int → Name) (rs : List Rec) (es : List (Name × Name × Name)) : Prop :=
  es.length = rs.length ∧ ∀ (k : Nat) r f, rs[k]? = some r → es[k]? = some f → Shown fmt r f

theorem fileLine_ok {fmt : Int → Name} {r : Rec} (h : GoodRec fmt r) : ∃ l f, fileLine fmt r = .ok l ∧ IsLog l [f] ∧ Shown fmt r f := by
  obtain ⟨⟨n1, n2⟩, ⟨t1, t2⟩, hv⟩ := h
  unfold fileLine
  cases hr : r.value with
  | none =>
    exact ⟨_, (r.name, fmt r.time, nm "NULL"), rfl, .cons n1 n2 t1 t2 (by decide) .nil, rfl, rfl, fun _ => rfl, fun v h => by rw [hr] at h; cases h⟩
  | some v =>
    obtain ⟨x, h1, -, -, h2⟩ := plain_text (hv v hr) (size := 256) (by omega)
    have hn : ∀ b ∈ decInt x, b ≠ 10#8 ∧ b ≠ 78#8 := by
      intro b hb
      rcases dec_chars x b hb with rfl | ⟨h3, h4⟩
      · decide
      · constructor
        · rintro rfl; revert h3; decide
        · rintro rfl; revert h4; decide
    refine ⟨_, (r.name, fmt r.time, decInt x), by dsimp only; rw [h1]; rfl, .cons n1 n2 t1 t2 (fun hc => (hn _ hc).1 rfl) .nil, rfl, rfl, (fun h => by rw [hr] at h; cases h), fun v' h => ?_⟩
    rw [hr] at h
    obtain rfl := Option.some.inj h
    refine ⟨h2, fun hc => ?_⟩
    have : (78#8 : Byte) ∈ decInt x := by
      show _ ∈ (r.name, fmt r.time, decInt x).2.2
      rw [hc]
      decide
    exact (hn _ this).2 rfl

/-- **C96**, the text: it can be read in one way only. -/
theorem C96_readable {t : Name} {a b : List (Name × Name × Name)} (ha : IsLog t a) (hb : IsLog t b) : a = b := ha.unique hb

/-- **C96**, the files: after any number of records, rotations and flushes, all files together, in the order of their opening, have one line for each record, in order, with the name of the tag, the
time, and the value or `NULL`.

Missing: values of `CHAR` (`C96_char`), `TIME` and the types with a fraction, names with a comma; files that cannot be opened (`C96_no_file`). -/
theorem C96_file_partial {fmt : Int → Name} {dir : Name} : ∀ (os : List FileOp) (x : Files) (es : List (Name × Name × Name)), x.isOpen = true → x.segs ≠ [] → IsLog (x.segs.map (·.2)).flatten es →
    (∀ now opens, FileOp.flush now opens ∈ os → opens = true) → (∀ r, FileOp.write r ∈ os → GoodRec fmt r) →
    ∃ x' fs, fileRun fmt dir x os = .ok x' ∧ x'.isOpen = true ∧ IsLog (x'.segs.map (·.2)).flatten (es ++ fs) ∧ AllShown fmt (recsOf os) fs := by
  intro os
  induction os with
  | nil => intro x es h1 h2 h3 _ _; exact ⟨x, [], rfl, h1, by rw [List.append_nil]; exact h3, rfl, fun k r f h => by cases h⟩
  | cons o os ih =>
    intro x es h1 h2 h3 h4 h5
    have h4' : ∀ now opens, FileOp.flush now opens ∈ os → opens = true := fun n o h => h4 n o (List.mem_cons_of_mem _ h)
    have h5' : ∀ r, FileOp.write r ∈ os → GoodRec fmt r := fun r h => h5 r (List.mem_cons_of_mem _ h)
    unfold fileRun
    cases o with
    | write r =>
      obtain ⟨l, f, g1, g2, g3⟩ := fileLine_ok (h5 r (List.mem_cons_self ..))
      obtain ⟨a1, a2⟩ := append_content h2 l
      obtain ⟨x', fs, b1, b2, b3, b4, b5⟩ := ih { x with segs := append x.segs l } (es ++ [f]) h1 a2 (by dsimp only; rw [a1]; exact h3.append g2) h4' h5'
      refine ⟨x', f :: fs, ?_, b2, by rw [List.append_assoc] at b3; exact b3, by rw [List.length_cons, b4]; rfl, fun k r' f' hk hf => ?_⟩
      · unfold fileStep
        dsimp only
        rw [g1]
        dsimp only [Bind.bind, C.bind]
        rw [if_pos h1]
        exact b1
      · match k with
        | 0 =>
          obtain rfl : r = r' := by simpa [recsOf] using hk
          obtain rfl : f = f' := by simpa using hf
          exact g3
        | k + 1 => exact b5 k r' f' (by simpa [recsOf] using hk) (by simpa using hf)
    | event =>
      obtain ⟨x', fs, b1, b2, b3, b4⟩ := ih { x with flag := true } es h1 h2 h3 h4' h5'
      exact ⟨x', fs, b1, b2, b3, b4⟩
    | flush now opens =>
      have ho := h4 now opens (List.mem_cons_self ..)
      subst ho
      unfold fileStep
      by_cases hf : x.flag = true
      · dsimp only
        rw [if_pos hf, if_pos h1]
        obtain ⟨x', fs, b1, b2, b3, b4⟩ := ih { openFile fmt dir now true x with flag := false } es rfl (by simp [openFile]) (by simpa [openFile] using h3) h4' h5'
        exact ⟨x', fs, b1, b2, b3, b4⟩
      · dsimp only
        rw [if_neg hf]
        obtain ⟨x', fs, b1, b2, b3, b4⟩ := ih x es h1 h2 h3 h4' h5'
        exact ⟨x', fs, b1, b2, b3, b4⟩

/-- **C96**, rotation: files that were closed are not changed any more, the file that is open is only made longer; and the first flush after the event of the tag begins a new file. -/
theorem C96_rotation {fmt : Int → Name} {dir : Name} : (∀ (os : List FileOp) (x x' : Files) (pre : List (Name × Name)) (n t : Name), x.segs = pre ++ [(n, t)] → fileRun fmt dir x os = .ok x' →
      ∃ more newer, x'.segs = pre ++ (n, t ++ more) :: newer) ∧
    ∀ (x : Files) (now : Int), x.isOpen = true → ∃ x', fileRun fmt dir x [.event, .flush now true] = .ok x' ∧ x'.flag = false ∧
      ∃ n, x'.segs = x.segs ++ [(n, [])] := by
  constructor
  · intro os
    induction os with
    | nil =>
      intro x x' pre n t h hh
      cases hh
      exact ⟨[], [], by rw [h, List.append_nil]⟩
    | cons o os ih =>
      intro x x' pre n t h hh
      unfold fileRun at hh
      obtain ⟨y, h1, h2⟩ := C.bind_eq_ok.mp hh
      cases o with
      | write r =>
        unfold fileStep at h1
        obtain ⟨l, h3, h4⟩ := C.bind_eq_ok.mp h1
        by_cases ho : x.isOpen = true
        · rw [if_pos ho] at h4
          cases h4
          obtain ⟨more, newer, h5⟩ := ih _ x' pre n (t ++ l) (by dsimp only; rw [h]; simp [append]) h2
          exact ⟨l ++ more, newer, by rw [h5, List.append_assoc]⟩
        · rw [if_neg ho] at h4; cases h4
      | event =>
        cases h1
        exact ih { x with flag := true } x' pre n t h h2
      | flush now opens =>
        unfold fileStep at h1
        dsimp only at h1
        by_cases hf : x.flag = true
        · rw [if_pos hf] at h1
          by_cases ho : x.isOpen = true
          · rw [if_pos ho] at h1
            cases h1
            cases opens with
            | true =>
              obtain ⟨more, newer, h5⟩ := ih _ x' (pre ++ [(n, t)]) _ [] (by simp only [openFile, if_true]; rw [h]) h2
              exact ⟨[], _, by rw [h5, List.append_nil, List.append_assoc]; rfl⟩
            | false => exact ih _ x' pre n t (by simpa [openFile] using h) h2
          · rw [if_neg ho] at h1; cases h1
        · rw [if_neg hf] at h1
          cases h1
          exact ih _ x' pre n t h h2
  · intro x now ho
    refine ⟨{ openFile fmt dir now true { x with flag := true } with flag := false }, ?_, rfl, ((dir ++ nm "/dax_" ++ fmt now ++ nm ".log").take 255), rfl⟩
    unfold fileRun fileStep
    dsimp only [Bind.bind, C.bind]
    unfold fileRun fileStep
    dsimp only [Bind.bind, C.bind]
    rw [if_pos rfl, if_pos ho]
    rfl

/-- **C96** fails: if the new file cannot be opened, the next record is printed to no file. -/
theorem C96_no_file {fmt : Int → Name} {dir : Name} {x : Files} {now : Int} {r : Rec} (hx : x.isOpen = true) (hr : GoodRec fmt r) :
    ∃ w, fileRun fmt dir x [.event, .flush now false, .write r] = .ub w := by
  obtain ⟨l, f, h1, -⟩ := fileLine_ok hr
  refine ⟨"print to no file", ?_⟩
  unfold fileRun fileStep
  dsimp only [Bind.bind, C.bind]
  unfold fileRun fileStep
  dsimp only [Bind.bind, C.bind]
  rw [if_pos rfl, if_pos hx]
  unfold fileRun fileStep
  dsimp only [Bind.bind, C.bind]
  rw [h1]
  rfl

/-- **C96** fails: with a `CHAR` that is a newline the text cannot be read. -/
theorem C96_char : ∃ t, fileLine (fun _ => nm "0.000000") ⟨nm "c", DAX_CHAR, some [10], 0⟩ = .ok t ∧ ¬ ∃ es, IsLog t es := by
  refine ⟨nm "c,0.000000,\n\n", by kernel_rfl, ?_⟩
  rintro ⟨es, h⟩
  generalize ht : nm "c,0.000000,\n\n" = t at h
  cases h with
  | nil => cases ht
  | @cons n u v rest es hn hn' hu hu' hv hr =>
    have e : nm "c,0.000000,\n\n" = nm "c" ++ 44#8 :: (nm "0.000000" ++ 44#8 :: ([] ++ 10#8 :: [10#8])) := by decide
    rw [e] at ht
    obtain ⟨rfl, h2⟩ := split_unique (by decide) hn ht
    obtain ⟨rfl, h3⟩ := split_unique (by decide) hu h2
    obtain ⟨rfl, h4⟩ := split_unique (by decide) hv h3
    subst h4
    generalize hz : ([10#8] : Name) = z at hr
    cases hr with
    | nil => cases hz
    | @cons n u v rest es hn _ _ _ _ _ =>
      match n with
      | [] => simp at hz
      | a :: n => simp at hz

/-- Instance of the hypotheses of `C96_file_partial`. -/
example : GoodRec (fun _ => nm "12.500000") ⟨nm "Speed[1]", DAX_INT, some [5, 0], 12⟩ ∧
    fileRun (fun _ => nm "12.500000") (nm "logs") ⟨[(nm "a", [])], true, false⟩ [.write ⟨nm "Speed[1]", DAX_INT, some [5, 0], 12⟩, .event, .flush 13 true, .write ⟨nm "Speed[1]", DAX_INT, none, 13⟩] =
      .ok ⟨[(nm "a", nm "Speed[1],12.500000,5\n"), (nm "logs/dax_12.500000.log", nm "Speed[1],12.500000,NULL\n")], true, false⟩ := by
  refine ⟨⟨⟨by decide, by decide⟩, ⟨by decide, by decide⟩, fun v h => ?_⟩, by kernel_rfl⟩
  cases h
  exact .inl ⟨2, _, _, .int, by decide, by decide, by decide⟩

/-! ## C97: SQLite -/

/-- The names in the table of tags are different. -/
def Distinct (db : Db) : Prop := (db.tags.map (·.1)).Nodup

theorem findIdx_name {l : List Name} {name : Name} (h : name ∈ l) : ∃ k, l.findIdx? (· == name) = some k ∧ l[k]? = some name := by
  induction l with
  | nil => cases h
  | cons x l ih =>
    by_cases hx : x = name
    · subst hx
      exact ⟨0, by simp [List.findIdx?_cons], rfl⟩
    · obtain ⟨k, h1, h2⟩ := ih (by rcases List.mem_cons.mp h with rfl | h; exact absurd rfl hx; exact h)
      exact ⟨k + 1, by rw [List.findIdx?_cons]; simp [hx, h1], by simpa using h2⟩

/-- **C97**, tags: a tag that is new gets a row, one that is there keeps it, and the number in the object is the number of the row with its name; other rows are not changed.  As names are in one row only, two
tags never have the same number, and a tag has the same number after the logger was started again.  What the type is plays no part: it is 2 for every tag. -/
theorem C97_tag {db db' : Db} {junk k : Nat} {name : Name} (hd : Distinct db) (hn : 39#8 ∉ name) (hl : name.length ≤ 205) (h : addTag db junk name = (db', k)) :
    Distinct db' ∧ (db'.tags.map (·.1))[k - 1]? = some name ∧ 1 ≤ k ∧ db'.data = db.data ∧
      (db'.tags = db.tags ∧ name ∈ db.tags.map (·.1) ∨ db'.tags = db.tags ++ [(name, 2)] ∧ name ∉ db.tags.map (·.1)) := by
  have hi : insertTag name = nm "INSERT INTO Tags('tagname', 'type') VALUES ('" ++ (name ++ 39#8 :: nm ", 2)") := by
    unfold insertTag cut
    rw [List.take_of_length_le]
    · rw [List.append_assoc]; rfl
    · rw [List.length_append, List.length_append, show (nm "INSERT INTO Tags('tagname', 'type') VALUES ('").length = 45 by decide, show (nm "', 2)").length = 5 by decide]
      omega
  have hs : selectTag name = nm "SELECT id FROM Tags WHERE tagname = '" ++ (name ++ 39#8 :: nm ";") := by
    unfold selectTag cut
    rw [List.take_of_length_le]
    · rw [List.append_assoc]; rfl
    · rw [List.length_append, List.length_append, show (nm "SELECT id FROM Tags WHERE tagname = '").length = 37 by decide, show (nm "';").length = 2 by decide]
      omega
  have he : execTag db (insertTag name) = if (db.tags.map (·.1)).contains name then db else { db with tags := db.tags ++ [(name, 2)] } := by
    unfold execTag
    rw [hi, after_append]
    dsimp only
    rw [quoted_append hn (by decide)]
    dsimp only
    rw [if_pos rfl]
  have hq : ∀ d : Db, execSelect d (selectTag name) = ((d.tags.map (·.1)).findIdx? (· == name)).map (· + 1) := by
    intro d
    unfold execSelect
    rw [hs, after_append]
    dsimp only
    rw [quoted_append hn (by decide)]
    dsimp only
    rw [if_pos (.inl rfl)]
  unfold addTag at h
  dsimp only at h
  rw [he, hq] at h
  have fin : ∀ d : Db, name ∈ d.tags.map (·.1) → (d, (((d.tags.map (·.1)).findIdx? (· == name)).map (· + 1)).getD junk) = (db', k) → d = db' ∧ (db'.tags.map (·.1))[k - 1]? = some name ∧ 1 ≤ k := by
    intro d hm hx
    obtain ⟨j, h1, h2⟩ := findIdx_name hm
    rw [h1] at hx
    simp only [Option.map_some, Option.getD_some, Prod.mk.injEq] at hx
    obtain ⟨rfl, rfl⟩ := hx
    exact ⟨rfl, by simpa using h2, by omega⟩
  by_cases hc : name ∈ db.tags.map (·.1)
  · rw [if_pos (by simpa using hc)] at h
    obtain ⟨rfl, h1, h2⟩ := fin db hc h
    exact ⟨hd, h1, h2, rfl, .inl ⟨rfl, hc⟩⟩
  · rw [if_neg (by simpa using hc)] at h
    obtain ⟨rfl, h1, h2⟩ := fin _ (by simp) h
    refine ⟨?_, h1, h2, rfl, .inr ⟨rfl, hc⟩⟩
    unfold Distinct at hd ⊢
    rw [List.map_append, List.nodup_append]
    refine ⟨hd, by simp, fun a ha b hb => ?_⟩
    rintro rfl
    have : a = name := by simpa using hb
    exact hc (this ▸ ha)

/-- **C97** fails: a tag with a name of more than 205 characters is not added, and its number is what is in memory. -/
theorem C97_long {db : Db} {junk : Nat} {name : Name} (hn : 39#8 ∉ name) (hl : 205 < name.length) (hc : name ∉ db.tags.map (·.1)) :
    addTag db junk name = (db, junk) := by
  have cutq : ∀ (p s : Name) (k : Nat), 39#8 ∉ s → ∀ q rest, quoted ((name ++ 39#8 :: s).take k) = some (q, rest) → q = name ∧ rest = s.take (k - name.length - 1) := by
    intro p s k hs q rest hq
    by_cases hk : k ≤ name.length
    · rw [List.take_append_of_le_length hk, quoted_none fun h => hn (List.mem_of_mem_take h)] at hq
      cases hq
    · rw [List.take_append, List.take_of_length_le (by omega), show k - name.length = (k - name.length - 1) + 1 by omega, List.take_succ_cons,
        quoted_append hn (fun hh => hs (List.mem_of_mem_take (List.mem_of_mem_head? hh)))] at hq
      simp only [Option.some.injEq, Prod.mk.injEq] at hq
      exact ⟨hq.1.symm, hq.2.symm⟩
  have hi : insertTag name = nm "INSERT INTO Tags('tagname', 'type') VALUES ('" ++ ((name ++ 39#8 :: nm ", 2)").take 210) := by
    unfold insertTag cut
    rw [List.append_assoc, List.take_append, show (nm "INSERT INTO Tags('tagname', 'type') VALUES ('").length = 45 by decide, List.take_of_length_le (by decide)]
    rfl
  have hse : selectTag name = nm "SELECT id FROM Tags WHERE tagname = '" ++ ((name ++ 39#8 :: nm ";").take 218) := by
    unfold selectTag cut
    rw [List.append_assoc, List.take_append, show (nm "SELECT id FROM Tags WHERE tagname = '").length = 37 by decide, List.take_of_length_le (by decide)]
    rfl
  have he : execTag db (insertTag name) = db := by
    unfold execTag
    rw [hi, after_append]
    dsimp only
    cases hq : quoted ((name ++ 39#8 :: nm ", 2)").take 210) with
    | none => rfl
    | some r =>
      obtain ⟨q, rest⟩ := r
      obtain ⟨-, h2⟩ := cutq [] _ _ (by decide) q rest hq
      dsimp only
      rw [if_neg]
      intro hr
      have : (nm ", 2)").length ≤ 210 - name.length - 1 := by
        rw [← hr, h2, List.length_take]
        omega
      rw [show (nm ", 2)").length = 4 by decide] at this
      omega
  have hq : execSelect db (selectTag name) = none := by
    unfold execSelect
    rw [hse, after_append]
    dsimp only
    cases hq : quoted ((name ++ 39#8 :: nm ";").take 218) with
    | none => rfl
    | some r =>
      obtain ⟨q, rest⟩ := r
      obtain ⟨rfl, -⟩ := cutq [] _ _ (by decide) q rest hq
      dsimp only
      split
      · rw [List.findIdx?_eq_none_iff.mpr (fun x hx => by
          have : x ≠ q := fun h => hc (h ▸ hx)
          simpa using this)]
        rfl
      · rfl
  unfold addTag
  dsimp only
  rw [he, hq]
  rfl

/-- The time is printed as a number that is not too long and that can be read. -/
structure TimeOk (fmt : Int → Name) (unfmt : Name → Int) (t : Int) : Prop where
  lit : literal (fmt t) = true
  plain : 44#8 ∉ fmt t ∧ 41#8 ∉ fmt t
  short : (fmt t).length ≤ 100
  back : unfmt (fmt t) = t

/-- How SQLite reads a number. -/
def ReadsNum (num : Name → Int) : Prop := ∀ x, num (decInt x) = x

theorem dec_no {x : Int} {c : Byte} (h : c.toNat < 45) : c ∉ decInt x := by
  intro hc
  rcases dec_chars x c hc with rfl | ⟨h1, -⟩
  · revert h; decide
  · omega

theorem dec_length {x : Int} (h1 : -9223372036854775808 ≤ x) (h2 : x ≤ 18446744073709551615) : (decInt x).length ≤ 21 := by
  have := decNatF_length 19 (x.natAbs + 1) x.natAbs (by omega)
  unfold decInt decNat
  split
  · rw [List.length_cons]; omega
  · omega

/-- **C97**, data: a record becomes a row with the number of the tag, the time, and the text of the value or nothing.

Missing: `CHAR` (`C97_char`), `TIME`, the types with a fraction. -/
theorem C97_data_partial {fmt : Int → Name} {num unfmt : Name → Int} {time : Int} (T : TimeOk fmt unfmt time) (R : ReadsNum num) (db : Db) {idx type : Nat} {value : Option (List Byte)} (hi : idx < 2147483648)
    (hv : ∀ v, value = some v → Plain type v) : ∃ d, writeData fmt num unfmt db idx type value time = .ok { db with data := db.data ++ [((idx : Int), time, d)] } ∧
      (value = none → d = none) ∧ ∀ v, value = some v → ∃ t, d = some t ∧ TextOf type v t := by
  have hidx : i32 (idx : Int) = idx := by unfold i32; omega
  have hil := dec_length (x := idx) (by omega) (by omega)
  have tl := T.short
  obtain ⟨t1, t2⟩ := T.plain
  have la := literal_dec (idx : Int)
  have lb := T.lit
  unfold writeData insertData
  rw [hidx]
  cases value with
  | none =>
    refine ⟨none, ?_, fun _ => rfl, fun v h => by cases h⟩
    dsimp only [Bind.bind, C.bind]
    unfold cut
    rw [List.take_of_length_le (by
      simp only [List.length_append]
      rw [show (nm "INSERT INTO Data ('tagid', 'timestamp') VALUES (").length = 48 by decide, show (nm ", ").length = 2 by decide, show (nm ");").length = 2 by decide]
      omega)]
    unfold execData
    rw [after_append]
    dsimp only
    have hr : row 1 (decInt (idx : Int) ++ (nm ", " ++ (fmt time ++ nm ");"))) = some [decInt (idx : Int), fmt time] := row_more (dec_no (by decide)) (row_last t2)
    rw [hr]
    dsimp only
    rw [la, lb, R, T.back]
    rfl
  | some v =>
    obtain ⟨x, h1, h2, h3, h4⟩ := plain_text (hv v rfl) (size := 128) (by omega)
    refine ⟨some (decInt x), ?_, (fun h => by cases h), (fun v' h => by cases h; exact ⟨_, rfl, h4⟩)⟩
    have hxl := dec_length h2 h3
    dsimp only
    rw [h1]
    dsimp only [Bind.bind, C.bind]
    unfold cut
    rw [List.take_of_length_le (by
      simp only [List.length_append]
      rw [show (nm "INSERT INTO Data ('tagid', 'timestamp', 'data') VALUES (").length = 56 by decide, show (nm ", ").length = 2 by decide, show (nm ");").length = 2 by decide]
      omega)]
    unfold execData
    rw [show nm "INSERT INTO Data ('tagid', 'timestamp', 'data') VALUES (" = nm "INSERT INTO Data ('tagid', 'timestamp'" ++ nm ", 'data') VALUES (" by decide]
    have hnone : ∀ t : Name, after (nm "INSERT INTO Data ('tagid', 'timestamp') VALUES (") ((nm "INSERT INTO Data ('tagid', 'timestamp'" ++ nm ", 'data') VALUES (") ++ t) = none := by
      intro t
      rfl
    rw [hnone]
    dsimp only
    rw [after_append]
    dsimp only
    have hr : row 2 (decInt (idx : Int) ++ (nm ", " ++ (fmt time ++ (nm ", " ++ (decInt x ++ nm ");"))))) = some [decInt (idx : Int), fmt time, decInt x] := row_more (dec_no (by decide)) (row_more t1 (row_last (dec_no (by decide))))
    rw [hr]
    dsimp only
    rw [la, lb, literal_dec x, R, T.back]
    rfl

/-- Instance of the hypotheses of `C97_data_partial`: one second after the epoch, row 3. -/
example : TimeOk (fun _ => nm "1.000000") (fun _ => 1) 1 ∧ writeData (fun _ => nm "1.000000") (fun _ => 3) (fun _ => 1) ⟨[], []⟩ 3 DAX_INT (some [0xFE, 0xFF]) 1 = .ok ⟨[], [(3, 1, some (nm "-2"))]⟩ :=
  ⟨⟨by decide, ⟨by decide, by decide⟩, by decide, rfl⟩, by kernel_rfl⟩

/-- **C97**, purge: with the time that is meant, rows that are not older than the interval stay, and none that is older. -/
theorem C97_purge {interval time : Int} (h : 0 < interval) (db : Db) : ∀ r, r ∈ (flushData interval time db).data ↔ r ∈ db.data ∧ time - interval ≤ r.2.1 := by
  intro r
  unfold flushData
  rw [if_pos h]
  simp

/-- **C97** fails: `flush_data` is called without the time.  Whatever the data is, there are contents of the register with which all of it is deleted. -/
theorem C97_purge_all {interval : Int} (h : 0 < interval) (db : Db) : ∃ time, (flushData interval time db).data = [] := by
  have : ∃ m : Int, ∀ r ∈ db.data, r.2.1 < m := by
    generalize db.data = l
    induction l with
    | nil => exact ⟨0, fun r hr => by cases hr⟩
    | cons a l ih =>
      obtain ⟨m, hm⟩ := ih
      refine ⟨max m (a.2.1 + 1), fun r hr => ?_⟩
      rcases List.mem_cons.mp hr with rfl | hr
      · omega
      · have := hm r hr; omega
  obtain ⟨m, hm⟩ := this
  refine ⟨m + interval, ?_⟩
  apply List.eq_nil_iff_forall_not_mem.mpr
  intro r hr
  obtain ⟨h1, h2⟩ := (C97_purge h db r).mp hr
  have := hm r h1
  omega

/-- **C97** fails: a `CHAR` that is a letter is not recorded. -/
theorem C97_char {fmt : Int → Name} {num unfmt : Name → Int} {time : Int} (T : TimeOk fmt unfmt time) (db : Db) {idx : Nat} {c : Byte} (hi : idx < 2147483648) (hc : 65 ≤ c.toNat) :
    writeData fmt num unfmt db idx DAX_CHAR (some [c]) time = .ok db := by
  have hidx : i32 (idx : Int) = idx := by unfold i32; omega
  have hil := dec_length (x := idx) (by omega) (by omega)
  have tl := T.short
  obtain ⟨t1, t2⟩ := T.plain
  have c0 : ∀ k : Nat, k < 65 → c ≠ BitVec.ofNat 8 k := by
    rintro k hk rfl
    rw [BitVec.toNat_ofNat] at hc
    omega
  have h1 : valToString 128 DAX_CHAR [c] 0 = .ok [c] := by
    show printed 128 ([c].takeWhile (· != 0)) = _
    rw [List.takeWhile_cons_of_pos (by simpa using c0 0 (by omega))]
    rfl
  unfold writeData insertData
  rw [hidx]
  dsimp only
  rw [h1]
  dsimp only [Bind.bind, C.bind]
  unfold cut
  rw [List.take_of_length_le (by
    simp only [List.length_append, List.length_cons, List.length_nil]
    rw [show (nm "INSERT INTO Data ('tagid', 'timestamp', 'data') VALUES (").length = 56 by decide, show (nm ", ").length = 2 by decide, show (nm ");").length = 2 by decide]
    omega)]
  unfold execData
  rw [show nm "INSERT INTO Data ('tagid', 'timestamp', 'data') VALUES (" = nm "INSERT INTO Data ('tagid', 'timestamp'" ++ nm ", 'data') VALUES (" by decide]
  have hnone : ∀ t : Name, after (nm "INSERT INTO Data ('tagid', 'timestamp') VALUES (") ((nm "INSERT INTO Data ('tagid', 'timestamp'" ++ nm ", 'data') VALUES (") ++ t) = none := by
    intro t
    rfl
  rw [hnone]
  dsimp only
  rw [after_append]
  dsimp only
  have hr : row 2 (decInt (idx : Int) ++ (nm ", " ++ (fmt time ++ (nm ", " ++ ([c] ++ nm ");"))))) = some [decInt (idx : Int), fmt time, [c]] := row_more (dec_no (by decide)) (row_more t1 (row_last (by simpa using (c0 41 (by omega)).symm)))
  rw [hr]
  dsimp only
  have : literal [c] = false := by
    unfold literal
    rw [if_neg (by simpa using c0 45 (by omega))]
    have h57 : ¬ c.toNat ≤ 57 := by omega
    have h46 : (c == 46#8) = false := by simpa using c0 46 (by omega)
    simp [h57, h46]
  rw [this, Bool.and_false]
  rfl

/-- The rows a run of records adds. -/
def rowsOf : List DbOp → List (Nat × Nat × Option (List Byte) × Int)
  | [] => []
  | .write i ty v t :: os => (i, ty, v, t) :: rowsOf os
  | _ :: os => rowsOf os

/-- **C97**, runs without purge: after any number of records and flushes the table has one row more for each record, in order. -/
theorem C97_run_partial {fmt : Int → Name} {num unfmt : Name → Int} (R : ReadsNum num) : ∀ (os : List DbOp) (db : Db),
    (∀ i ty v t, DbOp.write i ty v t ∈ os → TimeOk fmt unfmt t ∧ i < 2147483648 ∧ ∀ d, v = some d → Plain ty d) →
    ∃ rows, dbRun fmt num unfmt 0 db os = .ok { db with data := db.data ++ rows } ∧ rows.length = (rowsOf os).length ∧
      ∀ (k : Nat) i ty v t, (rowsOf os)[k]? = some (i, ty, v, t) → ∃ d, rows[k]? = some ((i : Int), t, d) ∧ (v = none → d = none) ∧ ∀ b, v = some b → ∃ w, d = some w ∧ TextOf ty b w := by
  intro os
  induction os with
  | nil => intro db _; exact ⟨[], by rw [List.append_nil]; rfl, rfl, fun k i ty v t h => by cases h⟩
  | cons o os ih =>
    intro db h
    cases o with
    | write i ty v t =>
      obtain ⟨T, h1, h2⟩ := h i ty v t (List.mem_cons_self ..)
      obtain ⟨d, g1, g2, g3⟩ := C97_data_partial T R db h1 h2
      obtain ⟨rows, a1, a2, a3⟩ := ih { db with data := db.data ++ [((i : Int), t, d)] } fun i ty v t hm => h i ty v t (List.mem_cons_of_mem _ hm)
      refine ⟨((i : Int), t, d) :: rows, ?_, by rw [List.length_cons, a2]; rfl, fun k i' ty' v' t' hk => ?_⟩
      · unfold dbRun
        rw [g1]
        dsimp only [Bind.bind, C.bind]
        rw [a1]
        simp
      · match k with
        | 0 =>
          obtain ⟨rfl, rfl, rfl, rfl⟩ : i = i' ∧ ty = ty' ∧ v = v' ∧ t = t' := by simpa [rowsOf] using hk
          exact ⟨d, rfl, g2, g3⟩
        | k + 1 => exact a3 k i' ty' v' t' (by simpa [rowsOf] using hk)
    | flush t =>
      obtain ⟨rows, a1, a2, a3⟩ := ih db fun i ty v t hm => h i ty v t (List.mem_cons_of_mem _ hm)
      exact ⟨rows, a1, a2, a3⟩

end Dax
