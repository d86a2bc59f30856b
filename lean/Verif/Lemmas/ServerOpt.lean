import Verif.Model.ServerOpt
import Verif.Spec.ServerOpt
import Verif.Lemmas.Text
/-!
# The command line of the server
-/
set_option autoImplicit false
namespace Dax.ServerOpt
open Conv

/-- The results of `getopt_long` that belong to options. -/
def hits (os : List (Byte × Name)) : List Hit := os.map fun o => ⟨o.1, some o.2⟩

/-- The options among the results; `-v` has no effect here. -/
def plain (hs : List Hit) : List Hit := hs.filter fun h => h.ch != 118#8

theorem valued_cases {c : Byte} (h : c ∈ valued) : c = 67#8 ∨ c = 83#8 ∨ c = 73#8 ∨ c = 80#8 ∨ c = 88#8 := by
  have : valued = [67#8, 83#8, 73#8, 80#8, 88#8] := by decide
  rw [this] at h
  simpa using h

theorem letters_valued {c : Byte} (h : c ∈ valued) (cs : Name) (rest : List Name) : letters (c :: cs) rest =
    if cs ≠ [] then ([⟨c, some cs⟩], rest) else match rest with | [] => ([bad], []) | w :: rest => ([⟨c, some w⟩], rest) := by
  unfold letters
  rcases valued_cases h with rfl | rfl | rfl | rfl | rfl <;> rfl

theorem valued_ne {c : Byte} (h : c ∈ valued) : c ≠ 45#8 ∧ c ≠ 118#8 ∧ c ≠ 86#8 := by
  rcases valued_cases h with rfl | rfl | rfl | rfl | rfl <;> decide

theorem long_valued {n : Name} {c : Byte} (h : (n, c) ∈ longNames) : c ∈ valued ∧ n ≠ [] ∧ 61#8 ∉ n ∧ longs.find? (fun x => x.1 == n) = some (n, true, c) := by
  have : ∀ x ∈ longNames, x.2 ∈ valued ∧ x.1 ≠ [] ∧ 61#8 ∉ x.1 ∧ longs.find? (fun y => y.1 == x.1) = some (x.1, true, x.2) := by decide +kernel
  exact this _ h

theorem take_plain {n v : Name} (h : 61#8 ∉ n) : (n ++ 61#8 :: v).takeWhile (fun b => b != 61#8) = n ∧ (n ++ 61#8 :: v).dropWhile (fun b => b != 61#8) = 61#8 :: v := by
  have hn : ∀ a ∈ n, (a != 61#8) = true := fun a ha => by
    simp only [bne_iff_ne]
    rintro rfl
    exact h ha
  constructor
  · rw [List.takeWhile_append_of_pos hn, List.takeWhile_cons_of_neg (by decide), List.append_nil]
  · rw [List.dropWhile_append_of_pos hn, List.dropWhile_cons_of_neg (by decide)]

theorem take_whole {n : Name} (h : 61#8 ∉ n) : n.takeWhile (fun b => b != 61#8) = n ∧ n.dropWhile (fun b => b != 61#8) = [] := by
  have hn : ∀ a ∈ n, (a != 61#8) = true := fun a ha => by
    simp only [bne_iff_ne]
    rintro rfl
    exact h ha
  have h1 := List.takeWhile_append_of_pos (l₂ := []) hn
  have h2 := List.dropWhile_append_of_pos (l₂ := []) hn
  rw [List.append_nil] at h1 h2
  exact ⟨by rw [h1]; simp, by rw [h2]; rfl⟩

theorem getopt_short {c : Byte} (h : c ≠ 45#8) (fuel : Nat) (cs : Name) (ws : List Name) :
    getopt (fuel + 1) ((45#8 :: c :: cs) :: ws) = (letters (c :: cs) ws).1 ++ getopt fuel (letters (c :: cs) ws).2 := by
  conv => lhs; unfold getopt
  dsimp only
  rw [if_pos rfl, if_neg h]

theorem getopt_long {l : Name} (h : l ≠ []) (fuel : Nat) (ws : List Name) : getopt (fuel + 1) ((45#8 :: 45#8 :: l) :: ws) = (longOption l ws).1 :: getopt fuel (longOption l ws).2 := by
  conv => lhs; unfold getopt
  dsimp only
  rw [if_pos rfl, if_pos rfl, if_neg h]

/-- A command line that is spelled gives its options. -/
theorem getopt_spells {ws : List Name} {os : List (Byte × Name)} (h : Spells ws os) : ∀ fuel, ws.length < fuel → plain (getopt fuel ws) = hits os := by
  induction h with
  | nil => intro fuel hf; cases fuel <;> rfl
  | @other w ws os hw _ ih =>
    intro fuel hf
    obtain ⟨fuel, rfl⟩ : ∃ k, fuel = k + 1 := ⟨fuel - 1, by omega⟩
    have hf : ws.length < fuel := by simpa using hf
    rw [← ih fuel hf]
    match w with
    | [] => rfl
    | [_] => rfl
    | d :: c :: cs =>
      have hd : ¬ d = 45#8 := fun hc => hw (by rw [hc]; rfl)
      show plain (if d = 45#8 then _ else _) = _
      rw [if_neg hd]
  | @verbose ws os _ ih =>
    intro fuel hf
    obtain ⟨fuel, rfl⟩ : ∃ k, fuel = k + 1 := ⟨fuel - 1, by omega⟩
    exact ih fuel (by simpa using hf)
  | @verboseLong ws os _ ih =>
    intro fuel hf
    obtain ⟨fuel, rfl⟩ : ∃ k, fuel = k + 1 := ⟨fuel - 1, by omega⟩
    exact ih fuel (by simpa using hf)
  | @short c v ws os hc _ ih =>
    intro fuel hf
    obtain ⟨fuel, rfl⟩ : ∃ k, fuel = k + 1 := ⟨fuel - 1, by omega⟩
    have hf : ws.length < fuel := by simp only [List.length_cons] at hf; omega
    rw [getopt_short (valued_ne hc).1, letters_valued hc, if_neg (by simp)]
    show plain (⟨c, some v⟩ :: getopt fuel ws) = _
    unfold plain
    rw [List.filter_cons_of_pos (by simpa using (valued_ne hc).2.1)]
    exact congrArg _ (ih fuel hf)
  | @glued c b v ws os hc _ ih =>
    intro fuel hf
    obtain ⟨fuel, rfl⟩ : ∃ k, fuel = k + 1 := ⟨fuel - 1, by omega⟩
    have hf : ws.length < fuel := by simpa using hf
    rw [getopt_short (valued_ne hc).1, letters_valued hc, if_pos (by simp)]
    show plain (⟨c, some (b :: v)⟩ :: getopt fuel ws) = _
    unfold plain
    rw [List.filter_cons_of_pos (by simpa using (valued_ne hc).2.1)]
    exact congrArg _ (ih fuel hf)
  | @long n c v ws os hn _ ih =>
    intro fuel hf
    obtain ⟨fuel, rfl⟩ : ∃ k, fuel = k + 1 := ⟨fuel - 1, by omega⟩
    have hf : ws.length < fuel := by simp only [List.length_cons] at hf; omega
    obtain ⟨hc, h0, h61, hfind⟩ := long_valued hn
    have hl : longOption n (v :: ws) = (⟨c, some v⟩, ws) := by
      unfold longOption
      rw [(take_whole h61).1, (take_whole h61).2]
      dsimp only
      rw [hfind]
    rw [getopt_long h0, hl]
    unfold plain
    rw [List.filter_cons_of_pos (by simpa using (valued_ne hc).2.1)]
    exact congrArg _ (ih fuel hf)
  | @equals n c v ws os hn _ ih =>
    intro fuel hf
    obtain ⟨fuel, rfl⟩ : ∃ k, fuel = k + 1 := ⟨fuel - 1, by omega⟩
    have hf : ws.length < fuel := by simpa using hf
    obtain ⟨hc, h0, h61, hfind⟩ := long_valued hn
    have hl : longOption (n ++ 61#8 :: v) ws = (⟨c, some v⟩, ws) := by
      unfold longOption
      rw [(take_plain h61).1, (take_plain h61).2]
      dsimp only
      rw [hfind]
    rw [getopt_long (by simp), hl]
    unfold plain
    rw [List.filter_cons_of_pos (by simpa using (valued_ne hc).2.1)]
    exact congrArg _ (ih fuel hf)

theorem spells_valued {ws : List Name} {os : List (Byte × Name)} (h : Spells ws os) : ∀ o ∈ os, o.1 ∈ valued := by
  induction h with
  | nil => intro o ho; cases ho
  | other _ _ ih => exact ih
  | verbose _ ih => exact ih
  | verboseLong _ ih => exact ih
  | short hc _ ih => exact List.forall_mem_cons.mpr ⟨hc, ih⟩
  | glued hc _ ih => exact List.forall_mem_cons.mpr ⟨hc, ih⟩
  | long hn _ ih => exact List.forall_mem_cons.mpr ⟨(long_valued hn).1, ih⟩
  | equals hn _ ih => exact List.forall_mem_cons.mpr ⟨(long_valued hn).1, ih⟩

theorem parse_plain (w : World) : ∀ (hs : List Hit) (c : Conf), parse w c hs = parse w c (plain hs) := by
  intro hs
  induction hs with
  | nil => intro c; rfl
  | cons h hs ih =>
    intro c
    by_cases hv : h.ch = 118#8
    · have ha : apply w c h = some c := by
        unfold apply
        rw [hv]
        rfl
      have hp : plain (h :: hs) = plain hs := by
        unfold plain
        rw [List.filter_cons_of_neg (by simpa using hv)]
      rw [hp, ← ih c]
      show (match apply w c h with | none => none | some c => parse w c hs) = _
      rw [ha]
    · have hp : plain (h :: hs) = h :: plain hs := by
        unfold plain
        rw [List.filter_cons_of_pos (by simpa using hv)]
      rw [hp]
      show (match apply w c h with | none => none | some c => parse w c hs) = (match apply w c h with | none => none | some c => parse w c (plain hs))
      cases apply w c h with
      | none => rfl
      | some c => exact ih c

theorem given_cons (c : Byte) (o : Byte × Name) (os : List (Byte × Name)) : given c (o :: os) = (given c os).or (if o.1 = c then some o.2 else none) := by
  unfold given
  by_cases h : o.1 = c
  · rw [List.filter_cons_of_pos (by simpa using h), List.map_cons, List.getLast?_cons, if_pos h]
    generalize (List.map (·.2) (os.filter fun o => o.1 == c)).getLast? = x
    cases x <;> rfl
  · rw [List.filter_cons_of_neg (by simpa using h), if_neg h, Option.or_none]

/-- What the command line leaves: the last value of each option; for the address the last one that is an address. -/
theorem parse_hits (w : World) : ∀ (os : List (Byte × Name)), (∀ o ∈ os, o.1 ∈ valued) → ∀ c : Conf, ∃ c', parse w c (hits os) = some c' ∧
    c'.configfile = (given 67#8 os).or c.configfile ∧ c'.socketname = (given 83#8 os).or c.socketname ∧ c'.exclude = (given 88#8 os).or c.exclude ∧ c'.minBuffers = c.minBuffers ∧
    c'.serverport = ((given 80#8 os).map fun t => u32 (strtol0 t)).getD c.serverport ∧
    c'.serverip = ((((os.filter fun o => o.1 == 73#8).filterMap fun o => w.aton o.2)).getLast?).getD c.serverip := by
  intro os
  induction os with
  | nil => intro _ c; exact ⟨c, rfl, rfl, rfl, rfl, rfl, rfl, rfl⟩
  | cons o os ih =>
    intro hv c
    obtain ⟨ch, v⟩ := o
    obtain ⟨ho, hv⟩ := List.forall_mem_cons.mp hv
    have go : ∀ c1 : Conf, apply w c ⟨ch, some v⟩ = some c1 → ∃ c', parse w c (hits ((ch, v) :: os)) = some c' ∧ c'.configfile = (given 67#8 os).or c1.configfile ∧
        c'.socketname = (given 83#8 os).or c1.socketname ∧ c'.exclude = (given 88#8 os).or c1.exclude ∧ c'.minBuffers = c1.minBuffers ∧
        c'.serverport = ((given 80#8 os).map fun t => u32 (strtol0 t)).getD c1.serverport ∧
        c'.serverip = ((((os.filter fun o => o.1 == 73#8).filterMap fun o => w.aton o.2)).getLast?).getD c1.serverip := by
      intro c1 h1
      obtain ⟨c', g1, g2⟩ := ih hv c1
      refine ⟨c', ?_, g2⟩
      show (match apply w c ⟨ch, some v⟩ with | none => none | some c => parse w c (hits os)) = _
      rw [h1]
      exact g1
    rw [given_cons, given_cons, given_cons, given_cons]
    rcases valued_cases ho with rfl | rfl | rfl | rfl | rfl
    · obtain ⟨c', g0, g1, g2, g3, g4, g5, g6⟩ := go _ rfl
      exact ⟨c', g0, by rw [g1, if_pos rfl, Option.or_assoc]; rfl, by rw [g2, if_neg (by simp), Option.or_none], by rw [g3, if_neg (by simp), Option.or_none], g4, by rw [g5, if_neg (by simp), Option.or_none], g6⟩
    · obtain ⟨c', g0, g1, g2, g3, g4, g5, g6⟩ := go _ rfl
      exact ⟨c', g0, by rw [g1, if_neg (by simp), Option.or_none], by rw [g2, if_pos rfl, Option.or_assoc]; rfl, by rw [g3, if_neg (by simp), Option.or_none], g4, by rw [g5, if_neg (by simp), Option.or_none], g6⟩
    · cases ha : w.aton v with
      | none =>
        obtain ⟨c', g0, g1, g2, g3, g4, g5, g6⟩ := go c (by
          show (match (some v).bind w.aton with | none => some c | some a => some { c with serverip := a }) = _
          rw [show (some v).bind w.aton = none from ha])
        refine ⟨c', g0, by rw [g1, if_neg (by simp), Option.or_none], by rw [g2, if_neg (by simp), Option.or_none], by rw [g3, if_neg (by simp), Option.or_none], g4, by rw [g5, if_neg (by simp), Option.or_none], ?_⟩
        rw [g6, List.filter_cons_of_pos (by rfl), List.filterMap_cons, ha]
      | some a =>
        obtain ⟨c', g0, g1, g2, g3, g4, g5, g6⟩ := go { c with serverip := a } (by
          show (match (some v).bind w.aton with | none => some c | some a => some { c with serverip := a }) = _
          rw [show (some v).bind w.aton = some a from ha])
        refine ⟨c', g0, by rw [g1, if_neg (by simp), Option.or_none], by rw [g2, if_neg (by simp), Option.or_none], by rw [g3, if_neg (by simp), Option.or_none], g4, by rw [g5, if_neg (by simp), Option.or_none], ?_⟩
        rw [g6, List.filter_cons_of_pos (by rfl), List.filterMap_cons, ha]
        dsimp only
        rw [List.getLast?_cons]
        rfl
    · obtain ⟨c', g0, g1, g2, g3, g4, g5, g6⟩ := go _ rfl
      refine ⟨c', g0, by rw [g1, if_neg (by simp), Option.or_none], by rw [g2, if_neg (by simp), Option.or_none], by rw [g3, if_neg (by simp), Option.or_none], g4, ?_, g6⟩
      rw [g5, if_pos rfl]
      cases given 80#8 os <;> rfl
    · obtain ⟨c', g0, g1, g2, g3, g4, g5, g6⟩ := go _ rfl
      exact ⟨c', g0, by rw [g1, if_neg (by simp), Option.or_none], by rw [g2, if_neg (by simp), Option.or_none], by rw [g3, if_pos rfl, Option.or_assoc]; rfl, g4, by rw [g5, if_neg (by simp), Option.or_none], g6⟩

end Dax.ServerOpt
