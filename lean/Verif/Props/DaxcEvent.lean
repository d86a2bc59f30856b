import Verif.Model.DaxcEvent
import Verif.Lemmas.Conv
import Verif.Lemmas.Tactic
import Verif.Spec.Conv
/-!
# Events of the command-line client: C98
-/
set_option autoImplicit false
namespace Dax
open Dax.Conv Dax.DaxcEvent

/-- The table after the events with the given identifiers were added. -/
def tableOf (ids : List (Int × Int)) : List Slot := ids.map (fun i => ⟨true, i.1, i.2⟩) ++ List.replicate (64 - ids.length) ⟨false, 0, 0⟩

theorem tableOf_length {ids : List (Int × Int)} (h : ids.length ≤ 64) : (tableOf ids).length = 64 := by
  unfold tableOf
  rw [List.length_append, List.length_map, List.length_replicate]
  omega

theorem tableOf_free {ids : List (Int × Int)} (h : ids.length ≤ 64) : (tableOf ids).findIdx (fun s => !s.used) = ids.length := by
  unfold tableOf
  rw [List.findIdx_append]
  have h1 : (ids.map (fun i : Int × Int => (⟨true, i.1, i.2⟩ : Slot))).findIdx (fun s => !s.used) = ids.length := by
    rw [List.findIdx_eq_length_of_false]
    · rw [List.length_map]
    · intro x hx
      obtain ⟨y, -, rfl⟩ := List.mem_map.mp hx
      rfl
  rw [h1, List.length_map, if_neg (by omega)]
  have h2 : (List.replicate (64 - ids.length) (⟨false, 0, 0⟩ : Slot)).findIdx (fun s => !s.used) = 0 := by
    cases hk : 64 - ids.length with
    | zero => rfl
    | succ k => rw [List.replicate_succ, List.findIdx_cons]; rfl
  omega

theorem tableOf_set {ids : List (Int × Int)} (h : ids.length < 64) (a b : Int) : (tableOf ids).set ids.length ⟨true, a, b⟩ = tableOf (ids ++ [(a, b)]) := by
  unfold tableOf
  rw [List.set_append_right _ _ (by rw [List.length_map]; omega), List.length_map, Nat.sub_self, List.map_append, List.append_assoc, List.length_append,
    show 64 - ids.length = (64 - (ids.length + 1)) + 1 by omega, List.replicate_succ]
  rfl

/-- One addition, seen from outside. -/
theorem run_add (e : TextEnv) (cs : List Cmd) {ids : List (Int × Int)} (h : ids.length ≤ 64) (hd : Handle) (ty : Int) (v : Option Name) (u : List Byte) (ans : Except Int Int) :
    DaxcEvent.run e (tableOf ids) (.add hd ty v u ans :: cs) = DaxcEvent.run e (tableOf ids) cs ∨
    ∃ id, ans = .ok id ∧ ids.length < 64 ∧ DaxcEvent.run e (tableOf ids) (.add hd ty v u ans :: cs) =
      ((DaxcEvent.run e (tableOf (ids ++ [(hd.index, id)])) cs).1, (ids.length + 1, hd.index, id) :: (DaxcEvent.run e (tableOf (ids ++ [(hd.index, id)])) cs).2) := by
  have hf := tableOf_free h
  by_cases hm : ids.length = MAX_EVENTS
  · left
    have hr : DaxcEvent.eventAdd e (tableOf ids) hd ty v u ans = (tableOf ids, none, none) := by
      unfold DaxcEvent.eventAdd
      rw [hf]
      exact if_pos hm
    show (match (DaxcEvent.eventAdd e (tableOf ids) hd ty v u ans).2.2, ans with
      | some n, .ok id => ((DaxcEvent.run e (DaxcEvent.eventAdd e (tableOf ids) hd ty v u ans).1 cs).1, (n, hd.index, id) :: (DaxcEvent.run e (DaxcEvent.eventAdd e (tableOf ids) hd ty v u ans).1 cs).2)
      | _, _ => DaxcEvent.run e (DaxcEvent.eventAdd e (tableOf ids) hd ty v u ans).1 cs) = _
    rw [hr]
  · have hlt : ids.length < 64 := Nat.lt_of_le_of_ne h hm
    cases ans with
    | error r =>
      left
      have hr : (DaxcEvent.eventAdd e (tableOf ids) hd ty v u (.error r)).1 = tableOf ids ∧ (DaxcEvent.eventAdd e (tableOf ids) hd ty v u (.error r)).2.2 = none := by
        unfold DaxcEvent.eventAdd
        rw [hf]
        dsimp only
        rw [if_neg hm]
        exact ⟨rfl, rfl⟩
      show (match (DaxcEvent.eventAdd e (tableOf ids) hd ty v u (.error r)).2.2, (Except.error r : Except Int Int) with
        | some n, .ok id => ((DaxcEvent.run e (DaxcEvent.eventAdd e (tableOf ids) hd ty v u (.error r)).1 cs).1, (n, hd.index, id) :: (DaxcEvent.run e (DaxcEvent.eventAdd e (tableOf ids) hd ty v u (.error r)).1 cs).2)
        | _, _ => DaxcEvent.run e (DaxcEvent.eventAdd e (tableOf ids) hd ty v u (.error r)).1 cs) = _
      rw [hr.1, hr.2]
    | ok id =>
      right
      refine ⟨id, rfl, hlt, ?_⟩
      have hr : (DaxcEvent.eventAdd e (tableOf ids) hd ty v u (.ok id)).1 = tableOf (ids ++ [(hd.index, id)]) ∧ (DaxcEvent.eventAdd e (tableOf ids) hd ty v u (.ok id)).2.2 = some (ids.length + 1) := by
        unfold DaxcEvent.eventAdd
        rw [hf]
        dsimp only
        rw [if_neg hm, ← tableOf_set hlt]
        exact ⟨rfl, rfl⟩
      simp only [DaxcEvent.run, hr.1, hr.2]

/-- The numbers that are printed are those of the places in the table, which is never cleared. -/
theorem run_table (e : TextEnv) : ∀ (cs : List Cmd) (ids : List (Int × Int)), ids.length ≤ 64 →
    (DaxcEvent.run e (tableOf ids) cs).1 = tableOf (ids ++ (DaxcEvent.run e (tableOf ids) cs).2.map (·.2)) ∧
    (ids ++ (DaxcEvent.run e (tableOf ids) cs).2.map (·.2)).length ≤ 64 ∧
    ∀ r ∈ (DaxcEvent.run e (tableOf ids) cs).2, 1 ≤ r.1 ∧ (ids ++ (DaxcEvent.run e (tableOf ids) cs).2.map (·.2))[r.1 - 1]? = some r.2 := by
  intro cs
  induction cs with
  | nil => intro ids h; exact ⟨by rw [show (DaxcEvent.run e (tableOf ids) []).2 = [] from rfl, List.map_nil, List.append_nil]; rfl, by simpa [DaxcEvent.run] using h, fun r hr => by cases hr⟩
  | cons c cs ih =>
    intro ids h
    cases c with
    | del w => exact ih ids h
    | add hd ty v u ans =>
      rcases run_add e cs h hd ty v u ans with h0 | ⟨id, rfl, hlt, h0⟩
      · rw [h0]
        exact ih ids h
      · rw [h0]
        obtain ⟨h1, h2, h3⟩ := ih (ids ++ [(hd.index, id)]) (by rw [List.length_append]; simp only [List.length_cons, List.length_nil]; omega)
        rw [List.append_assoc] at h1 h2 h3
        refine ⟨h1, h2, fun r hr => ?_⟩
        rcases List.mem_cons.mp hr with rfl | hr
        · refine ⟨by dsimp only; omega, ?_⟩
          dsimp only
          rw [Nat.add_sub_cancel, List.getElem?_append_right (Nat.le_refl _), Nat.sub_self]
          rfl
        · exact h3 r hr

theorem findIdx_first {ids : List (Int × Int)} (hd : ids.Nodup) : ∀ (k : Nat) (i : Int × Int), ids[k]? = some i →
    (ids.map fun i : Int × Int => (⟨true, i.1, i.2⟩ : Slot)).findIdx? (fun s => s.index == i.1 && s.id == i.2) = some k := by
  induction ids with
  | nil => intro k i h; cases h
  | cons a ids ih =>
    intro k i h
    obtain ⟨ha, hd⟩ := List.nodup_cons.mp hd
    rw [List.map_cons, List.findIdx?_cons]
    match k with
    | 0 =>
      obtain rfl : a = i := by simpa using h
      simp
    | k + 1 =>
      have hk : ids[k]? = some i := by simpa using h
      have hne : ¬ (a.1 = i.1 ∧ a.2 = i.2) := fun hc => ha (by
        have : a = i := Prod.ext hc.1 hc.2
        rw [this]
        exact List.mem_of_getElem? hk)
      rw [ih hd k i hk]
      simp only [Option.map_some]
      rw [if_neg (by simpa using hne)]

/-- **C98**, arrival: after any number of additions and deletions the event that was added is announced with the number that was printed when it was added, provided that the identifiers the server
has given are different. -/
theorem C98_number (e : TextEnv) (cs : List Cmd) {n : Nat} {index id : Int} (hd : ((DaxcEvent.run e table cs).2.map (·.2)).Nodup) (hn : (n, index, id) ∈ (DaxcEvent.run e table cs).2) :
    callback (DaxcEvent.run e table cs).1 index id = some n := by
  obtain ⟨h1, h2, h3⟩ := run_table e cs [] (by simp)
  rw [show tableOf [] = table from rfl, List.nil_append] at h1 h2 h3
  obtain ⟨h4, h5⟩ := h3 _ hn
  rw [h1]
  unfold callback tableOf
  rw [List.findIdx?_append, findIdx_first hd (n - 1) (index, id) h5]
  simp only [Option.some_or, Option.map_some]
  congr 1
  omega

/-- **C98**, deletion: the number printed for an event deletes this event. -/
theorem C98_delete (e : TextEnv) (cs : List Cmd) {n : Nat} {index id : Int} {w : Name} (hw : IsDec w n) (hn : (n, index, id) ∈ (DaxcEvent.run e table cs).2) :
    DaxcEvent.eventDel (DaxcEvent.run e table cs).1 (some w) = .ok (some (index, id)) := by
  obtain ⟨h1, h2, h3⟩ := run_table e cs [] (by simp)
  rw [show tableOf [] = table from rfl, List.nil_append] at h1 h2 h3
  generalize (DaxcEvent.run e table cs).2.map (·.2) = more at h1 h2 h3
  obtain ⟨h4, h5⟩ := h3 _ hn
  dsimp only at h4 h5
  have hlt : n - 1 < more.length := by
    apply Classical.byContradiction
    intro hc
    rw [List.getElem?_eq_none (by omega)] at h5
    cases h5
  have hs : strtol0 w = n := by
    rw [strtol0_dec hw]
    unfold clampLong
    omega
  unfold DaxcEvent.eventDel
  dsimp only
  rw [hs, if_neg (by omega), show i32 ((n : Int) - 1) = ((n - 1 : Nat) : Int) by unfold i32; omega, if_neg (by unfold MAX_EVENTS; omega), h1, Int.toNat_natCast]
  unfold tableOf
  rw [List.getElem?_append_left (by rw [List.length_map]; exact hlt), List.getElem?_map, h5]
  rfl

/-- **C98** fails: after 64 additions there is no room for another event, whatever was deleted. -/
theorem C98_full (e : TextEnv) (cs cs' : List Cmd) (h : (DaxcEvent.run e table cs).2.length = 64) : (DaxcEvent.run e (DaxcEvent.run e table cs).1 cs').2 = [] := by
  obtain ⟨h1, h2, -⟩ := run_table e cs [] (by simp)
  rw [show tableOf [] = table from rfl, List.nil_append] at h1 h2
  rw [h1]
  obtain ⟨-, g2, -⟩ := run_table e cs' _ h2
  rw [List.length_append, List.length_map, List.length_map, h] at g2
  exact List.eq_nil_of_length_eq_zero (by omega)

/-- **C98** fails: number 65 is outside of the table. -/
theorem C98_outside (e : TextEnv) (cs : List Cmd) : ∃ w, DaxcEvent.eventDel (DaxcEvent.run e table cs).1 (some (nm "65")) = .ub w := by
  obtain ⟨h1, h2, -⟩ := run_table e cs [] (by simp)
  rw [show tableOf [] = table from rfl, List.nil_append] at h1 h2
  refine ⟨"read outside block", ?_⟩
  unfold DaxcEvent.eventDel
  dsimp only
  rw [show strtol0 (nm "65") = 65 by decide, if_neg (by decide), show i32 ((65 : Int) - 1) = 64 by decide, if_neg (by decide), h1, List.getElem?_eq_none (by rw [tableOf_length h2]; decide)]

/-- **C98** fails: a number that was never printed asks the server to delete event 0 of the tag with index 0. -/
theorem C98_never (e : TextEnv) (cs : List Cmd) {n : Nat} {w : Name} (hw : IsDec w n) (h : (DaxcEvent.run e table cs).2 = []) (h1 : 1 ≤ n) (h2 : n ≤ 64) :
    DaxcEvent.eventDel (DaxcEvent.run e table cs).1 (some w) = .ok (some (0, 0)) := by
  obtain ⟨g1, -, -⟩ := run_table e cs [] (by simp)
  rw [show tableOf [] = table from rfl, List.nil_append, h] at g1
  rw [g1, show tableOf (List.map (·.2) ([] : List (Nat × Int × Int))) = table from rfl]
  have hs : strtol0 w = n := by
    rw [strtol0_dec hw]
    unfold clampLong
    omega
  unfold DaxcEvent.eventDel
  dsimp only
  rw [hs, if_neg (by omega), show i32 ((n : Int) - 1) = ((n - 1 : Nat) : Int) by unfold i32; omega, if_neg (by unfold MAX_EVENTS; omega), Int.toNat_natCast]
  unfold table
  rw [List.getElem?_replicate, if_pos (by unfold MAX_EVENTS; omega)]

/-- **C98**, value of an event, for the integer types but `TIME`: a number in the range of the type is the value sent.

Missing: numbers outside of the range (`C98_wraps`), `TIME` (`C98_time`). -/
theorem C98_value_partial (e : TextEnv) {ty n : Nat} {lo hi v : Int} {t : Name} (hty : IntType ty n lo hi) (htm : ty ≠ DAX_TIME) (ht : IsDec t v) (h1 : lo ≤ v) (h2 : v ≤ hi) (u : List Byte) :
    Holds (convert e ty t u) n 0 v := by
  have put : ∀ (k : Nat) (x : Int), (x % (256 ^ k : Nat)) = v % (256 ^ k : Nat) → Holds (store k x u) k 0 v := by
    intro k x hx
    unfold store
    have hl := intLE_length k x
    refine ⟨by rw [List.length_append, hl]; omega, ?_⟩
    rw [Nat.mul_zero, List.drop_zero, List.take_append_of_le_length (by omega), List.take_of_length_le (by omega), leNat_intLE, hx]
  have hs : -9223372036854775808 ≤ v → v ≤ 9223372036854775807 → strtol0 t = v := by
    intro g1 g2
    rw [strtol0_dec ht]
    unfold clampLong
    omega
  have hu : 0 ≤ v → v ≤ 18446744073709551615 → (strtoul0 t : Int) = v := by
    intro g1 g2
    have hsg := signed0_dec ht
    unfold signed0 at hsg
    unfold strtoul0
    generalize hp : parse0 t = p at hsg
    obtain ⟨neg, m⟩ := p
    dsimp only at hsg ⊢
    cases neg with
    | true =>
      simp only [if_true] at hsg
      have : m = 0 := by omega
      subst this
      rw [if_neg (by omega), if_pos rfl]
      omega
    | false =>
      simp only [Bool.false_eq_true, if_false] at hsg ⊢
      rw [if_neg (by omega)]
      exact hsg
  cases hty with
  | byte => exact put 1 _ (by rw [hs (by omega) (by omega)])
  | sint => exact put 1 _ (by rw [hs (by omega) (by omega)])
  | char => exact put 1 _ (by rw [hs (by omega) (by omega)])
  | word => exact put 2 _ (by rw [hu (by omega) (by omega)])
  | uint => exact put 2 _ (by rw [hu (by omega) (by omega)])
  | int => exact put 2 _ (by rw [hs (by omega) (by omega)])
  | dword => exact put 4 _ (by rw [hu (by omega) (by omega)])
  | udint => exact put 4 _ (by rw [hu (by omega) (by omega)])
  | dint => exact put 4 _ (by rw [hs (by omega) (by omega)])
  | lword => exact put 8 _ (by rw [hu (by omega) (by omega)])
  | ulint => exact put 8 _ (by rw [hu (by omega) (by omega)])
  | lint => exact put 8 _ (by rw [hs (by omega) (by omega)])
  | time => exact absurd rfl htm

/-- **C98**, the request: as long as fewer than 64 events were added, an addition asks the server for the event type on the handle, with the value typed if there is one.

Missing: as in `C98_value_partial`. -/
theorem C98_sent_partial (e : TextEnv) (cs : List Cmd) (hl : (DaxcEvent.run e table cs).2.length < 64) {h : Handle} {n : Nat} {lo hi v : Int} {t : Name} (hty : IntType h.type n lo hi) (htm : h.type ≠ DAX_TIME)
    (ht : IsDec t v) (h1 : lo ≤ v) (h2 : v ≤ hi) (etype : Int) (u : List Byte) (ans : Except Int Int) :
    (DaxcEvent.eventAdd e (DaxcEvent.run e table cs).1 h etype none u ans).2.1 = some (.evAdd h etype none) ∧
    ∃ b, (DaxcEvent.eventAdd e (DaxcEvent.run e table cs).1 h etype (some t) u ans).2.1 = some (.evAdd h etype (some b)) ∧ Holds b n 0 v := by
  obtain ⟨g1, g2, -⟩ := run_table e cs [] (by simp)
  rw [show tableOf [] = table from rfl, List.nil_append] at g1 g2
  have hf := tableOf_free g2
  rw [List.length_map] at hf
  have hm : ¬ (DaxcEvent.run e table cs).2.length = MAX_EVENTS := Nat.ne_of_lt hl
  rw [g1]
  refine ⟨?_, convert e h.type t u, ?_, C98_value_partial e hty htm ht h1 h2 u⟩ <;>
  · unfold DaxcEvent.eventAdd
    rw [hf]
    dsimp only
    rw [if_neg hm]
    cases ans <;> rfl

/-- **C98** fails: half of the value of a `TIME` is what was in memory. -/
theorem C98_time (e : TextEnv) (t : Name) (u : List Byte) : (convert e DAX_TIME t u).drop 4 = u.drop 4 := by
  show (intLE 4 _ ++ u.drop 4).drop 4 = _
  rw [List.drop_append_of_le_length (by rw [intLE_length]; omega), List.drop_eq_nil_of_le (by rw [intLE_length]; omega), List.nil_append]

/-- **C98** fails: a number that is too large is taken modulo the size of the type; a character is 0. -/
theorem C98_wraps (e : TextEnv) (u : List Byte) (b : Byte) : convert e DAX_BYTE (nm "300") (b :: u) = 44#8 :: u ∧ convert e DAX_CHAR (nm "a") (b :: u) = 0#8 :: u := ⟨by rfl, by rfl⟩

/-- Instance of the hypotheses: two events, one refused, one deleted. -/
example (e : TextEnv) (h : Handle) : DaxcEvent.run e table [.add h 1 none [] (.ok 7), .add h 1 none [] (.error (-3)), .del (some (nm "1")), .add h 1 none [] (.ok 8)] =
    ((table.set 0 ⟨true, h.index, 7⟩).set 1 ⟨true, h.index, 8⟩, [(1, h.index, 7), (2, h.index, 8)]) := by rfl

end Dax
