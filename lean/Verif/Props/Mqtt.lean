import Verif.Spec.Mqtt
import Verif.Lemmas.Tactic
/-!
# C79 to C82: the MQTT module
-/
set_option autoImplicit false
namespace Dax
open Mqtt

/-! ## C79: topics -/

/-- What comes after the first level. -/
def restText : List (List Byte) → List Byte
  | [] => []
  | m :: ls => 47 :: text (m :: ls)

theorem text_cons (l : List Byte) (ls : List (List Byte)) : text (l :: ls) = l ++ restText ls := by
  cases ls with
  | nil => simp [text, restText]
  | cons m ls => rfl

theorem restText_head (ls : List (List Byte)) : restText ls = [] ∨ ∃ r, restText ls = 47 :: r := by
  cases ls with
  | nil => exact .inl rfl
  | cons m ls => exact .inr ⟨_, rfl⟩

theorem topic_ne {c d : Byte} {s r : List Byte} (h : c ≠ 43) (hd : c ≠ d) : topicCompare (c :: s) (d :: r) = .ok false := by
  conv => lhs; unfold topicCompare
  rw [if_neg h]
  dsimp only
  rw [if_pos hd]

theorem topic_nil {c : Byte} {s : List Byte} (h : c ≠ 43) : topicCompare (c :: s) [] = .ok false := by
  conv => lhs; unfold topicCompare
  rw [if_neg h]

theorem topic_same {c : Byte} {s r : List Byte} (h : c ≠ 43) (h7 : c ≠ 47) : topicCompare (c :: s) (c :: r) = topicCompare s r := by
  conv => lhs; unfold topicCompare
  rw [if_neg h]
  dsimp only
  rw [if_neg (fun h => h rfl), if_neg (fun h => h7 h.1)]

theorem topic_slash {s r : List Byte} : topicCompare (47 :: s) (47 :: r) = if s.head? = some 35 then .ok true else topicCompare s r := by
  conv => lhs; unfold topicCompare
  rw [if_neg (by decide)]
  dsimp only
  rw [if_neg (fun h => h rfl)]
  by_cases h : s.head? = some 35
  · rw [if_pos ⟨rfl, h⟩, if_pos h]
  · rw [if_neg (fun g => h g.2), if_neg h]

theorem topic_level (l : List Byte) : ∀ {x s r : List Byte}, Plain l → Plain x → (s = [] ∨ ∃ q, s = 47 :: q) → (r = [] ∨ ∃ q, r = 47 :: q) →
    topicCompare (l ++ s) (x ++ r) = if l = x then topicCompare s r else .ok false := by
  induction l with
  | nil =>
    intro x s r _ hx hs hr
    cases x with
    | nil => rw [if_pos rfl]; rfl
    | cons c x =>
      rw [if_neg (by simp)]
      rcases hs with rfl | ⟨q, rfl⟩
      · rfl
      · exact topic_ne (by decide) fun h => hx.1 (by rw [h]; exact List.mem_cons_self ..)
  | cons c l ih =>
    intro x s r hl hx hs hr
    have h43 : c ≠ 43 := fun h => hl.2.1 (by rw [h]; exact List.mem_cons_self ..)
    have h47 : c ≠ 47 := fun h => hl.1 (by rw [h]; exact List.mem_cons_self ..)
    have hl' : Plain l := ⟨fun h => hl.1 (List.mem_cons_of_mem _ h), fun h => hl.2.1 (List.mem_cons_of_mem _ h), fun h => hl.2.2 (List.mem_cons_of_mem _ h)⟩
    cases x with
    | nil =>
      rw [if_neg (by simp)]
      rcases hr with rfl | ⟨q, rfl⟩
      · exact topic_nil h43
      · exact topic_ne h43 h47
    | cons d x =>
      have hx' : Plain x := ⟨fun h => hx.1 (List.mem_cons_of_mem _ h), fun h => hx.2.1 (List.mem_cons_of_mem _ h), fun h => hx.2.2 (List.mem_cons_of_mem _ h)⟩
      by_cases hd : c = d
      · subst hd
        show topicCompare (c :: (l ++ s)) (c :: (x ++ r)) = _
        rw [topic_same h43 h47, ih hl' hx' hs hr]
        by_cases h : l = x
        · rw [if_pos h, if_pos (by rw [h])]
        · rw [if_neg h, if_neg (by simp [h])]
      · rw [if_neg (by simp [hd])]
        exact topic_ne h43 hd

theorem drop_level {x r : List Byte} (hx : Plain x) (hr : r = [] ∨ ∃ q, r = 47 :: q) : (x ++ r).dropWhile (· ≠ 47) = r := by
  induction x with
  | nil =>
    rcases hr with rfl | ⟨q, rfl⟩
    · rfl
    · rfl
  | cons c x ih =>
    have h47 : c ≠ 47 := fun h => hx.1 (by rw [h]; exact List.mem_cons_self ..)
    rw [List.cons_append, List.dropWhile_cons_of_pos (by simpa using h47)]
    exact ih ⟨fun h => hx.1 (List.mem_cons_of_mem _ h), fun h => hx.2.1 (List.mem_cons_of_mem _ h), fun h => hx.2.2 (List.mem_cons_of_mem _ h)⟩

theorem topic_plus {x r s : List Byte} (hx : Plain x) (hr : r = [] ∨ ∃ q, r = 47 :: q) :
    topicCompare (43 :: s) (x ++ r) = match s, r with | _ :: s, _ :: r => topicCompare s r | _, _ => .ub "read behind the end of a text" := by
  conv => lhs; unfold topicCompare
  rw [if_pos rfl, drop_level hx hr]
  cases s <;> cases r <;> rfl

theorem head_hash {m : List Byte} {ls : List (List Byte)} (hv : ValidFilter (m :: ls)) (h : (text (m :: ls)).head? = some 35) : m = [35] ∧ ls = [] := by
  have key : Plain m ∨ m = [43] → False := by
    intro hm
    rcases hm with hm | rfl
    · cases m with
      | nil =>
        rw [text_cons] at h
        rcases restText_head ls with h0 | ⟨r, h0⟩ <;> rw [h0] at h <;> simp at h
      | cons c m =>
        rw [text_cons] at h
        simp only [List.cons_append, List.head?_cons, Option.some.injEq] at h
        exact hm.2.2 (by rw [h]; exact List.mem_cons_self ..)
    · rw [text_cons] at h
      simp at h
  cases ls with
  | nil =>
    rcases hv with hv | hv | hv
    · exact (key (.inl hv)).elim
    · exact (key (.inr hv)).elim
    · exact ⟨hv, rfl⟩
  | cons k ls => exact (key hv.1).elim

theorem plain_not_plus {l : List Byte} (h : Plain l) : l ≠ [43] := fun g => h.2.1 (by rw [g]; exact List.mem_singleton.mpr rfl)
theorem plain_not_hash {l : List Byte} (h : Plain l) : l ≠ [35] := fun g => h.2.2 (by rw [g]; exact List.mem_singleton.mpr rfl)

/-- **C79**: what is taken as a match is one, by the rules of MQTT. -/
theorem C79_sound (f : List (List Byte)) : ∀ {t : List (List Byte)}, ValidFilter f → t ≠ [] → (∀ x ∈ t, Plain x) → topicCompare (text f) (text t) = .ok true → Matches f t := by
  induction f with
  | nil => intro t hv; exact hv.elim
  | cons l ls ih =>
    intro t hv ht hp hh
    cases t with
    | nil => exact absurd rfl ht
    | cons x t =>
      have hx := hp x (List.mem_cons_self ..)
      have hp' : ∀ y ∈ t, Plain y := fun y h => hp y (List.mem_cons_of_mem _ h)
      rw [text_cons, text_cons] at hh
      by_cases hl : Plain l
      · rw [topic_level l hl hx (restText_head ls) (restText_head t)] at hh
        split at hh
        · rename_i hlx
          refine .inr ⟨.inr hlx, ?_⟩
          cases ls with
          | nil =>
            cases t with
            | nil => rfl
            | cons y t => simp [restText, topicCompare] at hh
          | cons m ls =>
            cases t with
            | nil => simp [restText, topicCompare] at hh
            | cons y t =>
              simp only [restText] at hh
              rw [topic_slash] at hh
              split at hh
              · rename_i hhash
                obtain ⟨rfl, rfl⟩ := head_hash hv.2 hhash
                exact .inl ⟨rfl, rfl⟩
              · exact ih hv.2 (by simp) hp' hh
        · cases hh
      · by_cases hplus : l = [43]
        · subst hplus
          refine .inr ⟨.inl rfl, ?_⟩
          rw [List.singleton_append, topic_plus hx (restText_head t)] at hh
          cases ls with
          | nil => simp [restText] at hh
          | cons m ls =>
            cases t with
            | nil => simp [restText] at hh
            | cons y t =>
              simp only [restText] at hh
              exact ih hv.2 (by simp) hp' hh
        · cases ls with
          | nil =>
            rcases hv with hv | hv | hv
            · exact absurd hv hl
            · exact absurd hv hplus
            · exact .inl ⟨hv, rfl⟩
          | cons m ls =>
            rcases hv.1 with hv | hv
            · exact absurd hv hl
            · exact absurd hv hplus

/-- **C79**: a topic with at least as many levels as the filter is taken as a match exactly if it is one.

Missing: filters that end in `+` (`C79_plus_end`), with `#` alone (`C79_hash`) or after `+` (`C79_plus_hash`), topics with fewer levels than the filter (`C79_parent`, `C79_few`). -/
theorem C79_match_partial (f : List (List Byte)) : ∀ {t : List (List Byte)}, ValidFilter f → Fine f → f.length ≤ t.length → (∀ x ∈ t, Plain x) →
    ∃ r, topicCompare (text f) (text t) = .ok r ∧ (r = true ↔ Matches f t) := by
  induction f with
  | nil => intro t hv; exact hv.elim
  | cons l ls ih =>
    intro t hv hf hlen hp
    cases t with
    | nil => simp at hlen
    | cons x t =>
      have hx := hp x (List.mem_cons_self ..)
      have hp' : ∀ y ∈ t, Plain y := fun y h => hp y (List.mem_cons_of_mem _ h)
      have hlen' : ls.length ≤ t.length := by simpa using hlen
      rw [text_cons, text_cons]
      by_cases hl : Plain l
      · rw [topic_level l hl hx (restText_head ls) (restText_head t)]
        by_cases hlx : l = x
        · rw [if_pos hlx]
          have hm : Matches (l :: ls) (x :: t) ↔ Matches ls t := by
            constructor
            · intro h
              rcases h with ⟨h, -⟩ | ⟨-, h⟩
              · exact absurd h (plain_not_hash hl)
              · exact h
            · intro h; exact .inr ⟨.inr hlx, h⟩
          rw [hm]
          cases ls with
          | nil =>
            cases t with
            | nil => exact ⟨true, rfl, by simp [Matches]⟩
            | cons y t => exact ⟨false, rfl, by simp [Matches]⟩
          | cons m ls =>
            cases t with
            | nil => simp at hlen'
            | cons y t =>
              simp only [restText]
              rw [topic_slash]
              by_cases hhash : (text (m :: ls)).head? = some 35
              · rw [if_pos hhash]
                exact ⟨true, rfl, fun _ => .inl (head_hash hv.2 hhash), fun _ => rfl⟩
              · rw [if_neg hhash]
                refine ih hv.2 ?_ hlen' hp'
                have hmh : m ≠ [35] := fun h => hhash (by rw [h, text_cons]; rfl)
                unfold Fine at hf
                rw [if_neg hmh] at hf
                exact hf
        · rw [if_neg hlx]
          refine ⟨false, rfl, by simp, fun h => ?_⟩
          rcases h with ⟨h, -⟩ | ⟨h | h, -⟩
          · exact absurd h (plain_not_hash hl)
          · exact absurd h (plain_not_plus hl)
          · exact absurd h hlx
      · have hplus : l = [43] := by
          cases ls with
          | nil =>
            rcases hv with hv | hv | hv
            · exact absurd hv hl
            · exact hv
            · exact absurd hv hf.2
          | cons m ls =>
            rcases hv.1 with hv | hv
            · exact absurd hv hl
            · exact hv
        subst hplus
        rw [List.singleton_append, topic_plus hx (restText_head t)]
        cases ls with
        | nil => exact absurd rfl hf.1
        | cons m ls =>
          cases t with
          | nil => simp at hlen'
          | cons y t =>
            simp only [restText]
            have hmh : m ≠ [35] := by
              intro h
              unfold Fine at hf
              rw [if_pos h] at hf
              exact hl hf.1
            unfold Fine at hf
            rw [if_neg hmh] at hf
            obtain ⟨r, h1, h2⟩ := ih hv.2 hf hlen' hp'
            refine ⟨r, h1, h2.trans ?_⟩
            constructor
            · intro h; exact .inr ⟨.inl rfl, h⟩
            · intro h
              rcases h with ⟨h, -⟩ | ⟨-, h⟩
              · exact absurd h (by decide)
              · exact h

/-- **C79**, where it fails: if a filter ends in `+`, then for every topic that matches it is read behind the end of both texts. -/
theorem C79_plus_end (pre : List (List Byte)) : ∀ {t : List (List Byte)}, ValidFilter (pre ++ [[43]]) → (∀ x ∈ t, Plain x) → Matches (pre ++ [[43]]) t → ∃ why, topicCompare (text (pre ++ [[43]])) (text t) = .ub why := by
  induction pre with
  | nil =>
    intro t _ hp hm
    cases t with
    | nil => rcases hm with ⟨h, -⟩ | h; exact absurd h (by decide); exact h.elim
    | cons x t =>
      rw [List.nil_append, text_cons, text_cons, List.singleton_append, topic_plus (hp x (List.mem_cons_self ..)) (restText_head t)]
      exact ⟨_, rfl⟩
  | cons l ls ih =>
    intro t hv hp hm
    have hne : ∃ m ms, ls ++ [[43]] = m :: ms := by cases ls <;> exact ⟨_, _, rfl⟩
    obtain ⟨m, ms, hms⟩ := hne
    rw [List.cons_append] at hv hm ⊢
    rw [hms] at hv
    have hv1 := hv.1
    have hv2 := hv.2
    rw [← hms] at hv2
    have hl35 : l ≠ [35] := by
      rcases hv1 with h | h
      · exact plain_not_hash h
      · rw [h]; decide
    cases t with
    | nil => rcases hm with ⟨h, -⟩ | h; exact absurd h hl35; exact h.elim
    | cons x t =>
      have hx := hp x (List.mem_cons_self ..)
      have hp' : ∀ y ∈ t, Plain y := fun y h => hp y (List.mem_cons_of_mem _ h)
      rcases hm with ⟨h, -⟩ | ⟨hlx, hm⟩
      · exact absurd h hl35
      cases t with
      | nil =>
        rw [hms] at hm
        rcases hm with ⟨rfl, rfl⟩ | h
        · exfalso
          have := congrArg List.getLast? hms
          simp at this
        · exact h.elim
      | cons y t =>
        obtain ⟨why, hu⟩ := ih hv2 hp' hm
        refine ⟨why, ?_⟩
        rw [text_cons, text_cons, hms]
        rw [hms] at hu
        rcases hv1 with hl | rfl
        · rw [topic_level l hl hx (restText_head _) (restText_head _), if_pos (hlx.resolve_left (plain_not_plus hl))]
          simp only [restText]
          rw [topic_slash, if_neg, hu]
          intro hhash
          rw [hms] at hv2
          obtain ⟨rfl, rfl⟩ := head_hash hv2 hhash
          have := congrArg List.getLast? hms
          simp at this
        · rw [List.singleton_append, topic_plus hx (restText_head _)]
          exact hu

/-- **C79**, where it fails: the filter `#`, which every topic matches, matches none. -/
theorem C79_hash (t : List (List Byte)) (hp : ∀ x ∈ t, Plain x) : Matches [[35]] t ∧ topicCompare (text [[35]]) (text t) = .ok false := by
  refine ⟨.inl ⟨rfl, rfl⟩, ?_⟩
  show topicCompare [35] (text t) = _
  cases t with
  | nil => rfl
  | cons x t =>
    rw [text_cons]
    cases x with
    | nil =>
      rcases restText_head t with h | ⟨r, h⟩ <;> rw [h]
      · rfl
      · rfl
    | cons c x => exact topic_ne (by decide) fun h => (hp (c :: x) (List.mem_cons_self ..)).2.2 (by rw [← h]; exact List.mem_cons_self ..)

/-- **C79**, where it fails: the filter `+/#` matches no topic of two or more levels, though all of them match. -/
theorem C79_plus_hash (x y : List Byte) (t : List (List Byte)) (hx : Plain x) (hp : ∀ z ∈ y :: t, Plain z) : Matches [[43], [35]] (x :: y :: t) ∧ topicCompare (text [[43], [35]]) (text (x :: y :: t)) = .ok false := by
  refine ⟨.inr ⟨.inl rfl, .inl ⟨rfl, rfl⟩⟩, ?_⟩
  show topicCompare (43 :: 47 :: [35]) (text (x :: y :: t)) = _
  rw [text_cons, topic_plus hx (restText_head _)]
  exact (C79_hash (y :: t) hp).2

/-- **C79**, where it fails: a filter that ends in `#` does not match the level above, though it should. -/
theorem C79_parent (l : List Byte) (hl : Plain l) : Matches [l, [35]] [l] ∧ topicCompare (text [l, [35]]) (text [l]) = .ok false := by
  refine ⟨.inr ⟨.inr rfl, .inl ⟨rfl, rfl⟩⟩, ?_⟩
  rw [text_cons, text_cons, topic_level l hl hl (restText_head _) (restText_head _), if_pos rfl]
  rfl

/-- **C79**, where it fails: a topic that ends where the filter has a `+`: it is read behind the end of the topic, though another level of the filter follows. -/
theorem C79_few (x l : List Byte) (hx : Plain x) : ¬ Matches [[43], l, l] [x] ∧ ∃ why, topicCompare (text [[43], l, l]) (text [x]) = .ub why := by
  refine ⟨fun h => ?_, ?_⟩
  · rcases h with ⟨h, -⟩ | ⟨-, ⟨-, h⟩ | h⟩
    · exact absurd h (by decide)
    · cases h
    · exact h
  · rw [text_cons, text_cons, List.singleton_append, topic_plus hx (restText_head _)]
    exact ⟨_, rfl⟩

theorem getSub_spec {t : List (List Byte)} (ht : ∀ x ∈ t, Plain x) (l : List (Enable × List (List Byte))) (hl : ∀ p ∈ l, p.1 = .good → ValidFilter p.2 ∧ Fine p.2 ∧ p.2.length ≤ t.length) : ∀ (n : Nat),
    (∃ k f, getSub (text t) n (l.map fun p => (p.1, text p.2)) = .ok (some (n + k)) ∧ l[k]? = some (.good, f) ∧ Matches f t ∧ ∀ (j : Nat) (g : List (List Byte)), j < k → l[j]? = some (.good, g) → ¬ Matches g t) ∨
    (getSub (text t) n (l.map fun p => (p.1, text p.2)) = .ok none ∧ ∀ g, (.good, g) ∈ l → ¬ Matches g t) := by
  induction l with
  | nil => intro n; exact .inr ⟨rfl, fun g h => by cases h⟩
  | cons p l ih =>
    intro n
    have ih := ih (fun q hq => hl q (List.mem_cons_of_mem _ hq)) (n + 1)
    obtain ⟨e, f⟩ := p
    simp only [List.map_cons, getSub]
    have go : ∀ (hno : e = .good → ¬ Matches f t), getSub (text t) n (((e, f) :: l).map fun p => (p.1, text p.2)) = getSub (text t) (n + 1) (l.map fun p => (p.1, text p.2)) →
        (∃ k g, getSub (text t) n (((e, f) :: l).map fun p => (p.1, text p.2)) = .ok (some (n + k)) ∧ ((e, f) :: l)[k]? = some (.good, g) ∧ Matches g t ∧
          ∀ (j : Nat) (h : List (List Byte)), j < k → ((e, f) :: l)[j]? = some (.good, h) → ¬ Matches h t) ∨
        (getSub (text t) n (((e, f) :: l).map fun p => (p.1, text p.2)) = .ok none ∧ ∀ g, (.good, g) ∈ (e, f) :: l → ¬ Matches g t) := by
      intro hno heq
      rcases ih with ⟨k, g, h1, h2, h3, h4⟩ | ⟨h1, h2⟩
      · refine .inl ⟨k + 1, g, by rw [heq, h1]; congr 2; omega, h2, h3, fun j h hj hjg => ?_⟩
        cases j with
        | zero =>
          simp only [List.getElem?_cons_zero, Option.some.injEq, Prod.mk.injEq] at hjg
          rw [← hjg.2]
          exact hno hjg.1
        | succ j => exact h4 j h (by omega) hjg
      · refine .inr ⟨by rw [heq, h1], fun g hg => ?_⟩
        rcases List.mem_cons.mp hg with hg | hg
        · simp only [Prod.mk.injEq] at hg
          rw [hg.2]
          exact hno hg.1.symm
        · exact h2 g hg
    by_cases he : e = .good
    · obtain ⟨v1, v2, v3⟩ := hl (e, f) (List.mem_cons_self ..) he
      obtain ⟨r, h1, h2⟩ := C79_match_partial f v1 v2 v3 ht
      rw [if_pos he, h1, C.ok_bind]
      cases r with
      | true => exact .inl ⟨0, f, rfl, by rw [he]; rfl, h2.mp rfl, fun j h hj => absurd hj (by omega)⟩
      | false =>
        have := go (fun _ hm => by have := h2.mpr hm; cases this) (by simp only [List.map_cons, getSub]; rw [if_pos he, h1]; rfl)
        simp only [List.map_cons, getSub] at this
        rw [if_pos he, h1, C.ok_bind] at this
        exact this
    · have := go (fun h => absurd h he) (by simp only [List.map_cons, getSub]; rw [if_neg he])
      simp only [List.map_cons, getSub] at this
      exact this

/-- **C79**, delivery: a message goes to the first of the working subscriptions that its topic matches, and to none if there is no such.

Missing: the filters and topics named at `C79_match_partial`. -/
theorem C79_first_partial {t : List (List Byte)} {l : List (Enable × List (List Byte))} (ht : ∀ x ∈ t, Plain x) (hl : ∀ p ∈ l, p.1 = .good → ValidFilter p.2 ∧ Fine p.2 ∧ p.2.length ≤ t.length) :
    ∃ r, getSub (text t) 0 (l.map fun p => (p.1, text p.2)) = .ok r ∧
      (∀ (k : Nat), r = some k ↔ (∃ f, l[k]? = some (.good, f) ∧ Matches f t) ∧ ∀ (j : Nat) (g : List (List Byte)), j < k → l[j]? = some (.good, g) → ¬ Matches g t) := by
  rcases getSub_spec ht l hl 0 with ⟨k, f, h1, h2, h3, h4⟩ | ⟨h1, h2⟩
  · refine ⟨_, h1, fun k' => ⟨fun h => ?_, fun h => ?_⟩⟩
    · have : k' = k := by simpa using h.symm
      subst this
      exact ⟨⟨f, h2, h3⟩, h4⟩
    · obtain ⟨⟨g, g1, g2⟩, g3⟩ := h
      have : k = k' := by
        rcases Nat.lt_trichotomy k k' with hlt | heq | hgt
        · exact absurd h3 (g3 k f hlt h2)
        · exact heq
        · exact absurd g2 (h4 k' g hgt g1)
      rw [this, Nat.zero_add]
  · refine ⟨_, h1, fun k => ⟨fun h => (by cases h), fun h => ?_⟩⟩
    obtain ⟨⟨g, g1, g2⟩, -⟩ := h
    exact absurd g2 (h2 g (List.mem_of_getElem? g1))


/-! ## C80: the arrays -/

/-- **C80**: up to 32 subscriptions, or publications, each has an entry of its own in the array.

Missing: more than 32 (`C80_overflow`). -/
theorem C80_room_partial (n : Nat) (hn : n ≤ 32) : ∃ t, newEntries {} n = .ok t ∧ t.count = n ∧ t.count ≤ t.alloc := by
  have key : ∀ (m : Nat) (t : Table), t.count + m ≤ 32 → (t.count = 0 ∨ t.size = 16 ∧ (t.count ≤ 16 ∧ t.alloc = 16 ∨ 17 ≤ t.count ∧ t.alloc = 32)) → ∃ t', newEntries t m = .ok t' ∧ t'.count = t.count + m ∧ t'.count ≤ t'.alloc := by
    intro m
    induction m with
    | zero => intro t h1 h2; exact ⟨t, rfl, rfl, by omega⟩
    | succ m ih =>
      intro t h1 h2
      obtain ⟨count, size, alloc⟩ := t
      dsimp only at h1 h2
      have step : ∃ t', newEntry ⟨count, size, alloc⟩ = .ok (count, t') ∧ t'.count = count + 1 ∧ t'.size = 16 ∧ (t'.count ≤ 16 ∧ t'.alloc = 16 ∨ 17 ≤ t'.count ∧ t'.alloc = 32) := by
        unfold newEntry
        dsimp only
        by_cases h0 : count = 0
        · rw [if_pos h0]
          dsimp only
          rw [if_pos (by omega)]
          exact ⟨_, rfl, rfl, rfl, by dsimp only; omega⟩
        · rw [if_neg h0]
          by_cases hs : count = size
          · rw [if_pos hs]
            dsimp only
            rw [if_pos (by omega)]
            exact ⟨_, rfl, rfl, by dsimp only; omega, by dsimp only; omega⟩
          · rw [if_neg hs]
            dsimp only
            rw [if_pos (by omega)]
            exact ⟨_, rfl, rfl, by dsimp only; omega, by dsimp only; omega⟩
      obtain ⟨t', k1, k2, k3, k4⟩ := step
      obtain ⟨t'', g1, g2, g3⟩ := ih t' (by omega) (.inr ⟨k3, k4⟩)
      refine ⟨t'', ?_, by rw [g2, k2]; dsimp only; omega, g3⟩
      rw [newEntries, k1]
      exact g1
  obtain ⟨t, h1, h2, h3⟩ := key n {} (by show 0 + n ≤ 32; omega) (.inl rfl)
  exact ⟨t, h1, by rw [h2]; show 0 + n = n; omega, h3⟩

theorem newEntries_add (a b : Nat) : ∀ (t : Table), newEntries t (a + b) = newEntries t a >>= fun t => newEntries t b := by
  induction a with
  | zero => intro t; rw [Nat.zero_add]; rfl
  | succ a ih =>
    intro t
    rw [Nat.succ_add, newEntries, newEntries]
    cases newEntry t with
    | ub why => rfl
    | ok p => exact ih p.2

/-- **C80**, where it fails: the size of the array is never adjusted, so that it is enlarged once only; with any number of subscriptions above 32 it is written behind its end. -/
theorem C80_overflow (n : Nat) (hn : 32 < n) : ∃ why, newEntries {} n = .ub why := by
  rw [show n = 33 + (n - 33) by omega, newEntries_add]
  exact ⟨_, rfl⟩

/-! ## C81: the loop -/

theorem setupSubs_get (out : Nat → Setup) (l : List (Enable × Bool)) : ∀ (n k : Nat), (setupSubs out n l).1[k]? = l[k]?.map fun p => if p.1 = .uninit then ((subscribe (out (n + k))).1, (subscribe (out (n + k))).2.1) else p := by
  induction l with
  | nil => intro n k; rfl
  | cons p l ih =>
    intro n k
    obtain ⟨e, b⟩ := p
    rw [setupSubs]
    dsimp only
    by_cases h : e = .uninit
    · rw [if_pos h]
      cases k with
      | zero => simp [h]
      | succ k =>
        rw [List.getElem?_cons_succ, List.getElem?_cons_succ, ih]
        rw [show n + 1 + k = n + (k + 1) by omega]
    · rw [if_neg h]
      cases k with
      | zero => simp [h]
      | succ k =>
        rw [List.getElem?_cons_succ, List.getElem?_cons_succ, ih]
        rw [show n + 1 + k = n + (k + 1) by omega]

theorem setupPubs_get (out : Nat → Setup) (l : List Enable) : ∀ (n k : Nat), (setupPubs out n l).1[k]? = l[k]?.map fun e => if e = .uninit then (publish (out (n + k))).1 else e := by
  induction l with
  | nil => intro n k; rfl
  | cons e l ih =>
    intro n k
    rw [setupPubs]
    dsimp only
    by_cases h : e = .uninit
    · rw [if_pos h]
      cases k with
      | zero => simp [h]
      | succ k =>
        rw [List.getElem?_cons_succ, List.getElem?_cons_succ, ih]
        rw [show n + 1 + k = n + (k + 1) by omega]
    · rw [if_neg h]
      cases k with
      | zero => simp [h]
      | succ k =>
        rw [List.getElem?_cons_succ, List.getElem?_cons_succ, ih]
        rw [show n + 1 + k = n + (k + 1) by omega]

/-- If nothing is left to do no subscription waits. -/
theorem setupSubs_zero (out : Nat → Setup) (l : List (Enable × Bool)) : ∀ (n : Nat), (setupSubs out n l).2 = 0 → ∀ p ∈ (setupSubs out n l).1, p.1 ≠ .uninit := by
  induction l with
  | nil => intro n _ p hp; cases hp
  | cons q l ih =>
    intro n
    obtain ⟨e, b⟩ := q
    rw [setupSubs]
    dsimp only
    by_cases h : e = .uninit
    · rw [if_pos h]
      intro h0 p hp
      dsimp only at h0 hp
      rcases List.mem_cons.mp hp with rfl | hp
      · dsimp only
        cases ho : out n with
        | missing => rw [ho] at h0; simp only [subscribe] at h0; omega
        | useless => simp [subscribe]
        | refused => simp [subscribe]
        | works => simp [subscribe]
      · exact ih (n + 1) (by omega) p hp
    · rw [if_neg h]
      intro h0 p hp
      rcases List.mem_cons.mp hp with rfl | hp
      · exact h
      · exact ih (n + 1) h0 p hp

/-- What holds between turns. -/
structure LoopInv (m : Loop) : Prop where
  cc : 1 ≤ m.connectCycle ∧ m.connectCycle ≤ 60
  cycle : m.cycle < 4294967296
  conn : m.connected = true → m.connectCycle = 1
  near : m.connectCycle ≤ m.cycle + 59
  subs : m.badSubs = 0 → ∀ p ∈ m.subs, p.1 ≠ .uninit

/-- The part of a turn after the connection. -/
theorem turn_eq (m : Loop) (t : Turn) : ∃ m1 : Loop, (m.turn t).1 = { (({ m1 with
        subs := if m1.connected ∧ m1.badSubs ≠ 0 ∧ m1.cycle % 10 = 0 then (setupSubs t.sub 0 m1.subs).1 else m1.subs,
        badSubs := if m1.connected ∧ m1.badSubs ≠ 0 ∧ m1.cycle % 10 = 0 then (setupSubs t.sub 0 m1.subs).2 else m1.badSubs,
        pubs := if m1.connected ∧ m1.badPubs ≠ 0 ∧ m1.cycle % 10 = 0 then (setupPubs t.pub 0 m1.pubs).1 else m1.pubs,
        badPubs := if m1.connected ∧ m1.badPubs ≠ 0 ∧ m1.cycle % 10 = 0 then (setupPubs t.pub 0 m1.pubs).2 else m1.badPubs }) : Loop) with
        connected := m1.connected && !t.lost, cycle := (m1.cycle + 1) % 4294967296 } ∧
    ((m.connected = false ∧ m.connectCycle ≤ m.cycle ∧ (m.turn t).2 = true ∧
        (t.accepted = true ∧ m1 = { m with connected := true, connectCycle := 1, cycle := 0, subs := m.subs.map fun p => (p.1, false) } ∨
         t.accepted = false ∧ m1 = { m with connectCycle := (if m.connectCycle * 2 > 60 then 60 else m.connectCycle * 2), cycle := 0 })) ∨
     (¬ (m.connected = false ∧ m.connectCycle ≤ m.cycle) ∧ (m.turn t).2 = false ∧ m1 = m)) := by
  have fin : ∀ m1 : Loop, ((m1.trySubs t).tryPubs t).wait t =
      { (({ m1 with
        subs := if m1.connected ∧ m1.badSubs ≠ 0 ∧ m1.cycle % 10 = 0 then (setupSubs t.sub 0 m1.subs).1 else m1.subs,
        badSubs := if m1.connected ∧ m1.badSubs ≠ 0 ∧ m1.cycle % 10 = 0 then (setupSubs t.sub 0 m1.subs).2 else m1.badSubs,
        pubs := if m1.connected ∧ m1.badPubs ≠ 0 ∧ m1.cycle % 10 = 0 then (setupPubs t.pub 0 m1.pubs).1 else m1.pubs,
        badPubs := if m1.connected ∧ m1.badPubs ≠ 0 ∧ m1.cycle % 10 = 0 then (setupPubs t.pub 0 m1.pubs).2 else m1.badPubs }) : Loop) with
        connected := m1.connected && !t.lost, cycle := (m1.cycle + 1) % 4294967296 } := by
    intro m1
    have e1 : m1.trySubs t = { m1 with
        subs := if m1.connected ∧ m1.badSubs ≠ 0 ∧ m1.cycle % 10 = 0 then (setupSubs t.sub 0 m1.subs).1 else m1.subs,
        badSubs := if m1.connected ∧ m1.badSubs ≠ 0 ∧ m1.cycle % 10 = 0 then (setupSubs t.sub 0 m1.subs).2 else m1.badSubs } := by
      unfold Loop.trySubs
      by_cases h1 : m1.connected ∧ m1.badSubs ≠ 0 ∧ m1.cycle % 10 = 0
      · rw [if_pos h1, if_pos h1, if_pos h1]
      · rw [if_neg h1, if_neg h1, if_neg h1]
    rw [e1]
    unfold Loop.tryPubs Loop.wait
    dsimp only
    by_cases h2 : m1.connected ∧ m1.badPubs ≠ 0 ∧ m1.cycle % 10 = 0
    · rw [if_pos h2, if_pos h2, if_pos h2]
    · rw [if_neg h2, if_neg h2, if_neg h2]
  refine ⟨(m.connect t).1, fin _, ?_⟩
  unfold Loop.turn Loop.connect
  by_cases ht : m.connected = false ∧ m.connectCycle ≤ m.cycle
  · rw [if_pos ht]
    refine .inl ⟨ht.1, ht.2, rfl, ?_⟩
    cases ha : t.accepted with
    | true => exact .inl ⟨rfl, rfl⟩
    | false => exact .inr ⟨rfl, rfl⟩
  · rw [if_neg ht]
    exact .inr ⟨ht, rfl, rfl⟩

theorem inv_turn {m : Loop} (h : LoopInv m) (t : Turn) : LoopInv (m.turn t).1 := by
  obtain ⟨m1, he, hc⟩ := turn_eq m t
  have hcc := h.cc
  have hcyc := h.cycle
  have hm1 : (1 ≤ m1.connectCycle ∧ m1.connectCycle ≤ 60) ∧ (m1.connected = true → m1.connectCycle = 1) ∧ m1.connectCycle ≤ (m1.cycle + 1) % 4294967296 + 59 ∧ (m1.badSubs = 0 → ∀ p ∈ m1.subs, p.1 ≠ .uninit) := by
    rcases hc with ⟨h1, -, -, ⟨-, rfl⟩ | ⟨-, rfl⟩⟩ | ⟨h1, -, rfl⟩
    · refine ⟨⟨Nat.le_refl 1, show 1 ≤ 60 by omega⟩, fun _ => rfl, show 1 ≤ _ by omega, fun h0 p hp => ?_⟩
      obtain ⟨q, hq, rfl⟩ := List.mem_map.mp hp
      exact h.subs h0 q hq
    · have hb : 1 ≤ (if m.connectCycle * 2 > 60 then 60 else m.connectCycle * 2) ∧ (if m.connectCycle * 2 > 60 then 60 else m.connectCycle * 2) ≤ 60 := by split <;> omega
      refine ⟨hb, fun hx => ?_, ?_, h.subs⟩
      · dsimp only at hx; rw [h1] at hx; cases hx
      · dsimp only; omega
    · refine ⟨hcc, h.conn, ?_, h.subs⟩
      cases hx : m1.connected with
      | true => have := h.conn hx; omega
      | false =>
        have : ¬ m1.connectCycle ≤ m1.cycle := fun g => h1 ⟨hx, g⟩
        rw [Nat.mod_eq_of_lt (by omega)]
        omega
  rw [he]
  refine ⟨hm1.1, Nat.mod_lt _ (by decide), fun hx => ?_, hm1.2.2.1, ?_⟩
  · dsimp only at hx
    rw [Bool.and_eq_true] at hx
    exact hm1.2.1 hx.1
  dsimp only
  by_cases hs : m1.connected ∧ m1.badSubs ≠ 0 ∧ m1.cycle % 10 = 0
  · rw [if_pos hs, if_pos hs]
    exact setupSubs_zero t.sub m1.subs 0
  · rw [if_neg hs, if_neg hs]
    exact hm1.2.2.2

theorem inv_run (ts : List Turn) : ∀ {m : Loop}, LoopInv m → LoopInv (m.run ts).1 := by
  induction ts with
  | nil => intro m h; exact h
  | cons t ts ih => intro m h; exact ih (inv_turn h t)

theorem inv_start (a b : Nat) : LoopInv (Loop.start a b) := ⟨⟨Nat.le_refl 1, show 1 ≤ 60 by omega⟩, show 1 < 4294967296 by omega, fun _ => rfl, show 1 ≤ 1 + 59 by omega, fun h => by cases h⟩

theorem try_soon (n : Nat) : ∀ {m : Loop} {ts : List Turn}, m.connected = false → m.connectCycle ≤ m.cycle + n → m.connectCycle ≤ 60 → n < ts.length → true ∈ (m.run ts).2 := by
  induction n with
  | zero =>
    intro m ts hc hn h60 hl
    cases ts with
    | nil => simp at hl
    | cons t ts =>
      obtain ⟨m1, -, ⟨-, -, h, -⟩ | ⟨h, -, -⟩⟩ := turn_eq m t
      · rw [Loop.run]; dsimp only; rw [h]; exact List.mem_cons_self ..
      · exact absurd ⟨hc, by omega⟩ h
  | succ n ih =>
    intro m ts hc hn h60 hl
    cases ts with
    | nil => simp at hl
    | cons t ts =>
      rw [List.length_cons] at hl
      obtain ⟨m1, he, ⟨-, -, h, -⟩ | ⟨h, h2, rfl⟩⟩ := turn_eq m t
      · rw [Loop.run]; dsimp only; rw [h]; exact List.mem_cons_self ..
      · rw [Loop.run]
        refine List.mem_cons_of_mem _ (ih ?_ ?_ ?_ (by omega))
        · rw [he]; dsimp only; rw [hc]; rfl
        · rw [he]
          dsimp only
          have : ¬ m1.connectCycle ≤ m1.cycle := fun g => h ⟨hc, g⟩
          rw [Nat.mod_eq_of_lt (by omega)]
          omega
        · rw [he]; exact h60

/-- **C81**, connection: as long as the module is not connected to the broker it tries to connect, in one of any 60 turns of its loop. -/
theorem C81_connect (a b : Nat) (before after : List Turn) (h60 : 60 ≤ after.length) (hc : ((Loop.start a b).run before).1.connected = false) : true ∈ (((Loop.start a b).run before).1.run after).2 := by
  have hi := inv_run before (inv_start a b)
  exact try_soon 59 hc hi.near hi.cc.2 (by omega)

theorem sub_stays (ts : List Turn) : ∀ {m : Loop} {k : Nat} {e : Enable} {b : Bool}, e ≠ .uninit → m.connected = true → (∀ t ∈ ts, t.lost = false) → m.subs[k]? = some (e, b) → (m.run ts).1.subs[k]? = some (e, b) := by
  induction ts with
  | nil => intro m k e b _ _ _ h; exact h
  | cons t ts ih =>
    intro m k e b he hc hl hk
    obtain ⟨m1, hm, ⟨h, -, -, -⟩ | ⟨-, -, rfl⟩⟩ := turn_eq m t
    · rw [hc] at h; cases h
    · rw [Loop.run]
      refine ih he ?_ (fun t ht => hl t (List.mem_cons_of_mem _ ht)) ?_
      · rw [hm]; dsimp only; rw [hc, hl t (List.mem_cons_self ..)]; rfl
      · rw [hm]
        dsimp only
        split
        · rw [setupSubs_get, hk]
          simp [he]
        · exact hk

theorem sub_soon (n : Nat) : ∀ {m : Loop} {ts : List Turn} {k : Nat} {b : Bool}, LoopInv m → m.connected = true → (∀ t ∈ ts, t.lost = false ∧ t.sub k = .works) → m.subs[k]? = some (.uninit, b) →
    (10 - m.cycle % 10) % 10 ≤ n → n < ts.length → (m.run ts).1.subs[k]? = some (.good, true) := by
  induction n with
  | zero =>
    intro m ts k b hi hc ht hk hn hl
    cases ts with
    | nil => simp at hl
    | cons t ts =>
      obtain ⟨m1, hm, ⟨h, -, -, -⟩ | ⟨-, -, rfl⟩⟩ := turn_eq m t
      · rw [hc] at h; cases h
      · have hbad : m1.badSubs ≠ 0 := fun h => hi.subs h _ (List.mem_of_getElem? hk) rfl
        rw [Loop.run]
        refine sub_stays ts (by simp) ?_ (fun t h => (ht t (List.mem_cons_of_mem _ h)).1) ?_
        · rw [hm]; dsimp only; rw [hc, (ht t (List.mem_cons_self ..)).1]; rfl
        · rw [hm]
          dsimp only
          rw [if_pos ⟨hc, hbad, by omega⟩, setupSubs_get, hk]
          simp [(ht t (List.mem_cons_self ..)).2, subscribe]
  | succ n ih =>
    intro m ts k b hi hc ht hk hn hl
    cases ts with
    | nil => simp at hl
    | cons t ts =>
      rw [List.length_cons] at hl
      by_cases h0 : m.cycle % 10 = 0
      · obtain ⟨m1, hm, ⟨h, -, -, -⟩ | ⟨-, -, rfl⟩⟩ := turn_eq m t
        · rw [hc] at h; cases h
        · have hbad : m1.badSubs ≠ 0 := fun h => hi.subs h _ (List.mem_of_getElem? hk) rfl
          rw [Loop.run]
          refine sub_stays ts (by simp) ?_ (fun t h => (ht t (List.mem_cons_of_mem _ h)).1) ?_
          · rw [hm]; dsimp only; rw [hc, (ht t (List.mem_cons_self ..)).1]; rfl
          · rw [hm]
            dsimp only
            rw [if_pos ⟨hc, hbad, h0⟩, setupSubs_get, hk]
            simp [(ht t (List.mem_cons_self ..)).2, subscribe]
      · have hi' := inv_turn hi t
        have hcyc := hi.cycle
        obtain ⟨m1, hm, ⟨h, -, -, -⟩ | ⟨-, -, rfl⟩⟩ := turn_eq m t
        · rw [hc] at h; cases h
        · rw [Loop.run]
          refine ih (b := b) hi' ?_ (fun t h => ht t (List.mem_cons_of_mem _ h)) ?_ ?_ (by omega)
          · rw [hm]; dsimp only; rw [hc, (ht t (List.mem_cons_self ..)).1]; rfl
          · rw [hm]
            dsimp only
            rw [if_neg fun h => h0 h.2.2]
            exact hk
          · rw [hm]
            dsimp only
            have hlt := Nat.mod_lt m1.cycle (show 0 < 10 by decide)
            by_cases hw : m1.cycle + 1 < 4294967296
            · rw [Nat.mod_eq_of_lt hw]
              omega
            · rw [show m1.cycle + 1 = 4294967296 by omega, Nat.mod_self]
              omega

/-- **C81**, subscriptions: a subscription that could not be made because its tags did not exist is made as soon as they exist: if the connection lasts for ten turns in which the tags can be found, it works afterwards. -/
theorem C81_subscribe (a b : Nat) (before after : List Turn) (k : Nat) (w : Bool) (hc : ((Loop.start a b).run before).1.connected = true) (hk : ((Loop.start a b).run before).1.subs[k]? = some (.uninit, w))
    (h10 : 10 ≤ after.length) (ht : ∀ t ∈ after, t.lost = false ∧ t.sub k = .works) : (((Loop.start a b).run before).1.run after).1.subs[k]? = some (.good, true) :=
  sub_soon 9 (inv_run before (inv_start a b)) hc ht hk (by omega) (by omega)

/-- **C81**, subscriptions: as long as the connection is not lost, every subscription that counts as working is one that the broker has. -/
theorem C81_held (a b : Nat) (ts : List Turn) (hl : ∀ t ∈ ts, t.lost = false) (k : Nat) (w : Bool) (hk : ((Loop.start a b).run ts).1.subs[k]? = some (.good, w)) : w = true := by
  have aux : ∀ (ts : List Turn) (m : Loop), (∀ t ∈ ts, t.lost = false) →
      (∀ (k : Nat) w, m.subs[k]? = some (.good, w) → w = true ∧ m.connected = true) → ∀ (k : Nat) w, (m.run ts).1.subs[k]? = some (.good, w) → w = true := by
    intro ts
    induction ts with
    | nil => intro m _ hm k w hk; exact (hm k w hk).1
    | cons t ts ih =>
      intro m hl hm
      rw [Loop.run]
      refine ih _ (fun t ht => hl t (List.mem_cons_of_mem _ ht)) ?_
      have hlt := hl t (List.mem_cons_self ..)
      obtain ⟨m1, hm1, hc⟩ := turn_eq m t
      have h1 : ∀ (k : Nat) w, m1.subs[k]? = some (.good, w) → w = true ∧ m1.connected = true := by
        rcases hc with ⟨hd, -, -, ⟨-, rfl⟩ | ⟨-, rfl⟩⟩ | ⟨-, -, rfl⟩
        · intro k w hk
          dsimp only at hk
          rw [List.getElem?_map] at hk
          cases hq : m.subs[k]? with
          | none => rw [hq] at hk; cases hk
          | some p =>
            rw [hq] at hk
            simp only [Option.map_some, Option.some.injEq, Prod.mk.injEq] at hk
            have := (hm k p.2 (by rw [hq, ← hk.1])).2
            rw [hd] at this
            cases this
        · exact hm
        · exact hm
      rw [hm1]
      intro k w hk
      dsimp only at hk ⊢
      rw [hlt]
      by_cases hcond : m1.connected = true ∧ m1.badSubs ≠ 0 ∧ m1.cycle % 10 = 0
      · rw [if_pos hcond, setupSubs_get] at hk
        refine ⟨?_, by rw [hcond.1]; rfl⟩
        cases hq : m1.subs[k]? with
        | none => rw [hq] at hk; cases hk
        | some p =>
          rw [hq] at hk
          simp only [Option.map_some, Option.some.injEq] at hk
          by_cases hu : p.1 = .uninit
          · rw [if_pos hu] at hk
            injection hk with hk1 hk2
            rw [← hk2]
            revert hk1
            cases t.sub (0 + k) <;> simp [subscribe]
          · rw [if_neg hu] at hk
            exact (h1 k w (by rw [hq, hk])).1
      · rw [if_neg hcond] at hk
        obtain ⟨e1, e2⟩ := h1 k w hk
        exact ⟨e1, by rw [e2]; rfl⟩
  refine aux ts _ hl ?_ k w hk
  intro k w hk
  unfold Loop.start at hk
  dsimp only at hk
  have := List.mem_of_getElem? hk
  rw [List.mem_replicate] at this
  cases this.2

/-- Of two subscriptions the broker refuses one. -/
example : ((Loop.start 2 0).run [⟨true, fun k => if k = 0 then .works else .refused, fun _ => .works, false⟩]).1.subs = [(.good, true), (.fail, false)] := by decide

/-- **C81**, where it fails: a publication whose tags do not exist when it is tried first is never tried again, whatever happens afterwards. -/
theorem C81_publisher_lost (m : Loop) (k : Nat) (after : List Turn) (hk : m.pubs[k]? = some .fail) : (m.run after).1.pubs[k]? = some .fail := by
  induction after generalizing m with
  | nil => exact hk
  | cons t ts ih =>
    rw [Loop.run]
    refine ih _ ?_
    obtain ⟨m1, hm, hc⟩ := turn_eq m t
    have hp : m1.pubs = m.pubs := by rcases hc with ⟨-, -, -, ⟨-, rfl⟩ | ⟨-, rfl⟩⟩ | ⟨-, -, rfl⟩ <;> rfl
    rw [hm]
    dsimp only
    rw [hp]
    split
    · rw [setupPubs_get, hk]
      rfl
    · exact hk

/-- It comes to that: the broker accepts the connection at once, the tag of the publication does not exist yet. -/
theorem C81_publisher_first : ((Loop.start 0 1).run [⟨true, fun _ => .missing, fun _ => .missing, false⟩]).1.pubs[0]? = some .fail := by decide

/-- **C81**, where it fails: if the connection to the broker was lost, subscriptions that worked before are never made again, whatever happens afterwards: the broker has none of them. -/
theorem C81_resubscribe (m : Loop) (k : Nat) (after : List Turn) (hk : m.subs[k]? = some (.good, false)) : (m.run after).1.subs[k]? = some (.good, false) := by
  induction after generalizing m with
  | nil => exact hk
  | cons t ts ih =>
    rw [Loop.run]
    refine ih _ ?_
    obtain ⟨m1, hm, hc⟩ := turn_eq m t
    have hp : m1.subs[k]? = some (.good, false) := by
      rcases hc with ⟨-, -, -, ⟨-, rfl⟩ | ⟨-, rfl⟩⟩ | ⟨-, -, rfl⟩
      · dsimp only; rw [List.getElem?_map, hk]; rfl
      · exact hk
      · exact hk
    rw [hm]
    dsimp only
    split
    · rw [setupSubs_get, hp]
      rfl
    · exact hp

/-- It comes to that: one subscription works, the connection is lost, and made again. -/
theorem C81_resubscribe_first :
    ((Loop.start 1 0).run [⟨true, fun _ => .works, fun _ => .works, true⟩]).1.subs[0]? = some (.good, true) ∧
    ((Loop.start 1 0).run [⟨true, fun _ => .works, fun _ => .works, true⟩, ⟨true, fun _ => .works, fun _ => .works, false⟩]).1.subs[0]? = some (.good, false) ∧
    ((Loop.start 1 0).run [⟨true, fun _ => .works, fun _ => .works, true⟩, ⟨true, fun _ => .works, fun _ => .works, false⟩]).1.connected = true := by decide

/-! ## C82: messages -/

/-- **C82**, without filters: what one module publishes of its tag arrives in the tag of another of the same size, exactly.

Missing: payloads that are shorter (`C82_short`), reads that fail, filters (`C82_filter`), subscriptions without tags (`C82_no_tags`). -/
theorem C82_transfer_partial (tags : Nat) (out buff data : List Byte) (hb : buff.length = data.length) (ht : tags ≠ 0) : arrived tags buff .none (published out (some data)) = .ok data := by
  unfold arrived published
  dsimp only [Option.getD_some]
  rw [if_neg ht, hb, List.take_length, List.drop_of_length_le (by omega), List.append_nil]

/-- **C82**, size: whatever arrives, exactly as many bytes are written as the tags have. -/
theorem C82_size (tags : Nat) (buff payload r : List Byte) (h : arrived tags buff .none payload = .ok r) : r.length = buff.length ∧ ∀ (i : Nat), i < buff.length → r[i]? = if i < payload.length then payload[i]? else buff[i]? := by
  unfold arrived at h
  dsimp only at h
  split at h
  · cases h
  · simp only [C.ok.injEq] at h
    subst h
    refine ⟨by simp; omega, fun i hi => ?_⟩
    by_cases hp : i < payload.length
    · rw [if_pos hp, List.getElem?_append_left (by simp; omega), List.getElem?_take, if_pos hi]
    · rw [if_neg hp, List.getElem?_append_right (by simp; omega), List.getElem?_drop]
      congr 1
      simp only [List.length_take]
      omega

/-- **C82**, where it fails: after a payload that is too short the rest of an earlier message, or of uninitialised memory, is written as well. -/
theorem C82_short : arrived 1 [1, 2, 3, 4] .none [9, 9] = .ok [9, 9, 3, 4] := rfl

/-- **C82**, where it fails: if the filter fails, the earlier message, or uninitialised memory, is written again. -/
theorem C82_filter (tags : Nat) (buff payload : List Byte) (ht : tags ≠ 0) : arrived tags buff .failed payload = .ok buff := by
  unfold arrived
  rw [if_neg ht]

/-- **C82**, where it fails: a subscription without tags, which is allowed if it has a filter, uses an array of handles that does not exist, for every message. -/
theorem C82_no_tags (buff payload : List Byte) (f : Filter) : ∃ why, arrived 0 buff f payload = .ub why := ⟨_, rfl⟩

/-! ## Examples -/

example : ValidFilter [nm "a", [43], nm "b", [35]] ∧ Fine [nm "a", [43], nm "b", [35]] ∧ Matches [nm "a", [43], nm "b", [35]] [nm "a", nm "xy", nm "b", nm "c", nm "d"] := by
  refine ⟨?_, ?_, ?_⟩
  · exact ⟨.inl ⟨by decide, by decide, by decide⟩, .inr rfl, .inl ⟨by decide, by decide, by decide⟩, .inr (.inr rfl)⟩
  · simp only [Fine]
    rw [if_neg (by decide), if_neg (by decide), if_pos trivial]
    exact ⟨⟨by decide, by decide, by decide⟩, trivial⟩
  · exact .inr ⟨.inr rfl, .inr ⟨.inl rfl, .inr ⟨.inr rfl, .inl ⟨rfl, rfl⟩⟩⟩⟩

example : text [nm "a", [43], nm "b", [35]] = nm "a/+/b/#" := by decide
example : topicCompare (nm "a/+/b/#") (nm "a/xy/b/c/d") = .ok true := by kernel_rfl
example : topicCompare (nm "a/+/b") (nm "a/xy/c") = .ok false := by kernel_rfl
example : ∃ why, topicCompare (nm "a/+") (nm "a/xy") = .ub why := ⟨"read behind the end of a text", by kernel_rfl⟩

/-- Missing at first: made at the next tenth turn. -/
example : (((Loop.start 1 0).run [⟨true, fun _ => .missing, fun _ => .works, false⟩]).1.connected = true ∧ ((Loop.start 1 0).run [⟨true, fun _ => .missing, fun _ => .works, false⟩]).1.subs[0]? = some (.uninit, false)) ∧
    (((Loop.start 1 0).run [⟨true, fun _ => .missing, fun _ => .works, false⟩]).1.run (List.replicate 10 ⟨true, fun _ => .works, fun _ => .works, false⟩)).1.subs[0]? = some (.good, true) := by decide

/-- No broker: attempts after 1, 2, 4, 8 turns. -/
example : ((Loop.start 0 0).run (List.replicate 16 ⟨false, fun _ => .works, fun _ => .works, false⟩)).2 =
    [true, false, true, false, false, false, true, false, false, false, false, false, false, false, true, false] := by decide

end Dax
