import Verif.Spec.Logger
import Verif.Lemmas.Tactic
/-!
# C85 and C86: the log
-/
set_option autoImplicit false
namespace Dax
open Log

/-! ## Lemmas -/

theorem splitOn_mid (d : Byte) (x y : Name) : splitOn d (x ++ d :: y) = splitOn d x ++ splitOn d y := by
  induction x with
  | nil => simp [splitOn]
  | cons c x ih =>
    simp only [List.cons_append, splitOn]
    by_cases h : c = d
    · rw [if_pos h, if_pos h, ih]
      rfl
    · rw [if_neg h, if_neg h, ih]
      cases hx : splitOn d x with
      | nil =>
        exfalso
        cases x with
        | nil => simp [splitOn] at hx
        | cons e x =>
          simp only [splitOn] at hx
          split at hx
          · cases hx
          · split at hx <;> cases hx
      | cons p ps => rfl

theorem splitOn_plain (d : Byte) (x : Name) (h : d ∉ x) : splitOn d x = [x] := by
  induction x with
  | nil => rfl
  | cons c x ih =>
    simp only [List.mem_cons, not_or] at h
    simp only [splitOn]
    rw [if_neg (fun e => h.1 e.symm), ih h.2]

theorem splitOn_pieces (d : Byte) (s : Name) : ∃ p0 ps, splitOn d s = p0 :: ps ∧ d ∉ p0 ∧ (∃ q, s = p0 ++ q ∧ (q = [] ∨ ∃ q', q = d :: q')) ∧
    ∀ w ∈ ps, d ∉ w ∧ ∃ p q, s = p ++ [d] ++ w ++ q ∧ (q = [] ∨ ∃ q', q = d :: q') := by
  induction s with
  | nil => exact ⟨[], [], rfl, by simp, ⟨[], rfl, .inl rfl⟩, by simp⟩
  | cons c s ih =>
    obtain ⟨p0, ps, h1, h2, ⟨q, h3, h4⟩, h5⟩ := ih
    simp only [splitOn]
    by_cases hc : c = d
    · subst hc
      refine ⟨[], p0 :: ps, by rw [if_pos rfl, h1], by simp, ⟨c :: s, rfl, .inr ⟨s, rfl⟩⟩, ?_⟩
      intro w hw
      rcases List.mem_cons.mp hw with rfl | hw
      · exact ⟨h2, [], q, by rw [h3]; rfl, h4⟩
      · obtain ⟨g1, p, q', g2, g3⟩ := h5 w hw
        exact ⟨g1, c :: p, q', by rw [g2]; rfl, g3⟩
    · refine ⟨c :: p0, ps, by rw [if_neg hc, h1], ?_, ⟨q, by rw [h3]; rfl, h4⟩, ?_⟩
      · simp only [List.mem_cons, not_or]
        exact ⟨fun e => hc e.symm, h2⟩
      · intro w hw
        obtain ⟨g1, p, q', g2, g3⟩ := h5 w hw
        exact ⟨g1, c :: p, q', by rw [g2]; rfl, g3⟩

theorem tokens_word (s w : Name) : w ∈ tokens 44 s ↔ WordOf s w := by
  unfold tokens
  rw [List.mem_filter]
  constructor
  · rintro ⟨hw, hne⟩
    have hne : w ≠ [] := by simpa using hne
    obtain ⟨p0, ps, h1, h2, ⟨q, h3, h4⟩, h5⟩ := splitOn_pieces 44 s
    rw [h1] at hw
    rcases List.mem_cons.mp hw with rfl | hw
    · exact ⟨hne, h2, [], q, by simpa using h3, .inl rfl, h4⟩
    · obtain ⟨g1, p, q', g2, g3⟩ := h5 w hw
      exact ⟨hne, g1, p ++ [44], q', g2, .inr ⟨p, rfl⟩, g3⟩
  · rintro ⟨hne, hc, p, q, rfl, hp, hq⟩
    refine ⟨?_, by simpa using hne⟩
    have hwq : w ∈ splitOn 44 (w ++ q) := by
      rcases hq with rfl | ⟨q', rfl⟩
      · rw [List.append_nil, splitOn_plain _ _ hc]
        simp
      · rw [splitOn_mid, splitOn_plain _ _ hc]
        simp
    rcases hp with rfl | ⟨p', rfl⟩
    · simpa using hwq
    · rw [show p' ++ [44] ++ w ++ q = p' ++ 44 :: (w ++ q) by simp, splitOn_mid]
      exact List.mem_append_right _ hwq

theorem parseWord_bit (ws : List (Name × Mask)) (m : Mask) (s : Name) (b : Nat) : (ws.foldl (fun m w => if s = w.1 then m ||| w.2 else m) m).getLsbD b = true ↔ m.getLsbD b = true ∨ ∃ w ∈ ws, s = w.1 ∧ w.2.getLsbD b = true := by
  induction ws generalizing m with
  | nil => simp
  | cons w ws ih =>
    rw [List.foldl_cons, ih]
    by_cases h : s = w.1
    · rw [if_pos h]
      simp only [BitVec.getLsbD_or, Bool.or_eq_true, List.mem_cons, exists_eq_or_imp]
      constructor
      · rintro ((h1 | h1) | h1)
        · exact .inl h1
        · exact .inr (.inl ⟨h, h1⟩)
        · exact .inr (.inr h1)
      · rintro (h1 | ⟨-, h1⟩ | h1)
        · exact .inl (.inl h1)
        · exact .inl (.inr h1)
        · exact .inr h1
    · rw [if_neg h]
      simp only [List.mem_cons, exists_eq_or_imp]
      constructor
      · rintro (h1 | h1)
        · exact .inl h1
        · exact .inr (.inr h1)
      · rintro (h1 | ⟨h2, -⟩ | h1)
        · exact .inl h1
        · exact absurd h2 h
        · exact .inr h1

theorem parse_bit (ts : List Name) (m : Mask) (b : Nat) : (ts.foldl parseWord m).getLsbD b = true ↔ m.getLsbD b = true ∨ ∃ s ∈ ts, ∃ w ∈ words, s = w.1 ∧ w.2.getLsbD b = true := by
  induction ts generalizing m with
  | nil => simp
  | cons s ts ih =>
    rw [List.foldl_cons, ih]
    unfold parseWord
    rw [parseWord_bit]
    simp only [List.mem_cons, exists_eq_or_imp, or_assoc]

/-! ## C85: topics -/

/-- **C85**: the mask contains a topic exactly if the list of words asks for it.

Missing: LOGIC and LOGICERR (`C85_logic`). -/
theorem C85_parse_partial (s : Name) (b : Nat) (hb : b < 32) (h1 : b ≠ 13) (h2 : b ≠ 14) : (parseTopics (some s)).getLsbD b = true ↔ Asks s b := by
  unfold parseTopics
  rw [parse_bit]
  have z : ¬ (0 : Mask).getLsbD b = true := by simp
  have k1 : ∀ b < 32, ∀ w ∈ words, w.2.getLsbD b = true → w.1 = nm "ALL" ∨ (w.1, b) ∈ topicBits := by decide +kernel
  have k2 : ∀ t ∈ topicBits, t.2 ≠ 13 → t.2 ≠ 14 → ∃ w ∈ words, t.1 = w.1 ∧ w.2.getLsbD t.2 = true := by decide +kernel
  have k3 : ∀ b < 32, ∃ w ∈ words, nm "ALL" = w.1 ∧ w.2.getLsbD b = true := by decide +kernel
  constructor
  · rintro (h | ⟨s', hs, w, hw, rfl, hbit⟩)
    · exact absurd h z
    · rw [tokens_word] at hs
      rcases k1 b hb w hw hbit with h | h
      · exact .inl (h ▸ hs)
      · exact .inr ⟨w.1, h, hs⟩
  · rintro (h | ⟨w, hw, h⟩)
    · exact .inr ⟨nm "ALL", (tokens_word _ _).mpr h, k3 b hb⟩
    · exact .inr ⟨w, (tokens_word _ _).mpr h, k2 (w, b) hw h1 h2⟩

/-- **C85 fails** for messages of embedded logic: their topics have names, which are shown, but cannot be asked for. -/
theorem C85_logic : parseTopics (some (nm "LOGIC,LOGICERR")) = 0 ∧ Asks (nm "LOGIC,LOGICERR") 13 ∧ Asks (nm "LOGIC,LOGICERR") 14 ∧ topicName (1#32 <<< 13) = nm "LOGIC" ∧ topicName (1#32 <<< 14) = nm "LOGICERR" := by
  refine ⟨by decide +kernel, .inr ⟨nm "LOGIC", by decide +kernel, ?_⟩, .inr ⟨nm "LOGICERR", by decide +kernel, ?_⟩, by decide +kernel, by decide +kernel⟩
  · exact ⟨by decide +kernel, by decide +kernel, [], nm ",LOGICERR", by decide +kernel, .inl rfl, .inr ⟨nm "LOGICERR", by decide +kernel⟩⟩
  · exact ⟨by decide +kernel, by decide +kernel, nm "LOGIC,", [], by decide +kernel, .inr ⟨nm "LOGIC", by decide +kernel⟩, .inl rfl⟩

/-- **C85**, names: every topic is shown with its name. -/
theorem C85_name : ∀ t ∈ topicBits, topicName (1#32 <<< t.2) = t.1 := by decide +kernel

/-! ## C86: services -/

theorem shares_iff (m t : Mask) : m &&& t ≠ 0 ↔ shares m t = true := by
  unfold shares
  rw [List.any_eq_true]
  constructor
  · intro h
    apply Classical.byContradiction
    intro hn
    apply h
    apply BitVec.eq_of_getLsbD_eq
    intro i hi
    rw [BitVec.getLsbD_and]
    cases hb : (m.getLsbD i && t.getLsbD i) with
    | true => exact absurd ⟨i, List.mem_range.mpr hi, hb⟩ hn
    | false => simp
  · rintro ⟨b, -, hb⟩ h
    rw [← BitVec.getLsbD_and, h] at hb
    simp at hb

/-- **C86**: a message goes to each service that has one of its topics, in the order of the services, once, cut to 255 characters; only if there is no service it goes to the standard output, if the default topics contain one of its topics.

Missing: services with another file name (`C86_file`), and messages before a name is set. -/
theorem C86_log_partial {st : St} {n w : Name} {b : Nat} (hn : st.name = some n) (hs : ∀ s ∈ st.services, s.out ≠ .wild) (hw : (w, b) ∈ topicBits) (text : Name) :
    log st (1#32 <<< b) text = .ok (if st.services = [] then (if shares st.mask (1#32 <<< b) then [(.stdout, entry n w text)] else [])
      else (st.services.filter fun s => shares s.mask (1#32 <<< b)).map fun s => entryFor n w text s.out) := by
  have ht : topicName (1#32 <<< b) = w := C85_name _ hw
  generalize (1#32 <<< b) = t at ht
  have hline : line n t (text.take 255) = entry n w text := by unfold line entry; rw [ht]
  have key : ∀ ss : List Service, (∀ s ∈ ss, s.out ≠ .wild) → toServices (some n) t (text.take 255) ss = .ok ((ss.filter fun s => shares s.mask t).map fun s => entryFor n w text s.out) := by
    intro ss
    induction ss with
    | nil => exact fun _ => rfl
    | cons s ss ih =>
      intro h
      have ih := ih fun x hx => h x (List.mem_cons_of_mem _ hx)
      rw [toServices]
      by_cases hc : shares s.mask t = true
      · have he : emit (some n) t (text.take 255) s.out = .ok (entryFor n w text s.out) := by
          have := h s (by simp)
          unfold emit entryFor
          cases ho : s.out with
          | wild => exact absurd ho this
          | stdout => simp only [hline]
          | stderr => simp only [hline]
          | syslog p => rfl
        rw [if_pos ((shares_iff _ _).mpr hc), he, C.ok_bind, ih, C.ok_bind, List.filter_cons, if_pos hc]
        rfl
      · rw [if_neg (fun h => hc ((shares_iff _ _).mp h)), ih, List.filter_cons, if_neg hc]
  unfold log
  dsimp only
  by_cases h0 : st.services = []
  · rw [if_pos h0]
    by_cases hc : shares st.mask t = true
    · rw [if_pos ⟨by rw [h0]; rfl, (shares_iff _ _).mpr hc⟩, if_pos hc, hn]
      unfold emit
      dsimp only
      rw [C.ok_bind, hline]
    · rw [if_neg (fun h => hc ((shares_iff _ _).mp h.2)), if_neg hc, h0]
      rfl
  · rw [if_neg h0, if_neg (fun h => h0 (List.length_eq_zero_iff.mp h.1)), hn]
    exact key st.services hs

theorem strcase_trans {a b c : Name} (h1 : strcaseeq a b = true) (h2 : strcaseeq a c = true) : strcaseeq b c = true := by
  unfold strcaseeq at *
  simp only [beq_iff_eq] at *
  rw [← h1, h2]

theorem add_described {st : St} {a : Arg} {t : Name} {o : Out} (h : Describes a t o) (hl : st.services.length < 32) :
    addService st a = .ok ({ st with services := st.services ++ [⟨parseTopics (some t), o⟩] }, .added) ∧ o ≠ .wild := by
  unfold addService
  rw [if_neg (by omega)]
  cases h with
  | stdout y f ht hy hf ey ef =>
    rw [ht, hy, hf]
    dsimp only
    rw [if_pos ey]
    unfold stdio
    dsimp only
    rw [if_pos ef]
    exact ⟨rfl, by simp⟩
  | stderr y f ht hy hf ey ef =>
    rw [ht, hy, hf]
    dsimp only
    rw [if_pos ey]
    unfold stdio
    dsimp only
    rw [if_neg (fun h => absurd (strcase_trans h ef) (by decide +kernel)), if_pos ef]
    exact ⟨rfl, by simp⟩
  | syslog y p w n ht hy hp ey hw ep =>
    rw [ht, hy, hp]
    dsimp only
    rw [if_neg (fun h => absurd (strcase_trans h ey) (by decide +kernel)), if_pos ey]
    unfold Log.syslog
    dsimp only
    have k : ∀ x ∈ prioNames, (prios.find? fun z => strcaseeq x.1 z.1).map (fun z => z.2) = some x.2 := by decide +kernel
    have hc : ∀ z : Name, strcaseeq p z = strcaseeq w z := by
      intro z
      unfold strcaseeq at ep ⊢
      simp only [beq_iff_eq] at ep
      rw [ep]
    have hfind := k (w, n) hw
    dsimp only at hfind
    simp only [hc]
    cases hx : prios.find? fun z => strcaseeq w z.1 with
    | none => rw [hx] at hfind; cases hfind
    | some z =>
      rw [hx] at hfind
      simp only [Option.map_some, Option.some.injEq] at hfind
      subst hfind
      exact ⟨rfl, by simp⟩

/-- **C86**, from the configuration to the message: if up to 32 services are described completely, a message of a topic is written by exactly those whose list of words asks for the topic, in order.

Missing: LOGIC and LOGICERR (`C85_logic`); incomplete descriptions (`C86_file`, `C86_no_file`). -/
theorem C86_configured_partial {n w : Name} {b : Nat} {mask : Mask} (as : List (Arg × Name × Out)) (ha : ∀ a ∈ as, Describes a.1 a.2.1 a.2.2) (h0 : as ≠ []) (hl : as.length ≤ 32) (hw : (w, b) ∈ topicBits) (h1 : b ≠ 13) (h2 : b ≠ 14) (text : Name) :
    ∃ st, addServices { name := some n, mask := mask } (as.map (·.1)) = .ok (st, as.map fun _ => .added) ∧ ∃ l, List.Sublist l as ∧ (∀ a ∈ as, a ∈ l ↔ Asks a.2.1 b) ∧
      log st (1#32 <<< b) text = .ok (l.map fun a => entryFor n w text a.2.2) := by
  have add : ∀ (as : List (Arg × Name × Out)) (st : St), (∀ a ∈ as, Describes a.1 a.2.1 a.2.2) → st.services.length + as.length ≤ 32 →
      addServices st (as.map (·.1)) = .ok ({ st with services := st.services ++ as.map fun a => ⟨parseTopics (some a.2.1), a.2.2⟩ }, as.map fun _ => .added) := by
    intro as
    induction as with
    | nil => intro st _ _; simp [addServices]
    | cons a as ih =>
      intro st h hlen
      simp only [List.length_cons] at hlen
      rw [List.map_cons, addServices, (add_described (h a (by simp)) (by omega)).1, C.ok_bind]
      dsimp only
      rw [ih _ (fun x hx => h x (List.mem_cons_of_mem _ hx)) (by simp; omega), C.ok_bind]
      simp
  have hb : b < 32 := by
    have k : ∀ t ∈ topicBits, t.2 < 32 := by decide +kernel
    exact k _ hw
  refine ⟨_, add as { name := some n, mask := mask } ha (by simpa using hl), as.filter fun a => shares (parseTopics (some a.2.1)) (1#32 <<< b), List.filter_sublist, ?_, ?_⟩
  · intro a hm
    rw [List.mem_filter, ← C85_parse_partial a.2.1 b hb h1 h2]
    have hbit : ∀ i < 32, (1#32 <<< b).getLsbD i = decide (i = b) := by
      intro i hi
      rw [BitVec.getLsbD_shiftLeft]
      simp only [hi, decide_true, Bool.true_and, BitVec.getLsbD_one]
      by_cases h : i = b
      · subst h
        simp
      · by_cases h' : i < b
        · simp [h', h]
        · simp [h', h]
          omega
    unfold shares
    rw [List.any_eq_true]
    constructor
    · rintro ⟨-, i, hi, hx⟩
      rw [Bool.and_eq_true, hbit i (List.mem_range.mp hi), decide_eq_true_iff] at hx
      exact hx.2 ▸ hx.1
    · intro h
      exact ⟨hm, b, List.mem_range.mpr hb, by rw [hbit b hb, h]; simp⟩
  · rw [C86_log_partial (n := n) (w := w) rfl ?_ hw text]
    · dsimp only
      rw [List.nil_append, if_neg (by simpa using h0), List.filter_map, List.map_map]
      rfl
    · intro s hs
      simp only [List.nil_append, List.mem_map] at hs
      obtain ⟨a, hm, rfl⟩ := hs
      exact (add_described (st := {}) (ha a hm) (by decide)).2

/-- **C86**: there are never more than 32 services, and none is taken away. -/
theorem C86_room (as : List Arg) : ∀ {st st' : St} {rs : List Added}, addServices st as = .ok (st', rs) → st.services.length ≤ 32 → st'.services.length ≤ 32 ∧ st.services <+: st'.services ∧ st'.name = st.name ∧ st'.mask = st.mask ∧
    st'.services.length = st.services.length + rs.count .added := by
  induction as with
  | nil =>
    intro st st' rs h hl
    simp only [addServices, C.ok.injEq, Prod.mk.injEq] at h
    obtain ⟨rfl, rfl⟩ := h
    exact ⟨hl, List.prefix_refl _, rfl, rfl, rfl⟩
  | cons a as ih =>
    intro st st' rs h hl
    rw [addServices] at h
    obtain ⟨⟨s1, r⟩, h1, h2⟩ := C.bind_eq_ok.mp h
    obtain ⟨⟨s2, rs'⟩, h3, h4⟩ := C.bind_eq_ok.mp h2
    simp only [C.ok.injEq, Prod.mk.injEq] at h4
    obtain ⟨rfl, rfl⟩ := h4
    have one : (r ≠ .added ∧ s1 = st) ∨ (r = .added ∧ st.services.length < 32 ∧ ∃ x, s1 = { st with services := st.services ++ [x] }) := by
      unfold addService at h1
      by_cases hge : st.services.length ≥ 32
      · rw [if_pos hge] at h1
        obtain ⟨l, -, h5⟩ := C.bind_eq_ok.mp h1
        simp only [C.ok.injEq, Prod.mk.injEq] at h5
        obtain ⟨rfl, rfl⟩ := h5
        exact .inl ⟨by simp, rfl⟩
      · rw [if_neg hge] at h1
        cases ht : a.topics with
        | none =>
          rw [ht] at h1
          obtain ⟨l, -, h5⟩ := C.bind_eq_ok.mp h1
          simp only [C.ok.injEq, Prod.mk.injEq] at h5
          obtain ⟨rfl, rfl⟩ := h5
          exact .inl ⟨by simp, rfl⟩
        | some t =>
          rw [ht] at h1
          cases hy : a.type with
          | none => rw [hy] at h1; cases h1
          | some y =>
            rw [hy] at h1
            dsimp only at h1
            by_cases e1 : strcaseeq y (nm "stdio") = true
            · rw [if_pos e1] at h1
              obtain ⟨o, -, h5⟩ := C.bind_eq_ok.mp h1
              simp only [C.ok.injEq, Prod.mk.injEq] at h5
              obtain ⟨rfl, rfl⟩ := h5
              exact .inr ⟨rfl, by omega, _, rfl⟩
            · rw [if_neg e1] at h1
              by_cases e2 : strcaseeq y (nm "syslog") = true
              · rw [if_pos e2] at h1
                obtain ⟨o, -, h5⟩ := C.bind_eq_ok.mp h1
                cases o with
                | none =>
                  simp only [C.ok.injEq, Prod.mk.injEq] at h5
                  obtain ⟨rfl, rfl⟩ := h5
                  exact .inl ⟨by simp, rfl⟩
                | some o =>
                  simp only [C.ok.injEq, Prod.mk.injEq] at h5
                  obtain ⟨rfl, rfl⟩ := h5
                  exact .inr ⟨rfl, by omega, _, rfl⟩
              · rw [if_neg e2] at h1
                obtain ⟨l, -, h5⟩ := C.bind_eq_ok.mp h1
                simp only [C.ok.injEq, Prod.mk.injEq] at h5
                obtain ⟨rfl, rfl⟩ := h5
                exact .inl ⟨by simp, rfl⟩
    rcases one with ⟨hr, rfl⟩ | ⟨rfl, hlt, x, rfl⟩
    · obtain ⟨g1, g2, g3, g4, g5⟩ := ih h3 hl
      refine ⟨g1, g2, g3, g4, ?_⟩
      rw [List.count_cons_of_ne (by simpa using hr), g5]
    · obtain ⟨g1, g2, g3, g4, g5⟩ := ih h3 (by simp; omega)
      refine ⟨g1, (List.prefix_append _ _).trans g2, g3, g4, ?_⟩
      rw [List.count_cons_self, g5]
      simp
      omega

/-- **C86 fails** for other file names: the service is added, and the first message for it is written through a pointer that was never set. -/
theorem C86_file (n f : Name) (h1 : strcaseeq f (nm "stdout") = false) (h2 : strcaseeq f (nm "stderr") = false) (text : Name) :
    ∃ st, addService { name := some n } { topics := some (nm "ERROR"), type := some (nm "stdio"), file := some f } = .ok (st, .added) ∧ ∃ w, log st 0x8 text = .ub w := by
  refine ⟨{ name := some n, services := [⟨8, .wild⟩] }, ?_, "file pointer never set", rfl⟩
  have hp : parseTopics (some (nm "ERROR")) = 8 := by decide +kernel
  unfold addService
  rw [if_neg (by show ¬ (0 ≥ 32); decide)]
  dsimp only
  rw [if_pos (by decide +kernel)]
  unfold stdio
  dsimp only
  rw [h1, h2, hp]
  rfl

/-- **C86 fails** if the type, file or priority is missing: NULL is compared. -/
theorem C86_no_file (st : St) (t : Name) (hl : st.services.length < 32) (p f : Option Name) : (∃ w, addService st { topics := some t, type := none, file := f, priority := p } = .ub w) ∧
    (∃ w, addService st { topics := some t, type := some (nm "stdio"), file := none, priority := p } = .ub w) ∧ ∃ w, addService st { topics := some t, type := some (nm "syslog"), file := f, priority := none } = .ub w := by
  unfold addService
  simp only [if_neg (show ¬ st.services.length ≥ 32 by omega)]
  rw [if_pos (show strcaseeq (nm "stdio") (nm "stdio") = true by decide +kernel), if_neg (show ¬ strcaseeq (nm "syslog") (nm "stdio") = true by decide +kernel),
    if_pos (show strcaseeq (nm "syslog") (nm "syslog") = true by decide +kernel)]
  exact ⟨⟨_, rfl⟩, ⟨_, rfl⟩, _, rfl⟩

/-! ## Cases -/

/-- Three services: two files and the system's log. -/
def logArgs : List (Arg × Name × Out) := [({ topics := some (nm "ERROR,FATAL"), type := some (nm "stdio"), file := some (nm "StdErr") }, nm "ERROR,FATAL", .stderr),
  ({ topics := some (nm "MSG,,COMM"), type := some (nm "STDIO"), file := some (nm "stdout") }, nm "MSG,,COMM", .stdout),
  ({ topics := some (nm "ALL"), type := some (nm "syslog"), priority := some (nm "Notice") }, nm "ALL", .syslog 5)]

example : (∀ a ∈ logArgs, Describes a.1 a.2.1 a.2.2) ∧ logArgs ≠ [] ∧ logArgs.length ≤ 32 ∧ (nm "COMM", 6) ∈ topicBits := by
  refine ⟨?_, by decide +kernel, by decide, by decide +kernel⟩
  intro a ha
  simp only [logArgs, List.mem_cons, List.not_mem_nil, or_false] at ha
  rcases ha with rfl | rfl | rfl
  · exact .stderr _ _ (nm "stdio") (nm "StdErr") rfl rfl rfl (by decide +kernel) (by decide +kernel)
  · exact .stdout _ _ (nm "STDIO") (nm "stdout") rfl rfl rfl (by decide +kernel) (by decide +kernel)
  · exact .syslog _ _ (nm "syslog") (nm "Notice") (nm "notice") 5 rfl rfl rfl (by decide +kernel) (by decide +kernel) (by decide +kernel)

example : ∃ st, addServices { name := some (nm "m") } (logArgs.map (·.1)) = .ok (st, [.added, .added, .added]) ∧ log st 0x40 (nm "hello") = .ok [(.stdout, nm "[m] COMM: hello\n"), (.syslog 5, nm "hello")] :=
  ⟨{ name := some (nm "m"), services := [⟨0x18, .stderr⟩, ⟨0xc0, .stdout⟩, ⟨0xffffffff, .syslog 5⟩] }, by kernel_rfl, by kernel_rfl⟩

example : log { name := some (nm "m") } 0x8 (nm "bad") = .ok [(.stdout, nm "[m] ERROR: bad\n")] ∧ log { name := some (nm "m") } 0x1 (nm "bad") = .ok [] := ⟨by kernel_rfl, by kernel_rfl⟩

example : parseTopics (some (nm "MSG,,COMM")) = 0xc0 ∧ parseTopics (some (nm "MSG, COMM")) = 0x80 := by decide +kernel

example : strcaseeq (nm "/var/log/dax") (nm "stdout") = false ∧ strcaseeq (nm "/var/log/dax") (nm "stderr") = false := by decide +kernel

end Dax
