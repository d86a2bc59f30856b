import Verif.Model.LibNames
import Verif.Spec.LibNames
import Verif.Props.LibTypes
/-!
# C50: names of types and events
-/
set_option autoImplicit false
namespace Dax

theorem sameLetter_lower {x y : Byte} (h : SameLetter x y) : toLower x = toLower y := by
  unfold SameLetter at h
  unfold toLower
  rcases h with rfl | ⟨h1, h2, h3⟩ | ⟨h1, h2, h3⟩
  · rfl
  · rw [if_pos ⟨h1, h2⟩, if_neg (by omega), ← h3, BitVec.ofNat_toNat, BitVec.setWidth_eq]
  · rw [if_neg (by omega), if_pos ⟨h1, h2⟩, ← h3, BitVec.ofNat_toNat, BitVec.setWidth_eq]

theorem sameText_lower : ∀ {a b : Name}, SameText a b → a.map toLower = b.map toLower
  | [], [], _ => rfl
  | x :: a, y :: b, h => by
    rw [List.map_cons, List.map_cons, sameLetter_lower h.1, sameText_lower h.2]
  | [], _ :: _, h => h.elim
  | _ :: _, [], h => h.elim

theorem lower_sameLetter {x y : Byte} (h : toLower x = toLower y) : SameLetter x y := by
  revert x y; unfold SameLetter; decide +kernel

theorem lower_sameText : ∀ {a b : Name}, a.map toLower = b.map toLower → SameText a b
  | [], [], _ => trivial
  | x :: a, y :: b, h => by
    rw [List.map_cons, List.map_cons, List.cons.injEq] at h
    exact ⟨lower_sameLetter h.1, lower_sameText h.2⟩
  | [], _ :: _, h => by simp at h
  | _ :: _, [], h => by simp at h

theorem strcaseeq_congr {a b : Name} (h : a.map toLower = b.map toLower) (n : Name) : strcaseeq b n = strcaseeq a n := by
  unfold strcaseeq; rw [h]

theorem find_congr {a b : Name} (h : a.map toLower = b.map toLower) :
    baseNames.find? (fun p => strcaseeq b p.1) = baseNames.find? (fun p => strcaseeq a p.1) := by
  simp only [strcaseeq_congr h]

theorem findType_congr {a b : Name} (h : a.map toLower = b.map toLower) (c : TypeCache) : findType c b = findType c a := by
  unfold findType; simp only [strcaseeq_congr h]

theorem cdtGetType_congr {a b : Name} (h : a.map toLower = b.map toLower) (tbl : List Cdt) : cdtGetType tbl b = cdtGetType tbl a := by
  unfold cdtGetType; simp only [strcaseeq_congr h]

theorem cdtGet_congr {a b : Name} (h : a.map toLower = b.map toLower) (s : Server) (fd : Int) (c : TypeCache) :
    cdtGet s fd c (.cdtGetName b) = cdtGet s fd c (.cdtGetName a) := by
  have e : handle s fd (.cdtGetName b) = handle s fd (.cdtGetName a) := by
    show hCdtGet s (cdtGetType s.cdts b) = hCdtGet s (cdtGetType s.cdts a)
    rw [cdtGetType_congr h]
  unfold cdtGet cdtGetF ask
  rw [e]

/-- **C50**, base types: the name of each base type is the documented one, and every capitalisation of it is converted back to the code,
whatever the cache holds and whatever the server says. -/
theorem C50_base (s : Server) (fd : Int) (c : TypeCache) (t : Nat) (w : String) (h : (t, w) ∈ baseTable) :
    typeToString s fd c t = .ok (c, some (nm w)) ∧ ∀ n, SameText (nm w) n → daxStringToType s fd c n = .ok (c, t) := by
  have key : ∀ p ∈ baseTable, isCustom p.1 = false ∧ (baseNames.find? (fun q => q.2 == p.1)).map (·.1) = some (nm p.2) ∧
      baseNames.find? (fun q => strcaseeq (nm p.2) q.1) = some (nm p.2, p.1) := by decide +kernel
  obtain ⟨h1, h2, h3⟩ := key _ h
  refine ⟨?_, fun n hn => ?_⟩
  · unfold typeToString
    rw [h1, h2]; rfl
  · unfold daxStringToType stringToType
    rw [find_congr (sameText_lower hn), h3]

/-- Instance. -/
example : (0x14, "INT") ∈ baseTable ∧ SameText (nm "INT") (nm "iNt") :=
  ⟨by decide, lower_sameText (by decide)⟩

theorem text_name {s : Server} (hw : WF s) {t : Nat} {txt n : Name} (ht : TypeText s t txt) (hn : Defines txt n) :
    ∃ d, s.cdts[t - 2147483648]? = some d ∧ d.name = n := by
  obtain ⟨hcm, hl, d, x, hd, hx, rfl⟩ := typeText_entry ht
  refine ⟨d, hd, ?_⟩
  obtain ⟨l, hl'⟩ := defines_tokens hn
  obtain ⟨fs, rfl, -, -⟩ := membersText_list hx
  have hp := validate_plain (hw.cdts.valid d (List.mem_of_getElem? hd))
  have hdn : Defines (d.name ++ (fs.map (COLON :: ·)).flatten) d.name := by
    refine ⟨hp.1, hp.2.1, ?_⟩
    cases fs with
    | nil => left; simp
    | cons f fs => right; exact ⟨f ++ (fs.map (COLON :: ·)).flatten, by simp [COLON]⟩
  obtain ⟨l', hl''⟩ := defines_tokens hdn
  rw [hl', List.cons.injEq] at hl''
  exact hl''.1.symm

/-- **C50**, compound types: the client gives a type the name its definition has, and converts every capitalisation of
that name back to the code, whether or not its cache has the type.

Missing: types the client cannot fetch (`C20_zero_count`) and caches that say something else than the server (`C20_doubled`).
An unknown name gives 0 but spoils the cache (`C20_unknown_name`). -/
theorem C50_compound_partial {s : Server} {fd : Int} {t : Nat} {txt n : Name} {c : TypeCache} (h : Reachable s)
    (ht : TypeText s t txt) (hn : Defines txt n) (hf : Fetchable s t) (hc : Faithful s c) :
    (∃ c', typeToString s fd c t = .ok (c', some n) ∧ Faithful s c') ∧
    ∀ n', SameText n n' → ∃ c', daxStringToType s fd c n' = .ok (c', t) ∧ Faithful s c' := by
  have hw := h.wf
  obtain ⟨d, hd, rfl⟩ := text_name hw ht hn
  obtain ⟨hcm, -⟩ := hf.ok hw
  obtain ⟨k1, k2, k3⟩ := compound_index hcm
  have hv := validate_nul (hw.cdts.valid d (List.mem_of_getElem? hd))
  have hknown : Known c t → ∃ ms, c[t - 2147483648]? = some ⟨some d.name, ms⟩ := by
    rintro ⟨n, ms, hk⟩
    rcases hc _ _ hk with h1 | ⟨d', h1, h2, -⟩
    · simp at h1
    · rw [hd, Option.some.injEq] at h1
      subst h1
      exact ⟨_, by rw [hk, h2]⟩
  have hfind : ∀ c', Faithful s c' → Known c' t → findType c' d.name = some (t - 2147483648) := by
    intro c' hc' hk
    have := findType_named hw.cdts (((faithful_iff hw).mp hc') 0).named hd
    rw [this, if_neg (known_iff.mp hk)]
  have hnone : ¬ Known c t → findType c d.name = none := by
    intro hk
    have := findType_named hw.cdts (((faithful_iff hw).mp hc) 0).named hd
    rw [this, if_pos (Classical.byContradiction fun h => hk (known_iff.mpr h))]
  refine ⟨?_, fun n' hn' => ?_⟩
  · unfold typeToString
    rw [if_pos k1, k2]
    by_cases hk : Known c t
    · obtain ⟨ms, e⟩ := hknown hk
      exact ⟨c, by rw [e], hc⟩
    · obtain ⟨c', g1, g2, g3, -⟩ := fetch_type (fd := fd) hw hf hc hk hd (.inl rfl)
      refine ⟨c', ?_, g2⟩
      split
      · rename_i n ms e
        exact absurd ⟨n, ms, e⟩ hk
      · rw [g1]
        simp only [C.ok_bind, if_pos]
        rw [g3]
  · have hl := sameText_lower hn'
    unfold daxStringToType stringToType
    rw [find_congr hl, (cdtGetType_self hw.cdts hd).2]
    dsimp only
    rw [findType_congr hl]
    by_cases hk : Known c t
    · rw [hfind c hc hk]
      exact ⟨c, by dsimp only; rw [k3], hc⟩
    · obtain ⟨c', g1, g2, g3, -⟩ := fetch_type (fd := fd) hw hf hc hk hd (.inr rfl)
      refine ⟨c', ?_, g2⟩
      have hlen : n'.length = d.name.length := by
        have := congrArg List.length hl
        simpa using this.symm
      have e : cdtGetByName s fd c n' = .ok (c', 0) := by
        unfold cdtGetByName
        have : MSG_DATA_SIZE = 4088 := rfl
        have : TAGNAME_SIZE = 32 := rfl
        rw [if_neg (by omega), List.take_of_length_le (by omega), cdtGet_congr hl, g1]
      rw [hnone hk]
      dsimp only
      rw [e]
      simp only [C.ok_bind, ne_eq, not_true_eq_false, if_false]
      rw [findType_congr hl, hfind c' g2 ⟨_, _, g3⟩]
      dsimp only
      rw [k3]

/-- Instance: a client that knows nothing and a type with another type in it. -/
example : Reachable (demo typeDemo) ∧ TypeText (demo typeDemo) 0x80000003 (nm "Line:a,Pt,2:f,BOOL,3") ∧
    Defines (nm "Line:a,Pt,2:f,BOOL,3") (nm "Line") ∧ Fetchable (demo typeDemo) 0x80000003 ∧ Faithful (demo typeDemo) [] ∧
    SameText (nm "Line") (nm "LINE") := by
  refine ⟨demo_reachable (by decide +kernel), ⟨⟨by decide, by decide⟩, fun fd => by kernel_rfl⟩, ?_, typeDemo_fetchable, faithful_nil _, ?_⟩
  · exact ⟨by decide, by decide, .inr ⟨nm "a,Pt,2:f,BOOL,3", by decide⟩⟩
  · exact lower_sameText (by decide)

/-- **C50**, events: the name of each of these event types is the documented one, and every capitalisation of it is
converted back; any other text gives 0. -/
theorem C50_events (t : Int) (w : String) (h : (t, w) ∈ eventTable) :
    eventTypeToString t = some (nm w) ∧ ∀ n, SameText (nm w) n → eventStringToType n = t := by
  have key : ∀ p ∈ eventTable, eventTypeToString p.1 = some (nm p.2) ∧ eventStringToType (nm p.2) = p.1 := by decide +kernel
  obtain ⟨h1, h2⟩ := key _ h
  refine ⟨h1, fun n hn => ?_⟩
  dsimp only at h2
  rw [← h2]
  unfold eventStringToType
  simp only [strcaseeq_congr (sameText_lower hn)]

example : (9, "DEADBAND") ∈ eventTable ∧ SameText (nm "DEADBAND") (nm "deadBand") :=
  ⟨by decide, lower_sameText (by decide)⟩

/-- **C50**, conversely: a text is taken for an event type only if it is a capitalisation of its name. -/
theorem C50_events_only (n : Name) (h : eventStringToType n ≠ 0) :
    ∃ w, (eventStringToType n, w) ∈ eventTable ∧ SameText (nm w) n := by
  have e : ∀ {w : String}, strcaseeq n (nm w) = true → SameText (nm w) n := by
    intro w hw
    refine lower_sameText ?_
    unfold strcaseeq at hw
    exact (eq_of_beq hw).symm
  revert h
  unfold eventStringToType
  repeat' split
  all_goals first
    | exact fun h => absurd rfl h
    | (rename_i hw; exact fun _ => ⟨_, by decide, e hw⟩)

/-- **C50 fails** for the event type EVENT_DELETED, which the server accepts: it has no name, and nothing is converted to it. -/
theorem C50_deleted : eventTypeToString EVENT_DELETED = none ∧ ∀ n, eventStringToType n ≠ EVENT_DELETED := by
  refine ⟨by decide, fun n h => ?_⟩
  obtain ⟨w, hw, -⟩ := C50_events_only n (by rw [h]; decide)
  rw [h] at hw
  revert hw
  unfold eventTable
  simp [EVENT_DELETED]

end Dax
