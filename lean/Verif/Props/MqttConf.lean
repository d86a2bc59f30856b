import Verif.Spec.MqttConf
import Verif.Lemmas.Basic
/-!
# Configuration of the MQTT module: C108
-/
set_option autoImplicit false
namespace Dax
open Dax.MqttConf
open Dax.MasterConf (Field)

/-! ## Lemmas -/

theorem number_u8 (d : Nat) (hd : d < 256) (f : Option Int) : Number d f (u8 (f.getD d)) := by
  constructor
  · rintro rfl
    show ((d : Int) % 256).toNat = d
    omega
  · rintro v rfl h0 h1
    show (((v % 256).toNat : Nat) : Int) = v
    omega

theorem tagNames_ok : ∀ (l : List Field) (r : List Name), tagNames l = .ok r → l = r.map .text
  | [], r, h => by cases h; rfl
  | f :: l, r, h => by
    cases f with
    | nil => cases h
    | other => cases h
    | text s =>
      simp only [tagNames, Field.str] at h
      obtain ⟨x, h1, h⟩ := C.bind_eq_ok.mp h
      cases h
      rw [tagNames_ok l x h1]
      rfl

theorem tagNames_text : ∀ l : List Name, tagNames (l.map .text) = .ok l
  | [] => rfl
  | s :: l => by
    simp only [List.map_cons, tagNames, Field.str]
    rw [tagNames_text l]
    rfl

theorem readTags_some {t : Tags} {l : List Name} (h : readTags t = .ok (some l)) : Names t l := by
  cases t with
  | nil => cases h; exact .nil
  | text s => cases h; exact .one
  | other => cases h
  | list f =>
    simp only [readTags] at h
    obtain ⟨x, h1, h⟩ := C.bind_eq_ok.mp h
    simp only [C.ok.injEq, Option.some.injEq] at h
    subst h
    rw [tagNames_ok f _ h1]
    exact .list

theorem readTags_names {t : Tags} {l : List Name} (h : Names t l) : readTags t = .ok (some l) := by
  cases h with
  | nil => rfl
  | one => rfl
  | list => simp only [readTags]; rw [tagNames_text]; rfl

theorem filters_of {f : Func} (h : f ≠ .other) : Filters f (decide (f = .func)) := ⟨h, by simp⟩

/-! ## C108 -/

/-- **C108**, subscriptions: a call of `add_sub` that is accepted adds one subscription as its argument says and leaves the others. -/
theorem C108_sub {l l' : List Sub} {a : MqttConf.Arg} (h : addSub l a = .ok (some l')) : ∃ s, l' = l ++ [s] ∧ SubMade a s := by
  unfold addSub at h
  cases ht : a.topic with
  | nil => rw [if_pos ht] at h; cases h
  | other => rw [if_neg (by rw [ht]; simp), ht] at h; cases h
  | text topic =>
    rw [if_neg (by rw [ht]; simp), ht] at h
    simp only [Field.str] at h
    obtain ⟨r, h1, h⟩ := C.bind_eq_ok.mp h
    cases r with
    | none => cases h
    | some tags =>
      dsimp only at h
      by_cases hf : a.filter = .other
      · rw [if_pos hf] at h; cases h
      · rw [if_neg hf] at h
        cases h
        exact ⟨_, rfl, ⟨ht, readTags_some h1, filters_of hf, number_u8 0 (by omega) a.qos⟩⟩

/-- **C108**, publications: a call of `add_pub` that is accepted adds one publication as its argument says and leaves the others. -/
theorem C108_pub {l l' : List Pub} {a : MqttConf.Arg} (h : addPub l a = .ok (some l')) : ∃ p, l' = l ++ [p] ∧ PubMade a p := by
  unfold addPub at h
  cases ht : a.topic with
  | nil => rw [if_pos ht] at h; cases h
  | other => rw [if_neg (by rw [ht]; simp), ht] at h; cases h
  | text topic =>
    rw [if_neg (by rw [ht]; simp), ht] at h
    simp only [Field.str] at h
    obtain ⟨r, h1, h⟩ := C.bind_eq_ok.mp h
    cases r with
    | none => cases h
    | some tags =>
      dsimp only at h
      by_cases hf : a.filter = .other
      · rw [if_pos hf] at h; cases h
      · rw [if_neg hf] at h
        obtain ⟨t, h2, h⟩ := C.bind_eq_ok.mp h
        cases t with
        | none => cases h
        | some t =>
          dsimp only at h
          obtain ⟨v, h3, h⟩ := C.bind_eq_ok.mp h
          cases h
          refine ⟨_, rfl, ⟨ht, readTags_some h1, filters_of hf, number_u8 0 (by omega) a.qos, ?_, ?_, number_u8 2 (by omega) a.triggerType, ?_⟩⟩
          · cases a.retained with
            | none => simp
            | some b => simp
          · cases hq : a.triggerTag with
            | text s => rw [hq] at h2; cases h2; exact .inl rfl
            | other => rw [hq] at h2; cases h2
            | nil =>
              rw [hq] at h2
              simp only [triggerTag, C.ok.injEq] at h2
              right
              refine ⟨rfl, ?_⟩
              cases tags with
              | nil => cases h2
              | cons x tags => cases h2; exact ⟨tags, rfl⟩
          · cases hq : a.triggerValue with
            | text s => rw [hq] at h3; cases h3; exact .inl rfl
            | other => rw [hq] at h3; cases h3
            | nil => rw [hq] at h3; cases h3; exact .inr ⟨rfl, rfl⟩

theorem pairs_snoc {α β : Type} {R : α → β → Prop} {a : α} {b : β} : ∀ {l : List α} {m : List β}, Pairs R l m → R a b → Pairs R (l ++ [a]) (m ++ [b])
  | _, _, .nil, h => .cons h .nil
  | _, _, .cons h0 h1, h => .cons h0 (pairs_snoc h1 h)

theorem addAll_pairs : ∀ (cs : List Call) (s s' : List Sub) (p p' : List Pub) (as bs : List MqttConf.Arg), MqttConf.addAll s p cs = .ok (some (s', p')) → Pairs SubMade as s → Pairs PubMade bs p →
    Pairs SubMade (as ++ subArgs cs) s' ∧ Pairs PubMade (bs ++ pubArgs cs) p'
  | [], s, s', p, p', as, bs, h, h1, h2 => by
    cases h
    simp only [subArgs, pubArgs, List.append_nil]
    exact ⟨h1, h2⟩
  | .sub a :: cs, s, s', p, p', as, bs, h, h1, h2 => by
    simp only [MqttConf.addAll] at h
    obtain ⟨r, h3, h⟩ := C.bind_eq_ok.mp h
    cases r with
    | none => cases h
    | some s1 =>
      obtain ⟨x, rfl, hx⟩ := C108_sub h3
      have := addAll_pairs cs _ s' p p' (as ++ [a]) bs h (pairs_snoc h1 hx) h2
      rw [List.append_assoc] at this
      exact this
  | .pub a :: cs, s, s', p, p', as, bs, h, h1, h2 => by
    simp only [MqttConf.addAll] at h
    obtain ⟨r, h3, h⟩ := C.bind_eq_ok.mp h
    cases r with
    | none => cases h
    | some p1 =>
      obtain ⟨x, rfl, hx⟩ := C108_pub h3
      have := addAll_pairs cs s s' _ p' as (bs ++ [a]) h h1 (pairs_snoc h2 hx)
      rw [List.append_assoc] at this
      exact this

/-- **C108**, whole configurations: the subscriptions and publications are those of the calls, one for each in their order. -/
theorem C108_all {cs : List Call} {s : List Sub} {p : List Pub} (h : MqttConf.addAll [] [] cs = .ok (some (s, p))) : Pairs SubMade (subArgs cs) s ∧ Pairs PubMade (pubArgs cs) p :=
  addAll_pairs cs [] s [] p [] [] h .nil .nil

/-- **C108**, whatever is complete is accepted. -/
theorem C108_accepted {a : MqttConf.Arg} {topic : Name} {tags : List Name} (ht : a.topic = .text topic) (htags : Names a.tags tags) (hf : a.filter ≠ .other) :
    (∀ l, ∃ l', addSub l a = .ok (some l')) ∧
    ((∃ s, a.triggerTag = .text s) ∨ (a.triggerTag = .nil ∧ tags ≠ []) → a.triggerValue ≠ .other → ∀ l, ∃ l', addPub l a = .ok (some l')) := by
  refine ⟨fun l => ?_, fun htr hv l => ?_⟩
  · unfold addSub
    rw [if_neg (by rw [ht]; simp), ht]
    simp only [Field.str]
    rw [readTags_names htags, C.ok_bind]
    dsimp only
    rw [if_neg hf]
    exact ⟨_, rfl⟩
  · unfold addPub
    rw [if_neg (by rw [ht]; simp), ht]
    simp only [Field.str]
    rw [readTags_names htags, C.ok_bind]
    dsimp only
    rw [if_neg hf]
    have h1 : ∃ t, triggerTag a.triggerTag tags = .ok (some t) := by
      rcases htr with ⟨s, hs⟩ | ⟨hs, h0⟩
      · rw [hs]; exact ⟨s, rfl⟩
      · rw [hs]
        obtain ⟨x, r, rfl⟩ := List.exists_cons_of_ne_nil h0
        exact ⟨x, rfl⟩
    have h2 : ∃ v, triggerValue a.triggerValue = .ok v := by
      cases hq : a.triggerValue with
      | nil => exact ⟨_, rfl⟩
      | text s => exact ⟨_, rfl⟩
      | other => exact absurd hq hv
    obtain ⟨t, h1⟩ := h1
    obtain ⟨v, h2⟩ := h2
    rw [h1, C.ok_bind]
    dsimp only
    rw [h2]
    exact ⟨_, rfl⟩

/-- **C108**, what is missing is refused: the topic, or for a publication both tags and trigger. -/
theorem C108_refused (a : MqttConf.Arg) :
    (a.topic = .nil → (∀ l, addSub l a = .ok none) ∧ ∀ l, addPub l a = .ok none) ∧
    (∀ topic, a.topic = .text topic → Names a.tags [] → a.triggerTag = .nil → ∀ l, addPub l a = .ok none) := by
  refine ⟨fun h => ⟨fun l => ?_, fun l => ?_⟩, fun topic ht hn htr l => ?_⟩
  · unfold addSub; rw [if_pos h]
  · unfold addPub; rw [if_pos h]
  · unfold addPub
    rw [if_neg (by rw [ht]; simp), ht]
    simp only [Field.str]
    rw [readTags_names hn, C.ok_bind]
    dsimp only
    by_cases hf : a.filter = .other
    · rw [if_pos hf]
    · rw [if_neg hf, htr]
      rfl

/-- **C108**, publishing: what the broker is asked to publish has the topic, the quality of service and the flag of the entry. -/
theorem C108_publish {l l' : List Pub} {a : MqttConf.Arg} (h : addPub l a = .ok (some l')) : ∃ p topic qos, l' = l ++ [p] ∧ MqttConf.publish p = .publish topic qos (decide (a.retained = some true)) ∧ a.topic = .text topic ∧ Number 0 a.qos qos := by
  obtain ⟨p, rfl, hp⟩ := C108_pub h
  refine ⟨p, p.topic, p.qos, rfl, ?_, hp.topic, hp.qos⟩
  unfold MqttConf.publish
  congr 1
  have := hp.retained
  cases hr : p.retained <;> rw [hr] at this <;> simp at this <;> simp [this]

/-- **C108** fails: a topic, a name of a tag or a trigger that is neither text nor number is not refused but copied from NULL. -/
theorem C108_crash (ls : List Sub) (lp : List Pub) :
    (∃ w, addSub ls { topic := .other } = .ub w) ∧ (∃ w, addSub ls { topic := .text (nm "t"), tags := .list [.text (nm "A"), .other] } = .ub w) ∧
    (∃ w, addSub ls { topic := .text (nm "t"), tags := .list [.text (nm "A"), .nil, .text (nm "B")] } = .ub w) ∧
    (∃ w, addPub lp { topic := .text (nm "t"), tags := .text (nm "A"), triggerTag := .other } = .ub w) ∧
    ∃ w, addPub lp { topic := .text (nm "t"), tags := .text (nm "A"), triggerValue := .other } = .ub w := ⟨⟨_, rfl⟩, ⟨_, rfl⟩, ⟨_, rfl⟩, ⟨_, rfl⟩, ⟨_, rfl⟩⟩

/-- **C108** fails: a quality of service that does not exist is accepted, and 256 becomes 0. -/
theorem C108_qos : (addSub [] { topic := .text (nm "t"), qos := some 3 } = .ok (some [⟨nm "t", [], false, 3⟩])) ∧
    addSub [] { topic := .text (nm "t"), qos := some 256 } = .ok (some [⟨nm "t", [], false, 0⟩]) := ⟨rfl, rfl⟩

/-- **C108** fails: every subscription is asked for with quality of service 0, whatever its entry says. -/
theorem C108_sub_qos {l l' : List Sub} {a : MqttConf.Arg} {q : Int} (h : addSub l a = .ok (some l')) (hq : a.qos = some q) (h1 : 0 < q) (h2 : q < 256) :
    ∃ s topic qos, l' = l ++ [s] ∧ MqttConf.subscribe s = .subscribe topic qos ∧ (qos : Int) ≠ q := by
  obtain ⟨s, rfl, -⟩ := C108_sub h
  exact ⟨s, s.topic, 0, rfl, rfl, by omega⟩

/-- **C108** fails: the user and the password are never given to the broker. -/
theorem C108_login (a : Attrs) : ∃ address, MqttConf.connect a = .connect address a.client a.timeout none := ⟨_, rfl⟩

/-- **C108**, the address of the broker, if it has at most 63 characters.

Missing: longer ones, which are cut (`C108_address_cut`). -/
theorem C108_address_partial {a : Attrs} (h : a.ip.length + a.port.length ≤ 56) : ∃ login, MqttConf.connect a = .connect (nm "tcp://" ++ a.ip ++ nm ":" ++ a.port) a.client a.timeout login := by
  refine ⟨none, ?_⟩
  unfold MqttConf.connect
  rw [List.take_of_length_le]
  have e1 : (nm "tcp://").length = 6 := by decide
  have e2 : (nm ":").length = 1 := by decide
  simp only [List.length_append, e1, e2]
  omega

/-- **C108** fails: with a long name of the broker the port is cut. -/
theorem C108_address_cut : ∃ ip port, ip.length = 54 ∧ port = nm "1883" ∧ ∀ t c u w, MqttConf.connect ⟨ip, port, t, c, u, w⟩ = .connect (nm "tcp://" ++ ip ++ nm ":" ++ nm "18") c t none :=
  ⟨List.replicate 54 97#8, nm "1883", by decide, rfl, fun t c u w => by
    unfold MqttConf.connect
    congr 1⟩

/-- Instance of the hypotheses: a subscription of two tags with a filter, and a publication. -/
example : ∃ s p, MqttConf.addAll [] [] [.sub { topic := .text (nm "a/b"), tags := .list [.text (nm "X"), .text (nm "Y")], filter := .func, qos := some 1 },
    .pub { topic := .text (nm "c"), tags := .text (nm "Z"), retained := some true }] = .ok (some ([s], [p])) ∧ s.tags = [nm "X", nm "Y"] ∧ p.triggerTag = nm "Z" := ⟨_, _, rfl, rfl, rfl⟩

end Dax
