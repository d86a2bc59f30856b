import Verif.Spec.LibOpt
import Verif.Lemmas.Basic
import Verif.Lemmas.Tactic
set_option autoImplicit false

/-! Lemmas about the configuration of modules. -/

namespace Dax.LibOpt

/-- The attributes with other values. -/
def overlay (f : Attr → Val) (l : List Attr) : List Attr := l.map fun a => { a with value := f a }

/-- What `_set_attr` makes of a value. -/
def newVal (a : Attr) (v : Name) (old : Val) : Val :=
  if a.noValue then old else if a.optional || a.required then .heap v else .yes

def upd (f : Attr → Val) (o : Attr × Option Name) : Attr → Val := fun b => if b = o.1 then newVal b (o.2.getD []) (f b) else f b

/-- No two attributes share name, letter or long name; no values yet. -/
structure Good (w : World) (st : State) : Prop where
  name : ∀ a ∈ st.attrs, ∀ b ∈ st.attrs, a.name = b.name → a = b
  letter : ∀ a ∈ st.attrs, ∀ b ∈ st.attrs, a.letter = b.letter → a = b
  long : ∀ a ∈ st.attrs, ∀ b ∈ st.attrs, ∀ l, a.longopt = some l → b.longopt = some l → a = b
  nodup : st.attrs.Nodup
  null : ∀ a ∈ st.attrs, a.value = .null
  common : ∀ x ∈ common w st.modulename, (⟨x.1, some x.1, x.2.1, x.2.2.1, x.2.2.2, .null⟩ : Attr) ∈ st.attrs

theorem takes_iff (a : Attr) : TakesArg a ↔ (a.optional || a.required) = true := by
  unfold TakesArg Attr.optional Attr.required
  rw [Bool.or_eq_true]

theorem overlay_null {l : List Attr} (h : ∀ a ∈ l, a.value = .null) : overlay (fun _ => .null) l = l := by
  unfold overlay
  conv => rhs; rw [← List.map_id l]
  apply List.map_congr_left
  intro a ha
  have := h a ha
  cases a
  simp only at this
  subst this
  rfl

theorem overlay_congr {f g : Attr → Val} {l : List Attr} (h : ∀ a ∈ l, f a = g a) : overlay f l = overlay g l := by
  unfold overlay
  apply List.map_congr_left
  intro a ha
  rw [h a ha]

theorem setAttr_ok {a : Attr} {v : Option Name} {x : Val} (h : TakesArg a → v.isSome = true) :
    setAttr { a with value := x } v = .ok { a with value := newVal a (v.getD []) x } := by
  unfold setAttr newVal
  show (if a.noValue then _ else if a.optional || a.required then _ else _) = _
  split
  · rename_i hn; simp only [hn, if_true]
  · rename_i hn
    split
    · rename_i ht
      have := h ((takes_iff a).mpr ht)
      match v, this with
      | some v, _ => simp only [hn, ht, if_true]; rfl
    · rename_i ht
      simp only [hn, ht]

theorem setWhere_ok {f : Attr → Val} {v : Option Name} {a : Attr} {p : Attr → C Bool} (hv : TakesArg a → v.isSome = true) :
    ∀ {l : List Attr}, l.Nodup → a ∈ l → (∀ b ∈ l, p { b with value := f b } = .ok (decide (b = a))) →
      setWhere p v (overlay f l) = .ok (overlay (upd f (a, v)) l)
  | [], _, h, _ => by simp at h
  | b :: l, hnd, hm, hp => by
    have hb := hp b (by simp)
    have hnd' := List.nodup_cons.mp hnd
    show setWhere p v ({ b with value := f b } :: overlay f l) = _
    unfold setWhere
    rw [hb, C.ok_bind]
    by_cases h : b = a
    · subst h
      simp only [decide_true, if_true]
      rw [setAttr_ok hv, C.ok_bind]
      show C.ok (_ :: _) = C.ok (_ :: _)
      congr 2
      · simp [upd]
      · exact overlay_congr fun c hc => by
          have : c ≠ b := fun h => hnd'.1 (h ▸ hc)
          simp [upd, this]
    · simp only [h, decide_false]
      have ih := setWhere_ok (f := f) (v := v) (p := p) hv (l := l) hnd'.2 (by simpa [Ne.symm h] using hm) (fun c hc => hp c (by simp [hc]))
      rw [ih, C.ok_bind]
      show C.ok (_ :: _) = C.ok (_ :: _)
      congr 2
      simp [upd, h]

/-- A result of `getopt` that belongs to an occurrence. -/
def HitFor (attrs : List Attr) (h : Hit) (a : Attr) : Prop :=
  a ∈ attrs ∧ (TakesArg a → h.arg.isSome = true) ∧
    ((h.ch ≠ 0 ∧ h.ch = a.letter) ∨
      (h.ch = 0 ∧ ∀ b ∈ attrs, ∃ m, b.longopt = some m ∧ (m.map toLower = h.long.map toLower ↔ b = a)))

theorem applyHit_ok {attrs : List Attr} (hnd : attrs.Nodup) (hl : ∀ a ∈ attrs, ∀ b ∈ attrs, a.letter = b.letter → a = b) {h : Hit} {a : Attr}
    (hh : HitFor attrs h a) (f : Attr → Val) : applyHit h (overlay f attrs) = .ok (overlay (upd f (a, h.arg)) attrs) := by
  obtain ⟨hm, ht, hc⟩ := hh
  unfold applyHit
  rcases hc with ⟨h0, hch⟩ | ⟨h0, hlong⟩
  · rw [if_pos h0]
    refine setWhere_ok ht hnd hm fun b hb => ?_
    show C.ok (b.letter == h.ch) = _
    rw [hch]
    congr 1
    by_cases e : b = a
    · subst e; simp
    · have : b.letter ≠ a.letter := fun e' => e (hl b hb a hm e')
      simp [e, this]
  · rw [if_neg (by simp [h0])]
    refine setWhere_ok ht hnd hm fun b hb => ?_
    obtain ⟨m, k1, k2⟩ := hlong b hb
    show (match b.longopt with | none => _ | some l => _) = _
    rw [k1]
    dsimp only
    congr 1
    unfold strcaseeq
    by_cases e : b = a
    · simp [e, k2.mpr e]
    · have : ¬ m.map toLower = h.long.map toLower := fun x => e (k2.mp x)
      simp [e, this]

theorem applyAll_append (hs hs' : List Hit) (l : List Attr) : applyAll (hs ++ hs') l = applyAll hs l >>= applyAll hs' := by
  induction hs generalizing l with
  | nil => rfl
  | cons h hs ih =>
    show (applyHit h l >>= fun l => applyAll (hs ++ hs') l) = ((applyHit h l >>= fun l => applyAll hs l) >>= _)
    cases applyHit h l with
    | ub w => rfl
    | ok l' => exact ih l'

/-- A command line is read as the occurrences it spells. -/
def ReadAs (attrs : List Attr) (hs : List Hit) (os : List (Attr × Option Name)) : Prop :=
  ∀ f, applyAll hs (overlay f attrs) = .ok (overlay (os.foldl upd f) attrs)

theorem readAs_append {attrs : List Attr} {hs hs' : List Hit} {os os' : List (Attr × Option Name)} (h : ReadAs attrs hs os)
    (h' : ReadAs attrs hs' os') : ReadAs attrs (hs ++ hs') (os ++ os') := fun f => by
  rw [applyAll_append, h f, C.ok_bind, h' _, List.foldl_append]

theorem readAs_one {attrs : List Attr} (hnd : attrs.Nodup) (hl : ∀ a ∈ attrs, ∀ b ∈ attrs, a.letter = b.letter → a = b) {h : Hit} {a : Attr}
    (hh : HitFor attrs h a) : ReadAs attrs [h] [(a, h.arg)] := fun f => by
  show (applyHit h _ >>= fun l => applyAll [] l) = _
  rw [applyHit_ok hnd hl hh f]
  rfl

theorem kind_none {a : Attr} (h : ¬ TakesArg a) : a.kind = .none := by
  unfold TakesArg at h
  unfold Attr.kind Attr.optional Attr.required
  simp only [not_or, Bool.not_eq_true] at h
  rw [h.1, h.2]
  rfl

theorem kind_required {a : Attr} (h : NeedsArg a) : a.kind = .required := by
  unfold Attr.kind Attr.optional Attr.required
  rw [h.1, h.2]
  rfl

theorem kind_takes {a : Attr} (h : TakesArg a) : a.kind = .required ∨ a.kind = .optional := by
  unfold Attr.kind Attr.optional Attr.required
  unfold TakesArg at h
  cases h0 : a.flags.testBit 0
  · rw [h0] at h; simp only [Bool.false_eq_true, false_or] at h; simp [h]
  · simp

theorem needs_takes {a : Attr} (h : NeedsArg a) : TakesArg a := .inr h.2

theorem lookup_short {attrs : List Attr} (hl : ∀ a ∈ attrs, ∀ b ∈ attrs, a.letter = b.letter → a = b) {a : Attr} (ha : HasLetter attrs a) :
    (shortTable attrs).lookup a.letter = some a.kind := by
  obtain ⟨hm, hc, h0⟩ := ha
  unfold shortTable
  induction attrs with
  | nil => simp at hm
  | cons b l ih =>
    by_cases e : b = a
    · subst e
      have : (b.cmdline && b.letter != 0) = true := by
        unfold Attr.cmdline; rw [hc]; simpa using h0
      rw [List.filter_cons, if_pos this, List.map_cons, List.lookup_cons_self]
    · have hne : b.letter ≠ a.letter := fun x => e (hl b (by simp) a hm x)
      have hm' : a ∈ l := by simpa [Ne.symm e] using hm
      have := ih (fun x hx y hy => hl x (by simp [hx]) y (by simp [hy])) hm'
      rw [List.filter_cons]
      split
      · rw [List.map_cons, List.lookup_cons]
        have hbne : (a.letter == b.letter) = false := by simpa using Ne.symm hne
        rw [hbne]
        exact this
      · exact this

theorem find_long {attrs : List Attr} (hl : ∀ a ∈ attrs, ∀ b ∈ attrs, ∀ l, a.longopt = some l → b.longopt = some l → a = b) {a : Attr} {l : Name}
    (hm : a ∈ attrs) (hc : a.flags.testBit 2 = true) (hlo : a.longopt = some l) :
    (longTable attrs).find? (fun x => x.1 == l) = some (l, a.kind, a.letter) := by
  unfold longTable
  induction attrs with
  | nil => simp at hm
  | cons b t ih =>
    by_cases e : b = a
    · subst e
      have : b.cmdline = true := hc
      rw [List.filter_cons, if_pos this, List.filterMap_cons, hlo]
      simp
    · have hne : b.longopt ≠ some l := fun x => e (hl b (by simp) a hm l x hlo)
      have hm' : a ∈ t := by simpa [Ne.symm e] using hm
      have := ih (fun x hx y hy => hl x (by simp [hx]) y (by simp [hy])) hm'
      rw [List.filter_cons]
      split
      · rw [List.filterMap_cons]
        cases hb : b.longopt with
        | none => exact this
        | some m =>
          have : m ≠ l := fun x => hne (by rw [hb, x])
          simp only [Option.map_some]
          rw [List.find?_cons_of_neg (by simpa using this)]
          assumption
      · exact this

/-- The letters of options without argument at the beginning of a word. -/
theorem cluster_flags {attrs : List Attr} (hl : ∀ a ∈ attrs, ∀ b ∈ attrs, a.letter = b.letter → a = b) (cs : Name) (rest rest' : List Name)
    (hs : List Hit) (hcs : cluster (shortTable attrs) cs rest = .ok (hs, rest')) : ∀ (fs : List Attr), (∀ f ∈ fs, HasLetter attrs f ∧ ¬ TakesArg f) →
      cluster (shortTable attrs) (fs.map (·.letter) ++ cs) rest = .ok (fs.map (fun f => { ch := f.letter }) ++ hs, rest')
  | [], _ => hcs
  | f :: fs, h => by
    have ih := cluster_flags hl cs rest rest' hs hcs fs (fun g hg => h g (by simp [hg]))
    obtain ⟨h1, h2⟩ := h f (by simp)
    show cluster _ (f.letter :: (fs.map (·.letter) ++ cs)) rest = _
    unfold cluster
    rw [lookup_short hl h1, kind_none h2]
    dsimp only
    rw [ih, C.ok_bind]
    rfl

theorem readAs_flags {attrs : List Attr} (hnd : attrs.Nodup) (hl : ∀ a ∈ attrs, ∀ b ∈ attrs, a.letter = b.letter → a = b) :
    ∀ (fs : List Attr), (∀ f ∈ fs, HasLetter attrs f ∧ ¬ TakesArg f) → ReadAs attrs (fs.map fun f => { ch := f.letter }) (fs.map (·, none))
  | [], _ => fun f => rfl
  | f :: fs, h => by
    obtain ⟨h1, h2⟩ := h f (by simp)
    have := readAs_one (h := { ch := f.letter }) hnd hl ⟨h1.1, fun x => absurd x h2, .inl ⟨h1.2.2, rfl⟩⟩
    exact readAs_append this (readAs_flags hnd hl fs fun g hg => h g (by simp [hg]))

/-- A word of letters is no long option. -/
theorem getopt_short {attrs : List Attr} {c : Byte} {cs : Name} {ws : List Name} {fuel : Nat} (hc : c ≠ 45) :
    getopt (shortTable attrs) (longTable attrs) (fuel + 1) ((45 :: c :: cs) :: ws) = (do
      let (hs, rest) ← cluster (shortTable attrs) (c :: cs) ws
      let hs' ← getopt (shortTable attrs) (longTable attrs) fuel rest
      .ok (hs ++ hs')) := by
  conv => lhs; unfold getopt
  split
  · rename_i h; injection h with _ h; injection h with h _; exact absurd h hc
  · rename_i h; injection h with _ h; injection h with h _; exact absurd h hc
  · rename_i h1 h2; injection h2 with _ h2; injection h2 with h3 h4; subst h3 h4; rfl
  · rename_i h; exact absurd rfl (h c cs)

theorem getopt_long {attrs : List Attr} {l : Name} {ws : List Name} {fuel : Nat} (hl : l ≠ []) :
    getopt (shortTable attrs) (longTable attrs) (fuel + 1) ((45 :: 45 :: l) :: ws) = (do
      let (h, rest) ← longOption (longTable attrs) l ws
      let hs ← getopt (shortTable attrs) (longTable attrs) fuel rest
      .ok (h :: hs)) := by
  match l, hl with
  | c :: l, _ => rfl

theorem split_plain {l : Name} (h : (61 : Byte) ∉ l) : l.takeWhile (· ≠ 61) = l ∧ l.dropWhile (· ≠ 61) = [] := by
  induction l with
  | nil => exact ⟨rfl, rfl⟩
  | cons c l ih =>
    simp only [List.mem_cons, not_or] at h
    obtain ⟨i1, i2⟩ := ih h.2
    have : decide (c ≠ 61) = true := by simpa using Ne.symm h.1
    rw [List.takeWhile_cons, List.dropWhile_cons, this, if_pos rfl, if_pos rfl, i1, i2]
    exact ⟨rfl, rfl⟩

theorem split_eq {l v : Name} (h : (61 : Byte) ∉ l) :
    (l ++ 61 :: v).takeWhile (· ≠ 61) = l ∧ (l ++ 61 :: v).dropWhile (· ≠ 61) = 61 :: v := by
  induction l with
  | nil => exact ⟨rfl, rfl⟩
  | cons c l ih =>
    simp only [List.mem_cons, not_or] at h
    obtain ⟨i1, i2⟩ := ih h.2
    have : decide (c ≠ 61) = true := by simpa using Ne.symm h.1
    rw [List.cons_append, List.takeWhile_cons, List.dropWhile_cons, this, if_pos rfl, if_pos rfl, i1, i2]
    exact ⟨rfl, rfl⟩

theorem hitFor_long {attrs : List Attr} {a : Attr} {l : Name} (h : HasLong attrs a l) (v : Option Name) (hv : TakesArg a → v.isSome = true) :
    HitFor attrs { ch := a.letter, long := l, arg := v } a := by
  obtain ⟨hm, hc, hlo, -, -, hx⟩ := h
  refine ⟨hm, hv, ?_⟩
  by_cases h0 : a.letter = 0
  · refine .inr ⟨h0, fun b hb => ?_⟩
    obtain ⟨m, k1, k2⟩ := (hx.resolve_left (fun h => h h0)) b hb
    refine ⟨m, k1, k2, fun e => ?_⟩
    subst e
    rw [hlo] at k1
    injection k1 with k1
    rw [k1]
  · exact .inl ⟨h0, rfl⟩

theorem plain_ne {attrs : List Attr} (hp : Plain attrs) {a : Attr} (h : HasLetter attrs a) : a.letter ≠ 45 := by
  intro e
  rcases hp a h.1 with k | k | k
  · exact h.2.2 k
  · rw [e] at k; exact absurd k (by decide)
  · rw [e] at k; exact absurd k (by decide)

theorem getopt_ok {attrs : List Attr} (hnd : attrs.Nodup) (hl : ∀ a ∈ attrs, ∀ b ∈ attrs, a.letter = b.letter → a = b)
    (hlo : ∀ a ∈ attrs, ∀ b ∈ attrs, ∀ l, a.longopt = some l → b.longopt = some l → a = b) (hp : Plain attrs) {ws : List Name}
    {os : List (Attr × Option Name)} (hs : Spelled attrs ws os) :
    ∀ fuel, ws.length < fuel → ∃ hs, getopt (shortTable attrs) (longTable attrs) fuel ws = .ok hs ∧ ReadAs attrs hs os := by
  induction hs with
  | nil => intro fuel hf; obtain ⟨n, rfl⟩ : ∃ n, fuel = n + 1 := ⟨fuel - 1, by omega⟩; exact ⟨[], rfl, fun f => rfl⟩
  | stop ws => intro fuel hf; obtain ⟨n, rfl⟩ : ∃ n, fuel = n + 1 := ⟨fuel - 1, by omega⟩; exact ⟨[], rfl, fun f => rfl⟩
  | word w hw _ ih =>
    intro fuel hf
    obtain ⟨n, rfl⟩ : ∃ n, fuel = n + 1 := ⟨fuel - 1, by omega⟩
    obtain ⟨hs, e, r⟩ := ih n (by simp only [List.length_cons] at hf; omega)
    refine ⟨hs, ?_, r⟩
    rw [← e]
    conv => lhs; unfold getopt
    split
    · rcases hw with h | h
      · exact absurd rfl h
      · exact absurd h (by decide)
    · rcases hw with h | h
      · exact absurd rfl h
      · injection h with _ h; cases h
    · rcases hw with h | h
      · exact absurd rfl h
      · injection h with _ h; cases h
    · rfl
  | @letters ws' os' fs hne hfs _ ih =>
    intro fuel hf
    obtain ⟨n, rfl⟩ : ∃ n, fuel = n + 1 := ⟨fuel - 1, by omega⟩
    obtain ⟨hs, e, r⟩ := ih n (by simp only [List.length_cons] at hf; omega)
    match fs, hne with
    | f :: fs, _ =>
      have hc := cluster_flags hl [] ws' ws' [] rfl (f :: fs) hfs
      rw [List.append_nil, List.append_nil] at hc
      rw [List.map_cons] at hc ⊢
      rw [getopt_short (plain_ne hp (hfs f (by simp)).1), hc, C.ok_bind]
      dsimp only
      rw [e, C.ok_bind]
      exact ⟨_, rfl, readAs_append (readAs_flags hnd hl (f :: fs) hfs) r⟩
  | attached fs a v hfs ha ht hv _ ih =>
    intro fuel hf
    obtain ⟨n, rfl⟩ : ∃ n, fuel = n + 1 := ⟨fuel - 1, by omega⟩
    obtain ⟨hs, e, r⟩ := ih n (by simp only [List.length_cons] at hf; omega)
    rename_i ws' os' _
    have hone : cluster (shortTable attrs) (a.letter :: v) ws' = .ok ([{ ch := a.letter, arg := some v }], ws') := by
      unfold cluster
      rw [lookup_short hl ha]
      rcases kind_takes ht with k | k
      · rw [k]; dsimp only; rw [if_pos hv]
      · rw [k]; dsimp only; rw [if_neg hv]
    have hc := cluster_flags hl _ _ _ _ hone fs hfs
    have hr := readAs_append (readAs_flags hnd hl fs hfs)
      (readAs_append (readAs_one (h := { ch := a.letter, arg := some v }) hnd hl ⟨ha.1, fun _ => rfl, .inl ⟨ha.2.2, rfl⟩⟩) r)
    have hw : ∃ c cs, fs.map (·.letter) ++ a.letter :: v = c :: cs ∧ c ≠ 45 := by
      match fs, hfs with
      | [], _ => exact ⟨_, _, rfl, plain_ne hp ha⟩
      | f :: fs, hfs => exact ⟨_, _, rfl, plain_ne hp (hfs f (by simp)).1⟩
    obtain ⟨c, cs, hw, hc45⟩ := hw
    rw [hw] at hc
    rw [List.cons_append, hw]
    rw [getopt_short hc45, hc, C.ok_bind]
    dsimp only
    rw [e, C.ok_bind]
    refine ⟨_, rfl, ?_⟩
    rw [List.append_assoc]
    exact hr
  | apart fs a v hfs ha ht _ ih =>
    intro fuel hf
    obtain ⟨n, rfl⟩ : ∃ n, fuel = n + 1 := ⟨fuel - 1, by omega⟩
    obtain ⟨hs, e, r⟩ := ih n (by simp only [List.length_cons] at hf; omega)
    rename_i ws' os' _
    have hone : cluster (shortTable attrs) [a.letter] (v :: ws') = .ok ([{ ch := a.letter, arg := some v }], ws') := by
      unfold cluster
      rw [lookup_short hl ha, kind_required ht]
      rfl
    have hc := cluster_flags hl _ _ _ _ hone fs hfs
    have hr := readAs_append (readAs_flags hnd hl fs hfs)
      (readAs_append (readAs_one (h := { ch := a.letter, arg := some v }) hnd hl ⟨ha.1, fun _ => rfl, .inl ⟨ha.2.2, rfl⟩⟩) r)
    have hw : ∃ c cs, fs.map (·.letter) ++ [a.letter] = c :: cs ∧ c ≠ 45 := by
      match fs, hfs with
      | [], _ => exact ⟨_, _, rfl, plain_ne hp ha⟩
      | f :: fs, hfs => exact ⟨_, _, rfl, plain_ne hp (hfs f (by simp)).1⟩
    obtain ⟨c, cs, hw, hc45⟩ := hw
    rw [hw] at hc
    rw [List.cons_append, hw]
    rw [getopt_short hc45, hc, C.ok_bind]
    dsimp only
    rw [e, C.ok_bind]
    refine ⟨_, rfl, ?_⟩
    rw [List.append_assoc]
    exact hr
  | long a l h ht _ ih =>
    intro fuel hf
    obtain ⟨n, rfl⟩ : ∃ n, fuel = n + 1 := ⟨fuel - 1, by omega⟩
    obtain ⟨hs, e, r⟩ := ih n (by simp only [List.length_cons] at hf; omega)
    obtain ⟨s1, s2⟩ := split_plain h.2.2.2.2.1
    rw [getopt_long h.2.2.2.1]
    unfold longOption
    simp only [s1, s2]
    rw [find_long hlo h.1 h.2.1 h.2.2.1, kind_none ht]
    dsimp only [Option.isSome]
    rw [if_neg (by decide), C.ok_bind]
    dsimp only
    rw [e, C.ok_bind]
    exact ⟨_, rfl, readAs_append (readAs_one hnd hl (hitFor_long h none fun x => absurd x ht)) r⟩
  | longAttached a l v h ht _ ih =>
    intro fuel hf
    obtain ⟨n, rfl⟩ : ∃ n, fuel = n + 1 := ⟨fuel - 1, by omega⟩
    obtain ⟨hs, e, r⟩ := ih n (by simp only [List.length_cons] at hf; omega)
    obtain ⟨s1, s2⟩ := split_eq (v := v) h.2.2.2.2.1
    rw [show (45 : Byte) :: 45 :: l ++ 61 :: v = 45 :: 45 :: (l ++ 61 :: v) from rfl, getopt_long (by simp)]
    unfold longOption
    simp only [s1, s2]
    rw [find_long hlo h.1 h.2.1 h.2.2.1]
    refine ⟨{ ch := a.letter, long := l, arg := some v } :: hs, ?_, readAs_append (readAs_one hnd hl (hitFor_long h (some v) fun _ => rfl)) r⟩
    rcases kind_takes ht with k | k
    · rw [k]; dsimp only; rw [C.ok_bind]; dsimp only; rw [e, C.ok_bind]
    · rw [k]; dsimp only; rw [C.ok_bind]; dsimp only; rw [e, C.ok_bind]
  | longApart a l v h ht _ ih =>
    intro fuel hf
    obtain ⟨n, rfl⟩ : ∃ n, fuel = n + 1 := ⟨fuel - 1, by omega⟩
    obtain ⟨hs, e, r⟩ := ih n (by simp only [List.length_cons] at hf; omega)
    obtain ⟨s1, s2⟩ := split_plain h.2.2.2.2.1
    rw [getopt_long h.2.2.2.1]
    unfold longOption
    simp only [s1, s2]
    rw [find_long hlo h.1 h.2.1 h.2.2.1, kind_required ht]
    dsimp only
    rw [C.ok_bind]
    dsimp only
    rw [e, C.ok_bind]
    exact ⟨_, rfl, readAs_append (readAs_one hnd hl (hitFor_long h (some v) fun _ => rfl)) r⟩


/-! ## Declarations -/

theorem initConfig_eq (w : World) (m : Name) :
    initConfig w m = .ok ⟨((common w m).map fun x => (⟨x.1, some x.1, x.2.1, x.2.2.1, x.2.2.2, .null⟩ : Attr)).reverse, m⟩ := by kernel_rfl

theorem addAttribute_ok {st st' : State} {name longopt : Option Name} {letter : Byte} {flags : Nat} {d : Option Name}
    (h : addAttribute st name longopt letter flags d = .ok (st', 0)) :
    ∃ n, name = some n ∧ validName n = true ∧ (∀ a ∈ st.attrs, clash n longopt letter a = false) ∧
      st' = { st with attrs := ⟨n, longopt, letter, flags, d, .null⟩ :: st.attrs } := by
  unfold addAttribute at h
  match name with
  | none =>
    dsimp only at h
    split at h
    · injection h with h; injection h with _ h; exact absurd h (by decide)
    · split at h
      · injection h with h; injection h with _ h; exact absurd h (by decide)
      · cases h
  | some n =>
    dsimp only at h
    split at h
    · injection h with h; injection h with _ h; exact absurd h (by decide)
    · rename_i hv
      split at h
      · injection h with h; injection h with _ h; exact absurd h (by decide)
      · split at h
        · injection h with h; injection h with _ h; exact absurd h (by decide)
        · rename_i hc
          injection h with h; injection h with h _
          refine ⟨n, rfl, by simpa using hv, fun a ha => ?_, h.symm⟩
          simp only [List.any_eq_true, not_exists, not_and, Bool.not_eq_true] at hc
          exact hc a ha

theorem clash_false {n : Name} {longopt : Option Name} {c : Byte} {a : Attr} (h : clash n longopt c a = false) :
    a.name ≠ n ∧ (∀ l, longopt = some l → a.longopt ≠ some l) ∧ a.letter ≠ c := by
  unfold clash at h
  simp only [Bool.or_eq_false_iff, beq_eq_false_iff_ne, ne_eq] at h
  refine ⟨h.1.1, fun l hl hal => ?_, h.2⟩
  subst hl
  rw [hal] at h
  simp at h

theorem declared_good {w : World} {st : State} (h : Declared w st) : Good w st := by
  induction h with
  | init m h =>
    rw [initConfig_eq] at h
    injection h with h
    subst h
    have hp : ((common w m).map fun x => (⟨x.1, some x.1, x.2.1, x.2.2.1, x.2.2.2, .null⟩ : Attr)).reverse.Pairwise
        (fun a b => a.name ≠ b.name ∧ a.letter ≠ b.letter ∧ a.longopt ≠ b.longopt) := by
      have hk : ((common w m).map fun x => (x.1, x.2.1)).Pairwise (fun a b => a.1 ≠ b.1 ∧ a.2 ≠ b.2) :=
        (show [(nm "socketname", (85 : Byte)), (nm "serverip", 73), (nm "serverport", 80), (nm "server", 83), (nm "name", 78), (nm "cachesize", 90),
          (nm "msgtimeout", 79), (nm "config", 67), (nm "confdir", 75), (nm "logtopics", 84), (nm "verbose", 118)].Pairwise
          (fun a b => a.1 ≠ b.1 ∧ a.2 ≠ b.2) by decide +kernel)
      rw [List.pairwise_map] at hk
      rw [List.pairwise_reverse, List.pairwise_map]
      exact hk.imp fun {a b} h => ⟨h.1.symm, h.2.symm, fun e => h.1.symm (by injection e)⟩
    have hinj : ∀ {l : List Attr}, l.Pairwise (fun a b => a.name ≠ b.name ∧ a.letter ≠ b.letter ∧ a.longopt ≠ b.longopt) →
        ∀ a ∈ l, ∀ b ∈ l, (a.name = b.name ∨ a.letter = b.letter ∨ a.longopt = b.longopt) → a = b := by
      intro l hl
      induction hl with
      | nil => simp
      | @cons x l hx _ ih =>
        intro a ha b hb hab
        rcases List.mem_cons.mp ha with rfl | ha'
        · rcases List.mem_cons.mp hb with rfl | hb'
          · rfl
          · have := hx b hb'
            rcases hab with h | h | h
            · exact absurd h this.1
            · exact absurd h this.2.1
            · exact absurd h this.2.2
        · rcases List.mem_cons.mp hb with rfl | hb'
          · have := hx a ha'
            rcases hab with h | h | h
            · exact absurd h.symm this.1
            · exact absurd h.symm this.2.1
            · exact absurd h.symm this.2.2
          · exact ih a ha' b hb' hab
    refine ⟨fun a ha b hb h => hinj hp a ha b hb (.inl h), fun a ha b hb h => hinj hp a ha b hb (.inr (.inl h)),
      fun a ha b hb l h1 h2 => hinj hp a ha b hb (.inr (.inr (h1.trans h2.symm))), ?_, ?_, ?_⟩
    · exact hp.imp fun {a b} h e => h.1 (by rw [e])
    · intro a ha
      rw [List.mem_reverse, List.mem_map] at ha
      obtain ⟨x, _, rfl⟩ := ha
      rfl
    · intro x hx
      rw [List.mem_reverse, List.mem_map]
      exact ⟨x, hx, rfl⟩
  | @add st st' name longopt letter flags d _ h ih =>
    obtain ⟨n, rfl, hv, hc, rfl⟩ := addAttribute_ok h
    obtain ⟨i1, i2, i3, i4, i5, i6⟩ := ih
    refine ⟨?_, ?_, ?_, ?_, ?_, ?_⟩
    · intro a ha b hb hab
      rcases List.mem_cons.mp ha with rfl | ha'
      · rcases List.mem_cons.mp hb with rfl | hb'
        · rfl
        · exact absurd hab.symm (clash_false (hc b hb')).1
      · rcases List.mem_cons.mp hb with rfl | hb'
        · exact absurd hab (clash_false (hc a ha')).1
        · exact i1 a ha' b hb' hab
    · intro a ha b hb hab
      rcases List.mem_cons.mp ha with rfl | ha'
      · rcases List.mem_cons.mp hb with rfl | hb'
        · rfl
        · exact absurd hab.symm (clash_false (hc b hb')).2.2
      · rcases List.mem_cons.mp hb with rfl | hb'
        · exact absurd hab (clash_false (hc a ha')).2.2
        · exact i2 a ha' b hb' hab
    · intro a ha b hb l h1 h2
      rcases List.mem_cons.mp ha with rfl | ha'
      · rcases List.mem_cons.mp hb with rfl | hb'
        · rfl
        · exact absurd h2 ((clash_false (hc b hb')).2.1 l h1)
      · rcases List.mem_cons.mp hb with rfl | hb'
        · exact absurd h1 ((clash_false (hc a ha')).2.1 l h2)
        · exact i3 a ha' b hb' l h1 h2
    · exact List.nodup_cons.mpr ⟨fun hm => (clash_false (hc _ hm)).1 rfl, i4⟩
    · intro a ha
      rcases List.mem_cons.mp ha with rfl | ha'
      · rfl
      · exact i5 a ha'
    · intro x hx
      exact List.mem_cons_of_mem _ (i6 x hx)

/-! ## The steps of `dax_configure` -/

theorem find_name {l : List Attr} (hn : ∀ a ∈ l, ∀ b ∈ l, a.name = b.name → a = b) {a : Attr} (ha : a ∈ l) :
    l.find? (fun b => b.name == a.name) = some a := by
  cases h : l.find? (fun b => b.name == a.name) with
  | none =>
    rw [List.find?_eq_none] at h
    exact absurd (h a ha) (by simp)
  | some b =>
    have h1 := List.mem_of_find?_eq_some h
    have h2 := List.find?_some h
    rw [hn b h1 a ha (by simpa using h2)]

theorem getPtr_overlay {l : List Attr} (hn : ∀ a ∈ l, ∀ b ∈ l, a.name = b.name → a = b) (f : Attr → Val) {a : Attr} (ha : a ∈ l) :
    getPtr (overlay f l) a.name = f a := by
  unfold getPtr overlay
  rw [List.find?_map]
  have h := find_name hn ha
  have e : l.find? ((fun b : Attr => b.name == a.name) ∘ fun a : Attr => { a with value := f a }) = some a := h
  rw [e]
  rfl

theorem getAttr_overlay {l : List Attr} (hn : ∀ a ∈ l, ∀ b ∈ l, a.name = b.name → a = b) (f : Attr → Val) (m : Name) {a : Attr} (ha : a ∈ l) :
    getAttr ⟨overlay f l, m⟩ a.name = text (f a) := by
  unfold getAttr
  rw [getPtr_overlay hn f ha]

/-- Values after the command line. -/
def cmdVal (os : List (Attr × Option Name)) : Attr → Val := os.foldl upd fun _ => .null

theorem foldl_upd {a : Attr} (ha : a.noValue = false) (os : List (Attr × Option Name)) : ∀ (f : Attr → Val), (os.foldl upd f) a =
    match os.reverse.find? (fun o => o.1 == a) with
    | none => f a
    | some o => if a.optional || a.required then .heap (o.2.getD []) else .yes := by
  induction os with
  | nil => intro f; rfl
  | cons o os ih =>
    intro f
    rw [List.foldl_cons, ih, List.reverse_cons, List.find?_append]
    cases os.reverse.find? (fun o => o.1 == a) with
    | some x => rfl
    | none =>
      rw [Option.none_or]
      by_cases h : o.1 = a
      · rw [List.find?_cons_of_pos (by simpa using h)]
        unfold upd newVal
        rw [if_pos h.symm, ha]
        rfl
      · rw [List.find?_cons_of_neg (by simpa using h)]
        unfold upd
        rw [if_neg (fun e => h e.symm)]
        rfl

theorem said_heap {a : Attr} {v : Name} (h : (a.optional || a.required) = true) : said a v = v := by
  unfold said
  exact if_pos ((takes_iff a).mpr h)

theorem said_yes {a : Attr} {v : Name} (h : ¬ (a.optional || a.required) = true) : said a v = nm "Yes" := by
  unfold said
  exact if_neg (fun x => h ((takes_iff a).mp x))

/-- The value after the command line, for attributes with a value. -/
theorem cmdVal_text {a : Attr} (ha : a.noValue = false) (os : List (Attr × Option Name)) : text (cmdVal os a) = .ok (onCommandline os a) ∧
    (cmdVal os a = .null ↔ onCommandline os a = none) ∧ cmdVal os a ≠ .freed ∧
    ((a.optional || a.required) = true → cmdVal os a = match onCommandline os a with | none => .null | some v => .heap v) := by
  unfold cmdVal onCommandline
  rw [foldl_upd ha]
  cases os.reverse.find? (fun o => o.1 == a) with
  | none => exact ⟨rfl, ⟨fun _ => rfl, fun _ => rfl⟩, by simp, fun _ => rfl⟩
  | some o =>
    simp only [Option.map_some]
    by_cases h : (a.optional || a.required) = true
    · rw [if_pos h, said_heap h]
      exact ⟨rfl, ⟨nofun, nofun⟩, by simp, fun _ => rfl⟩
    · rw [if_neg h, said_yes h]
      exact ⟨rfl, ⟨nofun, nofun⟩, by simp, fun x => absurd x h⟩

theorem plain_special {attrs : List Attr} (hp : Plain attrs) : (attrs.any fun a => a.cmdline && special a.letter) = false := by
  rw [List.any_eq_false]
  intro a ha h
  rw [Bool.and_eq_true] at h
  have hs := h.2
  unfold special at hs
  simp only [Bool.or_eq_true, beq_iff_eq, decide_eq_true_eq] at hs
  rcases hp a ha with k | k | k
  · rw [k] at hs; revert hs; decide
  · unfold isAlpha at k
    simp only [Bool.or_eq_true, Bool.and_eq_true, decide_eq_true_eq] at k
    rcases hs with ((((h | h) | h) | h) | h)
    · rw [h] at k; revert k; decide
    · rw [h] at k; revert k; decide
    · rw [h] at k; revert k; decide
    · rw [h] at k; revert k; decide
    · omega
  · unfold isDigit at k
    simp only [Bool.and_eq_true, decide_eq_true_eq] at k
    rcases hs with ((((h | h) | h) | h) | h)
    · rw [h] at k; revert k; decide
    · rw [h] at k; revert k; decide
    · rw [h] at k; revert k; decide
    · rw [h] at k; revert k; decide
    · omega

theorem commandPart_ok {w : World} {st : State} (hg : Good w st) {argv : List Name} {os : List (Attr × Option Name)} (hs : Spelled st.attrs argv os)
    (hp : Plain st.attrs) (flags : Nat) :
    commandPart argv flags st.attrs = .ok (overlay (cmdVal (if flags.testBit 2 then os else [])) st.attrs) := by
  unfold commandPart
  split
  · unfold parseCommandline
    rw [plain_special hp]
    simp only [Bool.false_eq_true, if_false]
    obtain ⟨hs', e, r⟩ := getopt_ok hg.nodup hg.letter hg.long hp hs (argv.length + 1) (by omega)
    have := r fun _ => .null
    rw [overlay_null hg.null] at this
    rw [e, C.ok_bind, this]
    rfl
  · show C.ok _ = C.ok (overlay (fun _ => .null) _)
    rw [overlay_null hg.null]

theorem setAttrTo_ok {f : Attr → Val} {v : Name} {a : Attr} (hf : f a = .null) : ∀ {l : List Attr},
    (∀ a ∈ l, ∀ b ∈ l, a.name = b.name → a = b) → l.Nodup → a ∈ l →
    setAttrTo a.name (some v) (overlay f l) = .ok (overlay (fun b => if b = a then .heap v else f b) l, 0)
  | [], _, _, h => by simp at h
  | b :: l, hn, hnd, hm => by
    have hnd' := List.nodup_cons.mp hnd
    show setAttrTo a.name (some v) ({ b with value := f b } :: overlay f l) = _
    unfold setAttrTo
    by_cases h : b = a
    · subst h
      rw [if_pos (by simp)]
      dsimp only
      rw [hf, if_neg (by simp), if_neg (by simp)]
      show C.ok (_ :: _, _) = C.ok (_ :: _, _)
      congr 3
      · simp
      · exact overlay_congr fun c hc => by
          have : c ≠ b := fun h => hnd'.1 (h ▸ hc)
          simp [this]
    · have hne : b.name ≠ a.name := fun e => h (hn b (by simp) a hm e)
      rw [if_neg (by simpa using hne)]
      rw [setAttrTo_ok hf (fun x hx y hy => hn x (by simp [hx]) y (by simp [hy])) hnd'.2 (by simpa [Ne.symm h] using hm), C.ok_bind]
      show C.ok (_ :: _, _) = C.ok (_ :: _, _)
      congr 3
      simp [h]

/-- Values after the globals were read. -/
def fromFile (g : Name → Lua) (f : Attr → Val) : Attr → Val := fun a =>
  match (g a.name).text with | none => f a | some s => if f a = .null then newVal a s (f a) else f a

theorem fromFile_set {g : Name → Lua} {f : Attr → Val} {a : Attr} (h : f a ≠ .null) : fromFile g f a = f a := by
  unfold fromFile
  split
  · rfl
  · rw [if_neg h]

theorem fromFile_none {g : Name → Lua} {f : Attr → Val} {a : Attr} (h : (g a.name).text = none) : fromFile g f a = f a := by
  unfold fromFile
  rw [h]

theorem fromFile_some {g : Name → Lua} {f : Attr → Val} {a : Attr} {s : Name} (hf : f a = .null) (h : (g a.name).text = some s) :
    fromFile g f a = newVal a s .null := by
  unfold fromFile
  rw [h]
  dsimp only
  rw [if_pos hf, hf]

/-- Values after the defaults were set. -/
def withDefault (f : Attr → Val) : Attr → Val := fun a => match f a, a.defvalue with | .null, some d => .heap d | v, _ => v

theorem withDefault_set {f : Attr → Val} {a : Attr} (h : f a ≠ .null) : withDefault f a = f a := by
  unfold withDefault
  split
  · rename_i e _; exact absurd e h
  · rfl

theorem withDefault_null {f : Attr → Val} {a : Attr} (h : f a = .null) : text (withDefault f a) = .ok a.defvalue := by
  unfold withDefault
  rw [h]
  cases a.defvalue <;> rfl

theorem luaOne_ok (g : Name → Lua) (f : Attr → Val) (a : Attr) : luaOne g { a with value := f a } =
    .ok { a with value := fromFile g f a } := by
  unfold luaOne fromFile
  dsimp only
  cases (g a.name).text with
  | none => rfl
  | some s =>
    dsimp only
    split
    · exact setAttr_ok (v := some s) fun _ => rfl
    · rfl

theorem luaGlobals_ok (g : Name → Lua) (f : Attr → Val) : ∀ (l : List Attr), luaGlobals g (overlay f l) =
    .ok (overlay (fromFile g f) l)
  | [] => rfl
  | a :: l => by
    show luaGlobals g ({ a with value := f a } :: overlay f l) = _
    unfold luaGlobals
    rw [luaOne_ok, C.ok_bind, luaGlobals_ok g f l, C.ok_bind]
    rfl

theorem freeConfig_ok {f : Attr → Val} {v : Name} {a : Attr} (hname : a.name = nm "config") (hf : f a = .heap v) : ∀ {l : List Attr},
    (∀ a ∈ l, ∀ b ∈ l, a.name = b.name → a = b) → l.Nodup → a ∈ l →
    freeConfig (overlay f l) = .ok (overlay (fun b => if b = a then .freed else f b) l)
  | [], _, _, h => by simp at h
  | b :: l, hn, hnd, hm => by
    have hnd' := List.nodup_cons.mp hnd
    show freeConfig ({ b with value := f b } :: overlay f l) = _
    unfold freeConfig
    by_cases h : b = a
    · subst h
      rw [if_pos (by simp [hname])]
      dsimp only
      rw [hf]
      show C.ok (_ :: _) = C.ok (_ :: _)
      congr 2
      · simp
      · exact overlay_congr fun c hc => by
          have : c ≠ b := fun h => hnd'.1 (h ▸ hc)
          simp [this]
    · have hne : b.name ≠ nm "config" := fun e => h (hn b (by simp) a hm (e.trans hname.symm))
      rw [if_neg (by simpa using hne)]
      rw [freeConfig_ok hname hf (fun x hx y hy => hn x (by simp [hx]) y (by simp [hy])) hnd'.2 (by simpa [Ne.symm h] using hm), C.ok_bind]
      show C.ok (_ :: _) = C.ok (_ :: _)
      congr 2
      simp [h]

theorem setDefault_overlay (f : Attr → Val) (l : List Attr) : (overlay f l).map setDefault =
    overlay (withDefault f) l := by
  unfold overlay withDefault
  rw [List.map_map]
  apply List.map_congr_left
  intro a _
  show setDefault { a with value := f a } = _
  unfold setDefault
  dsimp only
  cases f a <;> cases a.defvalue <;> rfl

end Dax.LibOpt
