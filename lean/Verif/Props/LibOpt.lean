import Verif.Lemmas.LibOpt
set_option autoImplicit false

/-! # C52: configuration of modules -/

namespace Dax
open Dax.LibOpt

/-- **C52**, the second half: no two attributes have the same name, the same long name or the same option letter (an attribute without letter counts
as one with letter 0). -/
theorem C52_unique {w : World} {st : State} (h : Declared w st) :
    st.attrs.Pairwise fun a b => a.name ≠ b.name ∧ a.letter ≠ b.letter ∧ ∀ l, a.longopt = some l → b.longopt ≠ some l := by
  have hg := declared_good h
  obtain ⟨h1, h2, h3, h4, -, -⟩ := hg
  generalize st.attrs = l at *
  induction h4 with
  | nil => exact .nil
  | @cons a l hx hnd ih =>
    refine .cons (fun b hb => ?_) (ih (fun x hx y hy => h1 x (by simp [hx]) y (by simp [hy])) (fun x hx y hy => h2 x (by simp [hx]) y (by simp [hy]))
      (fun x hx y hy => h3 x (by simp [hx]) y (by simp [hy])))
    have hne : a ≠ b := hx b hb
    exact ⟨fun e => hne (h1 a (by simp) b (by simp [hb]) e), fun e => hne (h2 a (by simp) b (by simp [hb]) e),
      fun l e e' => hne (h3 a (by simp) b (by simp [hb]) l e e')⟩

/-- … because what is already there is refused, without effect, and everything else with a good name is accepted. -/
theorem C52_refused {st : State} {n : Name} {longopt : Option Name} {letter : Byte} {flags : Nat} {d : Option Name} (hn : validName n = true)
    (hl : ∀ l, longopt = some l → validLong l = true) :
    ((∃ a ∈ st.attrs, a.name = n ∨ a.letter = letter ∨ ∃ l, longopt = some l ∧ a.longopt = some l) →
      addAttribute st (some n) longopt letter flags d = .ok (st, ERR_DUPL)) ∧
    ((∀ a ∈ st.attrs, a.name ≠ n ∧ a.letter ≠ letter ∧ ∀ l, longopt = some l → a.longopt ≠ some l) →
      addAttribute st (some n) longopt letter flags d = .ok ({ st with attrs := ⟨n, longopt, letter, flags, d, .null⟩ :: st.attrs }, 0)) := by
  have hlo : (longopt.any fun l => ! validLong l) = false := by
    cases longopt with
    | none => rfl
    | some l => simpa using hl l rfl
  unfold addAttribute
  dsimp only
  rw [hn, hlo]
  constructor
  · rintro ⟨a, ha, h⟩
    have : st.attrs.any (clash n longopt letter) = true := by
      rw [List.any_eq_true]
      refine ⟨a, ha, ?_⟩
      unfold clash
      rcases h with h | h | ⟨l, h1, h2⟩
      · simp [h]
      · simp [h]
      · simp [h1, h2]
    rw [this]
    rfl
  · intro h
    have : st.attrs.any (clash n longopt letter) = false := by
      rw [List.any_eq_false]
      intro a ha hc
      obtain ⟨h1, h2, h3⟩ := h a ha
      unfold clash at hc
      simp only [Bool.or_eq_true, Bool.and_eq_true, beq_iff_eq] at hc
      rcases hc with (hc | ⟨⟨hc, hc'⟩, hc''⟩) | hc
      · exact h1 hc
      · match longopt, hc with
        | some l, _ => exact h3 l rfl hc''
      · exact h2 hc
    rw [this]
    rfl

theorem lua_text (x : Lua) : x.text = luaText x := by
  rcases x with ⟨_ | _⟩ | _ | _ <;> rfl

/-- **C52**, the first half: whatever options a command line spells, in any of the ways of `getopt_long`, and whatever a configuration file assigns, the configuration
succeeds, the file is the one that was asked for, and every attribute has the value of the command line, otherwise that of the file, otherwise its default.

Missing, since they are false: `config` after a file was read (its value is freed, `C52_config_freed`); `confdir` in the file (ignored, `C52_confdir`); the value in the
file of an attribute without argument (`C52_false_is_yes`); attributes with the name of a global Lua has anyway (`C52_predefined`); an option with optional argument
and none given (a crash, not among the spellings: `C52_optional`), an option without letter (found by its long name only under the conditions of `HasLong`:
`C52_no_letter`, `C52_case`), unknown options (`C52_unknown`).  Attributes with `CFG_NO_VALUE` have no value by intention. -/
theorem C52_precedence_partial {w : World} {st : State} {argv : List Name} {os : List (Attr × Option Name)} {flags : Nat} (hd : Declared w st)
    (hs : Spelled st.attrs argv os) (hp : Plain st.attrs) :
    let os' := if flags.testBit 2 then os else []
    let file := if flags.testBit 4 then fileFor w st (byName st.attrs os') else none
    ∃ st' r, configure w st argv flags = .ok (st', r) ∧ st'.modulename = (byName st.attrs os' (nm "name")).getD st.modulename ∧
      (flags.testBit 4 = true → r = if file.isSome then 0 else ERR_NOTFOUND) ∧
      ∀ a ∈ st.attrs, a.flags.testBit 5 = false → (a.name = nm "config" → flags.testBit 4 = false ∨ onCommandline os' a = none) →
        (a.name = nm "confdir" → onCommandline os' a = none → inFile file a = none) → (inFile file a = none ∨ TakesArg a) →
        (Predefined a.name → file = none ∨ (inFile file a).isSome) →
        getAttr st' a.name = .ok (precedence os' file a) := by
  intro os' file
  have hg := declared_good hd
  have hcmd := commandPart_ok hg hs hp flags
  -- the attributes the library itself uses
  have mem : ∀ n c f d, (n, c, f, d) ∈ common w st.modulename → (⟨n, some n, c, f, d, .null⟩ : Attr) ∈ st.attrs := fun n c f d h => hg.common _ h
  have mdir := mem (nm "confdir") 75 0x06 (some w.etc) (by simp [common])
  have mcfg := mem (nm "config") 67 0x06 none (by simp [common])
  have mname := mem (nm "name") 78 0x16 (some st.modulename) (by simp [common])
  have mtime := mem (nm "msgtimeout") 79 0x16 (some (nm "1000")) (by simp [common])
  generalize hdir : (⟨nm "confdir", some (nm "confdir"), 75, 0x06, some w.etc, .null⟩ : Attr) = adir at mdir
  generalize hcfg : (⟨nm "config", some (nm "config"), 67, 0x06, none, .null⟩ : Attr) = acfg at mcfg
  generalize hname : (⟨nm "name", some (nm "name"), 78, 0x16, some st.modulename, .null⟩ : Attr) = aname at mname
  generalize htime : (⟨nm "msgtimeout", some (nm "msgtimeout"), 79, 0x16, some (nm "1000"), .null⟩ : Attr) = atime at mtime
  have ndir : adir.name = nm "confdir" := by rw [← hdir]
  have ncfg : acfg.name = nm "config" := by rw [← hcfg]
  have nname : aname.name = nm "name" := by rw [← hname]
  have ntime : atime.name = nm "msgtimeout" := by rw [← htime]
  have vdir : adir.noValue = false := by rw [← hdir]; exact (by decide : Nat.testBit 0x06 5 = false)
  have vcfg : acfg.noValue = false := by rw [← hcfg]; decide
  have vname : aname.noValue = false := by rw [← hname]; exact (by decide : Nat.testBit 0x16 5 = false)
  have tcfg : (acfg.optional || acfg.required) = true := by rw [← hcfg]; decide
  have ddir : adir.defvalue = some w.etc := by rw [← hdir]
  have by_ : ∀ {a : Attr}, a ∈ st.attrs → byName st.attrs os' a.name = onCommandline os' a := fun {a} ha => by
    unfold byName
    rw [find_name hg.name ha]
    rfl
  -- after the command line
  let f1 : Attr → Val := cmdVal os'
  -- after the default of `confdir`
  let f2 : Attr → Val := fun b => if b = adir ∧ f1 adir = .null then .heap w.etc else f1 b
  have h2 : confdirPart w (overlay f1 st.attrs) = .ok (overlay f2 st.attrs) := by
    unfold confdirPart
    rw [← ndir, getPtr_overlay hg.name f1 mdir]
    split
    · rename_i h
      rw [setAttrTo_ok h hg.name hg.nodup mdir, C.ok_bind]
      show C.ok _ = C.ok _
      congr 1
      exact overlay_congr fun b _ => by simp only [f2, h, and_true]
    · rename_i h
      congr 1
      exact overlay_congr fun b _ => by simp only [f2, h, and_false, if_false]
  have f2_ne : ∀ b, b ≠ adir → f2 b = f1 b := fun b hb => by simp only [f2, hb, false_and, if_false]
  have f2_dir : text (f2 adir) = .ok (some ((onCommandline os' adir).getD w.etc)) := by
    obtain ⟨c1, c2, -, -⟩ := cmdVal_text vdir os'
    by_cases h : f1 adir = .null
    · have : f2 adir = .heap w.etc := by simp only [f2, h, and_self, if_true]
      rw [this, c2.mp h]
      rfl
    · have : f2 adir = f1 adir := by simp only [f2, h, and_false, if_false]
      rw [this]
      show text (cmdVal os' adir) = _
      rw [c1]
      cases hc : onCommandline os' adir with
      | none => exact absurd (c2.mpr hc) h
      | some v => rfl
  have dir_ne : ∀ {a : Attr}, a.name ≠ nm "confdir" → a ≠ adir := fun h e => h (e ▸ ndir)
  have ename : text (getPtr (overlay f2 st.attrs) (nm "name")) = .ok (onCommandline os' aname) := by
    rw [← nname, getPtr_overlay hg.name f2 mname, f2_ne _ (dir_ne (by rw [nname]; decide))]
    exact (cmdVal_text vname os').1
  have ecfg : text (getPtr (overlay f2 st.attrs) (nm "config")) = .ok (onCommandline os' acfg) := by
    rw [← ncfg, getPtr_overlay hg.name f2 mcfg, f2_ne _ (dir_ne (by rw [ncfg]; decide))]
    exact (cmdVal_text vcfg os').1
  have edir : text (getPtr (overlay f2 st.attrs) (nm "confdir")) = .ok (some ((onCommandline os' adir).getD w.etc)) := by
    rw [← ndir, getPtr_overlay hg.name f2 mdir]
    exact f2_dir
  -- the file
  generalize hmn : (onCommandline os' aname).getD st.modulename = mn
  generalize hcd : (onCommandline os' adir).getD w.etc = cd at edir f2_dir
  have hfile : fileFor w st (byName st.attrs os') = w.files ((onCommandline os' acfg).getD (cd ++ nm "/" ++ mn ++ nm ".conf")) mn cd := by
    unfold fileFor
    dsimp only
    rw [← ndir, ← nname, ← ncfg, by_ mdir, by_ mname, by_ mcfg, hmn, hcd]
  -- values after the globals were read
  let f3 : Attr → Val := fun a => match file with
    | none => f2 a
    | some assigned => fromFile (globals w mn cd assigned) f2 a
  have f3_none : ∀ {a}, file = none → f3 a = f2 a := fun {a} h => by simp only [f3, h]
  have f3_some : ∀ {a} assigned, file = some assigned → f3 a = fromFile (globals w mn cd assigned) f2 a := fun {a} assigned h => by
    simp only [f3, h]
  have f3_set : ∀ a, f2 a ≠ .null → f3 a = f2 a := fun a h => by
    simp only [f3]
    cases file with
    | none => rfl
    | some assigned => exact fromFile_set h
  have cfg2 : f2 acfg = match onCommandline os' acfg with | none => .null | some v => .heap v := by
    rw [f2_ne _ (dir_ne (by rw [ncfg]; decide))]
    exact (cmdVal_text vcfg os').2.2.2 tcfg
  have cfg3 : ∀ v, onCommandline os' acfg = some v → f3 acfg = .heap v := fun v hv => by
    rw [hv] at cfg2
    dsimp only at cfg2
    rw [f3_set _ (by rw [cfg2]; simp), cfg2]
  let f4 : Attr → Val := fun a => if a = acfg ∧ flags.testBit 4 = true ∧ (onCommandline os' acfg).isSome then .freed else f3 a
  have h4 : ∃ r, filePart w flags ⟨overlay f2 st.attrs, mn⟩ = .ok (⟨overlay f4 st.attrs, mn⟩, r) ∧
      (flags.testBit 4 = true → r = if file.isSome then 0 else ERR_NOTFOUND) := by
    unfold filePart
    by_cases hm : flags.testBit 4 = true
    · rw [if_pos hm]
      unfold modConfigFile
      dsimp only
      rw [ecfg, C.ok_bind, edir, C.ok_bind]
      dsimp only
      have hfl : file = w.files ((onCommandline os' acfg).getD (cd ++ nm "/" ++ mn ++ nm ".conf")) mn cd := by
        show (if flags.testBit 4 then _ else _) = _
        rw [if_pos hm, hfile]
      have hfree : ∀ g : Attr → Val, (∀ v, onCommandline os' acfg = some v → g acfg = .heap v) → (∀ b, b ≠ acfg → g b = f3 b) →
          (onCommandline os' acfg = none → g acfg = f3 acfg) →
          freeFile (onCommandline os' acfg) (overlay g st.attrs) = .ok (overlay f4 st.attrs) := by
        intro g g1 g2 g3
        unfold freeFile
        cases hc : onCommandline os' acfg with
        | none =>
          rw [Option.isSome_none, if_neg (by decide)]
          congr 1
          refine overlay_congr fun b _ => ?_
          simp only [f4, hc, Option.isSome_none, Bool.false_eq_true, and_false, if_false]
          by_cases hb : b = acfg
          · rw [hb]; exact g3 hc
          · exact g2 b hb
        | some v =>
          rw [Option.isSome_some, if_pos rfl, freeConfig_ok ncfg (g1 v hc) hg.name hg.nodup mcfg]
          congr 1
          refine overlay_congr fun b _ => ?_
          by_cases hb : b = acfg
          · simp only [f4, hb, hm, hc, Option.isSome_some, and_self, if_true]
          · simp only [f4, hb, false_and, if_false]
            exact g2 b hb
      cases hff : w.files ((onCommandline os' acfg).getD (cd ++ nm "/" ++ mn ++ nm ".conf")) mn cd with
      | none =>
        have h3 : f3 = f2 := by
          funext a
          simp only [f3, hfl, hff]
        dsimp only
        rw [hfree f2 (fun v hv => by rw [cfg2, hv]) (fun b _ => by rw [h3]) (fun _ => by rw [h3]), C.ok_bind]
        exact ⟨_, rfl, fun _ => by rw [hfl, hff]; rfl⟩
      | some assigned =>
        dsimp only
        rw [luaGlobals_ok, C.ok_bind]
        have h3 : fromFile (globals w mn cd assigned) f2 = f3 := by
          funext a
          simp only [f3, hfl, hff]
        rw [h3, hfree f3 cfg3 (fun _ _ => rfl) (fun _ => rfl), C.ok_bind]
        exact ⟨_, rfl, fun _ => by rw [hfl, hff]; rfl⟩
    · rw [if_neg hm]
      refine ⟨w.result, ?_, fun h => absurd h hm⟩
      congr 3
      refine overlay_congr fun b _ => ?_
      have hfl : file = none := by
        show (if flags.testBit 4 then _ else _) = _
        rw [if_neg hm]
      simp only [f4, hm, false_and, and_false, if_false, f3, hfl]
      simp
  obtain ⟨r, e4, hr⟩ := h4
  let f5 : Attr → Val := withDefault f4
  have e5 : (overlay f4 st.attrs).map setDefault = overlay f5 st.attrs := setDefault_overlay f4 st.attrs
  -- the value of every attribute
  have val : ∀ a ∈ st.attrs, a.flags.testBit 5 = false → (a.name = nm "config" → flags.testBit 4 = false ∨ onCommandline os' a = none) →
        (a.name = nm "confdir" → onCommandline os' a = none → inFile file a = none) → (inFile file a = none ∨ TakesArg a) →
        (Predefined a.name → file = none ∨ (inFile file a).isSome) → text (f5 a) = .ok (precedence os' file a) := by
    intro a ha hv hc1 hc2 hc3 hc4
    obtain ⟨c1, c2, c3, -⟩ := cmdVal_text (a := a) hv os'
    have h4a : f4 a = f3 a := by
      simp only [f4]
      rw [if_neg]
      rintro ⟨rfl, h2, h3⟩
      rcases hc1 ncfg with h | h
      · rw [h] at h2; exact absurd h2 (by decide)
      · rw [h] at h3; exact absurd h3 (by decide)
    -- what the file says
    have hsay : ∀ assigned, file = some assigned → (globals w mn cd assigned a.name).text = inFile file a := by
      intro assigned hf
      have hin : inFile file a = (assigned a.name).bind luaText := by unfold inFile; rw [hf]; rfl
      unfold globals
      cases has : assigned a.name with
      | some v => dsimp only; rw [lua_text, hin, has]; rfl
      | none =>
        have hpre : ¬ Predefined a.name := fun h => by
          rcases hc4 h with h | h
          · rw [hf] at h; cases h
          · rw [hin, has] at h; cases h
        unfold Predefined at hpre
        simp only [not_or] at hpre
        dsimp only
        rw [if_neg hpre.1, if_neg hpre.2.1, if_neg hpre.2.2, hin, has]
        rfl
    show text (withDefault f4 a) = _
    unfold precedence
    cases hcl : onCommandline os' a with
    | some v =>
      have hn : cmdVal os' a ≠ .null := fun h => by rw [c2.mp h] at hcl; cases hcl
      have hf2 : f2 a = cmdVal os' a := by
        by_cases hd : a = adir
        · subst hd; simp only [f2, f1, hn, and_false, if_false]
        · exact f2_ne a hd
      have hf4 : f4 a = cmdVal os' a := by rw [h4a, f3_set a (by rw [hf2]; exact hn), hf2]
      rw [withDefault_set (by rw [hf4]; exact hn), hf4, c1, hcl]
      rfl
    | none =>
      have hn : cmdVal os' a = .null := c2.mpr hcl
      by_cases hd : a = adir
      · have hin := hc2 (hd ▸ ndir) hcl
        have hf2 : f2 a = .heap w.etc := by
          rw [hd] at hn ⊢
          simp only [f2, f1, hn, and_self, if_true]
        have hf4 : f4 a = .heap w.etc := by rw [h4a, f3_set a (by rw [hf2]; simp), hf2]
        rw [withDefault_set (by rw [hf4]; simp), hf4, hin, hd, ddir]
        rfl
      · have hf2 : f2 a = .null := (f2_ne a hd).trans hn
        cases hin : inFile file a with
        | none =>
          have hf4 : f4 a = .null := by
            rw [h4a]
            cases hfa : file with
            | none => rw [f3_none hfa, hf2]
            | some assigned => rw [f3_some assigned hfa, fromFile_none ((hsay assigned hfa).trans hin), hf2]
          exact withDefault_null hf4
        | some v =>
          have ht : TakesArg a := hc3.resolve_left (by rw [hin]; simp)
          have hf4 : f4 a = .heap v := by
            rw [h4a]
            cases hfa : file with
            | none =>
              rw [hfa] at hin
              cases hin
            | some assigned =>
              rw [f3_some assigned hfa, fromFile_some hf2 ((hsay assigned hfa).trans hin)]
              unfold newVal
              rw [show a.noValue = false from hv, (takes_iff a).mp ht]
              rfl
          rw [withDefault_set (by rw [hf4]; simp), hf4]
          rfl
  have htm : ∃ v, text (f5 atime) = .ok (some v) := by
    have hpre : ¬ Predefined atime.name := by rw [ntime]; unfold Predefined; decide
    have := val atime mtime (by rw [← htime]; decide) (fun h => by rw [ntime] at h; exact absurd h (by decide))
      (fun h => by rw [ntime] at h; exact absurd h (by decide)) (.inr (by rw [← htime]; exact .inr (by decide))) (fun h => absurd h hpre)
    rw [this]
    unfold precedence
    rw [show atime.defvalue = some (nm "1000") by rw [← htime]]
    cases (onCommandline os' atime).or (inFile file atime) with
    | none => exact ⟨_, rfl⟩
    | some v => exact ⟨v, rfl⟩
  obtain ⟨tv, htv⟩ := htm
  refine ⟨⟨overlay f5 st.attrs, mn⟩, r, ?_, ?_, hr, fun a ha h1 h2 h3 h4 h5 => ?_⟩
  · unfold configure
    rw [hcmd, C.ok_bind, h2, C.ok_bind, ename, C.ok_bind]
    dsimp only
    rw [hmn, e4, C.ok_bind]
    dsimp only
    rw [e5, ← ntime, getPtr_overlay hg.name f5 mtime, htv, C.ok_bind]
  · rw [← nname, by_ mname]; exact hmn.symm
  · rw [getAttr_overlay hg.name f5 mn ha]
    exact val a ha h1 h2 h3 h4 h5


/-! ## Witnesses -/

/-- One file, in the default place for module `m`. -/
def optWorld (file : Name → Option Lua) : World :=
  { etc := nm "/etc", version := nm "Lua 5.4", files := fun path _ _ => if path = nm "/etc/m.conf" ∨ path = nm "f" then some file else none }

/-- The common attributes. -/
def optState : State := match initConfig (optWorld fun _ => none) (nm "m") with | .ok st => st | .ub _ => {}

/-- … and others. -/
def withAttrs (l : List Attr) : State := { optState with attrs := l ++ optState.attrs }

/-- After `-C f` the value of `config` is freed memory (`src/lib/libopt.c:451,486`). -/
theorem C52_config_freed : (configure (optWorld fun _ => none) optState [nm "-C", nm "f"] 0x14 >>= fun x => getAttr x.1 (nm "config")) =
    .ub "freed memory" := by kernel_rfl

/-- The file cannot set `confdir`, which has its default before the file is read. -/
theorem C52_confdir : (configure (optWorld fun n => if n = nm "confdir" then some (.str (nm "/x")) else none) optState [] 0x14 >>=
    fun x => getAttr x.1 (nm "confdir")) = .ok (some (nm "/etc")) := by kernel_rfl

/-- `verbose = false` in the file means yes. -/
theorem C52_false_is_yes : (configure (optWorld fun n => if n = nm "verbose" then some (.bool false) else none) optState [] 0x14 >>=
    fun x => getAttr x.1 (nm "verbose")) = .ok (some (nm "Yes")) := by kernel_rfl

/-- An attribute `configdir` does not get its default, though neither command line nor file mention it. -/
theorem C52_predefined : ∃ st', addAttribute optState (some (nm "configdir")) none 100 0x16 (some (nm "d")) = .ok (st', 0) ∧
    (configure (optWorld fun _ => none) st' [] 0x14 >>= fun x => getAttr x.1 (nm "configdir")) = .ok (some (nm "/etc")) :=
  ⟨withAttrs [⟨nm "configdir", none, 100, 0x16, some (nm "d"), .null⟩], by kernel_rfl, by kernel_rfl⟩

/-- An option with optional argument that is given without: `strdup(NULL)`. -/
theorem C52_optional : ∃ st', addAttribute optState (some (nm "o")) none 111 0x05 (some (nm "d")) = .ok (st', 0) ∧
    configure (optWorld fun _ => none) st' [nm "-o"] 0x04 = .ub "strdup(NULL)" :=
  ⟨withAttrs [⟨nm "o", none, 111, 0x05, some (nm "d"), .null⟩], by kernel_rfl, by kernel_rfl⟩

/-- An option without letter is looked for by its long name; an attribute without long name is then a crash. -/
theorem C52_no_letter : ∃ st' st'', addAttribute optState (some (nm "aa")) (some (nm "aa")) 0 0x06 none = .ok (st', 0) ∧
    addAttribute st' (some (nm "b")) none 98 0x06 none = .ok (st'', 0) ∧
    configure (optWorld fun _ => none) st'' [nm "--aa=1"] 0x04 = .ub "strcasecmp with NULL" :=
  ⟨withAttrs [⟨nm "aa", some (nm "aa"), 0, 0x06, none, .null⟩],
   withAttrs [⟨nm "b", none, 98, 0x06, none, .null⟩, ⟨nm "aa", some (nm "aa"), 0, 0x06, none, .null⟩], by kernel_rfl, by kernel_rfl, by kernel_rfl⟩

/-- … and one whose long name differs in case is taken instead: `--aa=1` sets `b`. -/
theorem C52_case : ∃ st' st'', addAttribute optState (some (nm "aa")) (some (nm "aa")) 0 0x06 none = .ok (st', 0) ∧
    addAttribute st' (some (nm "b")) (some (nm "AA")) 98 0x06 none = .ok (st'', 0) ∧
    (configure (optWorld fun _ => none) st'' [nm "--aa=1"] 0x04 >>= fun x => do
      let a ← getAttr x.1 (nm "aa")
      let b ← getAttr x.1 (nm "b")
      .ok (a, b)) = .ok (none, some (nm "1")) :=
  ⟨withAttrs [⟨nm "aa", some (nm "aa"), 0, 0x06, none, .null⟩],
   withAttrs [⟨nm "b", some (nm "AA"), 98, 0x06, none, .null⟩, ⟨nm "aa", some (nm "aa"), 0, 0x06, none, .null⟩], by kernel_rfl, by kernel_rfl, by kernel_rfl⟩

/-- For an unknown option the library searches behind the end of its tables (`src/lib/libopt.c:296-298,306-335`: neither gets a terminator). -/
theorem C52_unknown : configure (optWorld fun _ => none) optState [nm "-x"] 0x04 = .ub "option string is not terminated" ∧
    configure (optWorld fun _ => none) optState [nm "--x"] 0x04 = .ub "option array is not terminated" := ⟨by kernel_rfl, by kernel_rfl⟩

/-- Two attributes without letter are not possible, since 0 counts as a letter. -/
theorem C52_second_without_letter : ∃ st', addAttribute optState (some (nm "aa")) (some (nm "aa")) 0 0x16 none = .ok (st', 0) ∧
    addAttribute st' (some (nm "b")) (some (nm "b")) 0 0x16 none = .ok (st', ERR_DUPL) :=
  ⟨withAttrs [⟨nm "aa", some (nm "aa"), 0, 0x16, none, .null⟩], by kernel_rfl, by kernel_rfl⟩

/-- Adding an attribute without name is a crash, not an error. -/
theorem C52_null_name : addAttribute optState none none 98 0x16 none = .ub "strcmp with NULL" := by kernel_rfl

/-- Instance of the hypotheses, and of all three sources: name from the command line, server from the file, port by default. -/
example : Declared (optWorld fun n => if n = nm "server" ∨ n = nm "name" then some (.str (nm "F")) else none) optState ∧
    Plain optState.attrs ∧ Spelled optState.attrs [nm "word", nm "-vN", nm "n"]
      [(⟨nm "verbose", some (nm "verbose"), 118, 0x04, none, .null⟩, none), (⟨nm "name", some (nm "name"), 78, 0x16, some (nm "m"), .null⟩, some (nm "n"))] ∧
    (configure { optWorld (fun n => if n = nm "server" ∨ n = nm "name" then some (.str (nm "F")) else none) with
        files := fun path _ _ => if path = nm "/etc/n.conf" then some (fun n => if n = nm "server" ∨ n = nm "name" then some (.str (nm "F")) else none) else none }
      optState [nm "word", nm "-vN", nm "n"] 0x14 >>= fun x => do
        let a ← getAttr x.1 (nm "name")
        let b ← getAttr x.1 (nm "server")
        let c ← getAttr x.1 (nm "serverport")
        .ok (a, b, c, x.1.modulename, x.2)) = .ok (some (nm "n"), some (nm "F"), some (nm "7777"), nm "n", 0) := by
  refine ⟨.init (nm "m") (by kernel_rfl), by unfold Plain; decide +kernel, ?_, by kernel_rfl⟩
  refine .word (nm "word") (.inl (by decide)) ?_
  refine .apart [⟨nm "verbose", some (nm "verbose"), 118, 0x04, none, .null⟩] ⟨nm "name", some (nm "name"), 78, 0x16, some (nm "m"), .null⟩ (nm "n") ?_
    ⟨by decide +kernel, by decide, by decide⟩ ⟨by decide, by decide⟩ .nil
  intro f hf
  rw [List.mem_singleton] at hf
  subst hf
  exact ⟨⟨by decide +kernel, by decide, by decide⟩, by unfold TakesArg; decide⟩

end Dax
