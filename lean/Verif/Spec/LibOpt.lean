import Verif.Model.LibOpt
set_option autoImplicit false

/-!
# What the configuration of a module should be

The command line is described by the occurrences of options it spells, the file by the globals it assigns.
-/

namespace Dax.LibOpt

/-- The attributes a module may have: the common ones and those that were added. -/
inductive Declared (w : World) : State → Prop
  | init {st : State} (modulename : Name) : initConfig w modulename = .ok st → Declared w st
  | add {st st' : State} (name longopt : Option Name) (letter : Byte) (flags : Nat) (defvalue : Option Name) : Declared w st →
      addAttribute st name longopt letter flags defvalue = .ok (st', 0) → Declared w st'

/-- An option that takes an argument. -/
def TakesArg (a : Attr) : Prop := a.flags.testBit 0 = true ∨ a.flags.testBit 1 = true
/-- An option of which the argument may be the next word. -/
def NeedsArg (a : Attr) : Prop := a.flags.testBit 0 = false ∧ a.flags.testBit 1 = true

/-- An attribute that has a letter on the command line. -/
def HasLetter (attrs : List Attr) (a : Attr) : Prop := a ∈ attrs ∧ a.flags.testBit 2 = true ∧ a.letter ≠ 0

/-- An attribute that has a long name on the command line, and that is found by it: either it has a letter, or all attributes have long
names of which no other differs from this one in case only. -/
def HasLong (attrs : List Attr) (a : Attr) (l : Name) : Prop :=
  a ∈ attrs ∧ a.flags.testBit 2 = true ∧ a.longopt = some l ∧ l ≠ [] ∧ (61 : Byte) ∉ l ∧
    (a.letter ≠ 0 ∨ ∀ b ∈ attrs, ∃ m, b.longopt = some m ∧ (m.map toLower = l.map toLower → b = a))

/-- The words of a command line, and the options it has, each with its argument. -/
inductive Spelled (attrs : List Attr) : List Name → List (Attr × Option Name) → Prop
  | nil : Spelled attrs [] []
  /-- After `--` there are no options. -/
  | stop (ws : List Name) : Spelled attrs ([45, 45] :: ws) []
  /-- A word that is no option. -/
  | word {ws : List Name} {os : List (Attr × Option Name)} (w : Name) : (w.head? ≠ some 45 ∨ w = [45]) → Spelled attrs ws os →
      Spelled attrs (w :: ws) os
  /-- `-abc` -/
  | letters {ws : List Name} {os : List (Attr × Option Name)} (fs : List Attr) : fs ≠ [] → (∀ f ∈ fs, HasLetter attrs f ∧ ¬ TakesArg f) →
      Spelled attrs ws os → Spelled attrs ((45 :: fs.map (·.letter)) :: ws) (fs.map (·, none) ++ os)
  /-- `-abcARG` -/
  | attached {ws : List Name} {os : List (Attr × Option Name)} (fs : List Attr) (a : Attr) (v : Name) : (∀ f ∈ fs, HasLetter attrs f ∧ ¬ TakesArg f) →
      HasLetter attrs a → TakesArg a → v ≠ [] → Spelled attrs ws os →
      Spelled attrs ((45 :: fs.map (·.letter) ++ a.letter :: v) :: ws) (fs.map (·, none) ++ (a, some v) :: os)
  /-- `-abc ARG` -/
  | apart {ws : List Name} {os : List (Attr × Option Name)} (fs : List Attr) (a : Attr) (v : Name) : (∀ f ∈ fs, HasLetter attrs f ∧ ¬ TakesArg f) →
      HasLetter attrs a → NeedsArg a → Spelled attrs ws os →
      Spelled attrs ((45 :: fs.map (·.letter) ++ [a.letter]) :: v :: ws) (fs.map (·, none) ++ (a, some v) :: os)
  /-- `--name` -/
  | long {ws : List Name} {os : List (Attr × Option Name)} (a : Attr) (l : Name) : HasLong attrs a l → ¬ TakesArg a → Spelled attrs ws os →
      Spelled attrs ((45 :: 45 :: l) :: ws) ((a, none) :: os)
  /-- `--name=ARG` -/
  | longAttached {ws : List Name} {os : List (Attr × Option Name)} (a : Attr) (l v : Name) : HasLong attrs a l → TakesArg a → Spelled attrs ws os →
      Spelled attrs ((45 :: 45 :: l ++ 61 :: v) :: ws) ((a, some v) :: os)
  /-- `--name ARG` -/
  | longApart {ws : List Name} {os : List (Attr × Option Name)} (a : Attr) (l v : Name) : HasLong attrs a l → NeedsArg a → Spelled attrs ws os →
      Spelled attrs ((45 :: 45 :: l) :: v :: ws) ((a, some v) :: os)

/-- Letters the library and `getopt` agree about. -/
def Plain (attrs : List Attr) : Prop := ∀ a ∈ attrs, a.letter = 0 ∨ isAlpha a.letter = true ∨ isDigit a.letter = true

/-- What an option says: its argument, or `Yes`. -/
def said (a : Attr) (v : Name) : Name := if a.flags.testBit 0 ∨ a.flags.testBit 1 then v else nm "Yes"

/-- The last occurrence of an attribute on the command line. -/
def onCommandline (os : List (Attr × Option Name)) (a : Attr) : Option Name :=
  (os.reverse.find? fun o => o.1 == a).map fun o => said a (o.2.getD [])

/-- The text of what a file assigns to a global. -/
def luaText : Lua → Option Name
  | .bool b => some (if b then nm "true" else nm "false")
  | .str s => some s
  | .other => none

/-- What the file assigns to an attribute. -/
def inFile (file : Option (Name → Option Lua)) (a : Attr) : Option Name :=
  (file.bind fun f => f a.name).bind luaText

/-- The value: command line, file, default. -/
def precedence (os : List (Attr × Option Name)) (file : Option (Name → Option Lua)) (a : Attr) : Option Name :=
  ((onCommandline os a).or (inFile file a)).or a.defvalue

/-- The file: `--config`, otherwise the directory `--confdir` or the default and the name `--name` or that of the module. -/
def fileFor (w : World) (st : State) (cmd : Name → Option Name) : Option (Name → Option Lua) :=
  let dir := (cmd (nm "confdir")).getD w.etc
  let name := (cmd (nm "name")).getD st.modulename
  w.files ((cmd (nm "config")).getD (dir ++ nm "/" ++ name ++ nm ".conf")) name dir

/-- What the command line says about an attribute, by its name. -/
def byName (attrs : List Attr) (os : List (Attr × Option Name)) (n : Name) : Option Name :=
  (attrs.find? fun a => a.name == n).bind (onCommandline os)

/-- Globals that are there before the file is run. -/
def Predefined (n : Name) : Prop := n = nm "calling_module" ∨ n = nm "configdir" ∨ n = nm "_VERSION"

end Dax.LibOpt
