import Verif.Spec.Conv
import Verif.Spec.LibData
import Verif.Spec.Data
/-!
# What the command-line client is expected to do

Written without the definitions of `Model/Daxc.lean`.
-/
set_option autoImplicit false
namespace Dax.Daxc

/-- The text after an opening quotation mark up to the mark that closes it: every mark in it has a backslash before it, and there is none at the end. -/
def Body (b : Name) : Prop :=
  (∀ k, b[k]? = some 34#8 → 0 < k ∧ b[k - 1]? = some 92#8) ∧ b.getLast? ≠ some 92#8

/-- A word: no space but between quotation marks. -/
inductive Word : Name → Prop where
  | nil : Word []
  | char {c : Byte} {t : Name} (hs : c ≠ 32#8) (hq : c ≠ 34#8) (ht : Word t) : Word (c :: t)
  | quoted {b t : Name} (hb : Body b) (ht : Word t) : Word (34#8 :: (b ++ 34#8 :: t))

/-- Words with one space between them. -/
def line : List Name → Name
  | [] => []
  | [w] => w
  | w :: ws => w ++ 32#8 :: line ws

/-- The lines of a text file, each with a newline after it. -/
def fileOf : List Name → Name
  | [] => []
  | l :: ls => l ++ 10#8 :: fileOf ls

/-- A line of a command file: no newline or zero in it, not empty, and short enough for the buffer of 256 characters with newline and zero. -/
def FileLine (l : Name) : Prop := l ≠ [] ∧ l.length + 2 ≤ 256 ∧ 10#8 ∉ l ∧ 0#8 ∉ l

/-- A value for an item of an integer type: the word that leaves the item as it is, or a number in decimal.  Not for the cases in which the conversion of numbers fails (C51), for a `CHAR` given as
a character, and for a negative number given for an unsigned type of 64 bits. -/
def Given (ty : Nat) (w : Name) : Prop :=
  w = nm "~" ∨ ∃ v, Conv.IsDec w v ∧ (ty = DAX_WORD ∨ ty = DAX_UINT → -9223372036854775808 ≤ v ∧ v < 9223372036854775808) ∧
    (ty = DAX_LWORD ∨ ty = DAX_ULINT → w.head? ≠ some 45#8) ∧ (ty = DAX_CHAR → w.length ≠ 1)

/-- Item `k` of `n` bytes, counted from byte `p` of tag `i`, holds the number. -/
def ItemIs (M : Mem) (i p n k : Nat) (x : Int) : Prop :=
  (leNat ((List.range n).map fun j => M i (p + n * k + j)) : Int) = x % (256 ^ n : Nat)

/-- Item `k` is the same in both. -/
def ItemSame (M M' : Mem) (i p n k : Nat) : Prop := ∀ j < n, M' i (p + n * k + j) = M i (p + n * k + j)

/-- The live ones among the `n` tags from `a` on, in order. -/
def liveIn (live : Nat → Bool) (a n : Nat) : List Nat := (List.range' a n).filter live

end Dax.Daxc
