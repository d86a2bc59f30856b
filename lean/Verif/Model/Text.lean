import Verif.Model.Basic
/-!
# C library text functions used by the code: `strtok_r`, `strtol`, `atoi`, `%d`
-/
namespace Dax

/-- Pieces of a string between occurrences of a delimiter, possibly empty. -/
def splitOn (d : Byte) : Name → List Name
  | [] => [[]]
  | c :: cs =>
    if c = d then [] :: splitOn d cs
    else match splitOn d cs with
      | [] => [[c]]
      | p :: ps => (c :: p) :: ps

/-- The tokens that successive `strtok_r` calls with a one-character delimiter set return. -/
def tokens (d : Byte) (s : Name) : List Name := (splitOn d s).filter (fun p => !p.isEmpty)

/-- `isspace` in the C locale. -/
def isSpace (b : Byte) : Bool := b.toNat = 32 || (9 ≤ b.toNat && b.toNat ≤ 13)

/-- Value of a digit character, for bases up to 16. -/
def digitVal (b : Byte) : Nat :=
  if 48 ≤ b.toNat ∧ b.toNat ≤ 57 then b.toNat - 48
  else if 97 ≤ b.toNat ∧ b.toNat ≤ 102 then b.toNat - 87
  else if 65 ≤ b.toNat ∧ b.toNat ≤ 70 then b.toNat - 55
  else 99

/-- Accumulate leading digits. -/
def digitsVal (base : Nat) : Nat → Name → Nat
  | acc, [] => acc
  | acc, c :: cs => if digitVal c < base then digitsVal base (acc * base + digitVal c) cs else acc

/-- Split off a sign. -/
def takeSign : Name → Bool × Name
  | 45#8 :: cs => (true, cs)
  | 43#8 :: cs => (false, cs)
  | cs => (false, cs)

/-- Base selection of `strtol(…, 0)`: `0x` followed by a hex digit, leading `0`, else decimal. -/
def takeBase : Name → Nat × Name
  | 48#8 :: x :: d :: cs =>
    if (x.toNat = 120 ∨ x.toNat = 88) ∧ digitVal d < 16 then (16, d :: cs) else (8, x :: d :: cs)
  | 48#8 :: cs => (8, cs)
  | cs => (10, cs)

/-- Saturation to `long`. -/
def clampLong (v : Int) : Int :=
  if v > 9223372036854775807 then 9223372036854775807
  else if v < -9223372036854775808 then -9223372036854775808
  else v

/-- `strtol(s, NULL, 0)`. -/
def strtol0 (s : Name) : Int :=
  let s := s.dropWhile isSpace
  let (neg, s) := takeSign s
  let (base, s) := takeBase s
  let v := digitsVal base 0 s
  clampLong (if neg then -(v : Int) else v)

/-- `atoi`, i.e. `(int)strtol(s, NULL, 10)` as glibc implements it. -/
def atoi (s : Name) : Int :=
  let s := s.dropWhile isSpace
  let (neg, s) := takeSign s
  let v := digitsVal 10 0 s
  i32 (clampLong (if neg then -(v : Int) else v))

/-- Decimal digits of a natural number; `fuel` bounds the number of digits. -/
def decNatF : Nat → Nat → Name
  | 0, _ => []
  | fuel + 1, n =>
    if n < 10 then [BitVec.ofNat 8 (48 + n)]
    else decNatF fuel (n / 10) ++ [BitVec.ofNat 8 (48 + n % 10)]

/-- Decimal digits of a natural number. -/
def decNat (n : Nat) : Name := decNatF (n + 1) n

/-- `printf("%d")`. -/
def decInt (v : Int) : Name := if v < 0 then 45#8 :: decNat v.natAbs else decNat v.natAbs

def COLON : Byte := 58
def COMMA : Byte := 44

end Dax
