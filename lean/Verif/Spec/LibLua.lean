import Verif.Model.LibLua
import Verif.Spec.LibPath
import Verif.Spec.LibData
import Verif.Spec.Events
/-!
# Specification: tags as Lua values

A tag of `n` elements of a type, read as a Lua value: arrays are tables with the indices 1 to `n`, elements of compound type are tables with the names of the members.
The way from the value of the tag down to one element is a list of keys; the same list says where the element is in the bytes of the tag.
-/
set_option autoImplicit false
namespace Dax.Lua
open LibPath LibData

/-- What a value has at a key: nil if it is no table. -/
def field : Val → Key → Val
  | .tbl l, k => get l k
  | _, _ => .nil

/-- What is found going down a list of keys. -/
def valAt (v : Val) (ks : List Key) : Val := ks.foldl field v

/-- In `n` elements of type `t`, the keys lead to `k` items of base type `ty`, `off` bits behind the beginning: to one element, or to all elements of an array. -/
inductive At (tbl : List Cdt) : Nat → Nat → List Key → Nat → Nat → Nat → Prop
  | one (t : Nat) : ¬ Compound t → At tbl t 1 [] t 1 0
  | all (t n : Nat) : ¬ Compound t → 1 < n → At tbl t n [] t n 0
  | elem (t n i e : Nat) (ks : List Key) (ty k off : Nat) : 1 < n → i < n → ElemBits tbl t e → At tbl t 1 ks ty k off →
      At tbl t n (.int (i + 1) :: ks) ty k (e * i + off)
  | member (t : Nat) (d : Cdt) (name : Name) (m : Member) (r : Nat) (ks : List Key) (ty k off : Nat) : Compound t →
      tbl[t - 2147483648]? = some d → Before tbl d.members 0 name m r → At tbl m.type m.count ks ty k off →
      At tbl t 1 (.str name :: ks) ty k (place m r + off)

/-- The double with bits `d` is the integer `x`. -/
def IsDbl (d : BitVec 64) (x : Int) : Prop :=
  let ex := d.toNat / 2 ^ 52 % 2048
  let m := d.toNat % 2 ^ 52 + (if ex = 0 then 0 else 2 ^ 52)
  ex ≠ 2047 ∧ m * 2 ^ (max ex 1) = x.natAbs * 2 ^ 1075 ∧ (if d.toNat / 2 ^ 63 = 1 then x ≤ 0 else 0 ≤ x)

/-- A Lua number equal to the integer `x`. -/
def IsNum (v : Val) (x : Int) : Prop := v = .int x ∨ ∃ d, v = .num d ∧ IsDbl d x

/-- A Lua number equal to the double `d`. -/
def IsReal (v : Val) (d : BitVec 64) : Prop := v = .num d ∨ ∃ x : Int, x.natAbs < 2 ^ 53 ∧ v = .int x ∧ IsDbl d x

/-- The exponent of a float, as it is stored. -/
def sglExp (b : Nat) : Nat := b / 2 ^ 23 % 256

/-- `x` is the integer part of the float with bits `b`. -/
def IntPart (b : Nat) (x : Int) : Prop :=
  let ex := sglExp b
  let m := b % 2 ^ 23 + (if ex = 0 then 0 else 2 ^ 23)
  x.natAbs * 2 ^ 150 ≤ m * 2 ^ (max ex 1) ∧ m * 2 ^ (max ex 1) < (x.natAbs + 1) * 2 ^ 150 ∧ (if b / 2 ^ 31 = 1 then x ≤ 0 else 0 ≤ x)

/-- The keys end with an index. -/
def indexed (ks : List Key) : Prop := ∃ i, ks.getLast? = some (.int i)

/-- `v` is the value of `k` items of type `ty` at bit `p` of the data; `idx` says that it is an element of an array.
A BOOL is a boolean, integers are numbers equal to them (64-bit integers without sign only below 2^53), TIME likewise, LREALs are the same double, REALs lose their fraction (claimed below 2^53);
an array of CHAR is a string up to the first zero, and has no elements. -/
structure Comes (data : List Byte) (ty k p : Nat) (idx : Prop) (v : Val) : Prop where
  bool : ty = DAX_BOOL → k = 1 → v = .bool (bitAt data p)
  int : ∀ w sg, (ty, w, sg) ∈ intTypes → k = 1 → (ty = DAX_CHAR → ¬ idx) → (w = 8 ∧ sg = false → unsignedVal (slice data (p / 8) w) < 2 ^ 53) →
    IsNum v (intVal sg (slice data (p / 8) w))
  time : ty = DAX_TIME → k = 1 → IsNum v (signedVal (slice data (p / 8) 8))
  lreal : ty = DAX_LREAL → k = 1 → v = .num (BitVec.ofNat 64 (unsignedVal (slice data (p / 8) 8)))
  real : ty = DAX_REAL → k = 1 → sglExp (unsignedVal (slice data (p / 8) 4)) < 180 → ∃ x, IsNum v x ∧ IntPart (unsignedVal (slice data (p / 8) 4)) x
  text : ty = DAX_CHAR → 1 < k → v = .str ((slice data (p / 8) k).takeWhile (· ≠ 0))

/-- Bits of one item of a base type. -/
def Width (ty e : Nat) : Prop := (ty = DAX_BOOL ∧ e = 1) ∨ ∃ w, (ty, w) ∈ elemBytes ∧ e = 8 * w

/-- A value that an element of base type can take: anything but nil for BOOL, a number in the range for an integer (and less than 2^53 away from 0), any number for REAL and LREAL.  Nothing for TIME. -/
def Suits (ty : Nat) (v : Val) : Prop :=
  (ty = DAX_BOOL ∧ v ≠ .nil) ∨
  (∃ w sg x, (ty, w, sg) ∈ intTypes ∧ IsNum v x ∧ x.natAbs < 2 ^ 53 ∧
    (if sg then -(256 ^ w : Nat) ≤ 2 * x ∧ 2 * x < (256 ^ w : Nat) else 0 ≤ x ∧ x < (256 ^ w : Nat))) ∨
  ((ty = DAX_REAL ∨ ty = DAX_LREAL) ∧ ∃ d, IsReal v d)

/-- A value that `n` elements of type `t` can take.  Elements of arrays, and members, can be left out (nil), but not arrays of compound type.
Arrays are given as tables (a string for an array is not meant here). -/
inductive Shaped (tbl : List Cdt) : Nat → Nat → Val → Prop
  | base (t : Nat) (v : Val) : ¬ Compound t → Suits t v → Shaped tbl t 1 v
  | arr (t n : Nat) (l : List (Key × Val)) : 1 < n → (∀ i : Nat, i < n → get l (.int (i + 1)) ≠ .nil → Shaped tbl t 1 (get l (.int (i + 1)))) →
      Shaped tbl t n (.tbl l)
  | struct (t : Nat) (d : Cdt) (l : List (Key × Val)) : Compound t → tbl[t - 2147483648]? = some d →
      (∀ m ∈ d.members, get l (.str m.name) = .nil → Compound m.type → m.count = 1) →
      (∀ m ∈ d.members, get l (.str m.name) ≠ .nil → Shaped tbl m.type m.count (get l (.str m.name))) → Shaped tbl t 1 (.tbl l)

/-- A bit of the data or of the mask is not what it was. -/
def Changed (data mask data' mask' : List Byte) (b : Nat) : Prop := bitAt data' b ≠ bitAt data b ∨ bitAt mask' b ≠ bitAt mask b

/-- What becomes of the item of type `ty` at bit `p` when `v` is written to it: nothing if it is nil, and otherwise its bits are in the mask and it has the value of `v`. -/
structure Goes (env : LuaEnv) (ty p : Nat) (v : Val) (data mask data' mask' : List Byte) : Prop where
  kept : v = .nil → ∀ e, Width ty e → ∀ b, p ≤ b → b < p + e → ¬ Changed data mask data' mask' b
  masked : v ≠ .nil → ∀ e, Width ty e → ∀ b, p ≤ b → b < p + e → bitAt mask' b = true
  bool : v ≠ .nil → ty = DAX_BOOL → (bitAt data' p = false ↔ v = .bool false)
  int : ∀ w sg x, (ty, w, sg) ∈ intTypes → IsNum v x → intVal sg (slice data' (p / 8) w) = x
  lreal : v ≠ .nil → ty = DAX_LREAL → ∃ d, IsReal v d ∧ unsignedVal (slice data' (p / 8) 8) = d.toNat
  real : v ≠ .nil → ty = DAX_REAL → ∃ d, IsReal v d ∧ unsignedVal (slice data' (p / 8) 4) = (env.toSingle d).toNat

end Dax.Lua
