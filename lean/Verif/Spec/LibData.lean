import Verif.Model.LibData
import Verif.Spec.Data
/-!
# Specification: transfers that are broken up
-/
set_option autoImplicit false
namespace Dax.LibData

/-- A log of requests that transfer the `n` bytes from position `p` on, one piece after the other: each piece has
at most `lim` bytes and consists of whole elements of `unit` bytes, and begins where the one before ended.  `mk p k` is the
request for `k` bytes at position `p`.  Up to the last, all were answered with success; with the
result 0 all bytes have been transferred, otherwise the last request was answered with the error that is the result. -/
inductive Split (mk : Nat → Nat → Req) (lim unit : Nat) : Nat → Nat → Log → Int → Prop
  | done (p : Nat) : Split mk lim unit p 0 [] 0
  | step (p n k : Nat) (r : List Byte) (log : Log) (code : Int) : 0 < k → k ≤ lim → k ≤ n → unit ∣ k →
      Split mk lim unit (p + k) (n - k) log code → Split mk lim unit p n ((mk p k, .resp r) :: log) code
  | stop (p n k : Nat) (e : Int) : 0 < k → k ≤ lim → k ≤ n → unit ∣ k → e ≠ 0 →
      Split mk lim unit p n [(mk p k, .err e)] e

/-- The data in the answers. -/
def answers : Log → List Byte
  | [] => []
  | (_, .resp d) :: l => d ++ answers l
  | _ :: l => answers l

/-- The requests of the log, made one after the other on connection `fd`, lead from `s` to `s'` and are
answered as it says. -/
def Happened (s : Server) (fd : Int) (l : Log) (s' : Server) : Prop :=
  runR s (l.map fun x => (fd, x.1)) = .ok (s', l.map (·.2))

/-- `k` bytes of a block from position `n` on. -/
def slice (d : List Byte) (n k : Nat) : List Byte := (d.drop n).take k

/-- A handle whose size is a positive whole number of elements, and which does not reach beyond 2^31: `unit` is the element size
the library computes, asked for only if the transfer has more than `lim` bytes. -/
structure Whole (s : Server) (fd : Int) (c : TypeCache) (h : Handle) (lim unit : Nat) : Prop where
  pos : 0 < h.size
  small : h.byte + h.size ≤ 2147483647
  elem : lim < h.size → ∃ c', ctypeSize s fd c h.type = .ok (c', (unit : Int))
  upos : 0 < unit
  fits : unit ≤ lim
  dvd : unit ∣ h.size

/-- A handle for `count` BOOLs that begin at bit `bit` (0 to 7) of byte `byte`: `size` is the number of bytes
they touch. -/
structure Bools (h : Handle) : Prop where
  type : h.type = DAX_BOOL
  bit : h.bit < 8
  pos : 0 < h.count
  size : h.size = (h.bit + h.count - 1) / 8 + 1

/-- Bit `q` of the tag, counted from its beginning. -/
def memBit (M : Mem) (i q : Nat) : Bool := (M i (q / 8)).getLsbD (q % 8)

/-- The memory after BOOLs were written: the bits of the handle are those of `data`, all others are as before. -/
def BitsWritten (M M' : Mem) (i : Nat) (h : Handle) (data : List Byte) : Prop :=
  (∀ q < h.count, memBit M' i (8 * h.byte + h.bit + q) = bitOf data (q / 8) (q % 8)) ∧
  ∀ j q, ¬ (j = i ∧ 8 * h.byte + h.bit ≤ q ∧ q < 8 * h.byte + h.bit + h.count) → memBit M' j q = memBit M j q

/-- The request to read `k` bytes at position `p` of tag `i`. -/
def readOf (i : Int) (p k : Nat) : Req := .tagRead i p k

/-- The request to write the piece at position `p` of data that begins at position `base`. -/
def writeOf (i : Int) (base : Nat) (d : List Byte) (p k : Nat) : Req := .tagWrite i p (slice d (p - base) k)

/-- The same with a mask. -/
def maskOf (i : Int) (base : Nat) (d m : List Byte) (p k : Nat) : Req :=
  .tagMWrite i p (slice d (p - base) k) (slice m (p - base) k)

end Dax.LibData
