import Verif.Spec.Lib.Sha1
import Mathlib.Analysis.Complex.Trigonometric
import Mathlib.Algebra.Order.Floor.Ring

/-!
MD5 as RFC 1321 describes it.
-/
namespace Che.Spec.Lib.MD5
open SHA1 (Word toBits zeroCount)

/-- Section 2: rotation to the left. -/
def rotl (s : Nat) (x : Word) : Word := (x <<< s) ||| (x >>> (32 - s))

/-- Section 3.4. -/
def F (x y z : Word) : Word := (x &&& y) ||| (~~~x &&& z)
def G (x y z : Word) : Word := (x &&& z) ||| (y &&& ~~~z)
def H (x y z : Word) : Word := x ^^^ y ^^^ z
def I (x y z : Word) : Word := y ^^^ (x ||| ~~~z)

/-- Section 3.4: T[i] is the integer part of 4294967296 times abs(sin(i)), where i is in
radians. -/
noncomputable def T (i : Nat) : Word := BitVec.ofNat 32 ⌊4294967296 * |Real.sin i|⌋₊

/-- The words `k` of the 64 operations, as they are listed in section 3.4. -/
def k : List Nat :=
  [0, 1, 2, 3, 4, 5, 6, 7, 8, 9, 10, 11, 12, 13, 14, 15,
   1, 6, 11, 0, 5, 10, 15, 4, 9, 14, 3, 8, 13, 2, 7, 12,
   5, 8, 11, 14, 1, 4, 7, 10, 13, 0, 3, 6, 9, 12, 15, 2,
   0, 7, 14, 5, 12, 3, 10, 1, 8, 15, 6, 13, 4, 11, 2, 9]

/-- The shifts of the operations in the four rounds. -/
def s : List Nat :=
  [7, 12, 17, 22, 7, 12, 17, 22, 7, 12, 17, 22, 7, 12, 17, 22,
   5, 9, 14, 20, 5, 9, 14, 20, 5, 9, 14, 20, 5, 9, 14, 20,
   4, 11, 16, 23, 4, 11, 16, 23, 4, 11, 16, 23, 4, 11, 16, 23,
   6, 10, 15, 21, 6, 10, 15, 21, 6, 10, 15, 21, 6, 10, 15, 21]

/-- The function of operation `t`. -/
def f (t : Nat) : Word → Word → Word → Word := if t < 16 then F else if t < 32 then G else if t < 48 then H else I

/-- The registers in the roles a, b, c, d before operation `t`.  Operation `[abcd k s i]`
is a = b + ((a + f(b,c,d) + X[k] + T[i]) <<< s); the next one has the registers in the
order dabc. -/
noncomputable def regs (D X : List Word) : Nat → Word × Word × Word × Word
  | 0 => (D.getD 0 0, D.getD 1 0, D.getD 2 0, D.getD 3 0)
  | t + 1 =>
    let (a, b, c, d) := regs D X t
    (d, b + rotl (s.getD t 0) (a + f t b c d + X.getD (k.getD t 0) 0 + T (t + 1)), b, c)

/-- The registers after a block. -/
noncomputable def next (D X : List Word) : List Word :=
  let (a, b, c, d) := regs D X 64
  [a + D.getD 0 0, b + D.getD 1 0, c + D.getD 2 0, d + D.getD 3 0]

/-- Section 2: a word is four bytes, the low-order byte first. -/
def wordOf (b : List UInt8) : Word :=
  BitVec.ofNat 32 ((b.getD 0 0).toNat + (b.getD 1 0).toNat * 2 ^ 8 + (b.getD 2 0).toNat * 2 ^ 16 + (b.getD 3 0).toNat * 2 ^ 24)

/-- Sections 3.1 and 3.2 for messages of whole bytes: one bit 1, zeros up to 448 modulo
512 bits, then the length in bits modulo 2^64, as two words, the low-order one first. -/
def pad (M : List UInt8) : List UInt8 :=
  M ++ [128] ++ List.replicate (zeroCount (8 * M.length) / 8) 0 ++
    (List.range 8).map fun i => UInt8.ofNat (8 * M.length / 2 ^ (8 * i))

/-- The words of block `i`. -/
def block (bs : List UInt8) (i : Nat) : List Word :=
  (List.range 16).map fun j => wordOf ((bs.drop (64 * i + 4 * j)).take 4)

/-- Section 3.3. -/
def init : List Word := [0x67452301, 0xefcdab89, 0x98badcfe, 0x10325476]

noncomputable def hash (bs : List UInt8) : Nat → List Word
  | 0 => init
  | i + 1 => next (hash bs i) (block bs i)

/-- Section 3.5: the digest is A, B, C, D, each from the low-order byte on. -/
noncomputable def md5 (M : List UInt8) : List UInt8 :=
  (hash (pad M) ((pad M).length / 64)).flatMap fun w => (List.range 4).map fun i => UInt8.ofNat (w.toNat / 2 ^ (8 * i))

end Che.Spec.Lib.MD5
