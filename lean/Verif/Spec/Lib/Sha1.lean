/-!
SHA-1 as FIPS 180-4 describes it, over bits.
-/
namespace Che.Spec.Lib.SHA1

/-- A 32-bit word. -/
abbrev Word := BitVec 32

/-- ROTL, section 3.2. -/
def rotl (n : Nat) (x : Word) : Word := (x <<< n) ||| (x >>> (32 - n))

/-- Section 4.1.1. -/
def Ch (x y z : Word) : Word := (x &&& y) ^^^ (~~~x &&& z)
def Parity (x y z : Word) : Word := x ^^^ y ^^^ z
def Maj (x y z : Word) : Word := (x &&& y) ^^^ (x &&& z) ^^^ (y &&& z)
def f (t : Nat) : Word → Word → Word → Word :=
  if t ≤ 19 then Ch else if t ≤ 39 then Parity else if t ≤ 59 then Maj else Parity

/-- Section 4.2.1. -/
def K (t : Nat) : Word :=
  if t ≤ 19 then 0x5a827999 else if t ≤ 39 then 0x6ed9eba1 else if t ≤ 59 then 0x8f1bbcdc else 0xca62c1d6

/-- `n` bits of a number, the most significant first. -/
def toBits (n x : Nat) : List Bool := List.ofFn fun i : Fin n => x.testBit (n - 1 - i)

/-- The word with the given bits. -/
def wordOf (bits : List Bool) : Word := BitVec.ofNat 32 (bits.foldl (fun n b => 2 * n + b.toNat) 0)

/-- The number of zeros, section 5.1.1: the smallest `k` such that `l + 1 + k` is 448
modulo 512. -/
def zeroCount (l : Nat) : Nat := (448 + 512 - (l + 1) % 512) % 512

/-- The padded message, section 5.1.1. -/
def pad (M : List Bool) : List Bool := M ++ [true] ++ List.replicate (zeroCount M.length) false ++ toBits 64 M.length

/-- The words of block `i` of the padded message, section 5.2.1. -/
def block (bits : List Bool) (i : Nat) : List Word :=
  (List.range 16).map fun j => wordOf ((bits.drop (512 * i + 32 * j)).take 32)

/-- The initial hash value, section 5.3.1. -/
def H0 : List Word := [0x67452301, 0xefcdab89, 0x98badcfe, 0x10325476, 0xc3d2e1f0]

/-- The message schedule, section 6.1.2 step 1. -/
def W (M : List Word) (t : Nat) : Word :=
  if t < 16 then M.getD t 0
  else rotl 1 (W M (t - 3) ^^^ W M (t - 8) ^^^ W M (t - 14) ^^^ W M (t - 16))
termination_by t

/-- The working variables a, b, c, d, e after `t` rounds, section 6.1.2 steps 2 and 3. -/
def vars (H M : List Word) : Nat → Word × Word × Word × Word × Word
  | 0 => (H.getD 0 0, H.getD 1 0, H.getD 2 0, H.getD 3 0, H.getD 4 0)
  | t + 1 =>
    let (a, b, c, d, e) := vars H M t
    (rotl 5 a + f t b c d + e + K t + W M t, a, rotl 30 b, c, d)

/-- The next hash value, section 6.1.2 step 4. -/
def next (H M : List Word) : List Word :=
  let (a, b, c, d, e) := vars H M 80
  [a + H.getD 0 0, b + H.getD 1 0, c + H.getD 2 0, d + H.getD 3 0, e + H.getD 4 0]

/-- The hash value after `i` blocks. -/
def hash (bits : List Bool) (H : List Word) : Nat → List Word
  | 0 => H
  | i + 1 => next (hash bits H i) (block bits i)

/-- The message digest, section 6.1.2: 160 bits. -/
def sha1 (M : List Bool) : List Bool :=
  (hash (pad M) H0 ((pad M).length / 512)).flatMap fun w => toBits 32 w.toNat

/-- The bits of a byte string. -/
def bits (bs : List UInt8) : List Bool := bs.flatMap fun b => toBits 8 b.toNat

end Che.Spec.Lib.SHA1
