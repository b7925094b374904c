import Verif.Model.Basic
import Verif.Model.Lib.IO
import Verif.Model.Lib.Enc

/-!
Model of `lib/crypt/sha1.c`.
-/
namespace Che.Lib.Sha1

/-- `digest_t`, lib/crypt/sha1.c:7-20. -/
structure Digest where
  init : Bool
  pos : Nat
  finished : Bool
  sum : List UInt32
  block : List UInt32
  words : Nat
  bytes : Nat
  word : UInt32
  length : UInt64

/-- `reset`, lib/crypt/sha1.c:22-24. -/
def reset : Digest :=
  { init := false, pos := 0, finished := false, sum := List.replicate 5 0, block := List.replicate 16 0,
    words := 0, bytes := 0, word := 0, length := 0 }

/-- `ROTL`, lib/crypt/sha1.c:195-197. -/
def ROTL (bits value : UInt32) : UInt32 := (value <<< bits) ||| (value >>> (32 - bits))

/-- `K`, lib/crypt/sha1.c:185-190. -/
def K (t : Nat) : UInt32 :=
  if t < 20 then 0x5a827999
  else if t < 40 then 0x6ed9eba1
  else if t < 60 then 0x8f1bbcdc
  else 0xca62c1d6

/-- `f`, lib/crypt/sha1.c:175-180. -/
def f (t : Nat) (x y z : UInt32) : UInt32 :=
  if t < 20 then (x &&& y) ||| ((~~~x) &&& z)
  else if t < 40 then x ^^^ y ^^^ z
  else if t < 60 then (x &&& y) ^^^ (x &&& z) ^^^ (y &&& z)
  else x ^^^ y ^^^ z

/-- The loop that fills `W`, lib/crypt/sha1.c:144; `n` is the number of words to go, and
the words so far are a list, so that `t` is its length. -/
def scheduleLoop : Nat → List UInt32 → List UInt32
  | 0, W => W
  | n + 1, W =>
    let t := W.length
    scheduleLoop n (W ++ [ROTL 1 (W.getD (t - 3) 0 ^^^ W.getD (t - 8) 0 ^^^ W.getD (t - 14) 0 ^^^ W.getD (t - 16) 0)])

/-- The working variables, lib/crypt/sha1.c:148-152. -/
structure Vars where
  a : UInt32
  b : UInt32
  c : UInt32
  d : UInt32
  e : UInt32

/-- The body of the mixer loop, lib/crypt/sha1.c:155-160. -/
def mix (W : List UInt32) (v : Vars) (t : Nat) : Vars :=
  let T := ROTL 5 v.a + f t v.b v.c v.d + v.e + K t + W.getD t 0
  { e := v.d, d := v.c, c := ROTL 30 v.b, b := v.a, a := T }

/-- The mixer loop, lib/crypt/sha1.c:154-161: `n` rounds to go, the next is `t`. -/
def mixLoop (W : List UInt32) : Nat → Nat → Vars → Vars
  | 0, _, v => v
  | n + 1, t, v => mixLoop W n (t + 1) (mix W v t)

/-- `sha1_feed`, lib/crypt/sha1.c:138-170: the new sum. -/
def sha1_feed (block sum : List UInt32) : List UInt32 :=
  let W := scheduleLoop 64 block
  let v := mixLoop W 80 0 { a := sum.getD 0 0, b := sum.getD 1 0, c := sum.getD 2 0, d := sum.getD 3 0, e := sum.getD 4 0 }
  [sum.getD 0 0 + v.a, sum.getD 1 0 + v.b, sum.getD 2 0 + v.c, sum.getD 3 0 + v.d, sum.getD 4 0 + v.e]

/-- `push_byte`, lib/crypt/sha1.c:114-133. -/
def push_byte (h : Digest) (b : UInt8) : Digest :=
  let h := { h with word := h.word * 256 + b.toUInt32, bytes := h.bytes + 1 }
  if h.bytes = 4 then
    let h := { h with bytes := 0 }
    let h := { h with block := h.block.set h.words h.word, words := h.words + 1 }
    if h.words = 16 then { h with words := 0, sum := sha1_feed h.block h.sum }
    else h
  else h

/-- `add`, lib/crypt/sha1.c:59-77. -/
def add (h : Digest) (byte : UInt8) : Digest × Bool :=
  if h.finished then (h, false)
  else
    let h :=
      if !h.init then
        { h with init := true, sum := [0x67452301, 0xefcdab89, 0x98badcfe, 0x10325476, 0xc3d2e1f0] }
      else h
    let h := { h with pos := h.pos + 1, length := h.length + 8 }
    (push_byte h byte, true)

/-- The largest `int`. -/
def INT_MAX : Int := 2 ^ 31 - 1

/-- Conversion to `int` (as gcc and clang define it). -/
def toInt (n : Nat) : Int := if n % 2 ^ 32 < 2 ^ 31 then (n % 2 ^ 32 : Nat) else ((n % 2 ^ 32 : Nat) : Int) - 2 ^ 32

/-- The number of zeros, lib/crypt/sha1.c:97-100.  Overflow of `int` is undefined. -/
def zeros (length : Nat) : Res Unit Nat :=
  let l := toInt (length / 8)
  if 9 + l > INT_MAX then .panic "undefined: overflow"
  else
    let n := Int.tdiv (9 + l) 64
    let n := if Int.tmod (9 + l) 64 ≠ 0 then n + 1 else n
    if 64 * n > INT_MAX then .panic "undefined: overflow"
    else .ok (64 * n - 9 - l).toNat

/-- The zeros, lib/crypt/sha1.c:101-104. -/
def zeroLoop : Nat → Digest → Digest
  | 0, h => h
  | n + 1, h => zeroLoop n (push_byte h 0)

/-- `end`, lib/crypt/sha1.c:79-112. -/
def finish (h : Digest) : Res Unit (Digest × Bool) :=
  if h.finished then .ok (h, false)
  else do
    let h := { h with finished := true }
    let h := push_byte h 128
    let z ← zeros h.length.toNat
    let h := zeroLoop z h
    .ok ((List.range 8).foldl
      (fun h' i => push_byte h' ((h.length >>> UInt64.ofNat (64 - 8 - 8 * i)) &&& 0xFF).toUInt8) h, true)

/-- `as_bytes`, lib/crypt/sha1.c:48-57. -/
def as_bytes (h : Digest) : Bytes :=
  (List.range 5).flatMap fun i =>
    let v := h.sum.getD i 0
    [((v >>> 24) &&& 0xFF).toUInt8, ((v >>> 16) &&& 0xFF).toUInt8, ((v >>> 8) &&& 0xFF).toUInt8,
      ((v >>> 0) &&& 0xFF).toUInt8]

/-- `format`, lib/crypt/sha1.c:31-42: the bytes written to the buffer, without a NUL. -/
def format (h : Digest) (bufsize : Nat) : Option Bytes :=
  if bufsize < 40 then none else some ((as_bytes h).flatMap Hex.writebyte)

/-- How the module is used: reset, add every byte, end, take the bytes. -/
def digest (msg : Bytes) : Res Unit Bytes := do
  let h := msg.foldl (fun h b => (add h b).1) reset
  let (h, _) ← finish h
  .ok (as_bytes h)

end Che.Lib.Sha1
