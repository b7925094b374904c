import Verif.Model.Lib.Mem
import Verif.Model.Lib.Sha1

/-!
Model of `lib/crypt/md5.c`.  `b << pos` in `next_word` is taken modulo 2^32 (in C it is
an `int` shift that overflows for bytes over 127 at position 24, which compilers
define the same way).
-/
namespace Che.Lib.Md5

/-- `T`, lib/crypt/md5.c:258-275. -/
def T : List UInt32 :=
  [0xd76aa478, 0xe8c7b756, 0x242070db, 0xc1bdceee,
   0xf57c0faf, 0x4787c62a, 0xa8304613, 0xfd469501,
   0x698098d8, 0x8b44f7af, 0xffff5bb1, 0x895cd7be,
   0x6b901122, 0xfd987193, 0xa679438e, 0x49b40821,
   0xf61e2562, 0xc040b340, 0x265e5a51, 0xe9b6c7aa,
   0xd62f105d,  0x2441453, 0xd8a1e681, 0xe7d3fbc8,
   0x21e1cde6, 0xc33707d6, 0xf4d50d87, 0x455a14ed,
   0xa9e3e905, 0xfcefa3f8, 0x676f02d9, 0x8d2a4c8a,
   0xfffa3942, 0x8771f681, 0x6d9d6122, 0xfde5380c,
   0xa4beea44, 0x4bdecfa9, 0xf6bb4b60, 0xbebfbc70,
   0x289b7ec6, 0xeaa127fa, 0xd4ef3085, 0x4881d05,
   0xd9d4d039, 0xe6db99e5, 0x1fa27cf8, 0xc4ac5665,
   0xf4292244, 0x432aff97, 0xab9423a7, 0xfc93a039,
   0x655b59c3, 0x8f0ccc92, 0xffeff47d, 0x85845dd1,
   0x6fa87e4f, 0xfe2ce6e0, 0xa3014314, 0x4e0811a1,
   0xf7537e82, 0xbd3af235, 0x2ad7d2bb, 0xeb86d391]

/-- `V`, lib/crypt/md5.c:308-313. -/
def V : List UInt32 := [7, 12, 17, 22, 5, 9, 14, 20, 4, 11, 16, 23, 6, 10, 15, 21]

/-- lib/crypt/md5.c:377-388. -/
def F (x y z : UInt32) : UInt32 := (x &&& y) ||| ((~~~x) &&& z)
def G (x y z : UInt32) : UInt32 := (x &&& z) ||| (y &&& (~~~z))
def H (x y z : UInt32) : UInt32 := x ^^^ y ^^^ z
def I (x y z : UInt32) : UInt32 := y ^^^ (x ||| (~~~z))

/-- `rotate`, lib/crypt/md5.c:390-392. -/
def rotate (value bits : UInt32) : UInt32 := (value <<< bits) ||| (value >>> (32 - bits))

/-- The bodies of the four loops, lib/crypt/md5.c:315-368: `*a = *b + rotate(...)`, where
the sum is `sum a b c d k g` and `k`, `v`, `g` are as given. -/
def step (f : UInt32 → UInt32 → UInt32 → UInt32) (k v g : Nat) (block : List UInt32) (tmp : List UInt32) (i : Nat) : List UInt32 :=
  let p := 3 * i
  let a := tmp.getD (p % 4) 0
  let b := tmp.getD ((p + 1) % 4) 0
  let c := tmp.getD ((p + 2) % 4) 0
  let d := tmp.getD ((p + 3) % 4) 0
  let s := V.getD (v + i % 4) 0
  tmp.set (p % 4) (b + rotate (a + f b c d + block.getD k 0 + T.getD g 0) s)

/-- The first loop, lib/crypt/md5.c:315-326 (where the sum begins with `F`). -/
def step1 (block tmp : List UInt32) (i : Nat) : List UInt32 :=
  let p := 3 * i
  let a := tmp.getD (p % 4) 0
  let b := tmp.getD ((p + 1) % 4) 0
  let c := tmp.getD ((p + 2) % 4) 0
  let d := tmp.getD ((p + 3) % 4) 0
  let k := (0 + i) % 16
  let s := V.getD (i % 4) 0
  let g := i
  tmp.set (p % 4) (b + rotate (F b c d + a + block.getD k 0 + T.getD g 0) s)

/-- The second loop, lib/crypt/md5.c:328-340. -/
def step2 (block tmp : List UInt32) (i : Nat) : List UInt32 := step G ((1 + 5 * i) % 16) 4 (16 + i) block tmp i
/-- The third loop, lib/crypt/md5.c:342-354. -/
def step3 (block tmp : List UInt32) (i : Nat) : List UInt32 := step H ((5 + 3 * i) % 16) 8 (32 + i) block tmp i
/-- The fourth loop, lib/crypt/md5.c:356-368. -/
def step4 (block tmp : List UInt32) (i : Nat) : List UInt32 := step I ((7 * i) % 16) 12 (48 + i) block tmp i

/-- `md5_feed`, lib/crypt/md5.c:291-375: the new digest. -/
def md5_feed (buf block : List UInt32) : List UInt32 :=
  let tmp := [buf.getD 0 0, buf.getD 1 0, buf.getD 2 0, buf.getD 3 0]
  let tmp := (List.range 16).foldl (step1 block) tmp
  let tmp := (List.range 16).foldl (step2 block) tmp
  let tmp := (List.range 16).foldl (step3 block) tmp
  let tmp := (List.range 16).foldl (step4 block) tmp
  [buf.getD 0 0 + tmp.getD 0 0, buf.getD 1 0 + tmp.getD 1 0, buf.getD 2 0 + tmp.getD 2 0, buf.getD 3 0 + tmp.getD 3 0]

/-- `md5_init`, lib/crypt/md5.c:280-286. -/
def md5_init : List UInt32 := [0x67452301, 0xEFCDAB89, 0x98BADCFE, 0x10325476]

/-- `src_t`, lib/crypt/md5.c:18-29. -/
structure Src where
  stream : Mem.T
  length : UInt64
  more_data : Bool
  zeros : Nat
  lenbuf : Bytes
  lenpos : Nat
  more : Bool

/-- `init_padding`, lib/crypt/md5.c:133-176. -/
def init_padding (s : Src) : Res Unit Src := do
  let low := (s.length &&& 0xFFFFFFFF).toUInt32
  let high := ((s.length >>> 32) &&& 0xFFFFFFFF).toUInt32
  let lenbuf := (List.range 4).map (fun i => ((low >>> UInt32.ofNat (i * 8)) &&& 0xFF).toUInt8) ++
    (List.range 4).map (fun i => ((high >>> UInt32.ofNat (i * 8)) &&& 0xFF).toUInt8)
  -- the same computation as in sha1.c
  let zeros ← Sha1.zeros s.length.toNat
  .ok { s with lenbuf := lenbuf, lenpos := 0, zeros := zeros }

/-- `next_byte`, lib/crypt/md5.c:91-131. -/
def next_byte (s : Src) : Res Unit (Src × UInt8) :=
  if s.more_data then
    let (stream, c) := Mem.memgetc s.stream
    let s := { s with stream := stream }
    if c ≠ -1 then .ok ({ s with length := s.length + 8 }, UInt8.ofNat (c % 256).toNat)
    else do
      let s ← init_padding { s with more_data := false }
      .ok (s, 128)
  else if s.zeros > 0 then .ok ({ s with zeros := s.zeros - 1 }, 0)
  else if s.lenpos < 8 then
    let b := s.lenbuf.getD s.lenpos 0
    let s := { s with lenpos := s.lenpos + 1 }
    let s := if s.lenpos = 8 then { s with more := false } else s
    .ok (s, b)
  else .panic "assertion failed"

/-- `next_word`, lib/crypt/md5.c:76-89. -/
def next_word (s : Src) : Res Unit (Src × UInt32) := do
  let (s, b0) ← next_byte s
  let (s, b1) ← next_byte s
  let (s, b2) ← next_byte s
  let (s, b3) ← next_byte s
  .ok (s, (0 : UInt32) + (b0.toUInt32 <<< 0) + (b1.toUInt32 <<< 8) + (b2.toUInt32 <<< 16) + (b3.toUInt32 <<< 24))

/-- Filling the block, lib/crypt/md5.c:51-53. -/
def fill : Nat → Src → Res Unit (Src × List UInt32)
  | 0, s => .ok (s, [])
  | n + 1, s => do
    let (s, w) ← next_word s
    let (s, ws) ← fill n s
    .ok (s, w :: ws)

/-- The loop of `md5`, lib/crypt/md5.c:49-56; the first argument is the budget. -/
def loop : Nat → Src → List UInt32 → Res Unit (List UInt32)
  | 0, _, _ => .diverge
  | fuel + 1, s, digest =>
    if s.more then do
      let (s, block) ← fill 16 s
      loop fuel s (md5_feed digest block)
    else .ok digest

/-- `md5`, lib/crypt/md5.c:34-57. -/
def md5 (fuel : Nat) (stream : Mem.T) : Res Unit (List UInt32) :=
  loop fuel { stream := stream, length := 0, more_data := true, zeros := 0, lenbuf := List.replicate 8 0, lenpos := 0, more := true } md5_init

/-- `md5_buf`, lib/crypt/md5.c:196-205. -/
def md5_buf (junk : Nat → UInt8) (fuel : Nat) (buf : Bytes) : Res Unit (List UInt32) :=
  let (z, n) := Mem.memwrite junk Mem.memopen buf
  let z := Mem.rewind z
  if n = buf.length then md5 fuel z else .panic "assertion failed"

/-- `%02x` for a byte. -/
def hex2 (b : UInt8) : Bytes := Hex.writebyte b

/-- `md5_sprint`, lib/crypt/md5.c:231-242. -/
def md5_sprint (s : List UInt32) : Bytes :=
  (List.range 4).flatMap fun i =>
    let w := s.getD i 0
    (List.range 4).flatMap fun j => hex2 ((w >>> UInt32.ofNat (j * 8)) &&& 0xFF).toUInt8

/-- `md5_eq`, lib/crypt/md5.c:210-218. -/
def md5_eq (a b : List UInt32) : Bool := (List.range 4).all fun i => a.getD i 0 = b.getD i 0

end Che.Lib.Md5
