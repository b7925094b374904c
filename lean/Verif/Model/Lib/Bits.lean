import Verif.Model.Lib.IO

/-!
Model of `lib/bits.c`: reading and writing single bits.
-/
namespace Che.Lib.Bits

/-- `bitvals`, lib/bits.c:6-15. -/
def bitvals : List Nat := [1 <<< 7, 1 <<< 6, 1 <<< 5, 1 <<< 4, 1 <<< 3, 1 <<< 2, 1 <<< 1, 1 <<< 0]

/-- `getbits_lsfirst`, lib/bits.c:23-27: the eight cells of the array. -/
def getbits_lsfirst (byte : UInt8) : Bytes :=
  (List.range 8).map fun i => if byte.toNat &&& bitvals.getD (7 - i) 0 ≠ 0 then 1 else 0

/-- `getbits_msfirst`, lib/bits.c:30-34. -/
def getbits_msfirst (byte : UInt8) : Bytes :=
  (List.range 8).map fun i => if byte.toNat &&& bitvals.getD i 0 ≠ 0 then 1 else 0

/-- `reader_t`, lib/bits.c:40-45. -/
structure BitReader where
  input : Reader
  byte : UInt8
  rem : Nat
  reverse : Bool

/-- `newreader`, lib/bits.c:48-55. -/
def newreader (rd : Reader) (reversed : Bool) : BitReader :=
  { input := rd, byte := 0, rem := 0, reverse := reversed }

/-- The second half of `read1`, lib/bits.c:71-79, once a byte is loaded. -/
def takeBit (s : BitReader) : BitReader × Int :=
  let s := { s with rem := s.rem - 1 }
  let b : Nat :=
    if s.reverse then s.byte.toNat &&& bitvals.getD s.rem 0
    else s.byte.toNat &&& bitvals.getD (7 - s.rem) 0
  let b := if b > 0 then 1 else b
  (s, b)

/-- `read1`, lib/bits.c:64-80. -/
def read1 (s : BitReader) : BitReader × Int :=
  if s.rem = 0 then
    let (input, r, got) := s.input.read 1
    let s := { s with input := input, byte := got.getD 0 s.byte }
    if r < 0 then (s, -1)
    else takeBit { s with rem := 8 }
  else takeBit s

/-- The loop of `readn`, lib/bits.c:86-93. -/
def readnLoop : Nat → BitReader → Int → BitReader × Int
  | 0, s, r => (s, r)
  | n + 1, s, r =>
    let (s', c) := read1 s
    if c < 0 then (s', -1) else readnLoop n s' (r * 2 + c)

/-- `readn`, lib/bits.c:84-95 (the value does not overflow up to 31 bits). -/
def readn (s : BitReader) (n : Nat) : BitReader × Int := readnLoop n s 0

/-- `writer_t`, lib/bits.c:101-107. -/
structure BitWriter where
  err : Bool
  out : Writer
  buf : UInt8
  pos : Nat
  reverse : Bool

/-- `newwriter`, lib/bits.c:110-117. -/
def newwriter (out : Writer) (reversed : Bool) : BitWriter :=
  { err := false, out := out, buf := 0, pos := 0, reverse := reversed }

/-- `reversebyte`, lib/bits.c:169-180. -/
def reversebyte (val : UInt8) : UInt8 :=
  let val := ((val &&& 0xAA) >>> 1) ||| ((val &&& 0x55) <<< 1)
  let val := ((val &&& 0xCC) >>> 2) ||| ((val &&& 0x33) <<< 2)
  let val := ((val &&& 0xF0) >>> 4) ||| ((val &&& 0x0F) <<< 4)
  val

/-- `flush`, lib/bits.c:119-130. -/
def flush (w : BitWriter) : BitWriter :=
  let val := if w.reverse then reversebyte w.buf else w.buf
  let (out, r) := w.out.write [val]
  if r ≠ 1 then { w with out := out, err := true }
  else { w with out := out, pos := 0, buf := 0 }

/-- `closewriter`, lib/bits.c:133-140: the underlying writer and the result. -/
def closewriter (w : BitWriter) : Writer × Bool :=
  let w := if w.pos > 0 && !w.err then flush w else w
  (w.out, !w.err)

/-- `write1`, lib/bits.c:144-159. -/
def write1 (w : BitWriter) (bit : UInt8) : BitWriter × Bool :=
  if w.err then (w, false)
  else
    let w := if bit ≠ 0 then { w with buf := w.buf ||| UInt8.ofNat (bitvals.getD w.pos 0) } else w
    let w := { w with pos := w.pos + 1 }
    if w.pos = 8 then
      let w := flush w
      if w.err then (w, false) else (w, true)
    else (w, true)

/-- `write`, lib/bits.c:161-166. -/
def write (w : BitWriter) : Bytes → BitWriter × Bool
  | [] => (w, true)
  | b :: rest =>
    let (w', ok) := write1 w b
    if !ok then (w', false) else write w' rest

end Che.Lib.Bits
