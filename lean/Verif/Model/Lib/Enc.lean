import Verif.Model.Lib.IO

/-!
Model of `lib/enc/hex.c`, `lib/enc/urlencode.c` and `lib/enc/endian.c`.
-/
namespace Che.Lib

/-- The characters of a C string constant, without the final zero. -/
def cstr (s : String) : Bytes := s.toList.map fun c => UInt8.ofNat c.toNat

namespace Hex

/-- `HEX`, lib/enc/hex.c:3. -/
def HEX : Bytes := cstr "0123456789abcdef"

/-- `writebyte`, lib/enc/hex.c:5-9: the two characters stored at `p`. -/
def writebyte (b : UInt8) : Bytes :=
  [HEX.getD (b.toNat / 16) 0, HEX.getD (b.toNat % 16) 0]

/-- The loop of `write`, lib/enc/hex.c:16-25. -/
def writeLoop (w : Writer) (len : Int) : Bytes → Writer × Int
  | [] => (w, len)
  | b :: rest =>
    let two := [HEX.getD (b.toNat / 16) 0, HEX.getD (b.toNat % 16) 0]
    let (w', r) := w.write two
    if r < 0 then (w', r)
    else if r = 0 then (w', len)
    else if r = 1 then (w', -1)
    else if r = 2 then writeLoop w' (len + 1) rest
    else writeLoop w' len rest

/-- `write`, lib/enc/hex.c:13-27. -/
def write (w : Writer) (data : Bytes) : Writer × Int := writeLoop w 0 data

end Hex

namespace UrlEncode

/-- `HEX`, lib/enc/urlencode.c:3. -/
def HEX : Bytes := cstr "0123456789ABCDEF"

/-- `isalpha` of the C library, in the "C" locale. -/
def isalpha (c : UInt8) : Bool := (65 ≤ c && c ≤ 90) || (97 ≤ c && c ≤ 122)

/-- `isdigit` of the C library. -/
def isdigit (c : UInt8) : Bool := 48 ≤ c && c ≤ 57

/-- The loop of `write`, lib/enc/urlencode.c:9-25. -/
def writeLoop (w : Writer) (len : Int) : Bytes → Writer × Int
  | [] => (w, len)
  | c :: rest =>
    if isalpha c || isdigit c then
      let (w', r) := w.write [c]
      if r ≠ 1 then (w', -1) else writeLoop w' (len + 1) rest
    else
      let tmp := [37, HEX.getD ((c.toNat >>> 4) &&& 0x0F) 0, HEX.getD (c.toNat &&& 0x0F) 0]
      let (w', r) := w.write tmp
      if r ≠ 3 then (w', -1) else writeLoop w' (len + 3) rest

/-- `write`, lib/enc/urlencode.c:6-27. -/
def write (w : Writer) (data : Bytes) : Writer × Int := writeLoop w 0 data

end UrlEncode

namespace Endian

/-- `write1`, lib/enc/endian.c:71-74. -/
def write1 (w : Writer) (b : UInt8) : Writer × Int := w.write [b]

/-- `write2le`, lib/enc/endian.c:77-83. -/
def write2le (w : Writer) (v : UInt32) : Writer × Int :=
  let b0 := (v % 256).toUInt8
  let v := v / 256
  let b1 := (v % 256).toUInt8
  w.write [b0, b1]

/-- `write4be`, lib/enc/endian.c:86-94. -/
def write4be (w : Writer) (v : UInt32) : Writer × Int :=
  let b3 := (v % 256).toUInt8
  let v := v / 256
  let b2 := (v % 256).toUInt8
  let v := v / 256
  let b1 := (v % 256).toUInt8
  let v := v / 256
  let b0 := (v % 256).toUInt8
  w.write [b0, b1, b2, b3]

/-- `write4le`, lib/enc/endian.c:97-105. -/
def write4le (w : Writer) (v : UInt32) : Writer × Int :=
  let b0 := (v % 256).toUInt8
  let v := v / 256
  let b1 := (v % 256).toUInt8
  let v := v / 256
  let b2 := (v % 256).toUInt8
  let v := v / 256
  let b3 := (v % 256).toUInt8
  w.write [b0, b1, b2, b3]

/-- `n` bytes of an uninitialised local array after `got` has been read into its
start; what is not overwritten is `junk`. -/
def fill (junk got : Bytes) (i : Nat) : UInt8 := (got ++ junk.drop got.length).getD i 0

/-- `read1`, lib/enc/endian.c:4-6: the result and the new value of `*v`. -/
def read1 (rd : Reader) (v : UInt8) : Reader × Int × UInt8 :=
  let (rd', n, got) := rd.read 1
  (rd', n, got.getD 0 v)

/-- `read2le`, lib/enc/endian.c:8-15. -/
def read2le (rd : Reader) (v : UInt16) : Reader × Int × UInt16 :=
  let (rd', n, got) := rd.read 2
  if n ≠ 2 then (rd', -1, v)
  else (rd', 2, (got.getD 0 0).toUInt16 + 256 * (got.getD 1 0).toUInt16)

/-- `read2be`, lib/enc/endian.c:19-26. -/
def read2be (rd : Reader) (v : UInt16) : Reader × Bool × UInt16 :=
  let (rd', n, got) := rd.read 2
  if n ≠ 2 then (rd', false, v)
  else (rd', true, (got.getD 0 0).toUInt16 * 256 + (got.getD 1 0).toUInt16)

/-- `read3le`, lib/enc/endian.c:30-39. -/
def read3le (junk : Bytes) (rd : Reader) : Reader × Int × UInt32 :=
  let (rd', n, got) := rd.read 3
  let buf := fill junk got
  let x : UInt32 := 0
  let x := x * 256 + (buf 2).toUInt32
  let x := x * 256 + (buf 1).toUInt32
  let x := x * 256 + (buf 0).toUInt32
  (rd', n, x)

/-- `read4be`, lib/enc/endian.c:43-53. -/
def read4be (junk : Bytes) (rd : Reader) : Reader × Int × UInt32 :=
  let (rd', n, got) := rd.read 4
  let buf := fill junk got
  let x : UInt32 := 0
  let x := x * 256 + (buf 0).toUInt32
  let x := x * 256 + (buf 1).toUInt32
  let x := x * 256 + (buf 2).toUInt32
  let x := x * 256 + (buf 3).toUInt32
  (rd', n, x)

/-- `read4le`, lib/enc/endian.c:57-67. -/
def read4le (junk : Bytes) (rd : Reader) : Reader × Int × UInt32 :=
  let (rd', n, got) := rd.read 4
  let buf := fill junk got
  let x : UInt32 := 0
  let x := x * 256 + (buf 3).toUInt32
  let x := x * 256 + (buf 2).toUInt32
  let x := x * 256 + (buf 1).toUInt32
  let x := x * 256 + (buf 0).toUInt32
  (rd', n, x)

end Endian

end Che.Lib
