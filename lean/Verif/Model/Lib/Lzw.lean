import Verif.Model.Basic
import Verif.Model.Lib.Bits

/-!
Model of `lib/compress/lzw.c`.

Arrays with a length become lists.  Memory freed and allocated is not tracked.
-/
namespace Che.Lib.Lzw
open Che.Lib.Bits

/-- `MAX_DICT_LENGTH`, lib/compress/lzw.c:11. -/
def MAX_DICT_LENGTH : Nat := 4096

/-- `word_t`, lib/compress/lzw.c:13-16.  `len` is a `uint8_t`. -/
structure Word where
  len : UInt8
  word : Bytes
deriving DecidableEq

/-- `dict_t`, lib/compress/lzw.c:18-24; `size` is the length of `entries`. -/
structure Dict where
  initSize : Nat
  entries : List Word
  resetcode : UInt16
  endcode : UInt16

/-- `dict.size`. -/
def Dict.size (d : Dict) : Nat := d.entries.length

/-- `newdict`, lib/compress/lzw.c:28-45.  The two reserved entries are what
`calloc` left there. -/
def newdict (n : Nat) : Dict :=
  { initSize := n + 2
    entries := (List.range n).map (fun i => { len := 1, word := [UInt8.ofNat i] }) ++
      [{ len := 0, word := [] }, { len := 0, word := [] }]
    resetcode := UInt16.ofNat n
    endcode := UInt16.ofNat (n + 1) }

/-- `resetdict`, lib/compress/lzw.c:54-59. -/
def resetdict (d : Dict) : Dict := { d with entries := d.entries.take d.initSize }

/-- `addentry`, lib/compress/lzw.c:62-70. -/
def addentry (d : Dict) (word : Bytes) : Res Unit Dict :=
  if d.size = MAX_DICT_LENGTH then .panic "max dict length"
  else .ok { d with entries := d.entries ++ [{ len := UInt8.ofNat word.length, word := word }] }

/-- The loop of `codewidth`, lib/compress/lzw.c:77-80.  The first argument bounds
the number of rounds: `largest` is enough. -/
def codewidthLoop : Nat → Nat → Nat → Nat → Nat
  | 0, width, _, _ => width
  | k + 1, width, maxcode, largest =>
    if maxcode < largest then codewidthLoop k (width + 1) (maxcode * 2) largest else width

/-- `codewidth`, lib/compress/lzw.c:73-82. -/
def codewidth (dictsize : Nat) : Nat := codewidthLoop (dictsize - 1) 1 1 (dictsize - 1)

/-- `writebits`, lib/compress/lzw.c:261-275. -/
def writebits (w : BitWriter) (code : UInt16) : Nat → BitWriter
  | 0 => w
  | n + 1 => writebits (write1 w (code % 2).toUInt8).1 (code / 2) n

/-- The loop of `readbits`, lib/compress/lzw.c:287-294. -/
def readbitsLoop : Nat → BitReader → UInt16 → UInt16 → Res Unit (BitReader × UInt16)
  | 0, r, val, _ => .ok (r, val)
  | n + 1, r, val, amp =>
    let (r', c) := read1 r
    if c < 0 then .panic "read failed"
    else readbitsLoop n r' (val + amp * UInt16.ofNat c.toNat) (amp * 2)

/-- `readbits`, lib/compress/lzw.c:277-299. -/
def readbits (r : BitReader) (n : Nat) : Res Unit (BitReader × UInt16) := readbitsLoop n r 0 1

/-! ## Compressor -/

/-- `enc_t`, lib/compress/lzw.c:89-92. -/
structure Enc where
  dict : Dict
  bw : BitWriter

/-- `comp_emit`, lib/compress/lzw.c:167-170. -/
def compEmit (enc : Enc) (code : UInt16) : Enc :=
  { enc with bw := writebits enc.bw code (codewidth enc.dict.size) }

/-- The loop of `match`, lib/compress/lzw.c:150-160: index and length of the best
match so far, and whether there is one. -/
def matchLoop (input : Bytes) : List Word → Nat → Nat → Nat → Bool → Nat × Bool
  | [], _, mi, _, ok => (mi, ok)
  | e :: rest, i, mi, mlen, ok =>
    if e.len.toNat ≤ mlen ∨ e.len.toNat > input.length then matchLoop input rest (i + 1) mi mlen ok
    else if e.word.take e.len.toNat = input.take e.len.toNat then
      matchLoop input rest (i + 1) i e.len.toNat true
    else matchLoop input rest (i + 1) mi mlen ok

/-- `match`, lib/compress/lzw.c:146-165. -/
def «match» (enc : Enc) (input : Bytes) : Res Unit Nat :=
  let (mi, ok) := matchLoop input enc.dict.entries 0 0 0 false
  if !ok then .panic "failed to match" else .ok mi

/-- `peeker_t`, lib/compress/lzw.c:172-177. -/
structure Peeker where
  buf : Bytes
  reader : Reader

/-- `peek`, lib/compress/lzw.c:183-207 (the data is then in `buf`). -/
def peek (p : Peeker) (n : Nat) : Peeker :=
  if p.buf.length < n then
    let (rd, q, got) := p.reader.read (n - p.buf.length)
    if q ≠ -1 then { buf := p.buf ++ got, reader := rd } else { p with reader := rd }
  else p

/-- `shift`, lib/compress/lzw.c:211-217. -/
def shift (p : Peeker) (n : Nat) : Res Unit Peeker :=
  if n = 0 ∨ n > p.buf.length then .panic "shift: invalid n"
  else .ok { p with buf := p.buf.drop n }

/-- The loop of `compress`, lib/compress/lzw.c:108-135. -/
def compressLoop : Nat → Enc → Peeker → Res Unit Enc
  | 0, _, _ => .diverge
  | fuel + 1, enc, p =>
    let p := peek p 4096
    let q := p.buf.length
    if q = 0 then .ok enc
    else do
      let mi ← «match» enc p.buf
      let mlen := (enc.dict.entries.getD mi ⟨0, []⟩).len.toNat
      let enc := compEmit enc (UInt16.ofNat mi)
      if mlen = q then .ok enc
      else
        let enc :=
          if enc.dict.size = MAX_DICT_LENGTH then
            let enc := compEmit enc enc.dict.resetcode
            { enc with dict := resetdict enc.dict }
          else enc
        let enc ← (if enc.dict.size < MAX_DICT_LENGTH then do
            let dict ← addentry enc.dict (p.buf.take (mlen + 1))
            .ok { enc with dict := dict }
          else .ok enc)
        let p ← shift p mlen
        compressLoop fuel enc p

/-- `compress`, lib/compress/lzw.c:102-142: what the destination holds at the end. -/
def compress (fuel : Nat) (r : Reader) (alphabetSize : Nat) (out : Writer) : Res Unit Writer := do
  let enc ← compressLoop fuel { dict := newdict alphabetSize, bw := newwriter out true }
    { buf := [], reader := r }
  let enc := compEmit enc enc.dict.endcode
  .ok (closewriter enc.bw).1

/-! ## Decompressor -/

/-- `dec_t`, lib/compress/lzw.c:224-231.  `curr` is only used inside `decode`. -/
structure Dec where
  dict : Dict
  br : BitReader
  prev : Bytes

/-- `newdecoder`, lib/compress/lzw.c:233-238. -/
def newdecoder (input : Reader) (alphabetSize : Nat) : Dec :=
  { dict := newdict alphabetSize, br := newreader input true, prev := [] }

/-- The first loop of `decode`, lib/compress/lzw.c:307-318. -/
def readCode : Nat → Dec → UInt16 → Res Unit (Dec × UInt16)
  | 0, dec, code => .ok (dec, code)
  | i + 1, dec, _ => do
    let (br, code) ← readbits dec.br (codewidth (dec.dict.size + 1))
    let dec := { dec with br := br }
    if code = dec.dict.resetcode then readCode i { dec with dict := resetdict dec.dict } code
    else .ok (dec, code)

/-- The string for a code, lib/compress/lzw.c:325-345. -/
def currentWord (dec : Dec) (code : UInt16) : Res Unit Bytes :=
  if code.toNat = dec.dict.size then
    if dec.prev.length = 0 then .panic "invalid code"
    else .ok (dec.prev ++ [dec.prev.getD 0 0])
  else
    let e := dec.dict.entries.getD code.toNat ⟨0, []⟩
    .ok (e.word.take e.len.toNat)

/-- Learning a new entry, lib/compress/lzw.c:350-356. -/
def learn (dec : Dec) (curr : Bytes) : Res Unit Dec :=
  if dec.prev.length > 0 then do
    let dict := if dec.dict.size = MAX_DICT_LENGTH then resetdict dec.dict else dec.dict
    let dict ← addentry dict (dec.prev ++ [curr.getD 0 0])
    .ok { dec with dict := dict }
  else .ok dec

/-- `decode`, lib/compress/lzw.c:305-363: the bytes put into `buf`; none of them at
the end of the data.  (For an entry of length 0, which the compressor never emits,
`curr[0]` is a byte of an earlier call; here it is 0.) -/
def decode (dec : Dec) : Res Unit (Dec × Bytes) := do
  let (dec, code) ← readCode 2 dec 0
  if code.toNat > dec.dict.size then .panic "got code out of bounds"
  else if code = dec.dict.endcode then .ok (dec, [])
  else do
    let curr ← currentWord dec code
    let dec ← learn dec curr
    .ok ({ dec with prev := curr }, curr)

/-- `decodeinto`, lib/compress/lzw.c:247-259. -/
def decodeinto : Nat → Dec → Writer → Res Unit Writer
  | 0, _, _ => .diverge
  | fuel + 1, dec, out => do
    let (dec, buf) ← decode dec
    if buf.length = 0 then .ok out
    else
      let (out, r) := out.write buf
      if r < 0 ∨ r ≠ buf.length then .panic "write failed"
      else decodeinto fuel dec out

end Che.Lib.Lzw
