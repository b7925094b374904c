import Verif.Model.Basic
import Verif.Model.Lib.IO
import Verif.Model.Lib.Enc
import Verif.Model.Lib.Strings
import Verif.Model.Lib.Mem

/-!
Model of `lib/tokenizer.c`: characters with lookahead.

An `int` that is a character or `EOF` is an `Int`.  A loop that takes characters one
by one runs for at most as many rounds as there are bytes left, plus one.  Buffers
given by the caller are modelled by the bytes put into them.  C has no bounds checks:
`sound` becomes false when something is written past the end of an array.
-/
namespace Che.Lib.Tok
open Che.Lib

/-- Bytes that a source still has. -/
def left : Source → Nat
  | .file rest => rest.length
  | .mem rest => rest.length
  | .fd chunks => (chunks.map List.length).sum + chunks.length

/-- `t`, lib/tokenizer.c:3-15.  The first `cachesize` bytes of the cache. -/
structure T where
  reader : Reader
  row : Nat
  col : Nat
  cache : Bytes
  sound : Bool

/-- `new`, lib/tokenizer.c:33-38. -/
def new (r : Reader) : T := { reader := r, row := 0, col := 0, cache := [], sound := true }

/-- `file`, lib/tokenizer.c:18-22. -/
def file (data : Bytes) : T := new (Reader.ofFile data)

/-- `from_str`, lib/tokenizer.c:26-30.  `s` has no zero byte. -/
def from_str (s : Bytes) : T := new (Reader.ofBuffer s)

/-- Rounds of a loop over the remaining bytes. -/
def rounds (b : T) : Nat := b.cache.length + left b.reader.src + 1

/-- `_prefetch`, lib/tokenizer.c:110-115.  The cache has 100 bytes. -/
def prefetch (b : T) (n : Nat) : T :=
  if b.cache.length ≥ n then b
  else
    let len := n - b.cache.length
    let (reader, r, got) := b.reader.read len
    if r > 0 then
      { b with reader := reader, cache := b.cache ++ got, sound := b.sound && (b.cache ++ got).length ≤ 100 }
    else { b with reader := reader }

/-- `peek`, lib/tokenizer.c:50-54. -/
def peek (b : T) : T × Int :=
  let b := prefetch b 1
  match b.cache with
  | [] => (b, -1)
  | c :: _ => (b, c.toNat)

/-- `more`, lib/tokenizer.c:57-59. -/
def more (b : T) : T × Bool :=
  if b.cache.length > 0 then (b, true)
  else
    let (b, c) := peek b
    (b, c != -1)

/-- `tail`, lib/tokenizer.c:62-73.  `buf` has `len > 0` bytes. -/
def tail (b : T) (buf : Bytes) (len : Nat) : T × Bytes :=
  let b := prefetch b len
  let n := if len - 1 > b.cache.length then b.cache.length else len - 1
  (b, ((b.cache.take n) ++ buf.drop n).set (len - 1) 0)

/-- `_track_pos`, lib/tokenizer.c:101-108. -/
def trackPos (b : T) (c : UInt8) : T :=
  if c = 10 then { b with col := 0, row := b.row + 1 } else { b with col := b.col + 1 }

/-- `get`, lib/tokenizer.c:83-99. -/
def get (b : T) : T × Int :=
  match b.cache with
  | c :: rest => (trackPos { b with cache := rest } c, c.toNat)
  | [] =>
    let (reader, r, got) := b.reader.read 1
    let b := { b with reader := reader }
    if r ≠ 1 then (b, -1)
    else match got with
      | c :: _ => (trackPos b c, c.toNat)
      | [] => (b, -1)

/-- `strchr(set, c) != NULL`: the terminating zero is a part of the string. -/
def inSet (set : Bytes) (c : Int) : Bool := c == 0 || set.any fun x => c == (x.toNat : Int)

/-- The byte stored by `*p = c`. -/
def toByte (c : Int) : UInt8 := UInt8.ofNat (c % 256).toNat

/-- `buf_skip_set`, lib/tokenizer.c:117-121. -/
def skipSetLoop (set : Bytes) : Nat → T → T
  | 0, b => b
  | n + 1, b =>
    let (b, m) := more b
    if !m then b
    else
      let (b, c) := peek b
      if inSet set c then skipSetLoop set n (get b).1 else b

def buf_skip_set (b : T) (set : Bytes) : T := skipSetLoop set (rounds b) b

/-- `buf_skip`, lib/tokenizer.c:126-132.  `c` is a `char`: it is signed. -/
def buf_skip (b : T) (c : UInt8) : T × Bool :=
  let (b, p) := peek b
  if p = Mem.signed c then ((get b).1, true) else (b, false)

/-- The loop of `buf_read_set`, lib/tokenizer.c:137-140. -/
def readSetLoop (set : Bytes) : Nat → T → Bytes → T × Bytes
  | 0, b, s => (b, s)
  | n + 1, b, s =>
    let (b, m) := more b
    if !m then (b, s)
    else
      let (b, c) := peek b
      if inSet set c then
        let (b, c) := get b
        readSetLoop set n { b with sound := b.sound && s.length < 10000 } (s ++ [toByte c])
      else (b, s)

/-- `buf_read_set`, lib/tokenizer.c:134-142. -/
def buf_read_set (b : T) (set : Bytes) : T × Bytes := readSetLoop set (rounds b) b []

/-- `isspace` of the C library on an `int`. -/
def isspace (c : Int) : Bool := c == 32 || (9 ≤ c && c ≤ 13)

/-- `isdigit` of the C library on an `int`. -/
def isdigit (c : Int) : Bool := 48 ≤ c && c ≤ 57

/-- `isalpha` of the C library on an `int`, in the "C" locale. -/
def isalpha (c : Int) : Bool := (65 ≤ c && c ≤ 90) || (97 ≤ c && c ≤ 122)

/-- The loop of `spaces`, lib/tokenizer.c:148-151. -/
def spacesLoop : Nat → T → Nat → T × Nat
  | 0, b, n => (b, n)
  | k + 1, b, n =>
    let (b, c) := peek b
    if isspace c then spacesLoop k (get b).1 (n + 1) else (b, n)

/-- `spaces`, lib/tokenizer.c:146-153. -/
def spaces (b : T) : T × Bool :=
  let (b, n) := spacesLoop (rounds b) b 0
  (b, n > 0)

/-- `hspaces`, lib/tokenizer.c:156-160. -/
def hspacesLoop : Nat → T → T
  | 0, b => b
  | k + 1, b =>
    let (b, c) := peek b
    if c = 32 then hspacesLoop k (get b).1
    else
      let (b, c) := peek b
      if c = 9 then hspacesLoop k (get b).1 else b

def hspaces (b : T) : T := hspacesLoop (rounds b) b

/-- The loop of `id`, lib/tokenizer.c:172-181. -/
def idLoop (n : Nat) : Nat → T → Bytes → T × Bytes
  | 0, b, buf => (b, buf)
  | k + 1, b, buf =>
    let (b, m) := more b
    if !m then (b, buf)
    else
      let (b, c) := peek b
      if !isalpha c && !isdigit c && c != 95 then (b, buf)
      else
        let b := (get b).1
        idLoop n k b (if buf.length < n - 1 then buf ++ [toByte c] else buf)

/-- `id`, lib/tokenizer.c:167-184, for `n > 0`: the text put into the buffer. -/
def id (b : T) (n : Nat) : T × Option Bytes :=
  let (b, c) := peek b
  let (b, c') := if isalpha c then (b, c) else peek b
  if !isalpha c && c' != 95 then (b, none)
  else
    let (b, buf) := idLoop n (rounds b) b []
    (b, some buf)

/-- `*p++ = c` into a buffer of `n` bytes that has `buf` already. -/
def store (n : Nat) (b : T) (buf : Bytes) (c : Int) : T × Bytes :=
  ({ b with sound := b.sound && buf.length < n }, buf ++ [toByte c])

/-- `*p++ = get(b)`. -/
def storeGet (n : Nat) (b : T) (buf : Bytes) : T × Bytes :=
  let (b, c) := get b
  store n b buf c

/-- `while (isdigit(peek(b))) *p++ = get(b)`, lib/tokenizer.c:200-202, 210-212, 230-232. -/
def digitsLoop (n : Nat) : Nat → T → Bytes → T × Bytes
  | 0, b, buf => (b, buf)
  | k + 1, b, buf =>
    let (b, c) := peek b
    if isdigit c then
      let (b, buf) := storeGet n b buf
      digitsLoop n k b buf
    else (b, buf)

/-- A digit, and the digits after it: `none` if there is no digit. -/
def digits (n : Nat) (b : T) (buf : Bytes) : T × Option Bytes :=
  let (b, c) := peek b
  if !isdigit c then (b, none)
  else
    let (b, buf) := digitsLoop n (rounds b) b buf
    (b, some buf)

/-- The exponent and the end of `num`, lib/tokenizer.c:215-236. -/
def numExp (n : Nat) (b : T) (buf : Bytes) : T × Option Bytes :=
  let (b, c) := peek b
  if c = 101 || c = 69 then
    let (b, buf) := storeGet n b buf
    let (b, c) := peek b
    let (b, buf) := if c = 45 || c = 43 then storeGet n b buf else (b, buf)
    match digits n b buf with
    | (b, none) => (b, none)
    | (b, some buf) => ((store n b buf 0).1, some buf)
  else ((store n b buf 0).1, some buf)

/-- `num` after the sign, lib/tokenizer.c:196-236. -/
def numUnsigned (n : Nat) (b : T) (buf : Bytes) : T × Option Bytes :=
  match digits n b buf with
  | (b, none) => (b, none)
  | (b, some buf) =>
    let (b, c) := peek b
    if c = 46 then
      let (b, buf) := storeGet n b buf
      match digits n b buf with
      | (b, none) => (b, none)
      | (b, some buf) => numExp n b buf
    else numExp n b buf

/-- `num`, lib/tokenizer.c:188-236, with a buffer of `n` bytes: the text put into it. -/
def num (b : T) (n : Nat) : T × Option Bytes :=
  let (b, c) := peek b
  let (b, buf) := if c = 45 then storeGet n b [] else (b, [])
  numUnsigned n b buf

/-- The comparison in `literal_follows`, lib/tokenizer.c:259-267. -/
def sameLoop : Bytes → Bytes → Bool
  | _, [] => true
  | [], _ :: _ => false
  | p :: ps, q :: qs => if p = 0 || p ≠ q then false else sameLoop ps qs

/-- `literal_follows`, lib/tokenizer.c:252-268.  `literal` has no zero byte. -/
def literal_follows (b : T) (literal : Bytes) : T × Bool :=
  let b := prefetch b literal.length
  if b.cache.length < literal.length then (b, false) else (b, sameLoop b.cache literal)

/-- `n` calls of `get`, lib/tokenizer.c:245-247. -/
def getN : Nat → T → T
  | 0, b => b
  | n + 1, b => getN n (get b).1

/-- `skip_literal`, lib/tokenizer.c:240-249. -/
def skip_literal (b : T) (literal : Bytes) : T × Bool :=
  let (b, f) := literal_follows b literal
  if !f then (b, false) else (getN literal.length b, true)

/-- The text of `%zu`. -/
def decimal (n : Nat) : Bytes := (Nat.toDigits 10 n).map fun c => UInt8.ofNat c.toNat

/-- `posstr`, lib/tokenizer.c:272-275: ten bytes with the zero. -/
def posstr (b : T) : Bytes := (decimal (b.row + 1) ++ [58] ++ decimal (b.col + 1)).take 9

/-- The loop of `buf_skip_until`, lib/tokenizer.c:281-287. -/
def skipUntilLoop (literal : Bytes) : Nat → T → Bytes → T × Bytes
  | 0, b, s => (b, s)
  | n + 1, b, s =>
    let (b, m) := more b
    if !m then (b, s)
    else
      let (b, f) := literal_follows b literal
      if f then (b, s)
      else
        let (b, c) := get b
        skipUntilLoop literal n { b with sound := b.sound && s.length < 10000 } (s ++ [toByte c])

/-- `buf_skip_until`, lib/tokenizer.c:277-289. -/
def buf_skip_until (b : T) (literal : Bytes) : T × Bytes := skipUntilLoop literal (rounds b) b []

/-- The loop of `read_until`, lib/tokenizer.c:296-301. -/
def readUntilLoop («until» : UInt8) (len : Nat) : Nat → T → Bytes → T × Bool × Bytes
  | 0, b, buf => (b, true, buf)
  | n + 1, b, buf =>
    let (b, m) := more b
    if !m then (b, true, buf)
    else
      let (b, c) := peek b
      if c ≠ Mem.signed «until» then
        if buf.length = len - 1 then (b, false, buf)
        else
          let (b, c) := get b
          readUntilLoop «until» len n b (buf ++ [toByte c])
      else (b, true, buf)

/-- `read_until`, lib/tokenizer.c:294-304, for `len > 0`. -/
def read_until (b : T) («until» : UInt8) (len : Nat) : T × Bool × Bytes := readUntilLoop «until» len (rounds b) b []

end Che.Lib.Tok
