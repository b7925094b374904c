import Verif.Model.Basic
import Verif.Model.Lib.IO
import Verif.Model.Lib.Enc
import Verif.Model.Lib.Mem
import Verif.Model.Lib.Sha1
import Verif.Model.Lib.Strings

/-!
Models of `lib/formats/bencode.c` and `lib/formats/bencode_writer.c`.

The data has exactly `size` bytes; reading past them is undefined, and so is the
overflow of an `int`.  Both are shown as a panic whose text begins with "undefined".
A loop or recursion that the data does not bound has a budget.
-/
namespace Che.Lib.Bencode
open Che.Lib

/-- The result of an operation on `int`. -/
def int (n : Int) : Res Unit Int :=
  if -2147483648 ≤ n ∧ n ≤ 2147483647 then .ok n else .panic "undefined: overflow"

/-- `reader_t`, lib/formats/bencode.c:3-11.  `stacksize` is the length of `stack`. -/
structure R where
  data : Bytes
  pos : Nat
  stack : Bytes

/-- `newreader`, lib/formats/bencode.c:16-21. -/
def newreader (data : Bytes) : R := { data := data, pos := 0, stack := [] }

/-- `peek`, lib/formats/bencode.c:187-192: a `char`, which is signed; `EOF` is -1. -/
def peek (r : R) : Int :=
  match r.data[r.pos]? with
  | none => -1
  | some b => Mem.signed b

/-- `pop`, lib/formats/bencode.c:214-216. -/
def pop (r : R) : Res Unit (R × UInt8) :=
  match r.data[r.pos]? with
  | none => .panic "undefined: read past the end"
  | some b => .ok ({ r with pos := r.pos + 1 }, b)

/-- `consume`, lib/formats/bencode.c:179-184. -/
def consume (r : R) (c : UInt8) : Res Unit R :=
  match r.data[r.pos]? with
  | none => .panic "undefined: read past the end"
  | some b => if b ≠ c then .panic "wanted c" else .ok { r with pos := r.pos + 1 }

/-- `isdigit` of the C library. -/
def isdigit (c : Int) : Bool := 48 ≤ c && c ≤ 57

/-- The loop of `num`, lib/formats/bencode.c:204-207. -/
def numLoop : Nat → R → Int → Res Unit (R × Int)
  | 0, _, _ => .diverge
  | k + 1, r, n =>
    if isdigit (peek r) then do
      let n ← int (n * 10)
      let (r, c) ← pop r
      let n ← int (n + Strings.num_from_ascii (Mem.signed c))
      numLoop k r n
    else .ok (r, n)

/-- `num`, lib/formats/bencode.c:194-212.  The loop takes a byte in every round. -/
def num (r : R) : Res Unit (R × Int) := do
  let neg := peek r = 45
  let r ← (if neg then do let (r, _) ← pop r; .ok r else .ok r)
  if !isdigit (peek r) then .panic "expected a digit"
  else
    let (r, n) ← numLoop (r.data.length + 1) r 0
    let n ← (if neg then int (n * -1) else .ok n)
    .ok (r, n)

/-- `more`, lib/formats/bencode.c:33-38. -/
def more (r : R) : Bool := if r.stack.length > 0 then peek r ≠ 101 else peek r ≠ -1

/-- `type`, lib/formats/bencode.c:44-52. -/
def type (r : R) : Int :=
  if peek r = -1 then 0
  else if peek r = 105 then 105
  else if peek r = 100 then 100
  else if peek r = 108 then 108
  else 115

/-- `enter`, lib/formats/bencode.c:68-73. -/
def enter (r : R) : Res Unit R :=
  if r.stack.length = 10 then .panic "stack too small"
  else do
    let (r, c) ← pop r
    .ok { r with stack := r.stack ++ [c] }

/-- `leave`, lib/formats/bencode.c:78-84.  (The size is unsigned: with an empty stack
it would wrap.) -/
def leave (r : R) : Res Unit R := do
  let r ← consume r 101
  if r.stack = [] then .panic "undefined: stack size wraps" else .ok { r with stack := r.stack.dropLast }

/-- `n` calls of `pop`, lib/formats/bencode.c:123-129, 167-169. -/
def popN : Nat → R → Res Unit (R × Bytes)
  | 0, r => .ok (r, [])
  | n + 1, r => do
    let (r, c) ← pop r
    let (r, cs) ← popN n r
    .ok (r, c :: cs)

/-- `_readbuf`, lib/formats/bencode.c:112-132, with a buffer of `len` bytes: what the
buffer holds, and the result. -/
def readbuf (r : R) (len : Nat) : Res Unit (R × Bytes × Nat) := do
  let (r, n) ← num r
  if n < 0 then .panic "got negative data length"
  else if n.toNat > len then .panic "buffer too small"
  else do
    let r ← consume r 58
    let (r, got) ← popN n.toNat r
    .ok (r, got ++ List.replicate (len - n.toNat) 0, n.toNat)

/-- `key`, lib/formats/bencode.c:91-93. -/
def key (r : R) (len : Nat) : Res Unit (R × Bytes × Nat) := readbuf r len

/-- `strsize`, lib/formats/bencode.c:98-103. -/
def strsize (r : R) : Res Unit (R × Int) := do
  let (r', n) ← num r
  .ok ({ r' with pos := r.pos }, n)

/-- `readnum`, lib/formats/bencode.c:137-142. -/
def readnum (r : R) : Res Unit (R × Int) := do
  let r ← consume r 105
  let (r, n) ← num r
  let r ← consume r 101
  .ok (r, n)

mutual
/-- `skip`, lib/formats/bencode.c:148-173. -/
def skip : Nat → R → Res Unit (R × Bool)
  | 0, _ => .diverge
  | k + 1, r =>
    if peek r = -1 then .ok (r, false)
    else if peek r = 105 then do
      let (r, _) ← readnum r
      .ok (r, true)
    else if peek r = 108 ∨ peek r = 100 then do
      let r ← enter r
      let r ← skipLoop k r
      let r ← leave r
      .ok (r, true)
    else do
      let (r, n) ← num r
      let r ← consume r 58
      let (r, _) ← popN n.toNat r
      .ok (r, true)

/-- The loop of `skip`, lib/formats/bencode.c:160. -/
def skipLoop : Nat → R → Res Unit R
  | 0, _ => .diverge
  | k + 1, r =>
    if more r then do
      let (r, _) ← skip k r
      skipLoop k r
    else .ok r
end

/-! ## Writer -/

/-- `t`, lib/formats/bencode_writer.c:8-20: what has been written, and how much can be
(the size of the buffer, or the room in the file). -/
structure W where
  out : Bytes
  pos : Nat
  room : Option Nat

/-- `tobuf`, lib/formats/bencode_writer.c:22-28. -/
def tobuf (bufsize : Nat) : W := { out := [], pos := 0, room := some bufsize }

/-- `tofile`, lib/formats/bencode_writer.c:30-35. -/
def tofile (room : Option Nat) : W := { out := [], pos := 0, room := room }

/-- `byte`, lib/formats/bencode_writer.c:37-55. -/
def byte (w : W) (b : UInt8) : W × Bool :=
  match w.room with
  | some n => if w.pos ≥ n then (w, false) else ({ w with out := w.out ++ [b], pos := w.pos + 1 }, true)
  | none => ({ w with out := w.out ++ [b], pos := w.pos + 1 }, true)

/-- The first loop of `_writenum`, lib/formats/bencode_writer.c:102-105. -/
def magnitude : Nat → Nat → Nat → Res Unit Nat
  | 0, _, _ => .diverge
  | k + 1, N, m => if m * 10 ≤ N then magnitude k N (m * 10) else .ok m

/-- The second loop of `_writenum`, lib/formats/bencode_writer.c:108-113. -/
def digitLoop : Nat → W → Nat → Nat → Nat → Res Unit (W × Bool)
  | 0, _, _, _, _ => .diverge
  | k + 1, w, n, N, m =>
    if m > 0 then do
      let d ← Strings.ascii_digit ((N / m : Nat) : Int)
      let (w, ok) := byte w d
      if !ok then .ok (w, false) else digitLoop k w n (n % m) (m / 10)
    else .ok (w, true)

/-- `_writenum`, lib/formats/bencode_writer.c:93-115, for `n` an `int`. -/
def writenum (w : W) (n : Int) : Res Unit (W × Bool) :=
  let (w, ok) := if n < 0 then byte w 45 else (w, true)
  if !ok then .ok (w, false)
  else do
    let n ← (if n < 0 then int (n * -1) else .ok n)
    let N := n.toNat
    let m ← magnitude (N + 1) N 1
    digitLoop (m + 1) w N N m

/-- `begin`, lib/formats/bencode_writer.c:62-67. -/
def begin (w : W) (type : UInt8) : Res Unit (W × Bool) :=
  if type ≠ 108 ∧ type ≠ 100 then .panic "unknown type" else .ok (byte w type)

/-- `end`, lib/formats/bencode_writer.c:70-72. -/
def finish (w : W) : W × Bool := byte w 101

/-- `num`, lib/formats/bencode_writer.c:78-82. -/
def wnum (w : W) (n : Int) : Res Unit (W × Bool) :=
  let (w, ok) := byte w 105
  if !ok then .ok (w, false)
  else do
    let (w, ok) ← writenum w n
    if !ok then .ok (w, false) else .ok (byte w 101)

/-- The loop of `buf`, lib/formats/bencode_writer.c:87-89. -/
def bytes (w : W) : Bytes → W × Bool
  | [] => (w, true)
  | b :: rest =>
    let (w, ok) := byte w b
    if !ok then (w, false) else bytes w rest

/-- `buf`, lib/formats/bencode_writer.c:84-91.  The length becomes an `int`. -/
def buf (w : W) (s : Bytes) : Res Unit (W × Bool) := do
  let (w, ok) ← writenum w (Sha1.toInt s.length)
  if !ok then .ok (w, false)
  else
    let (w, ok) := byte w 58
    if !ok then .ok (w, false) else .ok (bytes w s)

end Che.Lib.Bencode
