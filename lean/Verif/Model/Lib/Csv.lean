import Verif.Model.Lib.Tokenizer

/-!
Model of `lib/formats/csv.c`.

The buffer of the value is modelled by the bytes put into it; `sound` becomes false when
they do not fit.  A panic is an outcome.
-/
namespace Che.Lib.Csv
open Che.Lib

/-- `reader_t`, lib/formats/csv.c:3-9. -/
structure R where
  b : Tok.T
  valbuf : Bytes
  firstval : Bool
  sound : Bool

/-- `newreader`, lib/formats/csv.c:12-17, with what stands in the standard input. -/
def newreader (input : Bytes) : R := { b := Tok.file input, valbuf := [], firstval := true, sound := true }

/-- `peekany`, lib/formats/csv.c:54-63. -/
def peekany (b : Tok.T) : List UInt8 → Tok.T × Bool
  | [] => (b, false)
  | p :: ps =>
    let (b, c) := Tok.peek b
    if c = p.toNat then (b, true) else peekany b ps

/-- The loop of `readval`, lib/formats/csv.c:47-49. -/
def bareLoop : Nat → Tok.T → Bytes → Tok.T × Bytes
  | 0, b, v => (b, v)
  | n + 1, b, v =>
    let (b, m) := Tok.more b
    if !m then (b, v)
    else
      let (b, e) := peekany b [44, 13, 10]
      if e then (b, v)
      else
        let (b, c) := Tok.get b
        bareLoop n b (v ++ [Tok.toByte c])

/-- The loop of `read_quoted_value`, lib/formats/csv.c:94-110. -/
def quotedLoop : Nat → Tok.T → Bytes → Res Unit (Tok.T × Bytes)
  | 0, _, _ => .diverge
  | n + 1, b, v =>
    let (b, c) := Tok.get b
    if c = -1 then .panic "unterminated quoted value"
    else if c = 34 then
      let (b, d) := Tok.peek b
      if d = 34 then
        let (b, _) := Tok.get b
        quotedLoop n b (v ++ [Tok.toByte c])
      else .ok (b, v)
    else quotedLoop n b (v ++ [Tok.toByte c])

/-- `read_quoted_value`, lib/formats/csv.c:84-111. -/
def read_quoted_value (b : Tok.T) : Res Unit (Tok.T × Bytes) :=
  let (b, ok) := Tok.buf_skip b 34
  if !ok then .panic "expected '\"'"
  else quotedLoop (Tok.rounds b) b []

/-- The value is put into a buffer of 4096 bytes, with a zero after it. -/
def R.put (r : R) (b : Tok.T) (v : Bytes) : R := { r with b := b, valbuf := v, sound := r.sound && v.length < 4096 }

/-- `readval`, lib/formats/csv.c:27-52, from line 34 on. -/
def readfield (r : R) : Res Unit (R × Bool) :=
  let r := { r with firstval := false }
  let (b, next) := Tok.peek r.b
  if next = 10 || next = 13 then .ok ({ r with b := b }, false)
  else
    let (b, m) := Tok.more b
    if !m then .ok ({ r with b := b }, false)
    else if next = 34 then do
      let (b, v) ← read_quoted_value b
      .ok (r.put b v, true)
    else
      let (b, v) := bareLoop (Tok.rounds b) b []
      .ok (r.put b v, true)

/-- `readval`, lib/formats/csv.c:27-52. -/
def readval (r : R) : Res Unit (R × Bool) :=
  if !r.firstval then
    let (b, c) := Tok.peek r.b
    if c ≠ 44 then .ok ({ r with b := b }, false)
    else
      let (b, _) := Tok.get b
      readfield { r with b := b }
  else readfield r

/-- The first loop of `nextline`, lib/formats/csv.c:68. -/
def restLoop : Nat → R → Res Unit R
  | 0, _ => .diverge
  | n + 1, r => do
    let (r, ok) ← readval r
    if !ok then .ok r else restLoop n r

/-- The second loop of `nextline`, lib/formats/csv.c:71-74. -/
def endLoop : Nat → Tok.T → Bool → Tok.T × Bool
  | 0, b, ok => (b, ok)
  | n + 1, b, ok =>
    let (b, c) := Tok.peek b
    if c = 13 then endLoop n (Tok.get b).1 true
    else
      let (b, c) := Tok.peek b
      if c = 10 then endLoop n (Tok.get b).1 true else (b, ok)

/-- `nextline`, lib/formats/csv.c:66-77. -/
def nextline (r : R) : Res Unit (R × Bool) := do
  let r ← restLoop (Tok.rounds r.b) r
  let (b, ok) := endLoop (Tok.rounds r.b) r.b false
  .ok ({ r with b := b, firstval := true }, ok)

/-- `val`, lib/formats/csv.c:80-82, as the C string that stands there. -/
def val (r : R) : Bytes := r.valbuf.takeWhile (· ≠ 0)

/-- A loop that collects the values of a line, as in prog/csv2json/csv2json.c:29-32. -/
def lineLoop : Nat → R → List Bytes → Res Unit (R × List Bytes)
  | 0, _, _ => .diverge
  | n + 1, r, vs => do
    let (r, ok) ← readval r
    if !ok then .ok (r, vs) else lineLoop n r (vs ++ [val r])

/-- A loop that collects the lines with values, as in prog/csv2json/csv2json.c:27-37. -/
def linesLoop : Nat → R → List (List Bytes) → Res Unit (R × List (List Bytes))
  | 0, _, _ => .diverge
  | n + 1, r, ls => do
    let (r, vs) ← lineLoop (Tok.rounds r.b) r []
    let ls := if vs = [] then ls else ls ++ [vs]
    let (r, ok) ← nextline r
    if !ok then .ok (r, ls) else linesLoop n r ls

/-- All lines of the input. -/
def readlines (input : Bytes) : Res Unit (R × List (List Bytes)) :=
  linesLoop (input.length + 1) (newreader input) []

/-- `writer_t`, lib/formats/csv.c:113-116. -/
structure W where
  f : Bytes
  col : Nat

/-- `writeval`, lib/formats/csv.c:120-137; `none` is `NULL`; the
string is given by its bytes before the zero. -/
def writeval (w : W) : Option Bytes → W
  | none => { col := 0, f := w.f ++ [10] }
  | some x =>
    { f := w.f ++ (if w.col > 0 then [44] else []) ++ [34] ++ x.flatMap (fun c => if c = 34 then [92, c] else [c]) ++ [34],
      col := w.col + 1 }

/-- A line, as in prog/jsonl2csv/jsonl2csv.c:47-65. -/
def writeline (vs : List Bytes) : Bytes := (writeval (vs.foldl (fun w v => writeval w (some v)) { f := [], col := 0 }) none).f

end Che.Lib.Csv
