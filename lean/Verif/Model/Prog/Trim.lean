import Verif.Model.Basic
import Verif.Model.Lib.Strings

/-!
Model of `prog/trim/trim.c`: what it does with one file.

The file is its bytes.  The memory `out` is the list of the bytes in it: `memputc` puts a byte at the end of it, as C61 says, and nothing when the
`char` is -1, and `save` (lines 216-240) copies it.  That memory cannot be allocated, or that a file cannot be opened or written, is not modelled; a line has fewer than 2^31 bytes.
-/
namespace Che.Prog.Trim
open Che Che.Lib

/-- The kinds of line ends, prog/trim/trim.c:5-13. -/
inductive Lf where
  | same
  | unix
  | win
  | none
deriving DecidableEq

/-- A read line, prog/trim/trim.c:63-70: the bytes of `line` before `eol_pos`, `last_pos` and `lf`. -/
structure Line where
  text : Bytes
  last : Int
  lf : Lf

/-- What comes after a `\\r`, lines 150-158. -/
def afterCr : Bytes → Option Bytes
  | 10 :: rest => some rest
  | _ => none

/-- The loop of `read_line`, lines 143-177; no line when it returns false. -/
def readChars : Bytes → Bytes → Int → Option (Line × Bytes)
  | [], text, last => some (⟨text, last, .none⟩, [])
  | c :: cs, text, last =>
    if c = 13 then
      (afterCr cs).map fun rest => (⟨text, last, .win⟩, rest)
    else if c = 10 then some (⟨text, last, .unix⟩, cs)
    else readChars cs (text ++ [c]) (if !Strings.isspace c then text.length else last)

/-- `read_line`, prog/trim/trim.c:133-182. -/
def read_line (input : Bytes) : Option (Line × Bytes) := if input = [] then none else readChars input [] (-1)

/-- `mem.memputc` with a `char`. -/
def put (out : Bytes) (c : UInt8) : Bytes := if c = 255 then out else out ++ [c]

/-- `write_line`, prog/trim/trim.c:197-214, where the line ends at `eol`. -/
def write_line (l : Line) (eol : Nat) (lf : Lf) (out : Bytes) : Res String Bytes :=
  let out := (l.text.take eol).foldl put out
  match lf with
  | .unix => .ok (put out 10)
  | .win => .ok (put (put out 13) 10)
  | _ => .panic "write_line: unhandled eol type"

/-- The body of the loop of `ftrim`, lines 102-122. -/
def trimLine (lf : Lf) (l : Line) (out : Bytes) (changed : Bool) : Res String (Bytes × Bool) :=
  let shorter := l.last + 1 < l.text.length
  let eol := if shorter then (l.last + 1).toNat else l.text.length
  let other := lf ≠ .same ∧ l.lf ≠ lf
  let end_ := if other then lf else l.lf
  (write_line l eol end_ out).bind fun out => .ok (out, changed || decide shorter || decide other)

/-- `ftrim`, prog/trim/trim.c:92-127: what is in `out` and what is returned. -/
def ftrim (lf : Lf) : Nat → Bytes → Bytes → Bool → Res String (Bytes × Bool)
  | 0, _, _, _ => .diverge
  | n + 1, input, out, changed =>
    match read_line input with
    | Option.none => .ok (out, changed)
    | some (l, rest) => (trimLine lf l out changed).bind fun (out, changed) => ftrim lf n rest out changed

/-- `trim_file`, prog/trim/trim.c:72-90: what is in the file then, and whether its name is printed. -/
def trim_file (lf : Lf) (file : Bytes) : Res String (Bytes × Bool) :=
  (ftrim lf (file.length + 2) file [] false).bind fun (out, changed) => .ok (if changed then out else file, changed)
end Che.Prog.Trim
