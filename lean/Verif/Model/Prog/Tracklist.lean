import Verif.Model.Lib.Vtt
import Verif.Model.Lib.Time

/-!
Model of `prog/mp3cuespl/tracklist.c` and of `loadtxt` of `prog/mp3cuespl/mp3cuespl.c`.

A file is its bytes.  Files open, and memory that is allocated is there.  An array is the string in it, and what is after the string is a zero.
-/
namespace Che.Prog.Tracklist
open Che.Lib

/-- `entry_t`, prog/mp3cuespl/tracklist.c:14-18. -/
structure Entry where
  num : Int
  title : Bytes
  duration_us : Int
deriving DecidableEq, Repr

/-- The loop back to the last word, prog/mp3cuespl/tracklist.c:48-50. -/
def wordLoop (line : Bytes) : Nat → Nat
  | 0 => 0
  | i + 1 => if !Strings.isspace (line.getD i 0) then wordLoop line i else i + 1

/-- The loop of the number, prog/mp3cuespl/tracklist.c:64-68: the number and what is left of the line. -/
def numLoop : Bytes → Int → Res String (Int × Bytes)
  | [], num => .ok (num, [])
  | c :: line, num =>
    if Time.isdigit c then (Time.int (num * 10)).bind fun num => (Time.int (num + Strings.num_from_ascii c.toNat)).bind fun num => numLoop line num
    else .ok (num, c :: line)

/-- The number, the dot and the title, prog/mp3cuespl/tracklist.c:62-86. -/
def parseRest (line : Bytes) (d : Int) : Res String Entry :=
  (numLoop line 0).bind fun (num, line) =>
    match line with
    | 46 :: line =>
      let title := line.drop (Strings.leftSpaces line)
      if title.length ≥ 1000 then .panic "undefined: write past the end of title" else .ok ⟨num, title, d⟩
    | _ => .panic "expected a dot after track number"

/-- `parseline`, prog/mp3cuespl/tracklist.c:41-87. -/
def parseline (line : Bytes) : Res String Entry :=
  let line := Strings.trim line
  let i := wordLoop line line.length
  match Time.parse_duration (line.drop i) with
  | .ok d => if i = 0 then .panic "undefined: write before the beginning of line" else parseRest (Strings.trim (line.take (i - 1))) d
  | .err _ => .panic "failed to parse duration"
  | .panic m => .panic m
  | .diverge => .diverge

/-- The loop of `readfile`, prog/mp3cuespl/tracklist.c:28-35.  Every round but the last takes a byte. -/
def readLoop : Nat → Bytes → List Entry → Res String (List Entry)
  | 0, _, _ => .diverge
  | k + 1, f, list =>
    if f = [] then .ok list
    else
      let (line, f) := Vtt.fgets 4095 f
      let line := Strings.trim (Vtt.str line)
      if line = [] then readLoop k f list
      else if list.length ≥ 100 then .panic "undefined: write past the end of list"
      else (parseline line).bind fun e => readLoop k f (list ++ [e])

/-- `readfile`, prog/mp3cuespl/tracklist.c:20-39. -/
def readfile (f : Bytes) : Res String (List Entry) := readLoop (f.length + 1) f []

/-- The loop of `loadtxt`, prog/mp3cuespl/mp3cuespl.c:90-95: numbers, titles and positions. -/
def positions : Int → List Entry → List (Int × Bytes × Int)
  | _, [] => []
  | pos, e :: list => (e.num, e.title, pos) :: positions (pos + e.duration_us) list

/-- `loadtxt`, prog/mp3cuespl/mp3cuespl.c:84-100. -/
def loadtxt (f : Bytes) : Res String (List (Int × Bytes × Int)) := (readfile f).bind fun list => .ok (positions 0 list)

end Che.Prog.Tracklist
