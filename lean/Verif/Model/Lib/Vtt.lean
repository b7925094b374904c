import Verif.Model.Basic
import Verif.Model.Lib.Strings
import Verif.Model.Lib.Tokenizer

/-!
Model of `lib/formats/vtt.c`.

A file is the bytes that are left of it.  An array is the string in it, the bytes before the
first zero.  Memory that is allocated is there; a write past the end of it is a panic that
begins with "undefined".
-/
namespace Che.Lib.Vtt
open Che.Lib

/-- `reader_t`, lib/formats/vtt.c:3-10. -/
structure R where
  file : Bytes
  line : Bytes
  timerange : Bytes
  text : Bytes
  textcap : Nat
  error : Option Bytes
deriving DecidableEq, Repr

/-- What `fgets` stores and leaves, with room for as many bytes. -/
def fgets : Nat → Bytes → Bytes × Bytes
  | 0, s => ([], s)
  | _ + 1, [] => ([], [])
  | n + 1, c :: s => if c = 10 then ([c], s) else ((c :: (fgets n s).1), (fgets n s).2)

/-- The string in an array. -/
def str (s : Bytes) : Bytes := s.takeWhile (· ≠ 0)

/-- `loadline`, lib/formats/vtt.c:97-104. -/
def loadline (r : R) : R × Bool :=
  if r.file = [] then (r, false)
  else ({ r with file := (fgets 4095 r.file).2, line := Strings.rtrim (str (fgets 4095 r.file).1) [13, 10] }, true)

/-- `seterror`, lib/formats/vtt.c:126-136: the first error stays, and it has at most 998 bytes. -/
def seterror (r : R) (msg : Bytes) : R :=
  match r.error with
  | some _ => r
  | none => { r with error := some (msg.take 998) }

/-- The loop of `init`, lib/formats/vtt.c:47-59.  Every round takes a byte or ends. -/
def headerLoop : Nat → R → Res String (R × Bool)
  | 0, _ => .diverge
  | n + 1, r =>
    let (r, ok) := loadline r
    if !ok then .ok (r, false)
    else if r.line = [] then .ok (r, true)
    else
      match Strings.strstr (cstr ": ") r.line with
      | none => .ok (seterror r (cstr "failed to parse header: " ++ r.line), false)
      | some i => headerLoop n { r with line := r.line.take i }

/-- `init`, lib/formats/vtt.c:38-61. -/
def init (r : R) : Res String (R × Bool) :=
  let (r, ok) := loadline r
  if !ok then .ok (r, false)
  else if r.line ≠ cstr "WEBVTT" then .ok (seterror r (cstr "expected WEBVTT at line 1"), false)
  else headerLoop (r.file.length + 1) r

/-- `reader`, lib/formats/vtt.c:13-22. -/
def reader (file : Bytes) : Res String R :=
  (init { file := file, line := [], timerange := [], text := [], textcap := 100, error := none }).bind fun (r, ok) =>
    .ok (if ok then r else seterror r (cstr "failed to initialize"))

/-- C `isdigit`. -/
def isdigit (c : UInt8) : Bool := 48 ≤ c && c ≤ 57

/-- What `timestamp` expects at a place: a digit, or the byte. -/
def fits (t c : UInt8) : Bool := if t = 100 then isdigit c else c = t

/-- `timestamp`, lib/formats/vtt.c:162-179, with the rows of its body as a template: what follows. -/
def stamp : Bytes → Bytes → Option Bytes
  | [], s => some s
  | _ :: _, [] => none
  | t :: ts, c :: s => if fits t c then stamp ts s else none

def timestamp (s : Bytes) : Option Bytes := stamp (cstr "dd:dd:dd.ddd") s

/-- `cue`, lib/formats/vtt.c:139-158: what is put into `out`. -/
def cue (line : Bytes) : Option Bytes :=
  match timestamp line with
  | none => none
  | some p =>
    match p with
    | 32 :: p =>
      if !(cstr "--> ").isPrefixOf p then none
      else
        match timestamp (p.drop 4) with
        | none => none
        | some p =>
          let p := if p.head? = some 32 then p.tail else p
          some (line.take (line.length - p.length))
    | _ => none

/-- `printnotags`, lib/formats/vtt.c:106-124. -/
def notags : Bool → Bytes → Bytes
  | _, [] => []
  | true, c :: s => if c = 62 then notags false s else notags true s
  | false, c :: s => if c = 60 then notags true s else c :: notags false s

/-- The test for room, lib/formats/vtt.c:85-89. -/
def grow (r : R) : R := if r.text.length + r.line.length + 2 > r.textcap then { r with textcap := r.textcap * 2 } else r

/-- The text with the line, lib/formats/vtt.c:90-91. -/
def glued (r : R) : Bytes := (if r.text ≠ [] then r.text ++ [10] else r.text) ++ notags false r.line

/-- The second `while`, lib/formats/vtt.c:79-92. -/
def textLoop : Nat → R → Res String (R × Bool)
  | 0, _ => .diverge
  | n + 1, r =>
    let (r, ok) := loadline r
    if !ok then .ok (r, false)
    else if r.line = [] then .ok (r, true)
    else
      let r := grow r
      if (glued r).length + 1 > r.textcap then .panic "undefined: write past the end of the text"
      else textLoop n { r with text := glued r }

/-- The first `while`, lib/formats/vtt.c:66-69. -/
def skipLoop : Nat → R → Res String (R × Bool)
  | 0, _ => .diverge
  | n + 1, r =>
    let (r, ok) := loadline r
    if !ok then .ok (r, false)
    else if r.line ≠ [] then .ok (r, true)
    else skipLoop n r

/-- `read`, lib/formats/vtt.c:64-95. -/
def read (r : R) : Res String (R × Bool) :=
  (skipLoop (r.file.length + 1) r).bind fun (r, ok) =>
    if !ok then .ok (r, false)
    else
      match cue r.line with
      | none => .ok (seterror r (cstr "failed to parse cue line: " ++ r.line), false)
      | some range =>
        (textLoop (r.file.length + 1) { r with timerange := range, text := [] }).bind fun (r, ok) =>
          if !ok then .ok (r, false) else .ok ({ r with text := Strings.trim r.text }, true)

/-- The usual loop: `while (read(r)) … r->timerange … r->text …`, and the reader after it. -/
def readLoop : Nat → R → Res String (List (Bytes × Bytes) × R)
  | 0, _ => .diverge
  | n + 1, r =>
    (read r).bind fun (r, more) =>
      if more then (readLoop n r).bind fun (cs, r') => .ok ((r.timerange, r.text) :: cs, r') else .ok ([], r)

/-- All subtitles of a file, and the error. -/
def readAll (n : Nat) (file : Bytes) : Res String (List (Bytes × Bytes) × Option Bytes) :=
  (reader file).bind fun r => (readLoop n r).bind fun (cs, r) => .ok (cs, r.error)
end Che.Lib.Vtt
