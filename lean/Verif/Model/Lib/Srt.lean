import Verif.Model.Basic
import Verif.Model.Lib.Strings
import Verif.Model.Lib.Time
import Verif.Model.Lib.Vtt

/-!
Model of `lib/formats/srt.c`.

`stdin` is the bytes that are left of it, and whether a read has met its end.  An array is the string in it, the bytes before the first zero.  `char`s that are
negative are neither digits nor spaces.  What `printblock` prints is given back.
-/
namespace Che.Lib.Srt
open Che.Lib

/-- `reader_t`, lib/formats/srt.c:4-7, and `stdin`. -/
structure R where
  file : Bytes
  feof : Bool
  linebuf : Bytes
  line_loaded : Bool
deriving DecidableEq, Repr

/-- `block_t`, lib/formats/srt.c:9-14; the durations in microseconds. -/
structure Block where
  index : Int
  range : Bytes
  text : Bytes
  begin : Int
  fin : Int
deriving DecidableEq, Repr

/-- The loop of `loadline`, lib/formats/srt.c:90-96: what is stored, what is left, and whether the end was met. -/
def lineLoop : Bytes → Bytes × Bytes × Bool
  | [] => ([], [], true)
  | c :: s =>
    if c = 13 then lineLoop s
    else if c = 10 then ([c], s, false)
    else
      let (l, s, e) := lineLoop s
      (c :: l, s, e)

/-- `loadline`, lib/formats/srt.c:88-102. -/
def loadline (r : R) : Res String (R × Bool) :=
  let (l, s, e) := lineLoop r.file
  let r := { r with file := s, feof := r.feof || e }
  if l.length > 4096 then .panic "undefined: write past the end of the line"
  else if l = [] then .ok (r, false)
  else if l.length + 1 > 4096 then .panic "undefined: write past the end of the line"
  else .ok ({ r with linebuf := Vtt.str l }, true)

/-- `parse_num`, lib/formats/srt.c:104-117. -/
def parse_num (s : Bytes) : Res String Int :=
  (Time.readint s 0).bind fun (n, p) =>
    if p.dropWhile Strings.isspace ≠ [] then .ok 0 else .ok n

/-- The loop over the lines of the text, lib/formats/srt.c:33-40.  Every round but the last takes a byte. -/
def textLoop : Nat → R → Bytes → Res String (R × Bytes)
  | 0, _, _ => .diverge
  | k + 1, r, text =>
    (parse_num r.linebuf).bind fun n =>
      if n ≠ 0 then .ok (r, text)
      else if text.length + r.linebuf.length ≥ 1000 then .panic "text buffer is too small"
      else
        (loadline r).bind fun (r', more) =>
          if more then textLoop k r' (text ++ r.linebuf) else .ok (r', text ++ r.linebuf)

/-- The sign of a number for `scanf`. -/
def sign : Bytes → Bool × Bytes
  | 45 :: r => (true, r)
  | 43 :: r => (false, r)
  | r => (false, r)

/-- `%d` of `sscanf`: the number and the rest.  A number that does not fit is undefined. -/
def scanInt (s : Bytes) : Res String (Option (Int × Bytes)) :=
  let s := s.dropWhile Strings.isspace
  let (neg, s) := sign s
  let d := s.takeWhile Time.isdigit
  if d = [] then .ok none
  else
    let n : Nat := d.foldl (fun n d => 10 * n + (d.toNat - 48)) 0
    (Time.int (if neg then -(n : Int) else n)).bind fun n => .ok (some (n, s.dropWhile Time.isdigit))

/-- `%d` and then the byte `c`. -/
def scanMark (c : UInt8) (s : Bytes) : Res String (Option (Int × Bytes)) :=
  (scanInt s).bind fun x =>
    match x with
    | some (n, d :: rest) => .ok (if d = c then some (n, rest) else none)
    | _ => .ok none

/-- Lines 67-74. -/
def position (h m s ms : Int) : Res String Int :=
  (Time.int (h * 60)).bind fun v => (Time.int (v + m)).bind fun v => (Time.int (v * 60)).bind fun v => (Time.int (v + s)).bind fun v =>
    (Time.int (v * 1000)).bind fun v => (Time.int (v + ms)).bind fun v => .ok (1000 * v)

/-- `parsepos`, lib/formats/srt.c:58-75. -/
def parsepos (buf : Bytes) : Res String Int :=
  (scanMark 58 buf).bind fun h =>
    match h with
    | none => .panic "failed to parse timestamp"
    | some (h, s) =>
      (scanMark 58 s).bind fun m =>
        match m with
        | none => .panic "failed to parse timestamp"
        | some (m, s) =>
          (scanMark 44 s).bind fun sec =>
            match sec with
            | none => .panic "failed to parse timestamp"
            | some (sec, s) =>
              (scanInt s).bind fun ms =>
                match ms with
                | none => .panic "failed to parse timestamp"
                | some (ms, _) => position h m sec ms

/-- `%s` of `sscanf` into 20 bytes: the word and the rest. -/
def scanWord (s : Bytes) : Res String (Bytes × Bytes) :=
  let s := s.dropWhile Strings.isspace
  let w := s.takeWhile fun c => !Strings.isspace c
  if w.length + 1 > 20 then .panic "undefined: write outside of an array" else .ok (w, s.dropWhile fun c => !Strings.isspace c)

/-- `sscanf(b->range, "%s --> %s", sbegin, send)`, lib/formats/srt.c:49-51; the arrays are empty if there is no word for them. -/
def scanRange (range : Bytes) : Res String (Bytes × Bytes) :=
  (scanWord range).bind fun (a, s) =>
    let s := s.dropWhile Strings.isspace
    if a ≠ [] ∧ (cstr "-->").isPrefixOf s then (scanWord (s.drop 3)).bind fun (b, _) => .ok (a, b) else .ok (a, [])

/-- Lines 41-54 of `readblock`. -/
def finish (index : Int) (range text : Bytes) : Res String Block :=
  let range := Strings.trim range
  let text := Strings.trim text
  (scanRange range).bind fun (a, b) =>
    (parsepos a).bind fun x => (parsepos b).bind fun y => .ok { index, range, text, begin := x, fin := y }

/-- `readblock` from line 26 on. -/
def readLoaded (r : R) : Res String (R × Block) :=
  (parse_num r.linebuf).bind fun index =>
    (loadline r).bind fun (r, _) =>
      if r.linebuf.length + 1 > 40 then .panic "undefined: write outside of an array"
      else
        let range := r.linebuf
        (loadline r).bind fun (r, _) =>
          (textLoop (r.file.length + 1) r []).bind fun (r, text) =>
            (finish index range text).bind fun b => .ok (r, b)

/-- `readblock`, lib/formats/srt.c:17-55. -/
def readblock (r : R) : Res String (R × Option Block) :=
  if r.feof then .ok (r, none)
  else if r.line_loaded then (readLoaded r).bind fun (r, b) => .ok (r, some b)
  else
    (loadline r).bind fun (r, _) => (readLoaded { r with line_loaded := true }).bind fun (r, b) => .ok (r, some b)

/-- The loop `while (srt.readblock(&r, &b)) …`, prog/srt2jsonl/srt2jsonl.c:7-9 and prog/srtadjust/srtadjust.c:20-24: the blocks. -/
def readLoop : Nat → R → Res String (List Block)
  | 0, _ => .diverge
  | k + 1, r =>
    (readblock r).bind fun (r, b) =>
      match b with
      | none => .ok []
      | some b => (readLoop k r).bind fun bs => .ok (b :: bs)

/-- All blocks of a file. -/
def readAll (n : Nat) (file : Bytes) : Res String (List Block) := readLoop n { file, feof := false, linebuf := [], line_loaded := false }

/-- `printblock`, lib/formats/srt.c:77-86. -/
def printblock (b : Block) : Res String Bytes :=
  (Time.dur_fmt b.begin 20 .hhmmssms).bind fun (t1, _) => (Time.dur_fmt b.fin 20 .hhmmssms).bind fun (t2, _) =>
    .ok (Time.fmtInt 0 b.index ++ [10] ++ (t1 ++ cstr " --> " ++ t2 ++ [10]) ++ (b.text ++ [10]) ++ [10])

/-- The blocks printed in turn, as the loop of prog/srtadjust/srtadjust.c:20-24 does with times that stay as they are. -/
def printAll : List Block → Res String Bytes
  | [] => .ok []
  | b :: bs => (printblock b).bind fun s => (printAll bs).bind fun rest => .ok (s ++ rest)

end Che.Lib.Srt
