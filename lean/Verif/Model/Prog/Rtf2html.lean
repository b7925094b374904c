import Verif.Model.Basic
import Verif.Model.Lib.IO
import Verif.Model.Lib.Enc

/-!
Model of `prog/rtf2html/rtf2html.c`, from the bytes of the file to what is printed.

The tokenizer is the bytes that are left (`lib/tokenizer.c` has a model of its own); loops that take characters of a kind are `takeWhile` and `dropWhile`.
Printing does not fail.  A control word that does not fit its buffer is a panic that begins with "undefined".
-/
namespace Che.Prog.Rtf
open Che.Lib

/-- The style, prog/rtf2html/rtf2html.c:3-5. -/
structure Style where
  align : Nat
  fontsize : Nat
  font : Nat
deriving DecidableEq, Repr

/-- The variables of the program, prog/rtf2html/rtf2html.c:3-13, and what was printed. -/
structure S where
  style : Style
  doc_started : Bool
  par_started : Bool
  style_started : Bool
  out : Bytes
deriving DecidableEq, Repr

/-- `isspace` in the C locale. -/
def isspace (c : UInt8) : Bool := c == 32 || (9 ≤ c && c ≤ 13)

/-- `isdigit`. -/
def isdigit (c : UInt8) : Bool := 48 ≤ c && c ≤ 57

/-- `isalnum` in the C locale. -/
def isalnum (c : UInt8) : Bool := isdigit c || (65 ≤ c && c ≤ 90) || (97 ≤ c && c ≤ 122)

/-- `has_styles`, prog/rtf2html/rtf2html.c:15-17. -/
def has_styles (s : Style) : Bool := s.align != 0 || s.fontsize != 0 || s.font != 0

/-- Printing of a number. -/
def dec (n : Nat) : Bytes := cstr (toString n)

/-- What starts a style, prog/rtf2html/rtf2html.c:32-42; sizes are even (`control`), so `%g` prints a whole number. -/
def span (s : Style) : Bytes :=
  cstr "<span style=\"" ++
  (if s.align ≠ 0 then cstr "display:block;text-align:" ++ (if s.align = 1 then cstr "center" else cstr "left") ++ cstr ";" else []) ++
  (if s.fontsize ≠ 0 then cstr "font-size:" ++ dec (s.fontsize / 2) ++ cstr "pt;" else []) ++
  (if s.font ≠ 0 then cstr "font-family:" ++ dec s.font ++ cstr ";" else []) ++ cstr "\">"

/-- `printf`. -/
def S.print (s : S) (b : Bytes) : S := { s with out := s.out ++ b }

/-- The start of the document, prog/rtf2html/rtf2html.c:23-26. -/
def startDoc (s : S) : S := if s.doc_started then s else { s.print (cstr "<!DOCTYPE html>\n<html>\n<head></head>\n<body>\n") with doc_started := true }

/-- The start of a paragraph, prog/rtf2html/rtf2html.c:27-30. -/
def startPar (s : S) : S := if s.par_started then s else { s.print (cstr "<p>") with par_started := true }

/-- The start of a style, prog/rtf2html/rtf2html.c:31-44. -/
def startStyle (s : S) : S := if !s.style_started && has_styles s.style then { s.print (span s.style) with style_started := true } else s

/-- `addchar`, prog/rtf2html/rtf2html.c:19-46. -/
def addchar (s : S) (c : UInt8) : S := if !s.par_started && isspace c then s else (startStyle (startPar (startDoc s))).print [c]

/-- `lwrite`, prog/rtf2html/rtf2html.c:48-50. -/
def lwrite (s : S) (b : Bytes) : S := b.foldl addchar s

/-- The end of a style, prog/rtf2html/rtf2html.c:53-56 and 69-72. -/
def endStyle (s : S) : S := if s.style_started then { s.print (cstr "</span>") with style_started := false } else s

/-- `setstyle`, prog/rtf2html/rtf2html.c:52-58, with the change of the style. -/
def setstyle (s : S) (f : Style → Style) : S := let s := endStyle s; { s with style := f s.style }

/-- `resetstyles`, prog/rtf2html/rtf2html.c:60-64. -/
def resetstyles (s : S) : S :=
  setstyle (setstyle (setstyle s fun t => { t with align := 0 }) fun t => { t with fontsize := 0 }) fun t => { t with font := 0 }

/-- `par`, prog/rtf2html/rtf2html.c:68-77. -/
def par (s : S) : S :=
  let s := endStyle s
  if s.par_started then { s.print (cstr "</p>\n\n") with par_started := false } else s

/-- `expect`, prog/rtf2html/rtf2html.c:174-179: what is left. -/
def expect (c : UInt8) : Bytes → Res String Bytes
  | x :: r => if x = c then .ok r else .panic "expected"
  | [] => .panic "expected"

/-- The part of a control word after a minus, prog/rtf2html/rtf2html.c:167-170: the word and what is left. -/
def minus (w : Bytes) : Bytes → Bytes × Bytes
  | 45 :: r => (w ++ [45] ++ r.takeWhile isdigit, r.dropWhile isdigit)
  | r => (w, r)

/-- `read_control`, prog/rtf2html/rtf2html.c:161-172, with a buffer of 20 bytes: the word and what is left. -/
def read_control (inp : Bytes) : Res String (Bytes × Bytes) :=
  (expect 92 inp).bind fun r =>
    let (w, r) := minus (r.takeWhile isalnum) (r.dropWhile isalnum)
    if w.length ≥ 20 then .panic "undefined: control word does not fit" else .ok (w, r.dropWhile isspace)

/-- `expect_control`, prog/rtf2html/rtf2html.c:181-187. -/
def expect_control (w : String) (inp : Bytes) : Res String Bytes :=
  (read_control inp).bind fun (v, r) => if v = cstr w then .ok r else .panic "expected"

/-- `tokenizer.read_until` for the name of a font, lib/tokenizer.c:294-304, with a buffer of 100 bytes: what is left. -/
def read_font (inp : Bytes) : Bytes := inp.drop (min 99 (inp.takeWhile fun c => c != 59).length)

/-- `fonttbl`, prog/rtf2html/rtf2html.c:148-157. -/
def fonttbl (inp : Bytes) : Res String Bytes :=
  (expect 123 inp).bind fun r => (expect_control "f0" r).bind fun r => (expect_control "fnil" r).bind fun r =>
    (expect_control "fcharset0" r).bind fun r => (expect 59 (read_font r)).bind fun r => expect 125 r

/-- `deflang`, prog/rtf2html/rtf2html.c:141-146. -/
def deflang (inp : Bytes) : Res String Bytes :=
  (expect 123 inp).bind fun r => (expect_control "fonttbl" r).bind fun r => (fonttbl r).bind fun r => expect 125 r

/-- The control words that are skipped, prog/rtf2html/rtf2html.c:128-136. -/
def skipped : List Bytes :=
  [cstr "ansi", cstr "ansicpg1252", cstr "deff0", cstr "fi360", cstr "ri-1800", cstr "rtf1", cstr "uc1", cstr "viewkind4"]

/-- The switch of `control`, prog/rtf2html/rtf2html.c:118-138: what is left and the state. -/
def action (w inp : Bytes) (s : S) : Res String (Bytes × S) :=
  if w = cstr "par" then .ok (inp, par s)
  else if w = cstr "pard" then .ok (inp, resetstyles s)
  else if w = cstr "qc" then .ok (inp, setstyle s fun t => { t with align := 1 })
  else if w = cstr "ldblquote" then .ok (inp, lwrite s (cstr "&ldquo;"))
  else if w = cstr "rdblquote" then .ok (inp, lwrite s (cstr "&rdquo; "))
  else if w = cstr "fs20" then .ok (inp, setstyle s fun t => { t with fontsize := 20 })
  else if w = cstr "fs30" then .ok (inp, setstyle s fun t => { t with fontsize := 30 })
  else if w = cstr "deflang1033" then (deflang inp).bind fun r => .ok (r, s)
  else if w = cstr "f0" then .ok (inp, setstyle s fun t => { t with font := 0 })
  else if w ∈ skipped then .ok (inp, s)
  else .panic "unknown control"

/-- `control`, prog/rtf2html/rtf2html.c:115-139. -/
def control (inp : Bytes) (s : S) : Res String (Bytes × S) := (read_control inp).bind fun (w, r) => action w r s

/-- The loop of `body`, prog/rtf2html/rtf2html.c:99-108, with a bound on the number of rounds. -/
def bodyLoop : Nat → Bytes → S → Res String (Bytes × S)
  | 0, _, _ => .diverge
  | _ + 1, [], s => .ok ([], s)
  | k + 1, c :: r, s =>
    if c = 125 then .ok (c :: r, s)
    else if c = 92 then (control (c :: r) s).bind fun (r, s) => bodyLoop k r s
    else bodyLoop k r (addchar s c)

/-- The state at the start. -/
def init : S := { style := ⟨0, 0, 0⟩, doc_started := false, par_started := false, style_started := false, out := [] }

/-- `body`, prog/rtf2html/rtf2html.c:97-113: what is printed. -/
def body (inp : Bytes) : Res String Bytes :=
  (expect 123 inp).bind fun r => (bodyLoop (r.length + 1) r init).bind fun (r, s) =>
    (expect 125 r).bind fun _ => .ok (if s.doc_started then s.out ++ cstr "</body>\n</html>\n" else s.out)

end Che.Prog.Rtf
