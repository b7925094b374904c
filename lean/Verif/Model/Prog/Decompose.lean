import Verif.Model.Lib.LineReader
import Verif.Model.Lib.Enc
import Verif.Model.Lib.Strings
import Verif.Model.Lib.Time

/-!
`prog/decompose/decompose.c` and `prog/noext/noext.c`: filters of text.

Simplification: what is printed is a list of bytes, and printing does not fail.  A line is the string in the buffer; reading past its zero is undefined.
`char`s that are negative are neither digits nor spaces.
-/
namespace Che.Prog.Decompose
open Che.Lib

/-- The second number, prog/decompose/decompose.c:48-51. -/
def second : Bytes → Bytes
  | 59 :: p => p.dropWhile Time.isdigit
  | p => p

/-- `termcolor`, prog/decompose/decompose.c:39-55. -/
def termcolor (p0 : Bytes) : Bytes :=
  match p0 with
  | 27 :: 91 :: p =>
    match second (p.dropWhile Time.isdigit) with
    | 109 :: p => p
    | _ => p0
  | _ => p0

/-- The name of the container, prog/decompose/decompose.c:14-18, and what follows. -/
def name (p : Bytes) : Res String (Bytes × Bytes) :=
  let w := p.takeWhile fun c => !Strings.isspace c
  let rest := p.dropWhile fun c => !Strings.isspace c
  if rest = [] then .panic "undefined: read past the end of the line"
  else if w.length ≥ 100 then .panic "undefined: write past the end of name"
  else .ok (w, rest)

/-- Line 22. -/
def bar : Bytes → Bytes
  | 124 :: p => p
  | p => p

/-- What is printed, prog/decompose/decompose.c:26-31. -/
def print (name : Bytes) : Bytes → Bytes
  | 123 :: p => cstr "{\"container\":\"" ++ name ++ cstr "\"," ++ p
  | p => cstr "[" ++ name ++ cstr "] " ++ p

/-- The body of the loop, prog/decompose/decompose.c:9-31. -/
def doline (line : Bytes) : Res String Bytes :=
  (name (termcolor line)).bind fun (name, p) =>
    .ok (print name ((termcolor (bar (p.dropWhile Strings.isspace))).dropWhile Strings.isspace))

/-- The lines in turn. -/
def dolines : List Bytes → Res String Bytes
  | [] => .ok []
  | l :: ls => (doline l).bind fun a => (dolines ls).bind fun b => .ok (a ++ b)

/-- `main`, prog/decompose/decompose.c:5-35. -/
def main (file : Bytes) : Res String Bytes := (LineReader.readAll (file.length + 2) (LineReader.new file)).bind dolines

end Che.Prog.Decompose

namespace Che.Prog.Noext
open Che.Lib

/-- The second loop of `dot`, prog/noext/noext.c:23; the zero after the string is no dot. -/
def dotLoop (s : Bytes) : Nat → Nat
  | 0 => 0
  | c + 1 => if s.getD (c + 1) 0 ≠ 46 then dotLoop s c else c + 1

/-- `dot`, prog/noext/noext.c:20-25: the place. -/
def dot (s : Bytes) : Nat := dotLoop s s.length

/-- The body of the loop, prog/noext/noext.c:4-14. -/
def doarg (s : Bytes) : Bytes := if dot s = 0 then s ++ [10] else s.take (dot s) ++ [10]

/-- `main`, prog/noext/noext.c:2-18, of the arguments. -/
def main (args : List Bytes) : Bytes := args.flatMap doarg

end Che.Prog.Noext
