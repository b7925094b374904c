import Verif.Model.Basic
import Verif.Model.Lib.Strings
import Verif.Model.Lib.Tokenizer

/-!
Model of `lib/formats/conf.c`.

A file is the bytes that are left of it and the flag that `feof` reads.  `char` is signed, so
that the byte 255 is `EOF`; `isspace` of the other negative characters is false, as in the C
locale of glibc.  An array is the string in it, the bytes before the first zero.  `exit(1)` after
a message is an error with the message.
-/
namespace Che.Lib.Conf
open Che.Lib

/-- `reader_t`, lib/formats/conf.c:5-10. -/
structure P where
  file : Bytes
  eof : Bool
  line : Nat
  key : Bytes
  val : Bytes
deriving DecidableEq, Repr

/-- `new`, lib/formats/conf.c:21-26. -/
def new (file : Bytes) : P := { file := file, eof := false, line := 1, key := [], val := [] }

/-- The string in an array. -/
def str (s : Bytes) : Bytes := s.takeWhile (· ≠ 0)

/-- `while (isspace(peek(p->f))) getc(p->f)`, lib/formats/conf.c:73 with `peek`, lib/formats/conf.c:12-16:
the bytes that are left and the flag.  A byte 255 is not put back. -/
def skipSpaces : Bytes → Bytes × Bool
  | [] => ([], true)
  | c :: rest =>
    if c = 255 then (rest, false)
    else if Strings.isspace c then skipSpaces rest
    else (c :: rest, false)

/-- What the loop of `next_line` leaves. -/
structure Read where
  file : Bytes
  eof : Bool
  newline : Bool
  buf : Bytes
deriving DecidableEq, Repr

/-- The loop of `next_line`, lib/formats/conf.c:75-97, for a file that has not ended: `buf` has been stored. -/
def lineLoop (bufsize : Nat) : Bytes → Bool → Bytes → Res String Read
  | [], _, buf => .ok ⟨[], true, false, buf⟩
  | c :: rest, comment, buf =>
    if c = 255 then .ok ⟨rest, false, false, buf⟩
    else if c = 35 then lineLoop bufsize rest true buf
    else if c = 10 then .ok ⟨rest, false, true, buf⟩
    else if comment then lineLoop bufsize rest comment buf
    else if buf.length + 1 ≥ bufsize then .panic "buf too small"
    else lineLoop bufsize rest comment (buf ++ [c])

/-- `next_line`, lib/formats/conf.c:67-100: the string in the buffer. -/
def next_line (p : P) (bufsize : Nat) : Res String (P × Bytes) :=
  let (file, eof) := skipSpaces p.file
  if eof then .ok ({ p with file := file, eof := true }, [])
  else
    (lineLoop bufsize file false []).bind fun r =>
      .ok ({ p with file := r.file, eof := r.eof, line := if r.newline then p.line + 1 else p.line }, str r.buf)

/-- `*ptr != '=' && *ptr != ' '`. -/
def notSep (c : UInt8) : Bool := c ≠ 61 && c ≠ 32

/-- The key and the value of a line, lib/formats/conf.c:43-58. -/
def pair (line : Bytes) : Option (Bytes × Bytes) :=
  match line.dropWhile notSep with
  | [] => none
  | _ :: rest =>
    match rest.dropWhile (!notSep ·) with
    | [] => none
    | val => some (line.takeWhile notSep, val)

/-- The loop of `next`, lib/formats/conf.c:37-64.  Every round takes a byte or reaches the end. -/
def nextLoop : Nat → P → Res String (P × Bool)
  | 0, _ => .diverge
  | n + 1, p =>
    if p.eof then .ok (p, false)
    else
      (next_line p 256).bind fun (p, line) =>
        if line = [] then nextLoop n p
        else
          match pair line with
          | none => .err ("config parse error at line " ++ toString p.line)
          | some (key, val) =>
            if key.length ≥ 100 ∨ val.length ≥ 200 then .panic "undefined: copy past the end of an array"
            else .ok ({ p with key := key, val := val }, true)

/-- `next`, lib/formats/conf.c:35-65. -/
def next (p : P) : Res String (P × Bool) := nextLoop (p.file.length + 2) p

/-- The usual loop: `while (next(p)) … p->key … p->val …`. -/
def readAll : Nat → P → Res String (List (Bytes × Bytes))
  | 0, _ => .diverge
  | n + 1, p =>
    (next p).bind fun (p, more) =>
      if more then (readAll n p).bind fun ps => .ok ((p.key, p.val) :: ps) else .ok []
end Che.Lib.Conf
