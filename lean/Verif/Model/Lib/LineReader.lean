import Verif.Model.Basic
import Verif.Model.Lib.IO

/-!
Model of `lib/linereader.c`.

A file is the bytes that are left of it.  `char` is signed, as on x86.  Memory that is
allocated is there; `realloc` keeps what was in it and the rest has unknown bytes, which
the model takes to be zero: they are never read.
-/
namespace Che.Lib.LineReader
open Che.Lib

/-- `t`, lib/linereader.c:1-6, with `buf` of `bufsize` bytes. -/
structure T where
  file : Bytes
  buf : Bytes
  ended : Bool
deriving DecidableEq, Repr

/-- `new`, lib/linereader.c:9-15. -/
def new (file : Bytes) : T := { file := file, buf := List.replicate 4096 0, ended := false }

/-- `char c = fgetc(f); c == EOF`: the byte 255 is the `char` -1. -/
def isEof : Option UInt8 → Bool
  | none => true
  | some c => c = 255

/-- The loop, lib/linereader.c:24-39.  Every round takes a byte or ends. -/
def readLoop : Nat → T → Nat → Res String (T × Nat)
  | 0, _, _ => .diverge
  | n + 1, b, len =>
    let c := b.file.head?
    let b := { b with file := b.file.drop 1 }
    if isEof c then .ok ({ b with ended := true }, len)
    else
      let b := if len + 2 > b.buf.length then
          { b with buf := b.buf ++ List.replicate b.buf.length 0 }
        else b
      let ch := c.getD 0
      if len ≥ b.buf.length then .panic "undefined: store past the end of the buffer"
      else
        let b := { b with buf := b.buf.set len ch }
        if ch = 10 then .ok (b, len + 1) else readLoop n b (len + 1)

/-- `read`, lib/linereader.c:19-42. -/
def read (b : T) : Res String (T × Bool) :=
  if b.ended then .ok (b, false)
  else
    (readLoop (b.file.length + 1) b 0).bind fun (b, len) =>
      if len ≥ b.buf.length then .panic "undefined: store past the end of the buffer"
      else .ok ({ b with buf := b.buf.set len 0 }, len > 0)

/-- `line`, lib/linereader.c:45-47, as a string: the bytes before the first zero. -/
def line (b : T) : Bytes := b.buf.takeWhile (· ≠ 0)

/-- The usual loop over all lines: `while (read(b)) … line(b) …`. -/
def readAll : Nat → T → Res String (List Bytes)
  | 0, _ => .diverge
  | n + 1, b =>
    (read b).bind fun (b, more) =>
      if more then (readAll n b).bind fun ls => .ok (line b :: ls) else .ok []
end Che.Lib.LineReader
