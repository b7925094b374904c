import Verif.Model.Lib.Vtt
import Verif.Model.Lib.Time

/-!
Model of `prog/datelog/datelog.c`, from the bytes of the input and the times to the files and what is printed.

Whether the n-th call of `dlog_put` can open its file and write to it, and what time it is, is given; a write that fails writes nothing.
Printing does not fail.  Parsing of the arguments is not modelled.
-/
namespace Che.Prog.Datelog
open Che.Lib

/-- What the n-th call of `dlog_put` meets: the year and the month, whether a file can be opened, whether the line can be written. -/
structure World where
  now : Nat → Int × Int
  opens : Nat → Bool
  puts : Nat → Bool

/-- `dlog_t`, prog/datelog/datelog.c:31-35; `fp` is the path of the file that is open. -/
structure Log where
  current : Bytes
  fp : Option Bytes

/-- The contents of the files. -/
abbrev Files := Bytes → Bytes

/-- Adding to the end of a file. -/
def append (files : Files) (path line : Bytes) : Files := fun p => if p = path then files p ++ line else files p

/-- The name of the file, prog/datelog/datelog.c:58. -/
def name (t : Int × Int) : Bytes := Time.fmtInt 0 t.1 ++ [45] ++ Time.fmtInt 2 t.2 ++ cstr ".log"

/-- The end of `dlog_put`, prog/datelog/datelog.c:71-74, with the path of the open file. -/
def fputs (w : World) (i : Nat) (log : Log) (path : Bytes) (files : Files) (line : Bytes) : Log × Files × Nat :=
  if w.puts i then (log, append files path line, 0) else (log, files, 2)

/-- Opening of a new file, prog/datelog/datelog.c:62-69, and the rest of `dlog_put`. -/
def reopen (w : World) (i : Nat) (files : Files) (line : Bytes) : Log × Files × Nat :=
  let new := name (w.now i)
  if w.opens i then fputs w i { current := new, fp := some new } new files line
  else ({ current := new, fp := none }, files, 1)

/-- `dlog_put`, prog/datelog/datelog.c:56-75: the log, the files and the error, if not 0. -/
def dlog_put (w : World) (i : Nat) (log : Log) (files : Files) (line : Bytes) : Log × Files × Nat :=
  match log.fp with
  | none => reopen w i files line
  | some path => if name (w.now i) ≠ log.current then reopen w i files line else fputs w i log path files line

/-- The loop of `main`, prog/datelog/datelog.c:18-26, with a bound on the rounds and the size of the buffer: the files, what is printed, and the status. -/
def loop (w : World) (bufsiz : Nat) (output : Bool) : Nat → Nat → Log → Files → Bytes → Files × Bytes × Nat
  | 0, _, _, files, _ => (files, [], 0)
  | k + 1, i, log, files, file =>
    if file = [] then (files, [], 0)
    else
      let (buf, file) := Vtt.fgets (bufsiz - 1) file
      let out := if output then Vtt.str buf else []
      match dlog_put w i log files (Vtt.str buf) with
      | (log, files, 0) =>
        let (files, out', status) := loop w bufsiz output k (i + 1) log files file
        (files, out ++ out', status)
      | (_, files, _) => (files, out, 1)

/-- `main`, prog/datelog/datelog.c:6-29. -/
def main (w : World) (bufsiz : Nat) (output : Bool) (files : Files) (file : Bytes) : Files × Bytes × Nat :=
  loop w bufsiz output file.length 0 { current := [], fp := none } files file

end Che.Prog.Datelog
