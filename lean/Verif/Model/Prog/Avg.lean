import Verif.Model.Lib.Vtt
import Verif.Model.Lib.Srt
import Verif.Model.Lib.Time

/-!
Model of `prog/avg/avg.c`, from the bytes of the input to what is printed.

How the quotient of a sum and the size of the window is printed is given.  Sums of doubles are taken as exact, which they are in
windows of up to 2^21 lines.  Memory is not exhausted, printing does not fail, and parsing of the arguments is not modelled.  What is
printed before a panic is left out.  A line without a tab is undefined, as then the number is read from what is left in the buffer.
-/
namespace Che.Prog.Avg
open Che.Lib

/-- `line_t`, prog/avg/avg.c:47-50: the time and the number. -/
abbrev Row := Time.Iso × Int

/-- `parse_line`, prog/avg/avg.c:52-67. -/
def parse_line (line : Bytes) : Res String Row :=
  (Time.parse_iso (line.takeWhile (· ≠ 9))).bind fun ts =>
    match line.dropWhile (· ≠ 9) with
    | [] => .panic "undefined: no second column"
    | _ :: p => (Srt.scanInt p).bind fun x =>
      match x with
      | some (n, _) => .ok (ts, n)
      | none => .ok (ts, 0)

/-- The sum of `emit`, prog/avg/avg.c:38-41. -/
def sum (window : List Row) : Int := window.foldl (fun s r => s + r.2) 0

/-- `emit`, prog/avg/avg.c:37-45, where `quot` prints quotients. -/
def emit (quot : Int → Nat → Bytes) (window : List Row) : Bytes :=
  match window[window.length / 2]? with
  | none => []
  | some r => (Time.fmt_iso_iso r.1 100).1 ++ [9] ++ quot (sum window) window.length ++ [10]

/-- The first loop of `main`, prog/avg/avg.c:17-22: the window and the rest of the input, or nothing if the input is too short. -/
def fill : Nat → Bytes → Res String (Option (List Row × Bytes))
  | 0, file => .ok (some ([], file))
  | k + 1, file =>
    if file = [] then .ok none
    else (parse_line (Vtt.str (Vtt.fgets 4095 file).1)).bind fun r =>
      (fill k (Vtt.fgets 4095 file).2).bind fun x => .ok (x.map fun y => (r :: y.1, y.2))

/-- The shift of the window, prog/avg/avg.c:28-31. -/
def shift (window : List Row) (r : Row) : List Row := window.tail ++ [r]

/-- The second loop of `main`, prog/avg/avg.c:26-33, with a bound on the rounds. -/
def slide (quot : Int → Nat → Bytes) : Nat → List Row → Bytes → Res String Bytes
  | 0, _, _ => .ok []
  | k + 1, window, file =>
    if file = [] then .ok []
    else (parse_line (Vtt.str (Vtt.fgets 4095 file).1)).bind fun r =>
      (slide quot k (shift window r) (Vtt.fgets 4095 file).2).bind fun out => .ok (emit quot (shift window r) ++ out)

/-- `main`, prog/avg/avg.c:4-35, with the size of the window. -/
def main (quot : Int → Nat → Bytes) (wsize : Nat) (file : Bytes) : Res String Bytes :=
  if wsize = 0 then .panic "undefined: empty window"
  else (fill wsize file).bind fun x =>
    match x with
    | none => .ok []
    | some (window, file) => (slide quot file.length window file).bind fun out => .ok (emit quot window ++ out)

end Che.Prog.Avg
