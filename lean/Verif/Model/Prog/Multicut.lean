import Verif.Model.Lib.Vtt

/-!
Model of `prog/multicut/multicut.c`, from the numbers that are the arguments and the bytes of the input to what is printed.

The numbers are given: `sscanf` of the arguments is not modelled.  Printing does not fail.
`char`s that are negative are not spaces.
-/
namespace Che.Prog.Multicut
open Che.Lib

/-- The column in front and the place after it that `sep` returns, prog/multicut/multicut.c:56-62. -/
def sep (p : Bytes) : Bytes × Bytes :=
  let w := p.takeWhile fun c => !Strings.isspace c
  match p.dropWhile fun c => !Strings.isspace c with
  | [] => (w, [])
  | _ :: r => (w, r.dropWhile Strings.isspace)

/-- The loop for the columns, prog/multicut/multicut.c:30-40, with the number of columns and a bound on the rounds: the columns, or none if there are too many. -/
def colsLoop : Nat → Nat → Bytes → Option (List Bytes)
  | 0, _, _ => none
  | k + 1, ncols, p =>
    let (w, p) := sep p
    if p = [] then some [w]
    else if ncols = 100 then none
    else (colsLoop k (ncols + 1) p).map (w :: ·)

/-- The columns of a line, prog/multicut/multicut.c:26-40. -/
def columns (line : Bytes) : Option (List Bytes) := colsLoop (line.length + 1) 1 line

/-- The loop that prints, prog/multicut/multicut.c:44-50, from one of the numbers on; `sel` are the numbers less one. -/
def printLoop (cols : List Bytes) : Nat → List Int → Bytes
  | _, [] => []
  | i, index :: sel =>
    (if i > 0 then [9] else []) ++ (if 0 ≤ index ∧ index < (cols.length : Int) then cols.getD index.toNat [] else []) ++ printLoop cols (i + 1) sel

/-- The loop for the lines, prog/multicut/multicut.c:22-52, with a bound on the rounds: what is printed, and the status. -/
def linesLoop (sel : List Int) : Nat → Bytes → Bytes × Nat
  | 0, _ => ([], 0)
  | k + 1, file =>
    if file = [] then ([], 0)
    else
      let (line, file) := Vtt.fgets 4095 file
      match columns (Vtt.str line) with
      | none => ([], 1)
      | some cols =>
        let (out, status) := linesLoop sel k file
        (printLoop cols 0 sel ++ [10] ++ out, status)

/-- `main`, prog/multicut/multicut.c:5-54: what is printed to the standard output, and the status. -/
def main (args : List Int) (file : Bytes) : Bytes × Nat :=
  if args.length > 10 then ([], 1) else linesLoop (args.map (· - 1)) file.length file

end Che.Prog.Multicut
