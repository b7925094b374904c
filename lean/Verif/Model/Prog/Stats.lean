import Verif.Model.Lib.Vtt

/-!
Model of `prog/stats/stats.c`: which values of the input are added to which series.

What `strtod` reads from a string is given: nothing, or a value and the rest.  What is printed of the series is not modelled; the
functions of `lib/stats.c` are modelled in `Model/Lib/Stats.lean`.
-/
namespace Che.Prog.Stats
open Che.Lib

variable {α : Type}

/-- The loop of `readvals`, prog/stats/stats.c:44-51, with a bound on the rounds; the array has ten cells. -/
def readLoop (strtod : Bytes → Option (α × Bytes)) : Nat → Bytes → List α → Res String (List α)
  | 0, _, vals => .ok vals
  | k + 1, p, vals =>
    match strtod p with
    | none => .ok vals
    | some (x, q) => if vals.length = 10 then .panic "undefined: more than ten values" else readLoop strtod k q (vals ++ [x])

/-- `readvals`, prog/stats/stats.c:36-53: the values, the rest of the input, and whether its end was met. -/
def readvals (strtod : Bytes → Option (α × Bytes)) (file : Bytes) : Res String (List α × Bytes × Bool) :=
  if file = [] then .ok ([], [], true)
  else
    let line := (Vtt.fgets 4095 file).1
    let rest := (Vtt.fgets 4095 file).2
    (readLoop strtod ((Vtt.str line).length + 1) (Vtt.str line) []).bind fun vals =>
      .ok (vals, rest, decide (rest = [] ∧ line.getLast? ≠ some 10 ∧ line.length < 4095))

/-- The second loop of `main`, prog/stats/stats.c:19-30, with a bound on the rounds: the series. -/
def loop (strtod : Bytes → Option (α × Bytes)) (nseries : Nat) : Nat → List (List α) → Bytes → Res String (List (List α))
  | 0, series, _ => .ok series
  | k + 1, series, file =>
    (readvals strtod file).bind fun (vals, rest, eof) =>
      if vals.length = 0 ∧ eof then .ok series
      else if vals.length ≠ nseries then .panic "expected other values"
      else loop strtod nseries k (List.zipWith (fun s v => s ++ [v]) series vals) rest

/-- `main`, prog/stats/stats.c:3-31: the series that are printed. -/
def main (strtod : Bytes → Option (α × Bytes)) (file : Bytes) : Res String (List (List α)) :=
  (readvals strtod file).bind fun (vals, rest, _) =>
    if vals.length = 0 then .panic "no values on the first line"
    else loop strtod vals.length (rest.length + 1) (vals.map fun v => [v]) rest

end Che.Prog.Stats
