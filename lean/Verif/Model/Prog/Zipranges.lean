import Verif.Model.Basic
import Verif.Model.Lib.Strings
import Verif.Model.Lib.Enc

/-!
Model of `prog/zipranges/zipranges.c`.

An `int` that is too large, and an index that is not in an array, are panics that begin with "undefined".
-/
namespace Che.Prog.Zipranges
open Che Che.Lib

def isdigit (c : UInt8) : Bool := 48 ≤ c && c ≤ 57

/-- What `scanf("%d\\n", &val)` returns. -/
inductive Scan where
  | eof
  | bad
  | num (v : Int) (rest : Bytes)
deriving DecidableEq

/-- The value of digits. -/
def value (ds : Bytes) : Nat := ds.foldl (fun n c => n * 10 + (c.toNat - 48)) 0

/-- The digits of a number, after its sign, and the space that `\\n` stands for. -/
def scanDigits (sign : Int) (input : Bytes) : Scan :=
  let ds := input.takeWhile isdigit
  if ds = [] then .bad else .num (sign * value ds) ((input.dropWhile isdigit).dropWhile Strings.isspace)

/-- A number, after the space before it. -/
def scanNumber : Bytes → Scan
  | [] => .eof
  | 45 :: rest => scanDigits (-1) rest
  | 43 :: rest => scanDigits 1 rest
  | input => scanDigits 1 input

/-- `scanf("%d\\n", &val)`. -/
def scan (input : Bytes) : Scan := scanNumber (input.dropWhile Strings.isspace)

/-- The last element of an array and those before it. -/
def last : List (Int × Int) → Option (List (Int × Int) × (Int × Int))
  | [] => none
  | c :: cs => some ((c :: cs).dropLast, (c :: cs).getLast (by simp))

/-- `append`, prog/zipranges/zipranges.c:23-35; the cells up to `pos`. -/
def append (cells : List (Int × Int)) (val : Int) : Res String (List (Int × Int)) :=
  match last cells with
  | none => .ok [(val, val)]
  | some (before, (a, b)) =>
    if b + 1 > 2147483647 then .panic "undefined: int overflow"
    else if val = b + 1 then .ok (before ++ [(a, b + 1)])
    else if cells.length < 4000 then .ok (cells ++ [(val, val)]) else .panic "undefined: index out of cells"

/-- A number that `printf` writes for `%d`. -/
def decimal (v : Int) : Bytes := cstr (toString v)

/-- `out`, prog/zipranges/zipranges.c:37-42. -/
def out (cells : List (Int × Int)) : Bytes := (cells.map fun (a, b) => decimal a ++ [45] ++ decimal b ++ [32]).flatten ++ [10]

/-- `main`, prog/zipranges/zipranges.c:1-16: the status and what is written. -/
def main : Nat → Bytes → List (Int × Int) → Res String (Nat × Bytes)
  | 0, _, _ => .diverge
  | n + 1, input, cells =>
    match scan input with
    | .eof => .ok (0, out cells)
    | .bad => .ok (1, [])
    | .num v rest => if -2147483648 ≤ v ∧ v ≤ 2147483647 then (append cells v).bind fun cells => main n rest cells else .panic "undefined: number out of int"
end Che.Prog.Zipranges
