import Verif.Model.Basic
import Verif.Model.Lib.IO

/-!
Model of `lib/table.c`.

`vsnprintf` is not modelled: `pushval` is given the text.  The values are the strings
pushed; the array `values` always has room for them when `ncols > 0`: 100 · ncols pointers
at first, and 100 tables' worth of bytes for every further 100 of them.
-/
namespace Che.Lib.Table
open Che.Lib

/-- `table_t`, lib/table.c:1-6: the values up to `pos`. -/
structure T where
  ncols : Nat
  values : List Bytes
deriving DecidableEq, Repr

/-- `new`, lib/table.c:8-14. -/
def new (ncols : Nat) : T := { ncols := ncols, values := [] }

/-- `pushval`, lib/table.c:16-36. -/
def pushval (t : T) (s : Bytes) : T := { t with values := t.values ++ [s] }

/-- The first loop of `print`, lib/table.c:41-47: `i` values have been seen. -/
def widthsLoop (ncols : Nat) : Nat → List Bytes → List Nat → List Nat
  | _, [], ws => ws
  | i, v :: rest, ws =>
    let col := i % ncols
    widthsLoop ncols (i + 1) rest (if v.length > ws.getD col 0 then ws.set col (v.length + 2) else ws)

/-- The first loop of `printwidth`, lib/table.c:70-75: what is put out, and `n`. -/
def putLoop (w : Nat) : Bytes → Nat → Bytes × Nat
  | [], n => ([], n)
  | c :: s, n => if n + 1 = w then ([c], n + 1) else ((c :: (putLoop w s (n + 1)).1), (putLoop w s (n + 1)).2)

/-- `printwidth`, lib/table.c:68-80. -/
def printwidth (s : Bytes) (w : Nat) : Bytes :=
  let (out, n) := putLoop w s 0
  out ++ List.replicate (w - n) 32

/-- The second loop of `print`, lib/table.c:49-55. -/
def printLoop (ncols : Nat) (ws : List Nat) : Nat → List Bytes → Bytes
  | _, [] => []
  | i, v :: rest =>
    let col := i % ncols
    printwidth v (ws.getD col 0) ++ (if col = ncols - 1 then [10] else []) ++ printLoop ncols ws (i + 1) rest

/-- `print`, lib/table.c:38-58.  `i % 0` is undefined. -/
def print (t : T) : Res String Bytes :=
  if t.ncols = 0 ∧ t.values ≠ [] then .panic "undefined: remainder by zero"
  else
    let ws := widthsLoop t.ncols 0 t.values (List.replicate t.ncols 0)
    .ok (printLoop t.ncols ws 0 t.values)
end Che.Lib.Table
