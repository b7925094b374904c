import Verif.Model.Prog.Trim

/-!
Files of lines, and what trimming them means.
-/
namespace Che.Prog.Trim
open Che Che.Lib

/-- A text without the space at its end. -/
def rstrip (t : Bytes) : Bytes := (t.reverse.dropWhile Strings.isspace).reverse

/-- A text of a line: no line ends in it. -/
def Text (t : Bytes) : Prop := ∀ c ∈ t, c ≠ 10 ∧ c ≠ 13

/-- The line end that is written for each kind. -/
def eol : Lf → Bytes
  | .unix => [10]
  | .win => [13, 10]
  | _ => []

/-- The kind of line end that is written. -/
def chosen (lf e : Lf) : Lf := if lf = .same then e else lf

/-- A file: lines with their ends, and what comes after them. -/
def file (ls : List (Bytes × Lf)) (last : Bytes) : Bytes := (ls.map fun l => l.1 ++ eol l.2).flatten ++ last

/-- A file that is trimmed. -/
def trimmed (lf : Lf) (ls : List (Bytes × Lf)) (last : Bytes) : Bytes :=
  (ls.map fun l => rstrip l.1 ++ eol (chosen lf l.2)).flatten ++ if last = [] then [] else rstrip last ++ eol lf

/-- Lines that end as they must and in which no byte is 255. -/
structure Plain (ls : List (Bytes × Lf)) (last : Bytes) : Prop where
  text : ∀ l ∈ ls, Text l.1 ∧ (∀ c ∈ l.1, c ≠ 255) ∧ (l.2 = .unix ∨ l.2 = .win)
  last : Text last ∧ ∀ c ∈ last, c ≠ 255
end Che.Prog.Trim
