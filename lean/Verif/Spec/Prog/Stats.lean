import Verif.Model.Lib.Vtt

/-!
Tables of values.
-/
namespace Che.Spec.Stats
open Che.Lib

/-- The values that are read from a text one after another, until nothing can be read. -/
inductive Values {α : Type} (strtod : Bytes → Option (α × Bytes)) : Bytes → List α → Prop where
  | nil {p : Bytes} : strtod p = none → Values strtod p []
  | cons {p q : Bytes} {x : α} {vs : List α} : strtod p = some (x, q) → q.length < p.length → Values strtod q vs → Values strtod p (x :: vs)

/-- Lines and their values. -/
inductive Rows {α : Type} (strtod : Bytes → Option (α × Bytes)) : Bytes → List (List α) → Prop where
  | nil : Rows strtod [] []
  | cons {l s : Bytes} {vs : List α} {rs : List (List α)} : (∀ c ∈ l, c ≠ 0 ∧ c ≠ 10) → l.length < 4095 → Values strtod (l ++ [10]) vs → Rows strtod s rs →
      Rows strtod (l ++ 10 :: s) (vs :: rs)

/-- A column of a table. -/
def column {α : Type} (rows : List (List α)) (j : Nat) : List α := rows.filterMap fun r => r[j]?

end Che.Spec.Stats
