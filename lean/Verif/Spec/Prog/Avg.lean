import Verif.Spec.Lib.Time

/-!
What avg reads and prints.
-/
namespace Che.Spec.Avg
open Che.Lib Che.Spec.Time Che.Spec.Opt

/-- A number that fits an `int`, maybe with a minus. -/
inductive IntText : Bytes → Int → Prop where
  | pos {d : Bytes} {n : Nat} : Decimal d n → n < 2 ^ 31 → IntText d n
  | neg {d : Bytes} {n : Nat} : Decimal d n → n ≤ 2 ^ 31 → IntText (45 :: d) (-n)

/-- A line of the input with a time and a number. -/
inductive RowText : Bytes → Time.Iso × Int → Prop where
  | mk {t d : Bytes} {v : Time.Iso} {n : Int} : IsoText t v → InRange v → (∀ c ∈ t, c ≠ 0 ∧ c ≠ 9 ∧ c ≠ 10) → IntText d n → (t ++ [9] ++ d).length < 4095 →
      RowText (t ++ [9] ++ d ++ [10]) (v, n)

/-- The lines of the input with their times and numbers. -/
inductive RowTexts : Bytes → List (Time.Iso × Int) → Prop where
  | nil : RowTexts [] []
  | cons {l s : Bytes} {r rs} : RowText l r → RowTexts s rs → RowTexts (l ++ s) (r :: rs)

/-- What is printed for the window of `w` lines from the `i`-th one: the time in the middle and the average. -/
def windowLine (quot : Int → Nat → Bytes) (w : Nat) (rows : List (Time.Iso × Int)) (i : Nat) : Bytes :=
  match rows[i + w / 2]? with
  | none => []
  | some r => Time.isoText r.1 ++ [9] ++ quot (((rows.drop i).take w).map Prod.snd).sum w ++ [10]

end Che.Spec.Avg
