import Verif.Model.Lib.Enc

/-!
What datelog does: every line goes to the end of the file of its month.
-/
namespace Che.Spec.Datelog
open Che.Lib

/-- Years of four digits, and months. -/
def Month (t : Int × Int) : Prop := 1000 ≤ t.1 ∧ t.1 ≤ 9999 ∧ 1 ≤ t.2 ∧ t.2 ≤ 12

/-- A decimal digit of a number. -/
def digit (n : Int) : UInt8 := UInt8.ofNat (48 + (n % 10).toNat)

/-- The file of a month: YYYY-MM.log. -/
def fileOf (t : Int × Int) : Bytes :=
  [digit (t.1 / 1000), digit (t.1 / 100), digit (t.1 / 10), digit t.1, 45, digit (t.2 / 10), digit t.2, 46, 108, 111, 103]

/-- The lines of a month, with the month of each line by its number, beginning with a given one. -/
def linesOf (now : Nat → Int × Int) (t : Int × Int) : Nat → List Bytes → Bytes
  | _, [] => []
  | i, l :: ls => (if now i = t then l else []) ++ linesOf now t (i + 1) ls

/-- A line with its end, that fits. -/
def Line (size : Nat) (l : Bytes) : Prop := ∃ x, l = x ++ [10] ∧ (10 : UInt8) ∉ x ∧ (0 : UInt8) ∉ x ∧ l.length < size

/-- The rest after the last end of a line: nothing, or a line without its end. -/
def Last (size : Nat) (l : Bytes) : Prop := (10 : UInt8) ∉ l ∧ (0 : UInt8) ∉ l ∧ l.length < size
end Che.Spec.Datelog
