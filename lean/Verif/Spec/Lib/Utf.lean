import Verif.Model.Basic

/-!
What `lib/utf.c` is measured against: UTF-8 as Lean's own library defines it
(`String.utf8EncodeChar`, one Unicode scalar value at a time), strings of runes as lists,
and the reading of a case table one row after the other.
-/
namespace Che.Spec.Utf

/-- The UTF-8 text of some characters. -/
def encode (l : List Char) : List UInt8 := l.flatMap String.utf8EncodeChar

/-- The number of bytes before the first place where `c` stands in the text. -/
def before (c : Char) (l : List Char) : Nat := (encode (l.takeWhile (· ≠ c))).length

/-- A string in a buffer: its elements, then the terminator. -/
def Holds (d : List Nat) (s : List Nat) : Prop := (s ++ [0]) <+: d

/-- The order of strings of runes: the first difference decides, and a string comes after
those it begins with. -/
def order : List Nat → List Nat → Int
  | [], [] => 0
  | [], _ :: _ => -1
  | _ :: _, [] => 1
  | a :: s, b :: t => if a < b then -1 else if b < a then 1 else order s t

/-- The first row of a table with ranges that has `c` in its range. -/
def rowOf (rows : List (List Nat)) (c : Nat) : Option (List Nat) :=
  rows.find? fun r => decide (r.getD 0 0 ≤ c) && decide (c ≤ r.getD 1 0)

/-- The first row of a table with single runes that is for `c`. -/
def entryOf (rows : List (List Nat)) (c : Nat) : Option (List Nat) :=
  rows.find? fun r => decide (r.getD 0 0 = c)

end Che.Spec.Utf
