import Verif.Model.Lib.Enc

/-!
Numbers in a text, and ranges of numbers.
-/
namespace Che.Prog.Zipranges
open Che Che.Lib

/-- Bytes between numbers. -/
def Space (c : UInt8) : Prop := c = 32 ∨ 9 ≤ c ∧ c ≤ 13

/-- Digits and their value. -/
inductive Digits : Bytes → Nat → Prop
  | one {d : Nat} : d < 10 → Digits [UInt8.ofNat (48 + d)] d
  | more {ds : Bytes} {n d : Nat} : Digits ds n → d < 10 → Digits (ds ++ [UInt8.ofNat (48 + d)]) (n * 10 + d)

/-- A number that may have a sign. -/
inductive Number : Bytes → Int → Prop
  | plain {ds : Bytes} {n : Nat} : Digits ds n → Number ds n
  | plus {ds : Bytes} {n : Nat} : Digits ds n → Number (43 :: ds) n
  | minus {ds : Bytes} {n : Nat} : Digits ds n → Number (45 :: ds) (-n)

/-- A text of numbers with space between them. -/
inductive Numbers : Bytes → List Int → Prop
  | none {w : Bytes} : (∀ c ∈ w, Space c) → Numbers w []
  | last {w t : Bytes} {v : Int} : (∀ c ∈ w, Space c) → Number t v → Numbers (w ++ t) [v]
  | more {w t : Bytes} {v : Int} {c : UInt8} {rest : Bytes} {vs : List Int} : (∀ c ∈ w, Space c) → Number t v → Space c → Numbers rest vs → Numbers (w ++ (t ++ c :: rest)) (v :: vs)

/-- The numbers of a range. -/
def expand (r : Int × Int) : List Int := (List.range (r.2 - r.1 + 1).toNat).map fun k : Nat => r.1 + k

/-- Ranges for numbers: each has one number or more, and no two that follow each other could be one. -/
inductive Ranges : List (Int × Int) → List Int → Prop
  | none : Ranges [] []
  | one {r : Int × Int} : r.1 ≤ r.2 → Ranges [r] (expand r)
  | more {r s : Int × Int} {rs : List (Int × Int)} {vs : List Int} : r.1 ≤ r.2 → s.1 ≠ r.2 + 1 → Ranges (s :: rs) vs → Ranges (r :: s :: rs) (expand r ++ vs)
end Che.Prog.Zipranges
