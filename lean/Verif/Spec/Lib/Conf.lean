import Verif.Model.Basic
import Verif.Model.Lib.IO

/-!
What key-value config files are: "A line may contain up to one pair in form `key = value`.  Everything
after `#` is a comment."
-/
namespace Che.Spec.Conf
open Che.Lib

/-- A byte that is a space, but does not end a line. -/
def Blank (c : UInt8) : Prop := c = 32 ∨ c = 9 ∨ c = 11 ∨ c = 12 ∨ c = 13

/-- Nothing, or `#` and anything. -/
def Comment (s : Bytes) : Prop := s = [] ∨ ∃ t, s = 35 :: t ∧ (10 : UInt8) ∉ t

/-- A key: no byte that separates, begins a comment, ends a line or ends a string in C. -/
structure Key (s : Bytes) : Prop where
  any : s ≠ []
  bytes : ∀ c ∈ s, ¬ Blank c ∧ c ≠ 61 ∧ c ≠ 35 ∧ c ≠ 10 ∧ c ≠ 0

/-- A value: it may have anything in it but `#` and the end of a line, but neither begins nor ends with a space. -/
structure Val (s : Bytes) : Prop where
  any : s ≠ []
  bytes : ∀ c ∈ s, c ≠ 35 ∧ c ≠ 10 ∧ c ≠ 0
  first : ∀ c, s.head? = some c → ¬ Blank c
  last : ∀ c, s.getLast? = some c → ¬ Blank c

/-- A line without its newline, and the pair in it. -/
inductive Line : Bytes → Option (Bytes × Bytes) → Prop where
  | empty (b c : Bytes) : (∀ x ∈ b, Blank x) → Comment c → Line (b ++ c) none
  | pair (b key b1 b2 val b3 c : Bytes) : (∀ x ∈ b, Blank x) → Key key → (∀ x ∈ b1, Blank x) → (∀ x ∈ b2, Blank x) →
      Val val → (∀ x ∈ b3, Blank x) → Comment c → Line (b ++ key ++ b1 ++ [61] ++ b2 ++ val ++ b3 ++ c) (some (key, val))

/-- A file: its lines, of which the last one may have no newline, and the pairs in them. -/
inductive File : Bytes → List (Bytes × Bytes) → Prop where
  | last (l : Bytes) (r : Option (Bytes × Bytes)) : Line l r → File l r.toList
  | line (l : Bytes) (r : Option (Bytes × Bytes)) (s : Bytes) (rs : List (Bytes × Bytes)) : Line l r → File s rs →
      File (l ++ [10] ++ s) (r.toList ++ rs)
end Che.Spec.Conf
