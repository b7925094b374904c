/-!
# Specification: C identifiers (C99 6.4.2.1, basic characters only)
-/
namespace Che.Spec

/-- A letter, a digit or an underscore. -/
def IdentChar (c : Char) : Prop :=
  ('a' ≤ c ∧ c ≤ 'z') ∨ ('A' ≤ c ∧ c ≤ 'Z') ∨ ('0' ≤ c ∧ c ≤ '9') ∨ c = '_'

/-- A non-empty sequence of such characters that does not start with a digit. -/
def CIdent (s : String) : Prop :=
  ∃ c cs, s.toList = c :: cs ∧ ¬ ('0' ≤ c ∧ c ≤ '9') ∧ ∀ d ∈ c :: cs, IdentChar d

end Che.Spec
