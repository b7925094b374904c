import Verif.Model.Lib.Enc

/-!
What characters rand chooses from.
-/
namespace Che.Spec.Rand
open Che.Lib

def Letter (c : UInt8) : Prop := (65 ≤ c ∧ c ≤ 90) ∨ (97 ≤ c ∧ c ≤ 122)
def Digit (c : UInt8) : Prop := 48 ≤ c ∧ c ≤ 57

/-- Other visible characters of ASCII. -/
def Special (c : UInt8) : Prop := 33 ≤ c ∧ c ≤ 126 ∧ ¬ Letter c ∧ ¬ Digit c

instance : DecidablePred Letter := fun c => inferInstanceAs (Decidable ((65 ≤ c ∧ c ≤ 90) ∨ (97 ≤ c ∧ c ≤ 122)))
instance : DecidablePred Digit := fun c => inferInstanceAs (Decidable (48 ≤ c ∧ c ≤ 57))
instance : DecidablePred Special := fun c => inferInstanceAs (Decidable (33 ≤ c ∧ c ≤ 126 ∧ ¬ Letter c ∧ ¬ Digit c))

/-- A selector: the letters `a`, `n` and `s`, at least one. -/
def Selector (a : Bytes) : Prop := a ≠ [] ∧ ∀ c ∈ a, c = 97 ∨ c = 110 ∨ c = 115

/-- The characters of a selector: letters and digits for `a`, digits for `n`, others for `s`. -/
def Allowed (a : Bytes) (c : UInt8) : Prop := (97 ∈ a ∧ (Letter c ∨ Digit c)) ∨ (110 ∈ a ∧ Digit c) ∨ (115 ∈ a ∧ Special c)
end Che.Spec.Rand
