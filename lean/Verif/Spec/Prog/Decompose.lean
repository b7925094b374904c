import Verif.Spec.Lib.Opt
import Verif.Model.Lib.Enc

/-!
The lines of docker-compose.
-/
namespace Che.Spec.Decompose
open Che.Lib

def Digits (s : Bytes) : Prop := ∀ c ∈ s, 48 ≤ c ∧ c ≤ 57
/-- The white space of C. -/
def Space (c : UInt8) : Prop := c = 32 ∨ 9 ≤ c ∧ c ≤ 13

/-- `ESC[36m` or `ESC[36;1m`, or nothing. -/
inductive Color : Bytes → Prop
  | none : Color []
  | one (a : Bytes) : Digits a → Color (27 :: 91 :: (a ++ [109]))
  | two (a b : Bytes) : Digits a → Digits b → Color (27 :: 91 :: (a ++ 59 :: (b ++ [109])))

/-- A line with the name of a container and a message, which has the end of the line if there is one. -/
inductive Line : Bytes → Bytes → Bytes → Prop
  | mk (c1 name b1 c2 b2 msg : Bytes) : Color c1 → (∀ c ∈ name, ¬ Space c ∧ c ≠ 27) → (∀ c ∈ b1, Space c) → b1 ≠ [] → Color c2 → (∀ c ∈ b2, Space c) →
      (∀ c, msg.head? = some c → ¬ Space c ∧ c ≠ 27) → Line name msg (c1 ++ (name ++ (b1 ++ 124 :: (c2 ++ (b2 ++ msg)))))
end Che.Spec.Decompose
