import Verif.Model.Basic

/-!
The parts of a double.
-/
namespace Che.Spec.Floatbits


/-- The number that bytes are, the lowest one first. -/
def word : List UInt8 → Nat
  | [] => 0
  | b :: bs => b.toNat + 256 * word bs

end Che.Spec.Floatbits
