/-!
The bits of a sequence of bytes, in the two orders.
-/
namespace Che.Spec.Lib

/-- The bits of a byte, most significant first. -/
def msbFirst (b : UInt8) : List Bool := [7, 6, 5, 4, 3, 2, 1, 0].map fun i => b.toNat.testBit i

/-- The bits of a byte, least significant first. -/
def lsbFirst (b : UInt8) : List Bool := [0, 1, 2, 3, 4, 5, 6, 7].map fun i => b.toNat.testBit i

/-- The bits of a byte in the chosen order. -/
def bitsOf (lsb : Bool) (b : UInt8) : List Bool := if lsb then lsbFirst b else msbFirst b

/-- The bits of a sequence of bytes. -/
def bitString (lsb : Bool) (bs : List UInt8) : List Bool := bs.flatMap (bitsOf lsb)

/-- The number with the given bits, most significant first. -/
def bitsValue : List Bool → Nat
  | [] => 0
  | b :: bs => (if b then 1 else 0) * 2 ^ bs.length + bitsValue bs

end Che.Spec.Lib
