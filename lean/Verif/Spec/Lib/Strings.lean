/-!
What the string functions of the library should do.
-/
namespace Che.Spec.Lib

/-- The parts with the separator between them. -/
def joined (sep : List UInt8) : List (List UInt8) → List UInt8
  | [] => []
  | [p] => p
  | p :: q :: rest => p ++ sep ++ joined sep (q :: rest)

/-- The white space characters of C: space, tab, new line, vertical tab, form feed,
carriage return. -/
def whitespace : List UInt8 := [32, 9, 10, 11, 12, 13]

/-- ASCII lower case. -/
def asciiLower (c : UInt8) : UInt8 := if 0x41 ≤ c ∧ c ≤ 0x5A then c + 0x20 else c

end Che.Spec.Lib
