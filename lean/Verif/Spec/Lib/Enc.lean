/-!
What the encodings of `lib/enc` mean: how a reader who knows the formats, and not
the code, decodes them.
-/
namespace Che.Spec.Lib

/-- The value of a hexadecimal digit in ASCII, of either case. -/
def hexValue (c : UInt8) : Option Nat :=
  if 48 ≤ c.toNat ∧ c.toNat ≤ 57 then some (c.toNat - 48)
  else if 65 ≤ c.toNat ∧ c.toNat ≤ 70 then some (c.toNat - 65 + 10)
  else if 97 ≤ c.toNat ∧ c.toNat ≤ 102 then some (c.toNat - 97 + 10)
  else none

/-- A byte from its two hexadecimal digits. -/
def hexPair (a b : UInt8) : Option UInt8 :=
  match hexValue a, hexValue b with
  | some x, some y => some (UInt8.ofNat (16 * x + y))
  | _, _ => none

/-- Decode a text of hexadecimal digits, two for each byte. -/
def unhex : List UInt8 → Option (List UInt8)
  | [] => some []
  | a :: b :: rest =>
    match hexPair a b, unhex rest with
    | some x, some xs => some (x :: xs)
    | _, _ => none
  | [_] => none

/-- Percent-decoding (RFC 3986, 2.1): `%XY` is the byte with that value, every
other character stands for itself. -/
def unpercent : List UInt8 → Option (List UInt8)
  | [] => some []
  | c :: rest =>
    if c = 37 then
      match rest with
      | a :: b :: rest' =>
        match hexPair a b, unpercent rest' with
        | some x, some xs => some (x :: xs)
        | _, _ => none
      | _ => none
    else (unpercent rest).map (c :: ·)

/-- Letters and digits. -/
def alnum (c : UInt8) : Prop :=
  (48 ≤ c.toNat ∧ c.toNat ≤ 57) ∨ (65 ≤ c.toNat ∧ c.toNat ≤ 90) ∨ (97 ≤ c.toNat ∧ c.toNat ≤ 122)

/-- The number written with its most significant byte first. -/
def bigEndian : List UInt8 → Nat
  | [] => 0
  | b :: rest => b.toNat * 256 ^ rest.length + bigEndian rest

/-- The number written with its least significant byte first. -/
def littleEndian : List UInt8 → Nat
  | [] => 0
  | b :: rest => b.toNat + 256 * littleEndian rest

end Che.Spec.Lib
