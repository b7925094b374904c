import Verif.Model.Lib.Bits

/-!
Model of `parse_double` and of the texts of `printfloat`, `prog/floatbits/floatbits.c`.  A double is given by its eight bytes, the lowest
one first, as on x86.
-/
namespace Che.Prog.Floatbits
open Che.Lib

/-- `parsed_double_t`, prog/floatbits/floatbits.c:50-57. -/
structure Parsed where
  bits : Bytes
  sign : UInt8
  exp_bits : Bytes
  sig_bits : Bytes
  exp : Int
  sig : UInt64
deriving DecidableEq, Repr

/-- The loop that unpacks the bits, prog/floatbits/floatbits.c:68-73. -/
def unpack (bytes : Bytes) : Bytes := bytes.flatMap Bits.getbits_lsfirst

/-- The loop of the exponent, prog/floatbits/floatbits.c:79-83, for the indexes from 51 + the first argument down to 52. -/
def expLoop (bits : Bytes) : Nat → Int → Bytes → Int × Bytes
  | 0, e, eb => (e, eb)
  | n + 1, e, eb => expLoop bits n (e * 2 + ((bits.getD (52 + n) 0).toNat : Int)) (eb.set n (bits.getD (52 + n) 0))

/-- The loop of the rest, prog/floatbits/floatbits.c:87-90, for the indexes below the first argument. -/
def sigLoop (bits : Bytes) : Nat → UInt64 → UInt64
  | 0, s => s
  | n + 1, s => sigLoop bits n (s * 2 + UInt64.ofNat (bits.getD n 0).toNat)

/-- `parse_double`, prog/floatbits/floatbits.c:59-92. -/
def parse_double (bytes : Bytes) : Parsed :=
  let bits := unpack bytes
  let (e, eb) := expLoop bits 11 0 (List.replicate 11 0)
  { bits := bits, sign := bits.getD 63 0, exp_bits := eb, sig_bits := List.replicate 52 0, exp := e - 1023, sig := sigLoop bits 52 0 }

/-- `printbits`, prog/floatbits/floatbits.c:27-35: what is in the buffer after the call, for `n` bits. -/
def printbits (buf bits : Bytes) (n : Nat) : Bytes :=
  (List.range n).map (fun i => if bits.getD i 0 = 1 then 49 else 48) ++ buf.drop n

end Che.Prog.Floatbits
