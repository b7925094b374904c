import Verif.Model.Lib.Rnd
import Verif.Model.Lib.Enc

/-!
Model of `prog/rand/rand.c`, from the values of the options to what is printed.

Parsing of the options is in `Model/Lib/Opt`.  Printing does not fail.  The array for the characters has room for all of them.
-/
namespace Che.Prog.Rand
open Che.Lib

/-- prog/rand/rand.c:4. -/
def alpha : Bytes := cstr "abcdefghijklmnopqrstuvwxyzABCDEFGHIJKLMNOPQRSTUVWXYZ1234567890"

/-- prog/rand/rand.c:5. -/
def nums : Bytes := cstr "0123456789"

/-- prog/rand/rand.c:6. -/
def special : Bytes := cstr "!\"#$%&'()*+,-./:;<=>?@[\\]^_`{|}~"

/-- `_a`, `_n` and `_s`. -/
structure Sel where
  a : Bool
  n : Bool
  s : Bool

/-- The loop for the selector, prog/rand/rand.c:24-34: what is selected, or the character that is unknown. -/
def select : Bytes → Sel → Sel ⊕ UInt8
  | [], x => .inl x
  | c :: p, x =>
    if c = 97 then select p { x with a := true }
    else if c = 110 then select p { x with n := true }
    else if c = 115 then select p { x with s := true }
    else .inr c

/-- The characters to choose from, prog/rand/rand.c:36-39. -/
def set (x : Sel) : Bytes := (if x.a then alpha else []) ++ (if x.n then nums else []) ++ (if x.s then special else [])

/-- The loop for a string, prog/rand/rand.c:44-46: the state of the generator and the characters. -/
def charLoop (set : Bytes) : Nat → UInt64 → Res String (UInt64 × Bytes)
  | 0, v => .ok (v, [])
  | len + 1, v => (Rnd.intn v (UInt32.ofNat set.length)).bind fun (v, i) => (charLoop set len v).bind fun (v, s) => .ok (v, set.getD i.toNat 0 :: s)

/-- The loop for all strings, prog/rand/rand.c:43-48. -/
def lineLoop (set : Bytes) (len : Nat) : Nat → UInt64 → Res String Bytes
  | 0, _ => .ok []
  | n + 1, v => (charLoop set len v).bind fun (v, s) => (lineLoop set len n v).bind fun out => .ok (s ++ [10] ++ out)

/-- `main` after the options, prog/rand/rand.c:21-49: what is printed to the two outputs, and the status. -/
def main (n len : Nat) (seed : UInt64) (a : Bytes) : Res String (Bytes × Bytes × Nat) :=
  match select a ⟨false, false, false⟩ with
  | .inr c => .ok ([], cstr "unknown chars selector: " ++ [c, 10], 1)
  | .inl x => (lineLoop (set x) len n (Rnd.seed seed)).bind fun out => .ok (out, [], 0)

end Che.Prog.Rand
