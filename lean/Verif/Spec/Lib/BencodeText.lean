import Verif.Spec.Lib.Bencode

/-!
The text that `prog/bencode` shows for bencoded data.
-/
namespace Che.Spec.Lib
open Che.Lib

/-- A byte in hexadecimal, without a leading zero. -/
def hexByte (c : UInt8) : Bytes := (Nat.toDigits 16 c.toNat).map fun d => UInt8.ofNat d.toNat

/-- A printable ASCII character. -/
def Printable (c : UInt8) : Prop := 32 ≤ c.toNat ∧ c.toNat < 127

instance (c : UInt8) : Decidable (Printable c) := inferInstanceAs (Decidable (_ ∧ _))

/-- A string that is all printable is shown as it is; of another the first 22 bytes are
shown, and from 22 bytes on a number: the length without 21. -/
def shown (s : Bytes) : Bytes :=
  if ∀ c ∈ s, Printable c then s
  else
    ((s.take 22).map hexByte).flatten ++
      (if s.length < 22 then [] else [46, 46, 46] ++ decText (s.length - 21) ++ [32, 109, 111, 114, 101, 46, 46, 46])

/-- The margin of a line: "_ " for every level. -/
def margin : Nat → Bytes
  | 0 => []
  | n + 1 => 95 :: 32 :: margin n

mutual
/-- The text of a value at a level. -/
def render (lvl : Nat) : BVal → Bytes
  | .int n => decTextInt n
  | .str s => shown s
  | .list vs => [91, 10] ++ renderItems (lvl + 1) 0 vs ++ margin lvl ++ [93]
  | .dict es => [123, 10] ++ renderEntries (lvl + 1) es ++ margin lvl ++ [125]
/-- A line for every item: its number, a colon, its text, a comma unless it is the last. -/
def renderItems (lvl : Nat) (i : Nat) : List BVal → Bytes
  | [] => []
  | v :: vs =>
    margin lvl ++ decText i ++ [58, 32] ++ render lvl v ++ (if vs.isEmpty then [] else [44]) ++ [10] ++
      renderItems lvl (i + 1) vs
/-- The same for the entries of a dictionary, with their keys. -/
def renderEntries (lvl : Nat) : List (Bytes × BVal) → Bytes
  | [] => []
  | (k, v) :: es =>
    margin lvl ++ shown k ++ [58, 32] ++ render lvl v ++ (if es.isEmpty then [] else [44]) ++ [10] ++ renderEntries lvl es
end

end Che.Spec.Lib
