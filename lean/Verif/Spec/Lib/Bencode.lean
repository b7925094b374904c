import Verif.Model.Lib.IO

/-!
Bencoding (BEP 3), independently of `lib/formats/bencode.c`.
-/
namespace Che.Spec.Lib
open Che.Lib

/-- The decimal text of a number, without leading zeros. -/
def decText (n : Nat) : Bytes :=
  if n < 10 then [UInt8.ofNat (48 + n)] else decText (n / 10) ++ [UInt8.ofNat (48 + n % 10)]
termination_by n

/-- The same with a sign. -/
def decTextInt (n : Int) : Bytes := if n < 0 then 45 :: decText n.natAbs else decText n.natAbs

/-- What can be bencoded. -/
inductive BVal
  | int (n : Int)
  | str (s : Bytes)
  | list (vs : List BVal)
  | dict (es : List (Bytes × BVal))

/-- A string: its length, a colon, its bytes. -/
def bstr (s : Bytes) : Bytes := decText s.length ++ 58 :: s

mutual
/-- The bencoded text of a value. -/
def bencode : BVal → Bytes
  | .int n => 105 :: decTextInt n ++ [101]
  | .str s => bstr s
  | .list vs => 108 :: bencodeList vs ++ [101]
  | .dict es => 100 :: bencodeEntries es ++ [101]
def bencodeList : List BVal → Bytes
  | [] => []
  | v :: vs => bencode v ++ bencodeList vs
def bencodeEntries : List (Bytes × BVal) → Bytes
  | [] => []
  | (k, v) :: es => bstr k ++ bencode v ++ bencodeEntries es
end

mutual
/-- How many lists and dictionaries stand inside one another. -/
def bdepth : BVal → Nat
  | .int _ => 0
  | .str _ => 0
  | .list vs => bdepthList vs + 1
  | .dict es => bdepthEntries es + 1
def bdepthList : List BVal → Nat
  | [] => 0
  | v :: vs => max (bdepth v) (bdepthList vs)
def bdepthEntries : List (Bytes × BVal) → Nat
  | [] => 0
  | (_, v) :: es => max (bdepth v) (bdepthEntries es)
end

mutual
/-- All integers and all strings, with those that are keys, satisfy a condition. -/
def BVal.All (I : Int → Prop) (S : Bytes → Prop) (K : Bytes → Prop) : BVal → Prop
  | .int n => I n
  | .str s => S s
  | .list vs => AllList I S K vs
  | .dict es => AllEntries I S K es
def AllList (I : Int → Prop) (S : Bytes → Prop) (K : Bytes → Prop) : List BVal → Prop
  | [] => True
  | v :: vs => v.All I S K ∧ AllList I S K vs
def AllEntries (I : Int → Prop) (S : Bytes → Prop) (K : Bytes → Prop) : List (Bytes × BVal) → Prop
  | [] => True
  | (k, v) :: es => K k ∧ v.All I S K ∧ AllEntries I S K es
end

end Che.Spec.Lib
