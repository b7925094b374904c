import Verif.Spec.Lib.Opt
import Verif.Model.Lib.Time

/-!
What texts of durations and times are.
-/
namespace Che.Spec.Time
open Che.Lib Che.Spec.Opt Che.Lib.Time

/-- A number written with `w` digits, or with more if they are needed. -/
def Field (w : Nat) (s : Bytes) (n : Nat) : Prop :=
  Decimal s n ∧ w ≤ s.length ∧ (w < s.length → s.head? ≠ some 48)

/-- Digits, or nothing for zero. -/
def Num (s : Bytes) (n : Nat) : Prop := s = [] ∧ n = 0 ∨ Decimal s n

/-- A text that does not go on with a digit. -/
def Stops (s : Bytes) : Prop := ∀ c, s.head? = some c → ¬ (48 ≤ c ∧ c ≤ 57)

/-- A digit: 0 to 9. -/
def Digit (c : UInt8) : Prop := 48 ≤ c ∧ c ≤ 57

/-- `m:s`, and what follows. -/
inductive Clock : Bytes → Nat → Nat → Bytes → Prop where
  | mk (a b rest : Bytes) (m s : Nat) : Decimal a m → Num b s → Stops rest → rest.head? ≠ some 58 →
      Clock (a ++ [58] ++ b ++ rest) m s rest

/-- Texts of ISO times, as they are read: whatever follows is not looked at. -/
inductive IsoText : Bytes → Iso → Prop where
  | mk (Y M D h m s tail : Bytes) (y mo d ho mi se ms zh zm : Nat) :
      Num Y y → Num M mo → Num D d → Num h ho → Num m mi → Num s se →
      ((∃ rest, tail = 90 :: rest ∧ ms = 0 ∧ zh = 0 ∧ zm = 0) ∨
       (∃ f rest, tail = 46 :: f ++ 90 :: rest ∧ Num f ms ∧ zh = 0 ∧ zm = 0) ∨
       (∃ a b rest, tail = 43 :: a ++ [58] ++ b ++ rest ∧ ms = 0 ∧ Num a zh ∧ Num b zm ∧ Stops rest) ∨
       (∃ f a b rest, tail = 46 :: f ++ 43 :: a ++ [58] ++ b ++ rest ∧ Num f ms ∧ Num a zh ∧ Num b zm ∧ Stops rest)) →
      IsoText (Y ++ [45] ++ M ++ [45] ++ D ++ [84] ++ h ++ [58] ++ m ++ [58] ++ s ++ tail) ⟨y, mo, d, ho, mi, se, ms, zh, zm⟩

/-- All numbers of a time fit an `int`. -/
def InRange (v : Iso) : Prop :=
  v.Y < 2 ^ 31 ∧ v.M < 2 ^ 31 ∧ v.D < 2 ^ 31 ∧ v.h < 2 ^ 31 ∧ v.m < 2 ^ 31 ∧ v.s < 2 ^ 31 ∧ v.ms < 2 ^ 31 ∧
    v.zh < 2 ^ 31 ∧ v.zm < 2 ^ 31
end Che.Spec.Time
