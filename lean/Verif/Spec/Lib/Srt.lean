import Verif.Spec.Lib.Time
import Verif.Spec.Lib.Vtt

/-!
What SRT files with subtitles are, and what a program should see of them.
-/
namespace Che.Spec.Srt
open Che.Lib Che.Spec.Opt Che.Spec.Time Che.Spec.Vtt

/-- `h:m:s,ms`, in milliseconds. -/
def Stamp (s : Bytes) (t : Nat) : Prop := ∃ a b c d h m sec ms, Decimal a h ∧ Decimal b m ∧ Decimal c sec ∧ Decimal d ms ∧
  s = a ++ [58] ++ b ++ [58] ++ c ++ [44] ++ d ∧ t = ((h * 60 + m) * 60 + sec) * 1000 + ms

/-- A line of text: not a number above zero, perhaps with spaces after it. -/
def TextLine (l : Bytes) : Prop := (∀ c ∈ l, c ≠ 10 ∧ c ≠ 13 ∧ c ≠ 0) ∧
  ∃ d w n, l = d ++ w ∧ Num d n ∧ Stops w ∧ n < 2 ^ 31 ∧ (n = 0 ∨ ∃ c ∈ w, ¬ Space c)

/-- Lines of text, and the text with plain line ends. -/
inductive Body : Bytes → Bytes → Prop where
  | nil : Body [] []
  | cons (l e s t : Bytes) : TextLine l → Eol e → Body s t → Body (l ++ e ++ s) (l ++ 10 :: t)

/-- Lines at the end of a file: at least one, and the last may have no line end. -/
inductive Last : Bytes → Bytes → Prop where
  | ended (s t : Bytes) : Body s t → s ≠ [] → Last s t
  | plain (s t l : Bytes) : Body s t → TextLine l → l ≠ [] → Last (s ++ l) (t ++ l)

/-- A subtitle: its number, the milliseconds when it is shown, and its text. -/
structure Sub where
  index : Nat
  first : Nat
  last : Nat
  text : Bytes
deriving DecidableEq, Repr

/-- The line with the number. -/
inductive Number : Bytes → Nat → Prop where
  | mk (i e : Bytes) (n : Nat) : Decimal i n → 0 < n → n < 2 ^ 31 → i.length ≤ 4094 → Eol e → Number (i ++ e) n

/-- The line with the times; `r` is the line without its end. -/
inductive Times : Bytes → Bytes → Nat → Nat → Prop where
  | mk (a b e : Bytes) (x y : Nat) : Stamp a x → Stamp b y → x < 2 ^ 31 → y < 2 ^ 31 → a.length ≤ 19 → b.length ≤ 19 → a.length + b.length ≤ 33 → Eol e →
      Times (a ++ cstr " --> " ++ b ++ e) (a ++ cstr " --> " ++ b) x y

/-- Subtitles after one another; the lines with the times too. -/
inductive Subs : Bytes → List (Sub × Bytes) → Prop where
  | last (i r line s t : Bytes) (b : Sub) : Number i b.index → Times r line b.first b.last → Last s t → t.length < 1000 → Trimmed t b.text →
      Subs (i ++ r ++ s) [(b, line)]
  | cons (i r line s t rest : Bytes) (b : Sub) (bs : List (Sub × Bytes)) : Number i b.index → Times r line b.first b.last → Body s t → t.length < 1000 → Trimmed t b.text →
      Subs rest bs → Subs (i ++ r ++ s ++ rest) ((b, line) :: bs)

/-- A subtitle that can be written and read again. -/
def Writable (b : Sub) : Prop := 0 < b.index ∧ b.index < 2 ^ 31 ∧ b.first < 2 ^ 31 ∧ b.last < 2 ^ 31 ∧ b.text.length < 998 ∧
  Body (b.text ++ [10]) (b.text ++ [10]) ∧ (∀ c, b.text.head? = some c → ¬ Space c) ∧ (∀ c, b.text.getLast? = some c → ¬ EndSpace c)
end Che.Spec.Srt
