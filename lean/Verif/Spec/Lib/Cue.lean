import Verif.Spec.Lib.Opt
import Verif.Model.Lib.Enc

/-!
What cue sheets are, and the tracks that they describe.
-/
namespace Che.Spec.Cue
open Che.Lib Che.Spec.Opt

/-- What a line says. -/
inductive Entry
  | other
  | title (s : Bytes)
  | track
  | index (min sec frames : Nat)

def Blanks (s : Bytes) : Prop := ∀ c ∈ s, c = 32 ∨ c = 9
/-- A text that does not begin with a blank. -/
def Solid (s : Bytes) : Prop := ∀ c, s.head? = some c → c ≠ 32 ∧ c ≠ 9
/-- A text that does not begin with a digit. -/
def NoDigit (s : Bytes) : Prop := ∀ c, s.head? = some c → ¬ (48 ≤ c ∧ c ≤ 57)

/-- What is after the keyword and blanks. -/
inductive Data : Bytes → Entry → Bytes → Prop
  | rem (x : Bytes) : Solid x → 10 ∉ x → x.length < 1000 → Data (cstr "REM") .other x
  | performer (q cr : Bytes) : 34 ∉ q → q.length < 100 → cr = [] ∨ cr = [13] → Data (cstr "PERFORMER") .other (34 :: q ++ 34 :: cr)
  | title (q cr : Bytes) : 34 ∉ q → q.length < 100 → cr = [] ∨ cr = [13] → Data (cstr "TITLE") (.title q) (34 :: q ++ 34 :: cr)
  | file (q bl k : Bytes) : 34 ∉ q → q.length < 100 → Blanks bl → Solid k → 10 ∉ k → k.length < 20 → Data (cstr "FILE") .other (34 :: q ++ 34 :: (bl ++ k))
  | track (d bl k : Bytes) (n : Nat) : Decimal d n → n < 2 ^ 31 → Blanks bl → Solid k → NoDigit (bl ++ k) → 10 ∉ k → k.length < 20 → Data (cstr "TRACK") .track (d ++ (bl ++ k))
  | index (d bl a b c tail : Bytes) (n m s f : Nat) : Decimal d n → n < 2 → Blanks bl → bl ≠ [] → Decimal a m → Decimal b s → Decimal c f → 60 * m + s + f < 2 ^ 31 → NoDigit tail → 10 ∉ tail →
      (d ++ (bl ++ (a ++ 58 :: (b ++ 58 :: (c ++ tail))))).length < 299 → Data (cstr "INDEX") (.index m s f) (d ++ (bl ++ (a ++ 58 :: (b ++ 58 :: (c ++ tail)))))

/-- A line without its end. -/
inductive Line : Entry → Bytes → Prop
  | mk (b1 key b2 x : Bytes) (e : Entry) : Blanks b1 → Blanks b2 → Data key e x → Line e (b1 ++ (key ++ 32 :: (b2 ++ x)))

/-- A sheet: lines with ends; the last one needs none. -/
inductive Sheet : List Entry → Bytes → Prop
  | nil : Sheet [] []
  | last (e : Entry) (l : Bytes) : Line e l → Sheet [e] l
  | cons (e : Entry) (l : Bytes) (es : List Entry) (s : Bytes) : Line e l → Sheet es s → Sheet (e :: es) (l ++ 10 :: s)

/-- The tracks with their titles and positions in microseconds, the last one first. -/
def tracks : List Entry → List (Bytes × Nat) → Option (List (Bytes × Nat))
  | [], ts => some ts
  | .other :: es, ts => tracks es ts
  | .title s :: es, (_, p) :: ts => tracks es ((s, p) :: ts)
  | .title _ :: es, [] => tracks es []
  | .track :: es, ts => if ts.length < 100 then tracks es (([], 0) :: ts) else none
  | .index m s f :: es, (t, _) :: ts => tracks es ((t, (60 * m + s + f / 75) * 1000000) :: ts)
  | .index .. :: _, [] => none
end Che.Spec.Cue
