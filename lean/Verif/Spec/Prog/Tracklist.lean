import Verif.Spec.Lib.Vtt
import Verif.Spec.Lib.Opt

/-!
What lists of tracks are.
-/
namespace Che.Spec.Tracklist
open Che.Lib Che.Spec.Opt

def Blanks (s : Bytes) : Prop := ∀ c ∈ s, c = 32 ∨ c = 9
/-- The white space of C. -/
def Space (c : UInt8) : Prop := c = 32 ∨ 9 ≤ c ∧ c ≤ 13

/-- A track: its number, title, minutes and seconds. -/
structure Row where
  num : Nat
  title : Bytes
  min : Nat
  sec : Nat

/-- `01. Title   4:22`, with blanks around, and a carriage return at the end if there is one. -/
inductive Line : Row → Bytes → Prop
  | mk (b1 d b2 title b3 m s b4 cr : Bytes) (n mi se : Nat) : Blanks b1 → Decimal d n → n < 2 ^ 31 → Blanks b2 → (∀ c ∈ title, c ≠ 10 ∧ c ≠ 0) → title.length < 1000 →
      (∀ c, title.head? = some c → ¬ Space c) → (∀ c, title.getLast? = some c → ¬ Space c) → Blanks b3 → b3 ≠ [] → Decimal m mi → Decimal s se → mi * 60 + se ≤ 2147 → Blanks b4 → cr = [] ∨ cr = [13] →
      Line ⟨n, title, mi, se⟩ (b1 ++ (d ++ 46 :: (b2 ++ (title ++ (b3 ++ (m ++ 58 :: (s ++ (b4 ++ cr))))))))

/-- A line without a track. -/
def Empty (l : Bytes) : Prop := ∃ b cr, l = b ++ cr ∧ Blanks b ∧ (cr = [] ∨ cr = [13])

/-- A file: lines of tracks and empty lines, less than 4095 bytes each; the last one needs no end. -/
inductive File : List Row → Bytes → Prop
  | nil : File [] []
  | last (r : Row) (l : Bytes) : Line r l → l.length < 4095 → File [r] l
  | row (r : Row) (l : Bytes) (rs : List Row) (s : Bytes) : Line r l → l.length < 4095 → File rs s → File (r :: rs) (l ++ 10 :: s)
  | empty (l : Bytes) (rs : List Row) (s : Bytes) : Empty l → l.length < 4095 → File rs s → File rs (l ++ 10 :: s)

/-- The tracks with their positions in microseconds, each after all the tracks before it. -/
def Placed (rs : List Row) (ts : List (Int × Bytes × Int)) : Prop :=
  ts.length = rs.length ∧ ∀ i r, rs[i]? = some r → ts[i]? = some ((r.num : Int), r.title, ((((rs.take i).map fun r => (r.min * 60 + r.sec) * 1000000).sum : Nat) : Int))
end Che.Spec.Tracklist
