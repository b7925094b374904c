import Verif.Model.Basic
import Verif.Model.Lib.Rnd

/-!
Model of `lib/stats.c`, without the functions that add doubles (`sum`, `avg`, `sd`, `normalize`).

Doubles are only compared here: a double is the number of its place in the order of all doubles, 0 for 0.0.  There is no NaN.  That memory cannot be
allocated is not modelled.  A read past the end of an array is a panic that begins with "undefined".
-/
namespace Che.Lib.Stats
open Che

/-- `series_t`, lib/stats.c:3-12.  `cap` is only used for the memory. -/
structure Series where
  values : List Int
  sorted : Option (List Int)
  min : Int
  max : Int
deriving DecidableEq

/-- `newseries`, lib/stats.c:14-16. -/
def newseries : Series := ⟨[], none, 0, 0⟩

/-- `add`, lib/stats.c:26-47. -/
def add (s : Series) (val : Int) : Series :=
  { values := s.values ++ [val],
    sorted := none,
    min := if s.values.length = 0 ∨ val < s.min then val else s.min,
    max := if s.values.length = 0 ∨ val > s.max then val else s.max }

/-- `count`, lib/stats.c:52-54. -/
def count (s : Series) : Nat := s.values.length

/-- A `size_t` that is cast to `int`. -/
def toInt (n : Nat) : Int := if n % 2 ^ 32 < 2 ^ 31 then (n % 2 ^ 32 : Nat) else ((n % 2 ^ 32 : Nat) : Int) - 2 ^ 32

/-- The sorted values, lib/stats.c:95-102: `qsort` sorts them. -/
def sortedValues (s : Series) : List Int :=
  match s.sorted with
  | some l => l
  | none => s.values.mergeSort fun a b => decide (a ≤ b)

/-- `percentile`, lib/stats.c:91-105. -/
def percentile (s : Series) (p : Int) : Series × Res String Int :=
  if p < 0 ∨ p > 100 then (s, .ok 0)
  else
    let l := sortedValues s
    let i := toInt (s.values.length * p.toNat % 2 ^ 64 / 100)
    ({ s with sorted := some l }, if i < 0 then .panic "undefined: index out of the values" else Res.ofOption "undefined: index out of the values" l[i.toNat]?)

/-- `median`, lib/stats.c:107-109. -/
def median (s : Series) : Series × Res String Int := percentile s 50

/-- The loop of `sample_from_distribution` that finds the number, lib/stats.c:157-163. -/
def sampleFor (x : UInt64) : List UInt64 → Nat → UInt64 → Option Nat
  | [], _, _ => none
  | f :: fs, i, cdf => if cdf + f > x then some i else sampleFor x fs (i + 1) (cdf + f)

/-- `sample_from_distribution`, lib/stats.c:147-166, with the state of the random numbers.  A list has fewer than 2^31 elements. -/
def sample_from_distribution (v : UInt64) (freqs : List UInt64) : Res String (UInt64 × Nat) :=
  let sum := freqs.foldl (· + ·) 0
  (Rnd.intn v sum.toUInt32).bind fun (v, x) =>
  match sampleFor x.toUInt64 freqs 0 0 with
  | some r => .ok (v, r)
  | none => .panic "oopsie, couldn't choose"
end Che.Lib.Stats
