import Verif.Model.Basic
import Verif.Model.Lib.Rnd

/-!
Model of the sorting of `prog/sort-circle/sort-circle.c`.

`array` is a list, and `global_N` is its length.  What is drawn and heard, with the array `swaps` for it, is not modelled: it does not change the array.
An index that is not in the array is a panic that begins with "undefined".
-/
namespace Che.Prog.SortCircle
open Che

/-- `a[i]`. -/
def get (a : List Int) (i : Nat) : Res String Int :=
  match a[i]? with
  | some x => .ok x
  | none => .panic "undefined: index out of the array"

/-- `swap`, prog/sort-circle/sort-circle.c:249-255. -/
def swap (a : List Int) (i j : Nat) : Res String (List Int) :=
  (get a i).bind fun tmp => (get a j).bind fun y => .ok ((a.set i y).set j tmp)

/-- The comparison of two values, after which they are swapped: lines 262-265, 276-279, 282-285, 356-359, 362-365. -/
def order (key : Int → Int) (i j : Nat) (a : List Int) (c : Bool) : Res String (List Int × Bool) :=
  (get a i).bind fun x => (get a j).bind fun y =>
  if key x > key y then (swap a i j).bind fun a => .ok (a, true) else .ok (a, c)

/-- The loop of `sort_bubble` over the array, lines 261-266. -/
def bubbleFor : Nat → Nat → List Int → Bool → Res String (List Int × Bool)
  | 0, _, a, c => .ok (a, c)
  | k + 1, i, a, c => if i < a.length then (order id (i - 1) i a c).bind fun (a, c) => bubbleFor k (i + 1) a c else .ok (a, c)

/-- `sort_bubble`, prog/sort-circle/sort-circle.c:257-270. -/
def bubble : Nat → List Int → Res String (List Int)
  | 0, _ => .diverge
  | n + 1, a => (bubbleFor a.length 1 a false).bind fun (a, c) => if !c then .ok a else bubble n a

/-- A loop over every other pair of neighbours, lines 275-280, 281-286, 355-360, 361-366. -/
def pairsFor (key : Int → Int) : Nat → Nat → List Int → Bool → Res String (List Int × Bool)
  | 0, _, a, c => .ok (a, c)
  | k + 1, i, a, c => if i + 1 < a.length then (order key i (i + 1) a c).bind fun (a, c) => pairsFor key k (i + 2) a c else .ok (a, c)

/-- Both loops. -/
def oddEvenRound (key : Int → Int) (a : List Int) : Res String (List Int × Bool) :=
  (pairsFor key a.length 1 a false).bind fun (a, c) => pairsFor key a.length 0 a c

/-- `sort_odd_even`, prog/sort-circle/sort-circle.c:272-291. -/
def oddEven : Nat → List Int → Res String (List Int)
  | 0, _ => .diverge
  | n + 1, a => (oddEvenRound id a).bind fun (a, c) => if !c then .ok a else oddEven n a

/-- The inner loop of `sort_insertion`, lines 295-297. -/
def insertFor : Nat → List Int → Res String (List Int)
  | 0, a => .ok a
  | j + 1, a => (get a j).bind fun x => (get a (j + 1)).bind fun y =>
    if x > y then (swap a (j + 1) j).bind fun a => insertFor j a else .ok a

/-- `sort_insertion`, prog/sort-circle/sort-circle.c:293-300. -/
def insertion : Nat → Nat → List Int → Res String (List Int)
  | 0, _, a => .ok a
  | k + 1, i, a => if i < a.length then (insertFor i a).bind fun a => insertion k (i + 1) a else .ok a

/-- The first lines of `sort_stoogesort`, lines 304-308. -/
def ends (a : List Int) (i j : Nat) : Res String (List Int) :=
  (get a i).bind fun x => (get a j).bind fun y => if x > y then swap a i j else .ok a

/-- `sort_stoogesort`, prog/sort-circle/sort-circle.c:302-315. -/
def stooge : Nat → List Int → Nat → Nat → Res String (List Int)
  | 0, _, _, _ => .diverge
  | n + 1, a, i, j =>
    (ends a i j).bind fun a =>
    if j - i + 1 > 2 then
      let t := (j - i + 1) / 3
      (stooge n a i (j - t)).bind fun a => (stooge n a (i + t) j).bind fun a => stooge n a i (j - t)
    else .ok a

/-- The loop of `sort_quicksort`, lines 321-329, for the part of the array that begins at `o`: the array and `high`. -/
def partition : Nat → List Int → Nat → Nat → Nat → Res String (List Int × Nat)
  | 0, a, _, _, high => .ok (a, high)
  | k + 1, a, o, i, high =>
    if i < high then
      (get a o).bind fun x => (get a (o + i)).bind fun y =>
      if x < y then (swap a (o + i) (o + (high - 1))).bind fun a => partition k a o i (high - 1)
      else partition k a o (i + 1) high
    else .ok (a, high)

/-- `sort_quicksort`, prog/sort-circle/sort-circle.c:317-335, for the part of the array that begins at `o`. -/
def quick : Nat → List Int → Nat → Nat → Res String (List Int)
  | 0, _, _, _ => .diverge
  | k + 1, a, o, n =>
    if n > 1 then
      (partition n a o 1 n).bind fun (a, high) =>
      (swap a o (o + (high - 1))).bind fun a =>
      (quick k a o (high - 1 + 1)).bind fun a => quick k a (o + (high - 1) + 1) (n - (high - 1) - 1)
    else .ok a

/-- `digit`, prog/sort-circle/sort-circle.c:337-344. -/
def digit (v : Int) (b : Int) : Nat → Int
  | 0 => v.tmod b
  | d + 1 => digit (v.tdiv b) b d

/-- The inner loop of `sort_radix_lsd`, lines 352-369: the array and `total`. -/
def radixRound (b : Int) (d : Nat) : Nat → List Int → Nat → Res String (List Int × Nat)
  | 0, _, _ => .diverge
  | n + 1, a, total => (oddEvenRound (fun v => digit v b d) a).bind fun (a, c) => if !c then .ok (a, total) else radixRound b d n a (total + 1)

/-- `sort_radix_lsd`, prog/sort-circle/sort-circle.c:346-371. -/
def radix (b : Int) : Nat → Nat → List Int → Res String (List Int)
  | 0, _, _ => .diverge
  | n + 1, d, a => (radixRound b d n a 0).bind fun (a, total) => if total = 0 then .ok a else radix b n (d + 1) a

/-- `shuffle`, prog/sort-circle/sort-circle.c:136-148, with the results of `rnd.intn`. -/
def shuffleFor : Nat → UInt64 → List Int → Res String (UInt64 × List Int)
  | 0, v, a => .ok (v, a)
  | i + 1, v, a => (Lib.Rnd.intn v (UInt32.ofNat (i + 2))).bind fun (v, r) => (swap a (i + 1) r.toNat).bind fun a => shuffleFor i v a

def shuffle (v : UInt64) (a : List Int) : Res String (UInt64 × List Int) := shuffleFor (a.length - 1) v a

/-- The array at the beginning, prog/sort-circle/sort-circle.c:120-122. -/
def start (n : Nat) : List Int := (List.range n).map Int.ofNat

/-- `run_sort`, prog/sort-circle/sort-circle.c:150-167. -/
def run_sort (n : Nat) (type : Nat) (a : List Int) : Res String (List Int) :=
  match type with
  | 1 => bubble n a
  | 2 => oddEven n a
  | 3 => insertion a.length 1 a
  | 4 => stooge n a 0 (a.length - 1)
  | 5 => quick n a 0 a.length
  | 6 => radix 8 n 0 a
  | _ => .ok a

end Che.Prog.SortCircle
