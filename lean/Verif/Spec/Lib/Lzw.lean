/-!
What an LZW compressor emits, independent of the library: greedy parsing with a
dictionary that grows by one word per code.
-/
namespace Che.Spec.Lib

/-- The dictionary at the start: one word per symbol, and two codes that stand for no
word. -/
def lzwStart (n : Nat) : List (List UInt8) := (List.range n).map (fun i => [UInt8.ofNat i]) ++ [[], []]

/-- `w` is the longest word of the dictionary, of at most 255 symbols, that the data
starts with. -/
def LongestWord (D : List (List UInt8)) (data w : List UInt8) : Prop :=
  w ∈ D ∧ w <+: data ∧ w.length ≤ 255 ∧ ∀ v ∈ D, v <+: data → v.length ≤ 255 → v.length ≤ w.length

/-- The codes for the data, each with the size of the dictionary when it is emitted,
and the size of the dictionary at the end.  When the dictionary is full (4096 words) the
code `n` is emitted and the dictionary starts afresh. -/
inductive LzwCodes (n : Nat) : List (List UInt8) → List UInt8 → List (Nat × Nat) → Nat → Prop
  | last {D w mi} : LongestWord D w w → w ≠ [] → D[mi]? = some w → LzwCodes n D w [(mi, D.length)] D.length
  | more {D w mi c rest cs f} : LongestWord D (w ++ c :: rest) w → w ≠ [] → D[mi]? = some w → D.length < 4096 →
      LzwCodes n (D ++ [w ++ [c]]) (c :: rest) cs f → LzwCodes n D (w ++ c :: rest) ((mi, D.length) :: cs) f
  | reset {D w mi c rest cs f} : LongestWord D (w ++ c :: rest) w → w ≠ [] → D[mi]? = some w → D.length = 4096 →
      LzwCodes n (lzwStart n ++ [w ++ [c]]) (c :: rest) cs f →
      LzwCodes n D (w ++ c :: rest) ((mi, D.length) :: (n, D.length) :: cs) f

/-- The width of a code when the dictionary has `s` words: the least `w ≥ 1` with
`s - 1 ≤ 2^(w-1)`. -/
def CodeWidth (s w : Nat) : Prop :=
  1 ≤ w ∧ s - 1 ≤ 2 ^ (w - 1) ∧ ∀ v, 1 ≤ v → s - 1 ≤ 2 ^ (v - 1) → w ≤ v

/-- The `w` low bits of a number, least significant first. -/
def lowBits (w c : Nat) : List Bool := (List.range w).map c.testBit

/-- A sequence of bits that is the sequence of codes. -/
inductive CodesAsBits : List (Nat × Nat) → List Bool → Prop
  | nil : CodesAsBits [] []
  | cons {c s w cs bits} : CodeWidth s w → CodesAsBits cs bits → CodesAsBits ((c, s) :: cs) (lowBits w c ++ bits)

end Che.Spec.Lib
