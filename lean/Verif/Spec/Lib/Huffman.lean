import Verif.Model.Lib.Huffman
/-!
Codes, and trees as codes.
-/
namespace Che.Spec.Lib.Huff
open Che.Lib Che.Lib.Huffman

/-- The values of a tree with their words: `false` is a step to the left.  A node
without a left child is a value. -/
def words : Node → List (Nat × List Bool)
  | .null => []
  | .mk _ v _ .null _ => [(v, [])]
  | .mk _ _ _ l r => (words l).map (fun p => (p.1, false :: p.2)) ++ (words r).map (fun p => (p.1, true :: p.2))

/-- The word for a value. -/
def wordFor (t : Node) (c : UInt8) : List Bool :=
  match (words t).find? (fun p => p.1 == c.toNat) with
  | some p => p.2
  | none => []

/-- A text in the code of a tree. -/
def encode (t : Node) (s : Bytes) : List Bool := s.flatMap (wordFor t)

/-- A code for the characters of `s` that can be decoded: different texts have
different encodings. -/
def Decodable (s : Bytes) (f : UInt8 → List Bool) : Prop :=
  ∀ a b : Bytes, (∀ c ∈ a, c ∈ s) → (∀ c ∈ b, c ∈ s) → a.flatMap f = b.flatMap f → a = b

/-- A sorting function for nodes, highest count first.  Nothing is said about nodes with
equal counts. -/
def SortsDown (sort : List Node → List Node) : Prop :=
  ∀ l, (sort l).Perm l ∧ (sort l).Pairwise (fun a b => b.count ≤ a.count)

/-- `n` bits of a number, most significant first. -/
def bitsOfNat (n v : Nat) : List Bool := (List.range n).reverse.map v.testBit

/-- The canonical code for words of the given lengths, in order (RFC 1951, 3.2.2; JPEG,
annex C): each word is the word before plus one, with zeros appended to its length.
As numbers. -/
def canonicalFrom : Nat → Nat → List Nat → List Nat
  | _, _, [] => []
  | code, len, l :: ls => code * 2 ^ (l - len) :: canonicalFrom (code * 2 ^ (l - len) + 1) l ls

/-- The same as words. -/
def canonical (lens : List Nat) : List (List Bool) :=
  (List.zip lens (canonicalFrom 0 0 lens)).map fun p => bitsOfNat p.1 p.2

/-- No number of the canonical code needs more bits than its word has. -/
def Fits (lens : List Nat) : Prop := ∀ p ∈ List.zip lens (canonicalFrom 0 0 lens), p.2 < 2 ^ p.1

/-- The lengths that `counts` stands for: `counts[i]` words of length `i + 1`. -/
def lengths (counts : List Nat) : List Nat :=
  (counts.zipIdx.flatMap fun p => List.replicate p.1 (p.2 + 1))

end Che.Spec.Lib.Huff
