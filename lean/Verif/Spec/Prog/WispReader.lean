import Verif.Model.Prog.WispReader
import Verif.Spec.Prog.Wisp

/-!
Values of `prog/wisp` that have a text, and what texts in the input are.
-/
namespace Che.Spec.Wisp
open Che Che.Lib Che.Prog.Wisp

/-- A name that cannot be taken for something else: of the characters for symbols, without backslashes and a point at the start, not a number. -/
def goodName (name : Bytes) : Prop :=
  name ≠ [] ∧ (∀ b ∈ name, b ∈ atom_chars ∧ b ≠ 92) ∧ name.head? ≠ some 46 ∧ intText name = false ∧ floatText name = false

instance (name : Bytes) : Decidable (goodName name) := inferInstanceAs (Decidable (_ ∧ _))

/-- A list that ends with `nil`. -/
def proper : Val → Prop
  | .cons _ d => proper d
  | v => v = nil

/-- No floats, numbers of 32 bits, texts without zeros, names as above. -/
def readable : Val → Prop
  | .int n => -2 ^ 31 ≤ n ∧ n < 2 ^ 31
  | .float _ => False
  | .str raw => (0 : UInt8) ∉ raw
  | .sym name => goodName name
  | .cons a d => readable a ∧ readable d
  | .vec items => proper items ∧ readable items

mutual
/-- How many brackets are open at once in the text of a value. -/
def depth : Val → Nat
  | .cons a d => 1 + max (depth a) (inner d)
  | .vec items => 1 + inner items
  | _ => 0
/-- The same for the rest of a list or vector. -/
def inner : Val → Nat
  | .cons a d => max (depth a) (inner d)
  | .vec items => 1 + inner items
  | _ => 0
end

/-- Numbers and symbols end where something else begins. -/
def isAtom : Val → Bool
  | .int _ => true
  | .float _ => true
  | .sym _ => true
  | _ => false

/-- Characters with the given bytes: bytes from 128 on may be negative, none is `EOF`. -/
def Spells (cs : List Int) (bs : Bytes) : Prop := cs.map toByte = bs ∧ ∀ c ∈ cs, c ≠ -1 ∧ -128 ≤ c ∧ c ≤ 255

/-- All characters that are to come. -/
def inp (e : Eater) : List Int :=
  e.back ++ (match e.src with | .str r => r.map toChar | .file r => r.map fun b => (b.toNat : Int))

/-- Where a number or symbol ends. -/
def Delim (rest : List Int) : Prop := rest = [] ∨ ∃ h t, rest = h :: t ∧ (h = -1 ∨ strchr (cstr " \t\r\n()[];") h = true)

/-- White space up to the end of the line is dropped, also the end of the line; at the end of the input, `EOF` is put back. -/
def afterWs (l : List Int) : List Int :=
  match l.dropWhile (strchr (cstr " \t\r")) with
  | [] => [-1]
  | c :: t => if c = 10 then t else c :: t

/-- White space and comments. -/
inductive Gap : List Int → Prop
  | nil : Gap []
  | space (c : Int) (t : List Int) : c = 10 ∨ c = 32 ∨ c = 9 ∨ c = 13 → Gap t → Gap (c :: t)
  | comment (l t : List Int) : (10 : Int) ∉ l → (-1 : Int) ∉ l → Gap t → Gap (59 :: (l ++ 10 :: t))

/-- Texts of a value: how many brackets and quotes are open at once, and if it must be delimited. -/
inductive Text : Nat → Val → Bool → List Int → Prop
  | value (v : Val) (cs : List Int) : readable v → Spells cs (print v) → Text (depth v) v (isAtom v) cs
  | quote (n : Nat) (v : Val) (b : Bool) (g cs : List Int) : Gap g → Text n v b cs → Text (n + 1) (.cons (.sym (cstr "quote")) (.cons v Prog.Wisp.nil)) b (39 :: (g ++ cs))

/-- Values on lines. -/
def lines (vs : List Val) : Bytes := vs.flatMap fun v => print v ++ [10]

/-- Values read one after another. -/
def readN : Nat → Prog.Wisp.Reader → Res Unit (List Val × Prog.Wisp.Reader)
  | 0, r => .ok ([], r)
  | n + 1, r => do
    let (r, v) ← read_sexp r
    let (vs, r) ← readN n r
    .ok (v :: vs, r)

end Che.Spec.Wisp
