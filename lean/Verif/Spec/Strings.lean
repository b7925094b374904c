import Verif.Spec.Lex
/-!
# What a C string literal denotes

Escapes are decoded in each literal and then adjacent literals are joined (C99
5.1.1.2 phases 5 and 6, 6.4.4.4, 6.4.5). Trigraphs and universal character names
are left out.
-/
namespace Che.Spec

def Octal (c : Char) : Prop := '0' ≤ c ∧ c ≤ '7'

/-- The value of a digit, decimal or hexadecimal. -/
def digitVal (c : Char) : Nat :=
  if c ≤ '9' then c.toNat - '0'.toNat
  else if c ≤ 'F' then c.toNat - 'A'.toNat + 10
  else c.toNat - 'a'.toNat + 10

/-- The value of digits in some base. -/
def numVal (base : Nat) (d : List Char) : Nat := d.foldl (fun n c => n * base + digitVal c) 0

/-- The simple escapes. -/
def simpleEscape : Char → Option Nat
  | '\'' => some 39
  | '"' => some 34
  | '?' => some 63
  | '\\' => some 92
  | 'a' => some 7
  | 'b' => some 8
  | 'f' => some 12
  | 'n' => some 10
  | 'r' => some 13
  | 't' => some 9
  | 'v' => some 11
  | _ => none

/-- What stands between the quotes of one literal, and the characters it denotes.
C does not allow line breaks there; Che does (`nl`), each being a newline
character. Numeric escapes are as long as can be. -/
inductive Chars (nl : Bool) : List Char → List Nat → Prop
  | nil : Chars nl [] []
  | plain {c w v} : c ≠ '\\' → c ≠ '"' → (c = '\n' → nl = true) → Chars nl w v →
      Chars nl (c :: w) (c.toNat :: v)
  | simple {c n w v} : simpleEscape c = some n → Chars nl w v → Chars nl ('\\' :: c :: w) (n :: v)
  | octal {d w v} : d ≠ [] → d.length ≤ 3 → All Octal d → (d.length < 3 → Stops Octal w) →
      Chars nl w v → Chars nl ('\\' :: (d ++ w)) (numVal 8 d :: v)
  | hex {d w v} : d ≠ [] → All HexDigit d → Stops HexDigit w → Chars nl w v →
      Chars nl ('\\' :: 'x' :: (d ++ w)) (numVal 16 d :: v)

/-- Adjacent literals with blanks after each: the text and what it denotes. -/
inductive Denotes (nl : Bool) : List Char → List Nat → Prop
  | nil : Denotes nl [] []
  | part {w v sp t vs} : Chars nl w v → Blanks sp → Denotes nl t vs →
      Denotes nl ('"' :: w ++ '"' :: sp ++ t) (v ++ vs)

/-- Joining two literals into one does not lengthen a numeric escape. -/
def SafeJoin (w next : List Char) : Prop :=
  (∀ a d, w = a ++ '\\' :: 'x' :: d → d ≠ [] → All HexDigit d → Stops HexDigit next) ∧
  (∀ a d, w = a ++ '\\' :: d → d ≠ [] → d.length < 3 → All Octal d → Stops Octal next)

/-- A part of a literal. -/
structure StrPart where
  body : List Char
  blanks : List Char
  value : List Nat

def StrPart.text (p : StrPart) : List Char := '"' :: p.body ++ '"' :: p.blanks

/-- The parts have the given values and may be joined. -/
def Parts : List StrPart → Prop
  | [] => True
  | p :: ps => Chars true p.body p.value ∧ Blanks p.blanks ∧
      SafeJoin p.body (ps.flatMap StrPart.body) ∧ Parts ps

end Che.Spec
