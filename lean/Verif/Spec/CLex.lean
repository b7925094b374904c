import Verif.Spec.CGrammar
/-!
# Specification: the tokens of C text

C99 6.4: the spellings of tokens, and reading a text as tokens, always the longest
possible one (6.4p4).  Text with comments or with universal character names is not
described.
-/
namespace Che.Spec
open Che

/-- 6.4p3, the blanks that occur in emitted text. -/
def cBlank (c : Char) : Bool := c == ' ' || c == '\t' || c == '\n'

/-- 6.4.2.1 digit. -/
def cDigit (c : Char) : Bool := decide ('0' ≤ c) && decide (c ≤ '9')

/-- 6.4.2.1 nondigit. -/
def cLetter (c : Char) : Bool :=
  decide ('a' ≤ c) && decide (c ≤ 'z') || decide ('A' ≤ c) && decide (c ≤ 'Z') || c == '_'

/-- A character of an identifier. -/
def cIdChar (c : Char) : Bool := cLetter c || cDigit c

/-- 6.4.2.1 identifier, keywords included. -/
def CWord (w : List Char) : Prop := ∃ c cs, w = c :: cs ∧ cLetter c = true ∧ ∀ x ∈ cs, cIdChar x = true

/-- 6.4.8: what may follow inside a number; a sign only after an exponent letter. -/
def PPTail : Char → List Char → Prop
  | _, [] => True
  | p, c :: cs =>
    (cIdChar c = true ∨ c = '.' ∨ (c = '+' ∨ c = '-') ∧ p ∈ ['e', 'E', 'p', 'P']) ∧ PPTail c cs

/-- 6.4.8 preprocessing number. -/
def PPNumber (w : List Char) : Prop :=
  (∃ c cs, w = c :: cs ∧ cDigit c = true ∧ PPTail c cs) ∨
  (∃ c cs, w = '.' :: c :: cs ∧ cDigit c = true ∧ PPTail c cs)

/-- 6.4.4.4, 6.4.5: the characters between quotes `q`. -/
inductive LitBody (q : Char) : List Char → Prop
  | nil : LitBody q []
  | plain {c cs} : c ≠ q → c ≠ '\\' → c ≠ '\n' → LitBody q cs → LitBody q (c :: cs)
  | esc {c cs} : c ≠ '\n' → LitBody q cs → LitBody q ('\\' :: c :: cs)

/-- 6.4.6 punctuators. -/
def cPunctuators : List String :=
  ["[", "]", "(", ")", "{", "}", ".", "->", "++", "--", "&", "*", "+", "-", "~", "!", "/", "%",
   "<<", ">>", "<", ">", "<=", ">=", "==", "!=", "^", "|", "&&", "||", "?", ":", ";", "...", "=",
   "*=", "/=", "%=", "+=", "-=", "<<=", ">>=", "&=", "^=", "|=", ",", "#", "##", "<:", ":>", "<%",
   "%>", "%:", "%:%:"]

/-- The spelling of a token. -/
inductive Spelling : List Char → CTok → Prop
  | word {w} : CWord w → Spelling w (.word (String.ofList w))
  | num {w} : PPNumber w → Spelling w (.num (String.ofList w))
  | chr {b} : b ≠ [] → LitBody '\'' b → Spelling ('\'' :: (b ++ ['\''])) (.chr (String.ofList b))
  | str {b} : LitBody '"' b → Spelling ('"' :: (b ++ ['"'])) (.str (String.ofList b))
  | wide {p q b} : p ∈ [['L'], ['u'], ['U'], ['u', '8']] → q = '\'' ∨ q = '"' → LitBody q b →
      Spelling (p ++ q :: (b ++ [q])) (.wide (String.ofList (p ++ q :: (b ++ [q]))))
  | punct {p} : p ∈ cPunctuators → Spelling p.toList (.punct p)

/-- Nothing longer than `w` that is a token starts the text `w ++ r`. -/
def Longest (w r : List Char) : Prop :=
  ∀ w' t, Spelling w' t → w' <+: w ++ r → w'.length ≤ w.length

/-- A comment starts the text. -/
def Comment (s : List Char) : Prop := ['/', '*'] <+: s ∨ ['/', '/'] <+: s

/-- `CReads s ts r`: the text `s`, when `r` follows, is read as the tokens `ts`. -/
inductive CReads : List Char → List CTok → List Char → Prop
  | nil {r} : CReads [] [] r
  | blank {c s ts r} : cBlank c = true → CReads s ts r → CReads (c :: s) ts r
  | tok {w t s ts r} : Spelling w t → Longest w (s ++ r) → ¬ Comment (w ++ (s ++ r)) →
      CReads s ts r → CReads (w ++ s) (t :: ts) r

end Che.Spec
