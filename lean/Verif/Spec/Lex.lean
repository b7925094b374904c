import Verif.Model.Lexer
/-!
# What a token looks like: the lexical grammar, positions, crash inputs

Everything here is stated on plain lists of characters, without the buffer and
without the reading functions.
-/
namespace Che.Spec

/-- Line and column just after a piece of text, both counted from 1. -/
def posAt (pre : List Char) : Pos :=
  { line := 1 + pre.count '\n', col := 1 + (pre.reverse.takeWhile (· != '\n')).length }

/-- The blank characters. -/
def Blank (c : Char) : Prop := c = ' ' ∨ c = '\t' ∨ c = '\n' ∨ c = '\r'

def Blanks (s : List Char) : Prop := ∀ c ∈ s, Blank c

/-- A text does not continue with a character of some sort. -/
def Stops (p : Char → Prop) (r : List Char) : Prop := ∀ c, r.head? = some c → ¬ p c

/-- The end of the text or of the line. -/
def LineEnd (r : List Char) : Prop := ∀ c, r.head? = some c → c = '\n'

def NoNewline (s : List Char) : Prop := '\n' ∉ s

def Digit (c : Char) : Prop := '0' ≤ c ∧ c ≤ '9'

def HexDigit (c : Char) : Prop :=
  Digit c ∨ ('a' ≤ c ∧ c ≤ 'f') ∨ ('A' ≤ c ∧ c ≤ 'F')

def Letter (c : Char) : Prop := ('a' ≤ c ∧ c ≤ 'z') ∨ ('A' ≤ c ∧ c ≤ 'Z')

def WordStart (c : Char) : Prop := Letter c ∨ c = '_'

/-- Characters that continue a word: Unicode letters and digits, underscore. -/
def WordChar [Unicode] (c : Char) : Prop := isAlphanumeric c = true ∨ c = '_'

def ExpMark (c : Char) : Prop := c = 'e' ∨ c = 'E'

/-- Suffix letters of a number; `f` only if it has a dot. -/
def Suffix (dot : Bool) (c : Char) : Prop := c = 'U' ∨ c = 'L' ∨ (dot = true ∧ c = 'f')

def All (p : Char → Prop) (s : List Char) : Prop := ∀ c ∈ s, p c

/-- The reserved words of the language. -/
def reserved : List String :=
  ["if", "else", "while", "for", "switch", "case", "default", "break", "continue", "return",
   "enum", "struct", "union", "typedef", "const", "pub", "sizeof"]

/-- The operators and punctuation marks of the language, by first character. -/
def operators : List String :=
  ["!", "!=", "%", "%=", "&", "&&", "&=", "(", ")", "*", "*=", "+", "++", "+=", ",",
   "-", "--", "-=", "->", ".", "...", "/", "/=", ":", ";", "<", "<<", "<<=", "<=", "=", "==",
   ">", ">=", ">>", ">>=", "?", "[", "]", "^", "^=", "{", "|", "|=", "||", "}", "~"]

/-- Integer digits, and a dot with fraction digits or not. -/
inductive Mantissa : Bool → List Char → Prop
  | whole {d} : d ≠ [] → All Digit d → Mantissa false d
  | dotted {d f} : d ≠ [] → All Digit d → All Digit f → Mantissa true (d ++ '.' :: f)

/-- The exponent of a number (or none), followed by `r`. -/
inductive Exponent : List Char → List Char → Prop
  | none {r} : Stops ExpMark r → Exponent [] r
  | plus {e d r} : ExpMark e → All Digit d → Stops Digit r → Stops (· = '-') (d ++ r) →
      d ++ r ≠ [] → Exponent (e :: d) r
  | minus {e d r} : ExpMark e → All Digit d → Stops Digit r → Exponent (e :: '-' :: d) r

/-- What is between the quotes of a string: a backslash goes with the next
character. -/
inductive StrBody : List Char → Prop
  | nil : StrBody []
  | plain {c w} : c ≠ '"' → c ≠ '\\' → StrBody w → StrBody (c :: w)
  | escaped {c w} : StrBody w → StrBody ('\\' :: c :: w)

/-- A string literal in parts: the joined content and the text, blanks after
each part included. -/
inductive StrParts : List Char → List Char → Prop
  | nil : StrParts [] []
  | part {w sp s t} : StrBody w → Blanks sp → Stops Blank t → StrParts s t →
      StrParts (w ++ s) ('"' :: w ++ '"' :: sp ++ t)

/-- A token of some kind and content is written `lx` and is followed by `r`
(maximal munch: `r` does not continue the token). -/
inductive Lexeme [Unicode] : String → String → List Char → List Char → Prop
  | imp {sp w r} : Blanks sp → NoNewline w → Stops Blank (w ++ r) → LineEnd r →
      Lexeme "import" (RStr.trim (String.ofList w)) ("#import".toList ++ sp ++ w) r
  | mac {w r} : NoNewline w → ¬ "import".toList <+: w → LineEnd r →
      Lexeme "macro" (String.ofList ('#' :: w)) ('#' :: w) r
  | blockComment {w r} : ¬ "*/".toList <:+: w →
      Lexeme "comment" (String.ofList w) ("/*".toList ++ w ++ "*/".toList) r
  | lineComment {w r} : NoNewline w → LineEnd r →
      Lexeme "comment" (String.ofList w) ("//".toList ++ w) r
  | word {c w r} : WordStart c → All WordChar w → Stops WordChar r →
      ¬ (c :: w = "calloc".toList ∧ r.head? = some '!') → String.ofList (c :: w) ∉ reserved →
      Lexeme "word" (String.ofList (c :: w)) (c :: w) r
  | calloc {r} : Lexeme "word" "calloc!" "calloc!".toList r
  | keyword {c w r} : WordStart c → All WordChar w → Stops WordChar r →
      String.ofList (c :: w) ∈ reserved → Lexeme (String.ofList (c :: w)) "" (c :: w) r
  | hex {d u r} : All HexDigit d → All (Suffix false) u → Stops HexDigit (u ++ r) →
      Stops (Suffix false) r →
      Lexeme "num" (String.ofList ("0x".toList ++ d ++ u)) ("0x".toList ++ d ++ u) r
  | dec {dot m e u r} : Mantissa dot m → Exponent e (u ++ r) → All (Suffix dot) u →
      Stops (Suffix dot) r → Stops Letter r → ¬ "0x".toList <+: m ++ e ++ u ++ r →
      Stops (fun c => Digit c ∨ (dot = false ∧ c = '.')) (e ++ u ++ r) →
      Lexeme "num" (String.ofList (m ++ e ++ u)) (m ++ e ++ u) r
  | str {s t r} : StrParts s t → t ≠ [] → Stops (fun c => Blank c ∨ c = '"') r →
      Lexeme "string" (String.ofList s) t r
  | chr {c r} : c ≠ '\\' → Lexeme "char" (String.ofList [c]) ['\'', c, '\''] r
  | escChr {c r} : Lexeme "char" (String.ofList ['\\', c]) ['\'', '\\', c, '\''] r
  | op {o r} : o ∈ operators → (∀ o' ∈ operators, o'.toList <+: o.toList ++ r → o'.length ≤ o.length) →
      ¬ "//".toList <+: o.toList ++ r → ¬ "/*".toList <+: o.toList ++ r →
      Lexeme o "" o.toList r

/-- Malformed text: the message of the error token, the characters eaten, the
number of them in front of the reported position, and the text that follows. -/
inductive Malformed [Unicode] : String → List Char → Nat → List Char → Prop
  | comment {w} : ¬ "*/".toList <:+: w → Malformed "*/ expected" ("/*".toList ++ w) 0 []
  | number {dot m e u c r} : Mantissa dot m → Exponent e (u ++ c :: r) → All (Suffix dot) u →
      Letter c → ¬ Suffix dot c → ¬ "0x".toList <+: m ++ e ++ u ++ c :: r →
      Stops (fun c => Digit c ∨ (dot = false ∧ c = '.')) (e ++ u ++ c :: r) →
      Malformed ("Unexpected character: '" ++ String.ofList [c] ++ "'")
        (m ++ e ++ u) (m ++ e ++ u).length (c :: r)
  | string {s t w} : StrParts s t → StrBody w →
      Malformed "Double quote expected" (t ++ '"' :: w) 0 []
  | char {c q r} : c ≠ '\\' → q ≠ '\'' →
      Malformed "Single quote expected" ['\'', c, q] 0 r
  | escChar {c q r} : q ≠ '\'' → Malformed "Single quote expected" ['\'', '\\', c, q] 0 r
  | unknown {c r} : ¬ Blank c → ¬ WordStart c → ¬ Digit c → c ≠ '"' → c ≠ '\'' → c ≠ '#' →
      (∀ o ∈ operators, ¬ o.toList <+: c :: r) →
      Malformed ("Unexpected character: '" ++ String.ofList [c] ++ "'") [] 0 (c :: r)

/-- Texts that make the lexer abort when it reads a token there. -/
inductive Crash : List Char → Prop
  | exponent {dot m e} : Mantissa dot m → ExpMark e → Crash (m ++ [e])
  | string {s t w} : StrParts s t → StrBody w → Crash (t ++ '"' :: w ++ ['\\'])
  | quote : Crash ['\'']
  | char {c} : Crash ['\'', c]
  | escChar {c} : Crash ['\'', '\\', c]

/-- The text begins with a character no token begins with. -/
def Stuck [Unicode] (s : List Char) : Prop := ∃ msg, Malformed msg [] 0 s

/-- Reading tokens, comments included: from the text `s` after the text `pre` to
the text `s'` after the text `pre'`.  In front of each token there may be blanks,
and each token carries the position of its own text (errors may point into
it). -/
inductive Run [Unicode] : List Char → List Char → List Token → List Char → List Char → Prop
  | nil {pre s} : Run pre s [] pre s
  | token {pre sp lx r kind content ts pre' s'} : Blanks sp → Lexeme kind content lx r →
      Run (pre ++ sp ++ lx) r ts pre' s' →
      Run pre (sp ++ lx ++ r) (⟨kind, content, posAt (pre ++ sp)⟩ :: ts) pre' s'
  | error {pre sp lx n r msg ts pre' s'} : Blanks sp → Malformed msg lx n r → lx ≠ [] →
      Run (pre ++ sp ++ lx) r ts pre' s' →
      Run pre (sp ++ lx ++ r) (⟨"error", msg, posAt (pre ++ sp ++ lx.take n)⟩ :: ts) pre' s'

/-- All the tokens of a text: only blanks are left after them. -/
def Tokens [Unicode] (s : List Char) (ts : List Token) : Prop :=
  ∃ pre sp, Run [] s ts pre sp ∧ Blanks sp

/-- Comments are not tokens for the parser. -/
def significant (ts : List Token) : List Token := ts.filter (fun t => t.kind != "comment")

/-- Blanks and comments. -/
inductive Filler : List Char → Prop
  | nil : Filler []
  | blank {c w} : Blank c → Filler w → Filler (c :: w)
  | block {x w} : ¬ "*/".toList <:+: x → Filler w → Filler ("/*".toList ++ x ++ "*/".toList ++ w)
  | line {x w} : NoNewline x → Filler w → Filler ("//".toList ++ x ++ '\n' :: w)

end Che.Spec
