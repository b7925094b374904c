import Verif.Model.CAst
/-!
# Specification: the grammar of C expressions

C99 6.5 and 6.7.8 as production rules over tokens, for the expressions that the
trees of `src/c.rs` can stand for: everything except `?:`, the comma operator and
compound literals.  Which words name types is a parameter.  A type is a name,
perhaps `const`, with stars.
-/
namespace Che.Spec
open Che

/-- Tokens of C. -/
inductive CTok where
  | word (s : String)
  | num (s : String)
  | chr (s : String)
  | str (s : String)
  | punct (s : String)
  /-- a character or string constant with an encoding prefix; in no rule below -/
  | wide (s : String)
deriving DecidableEq, Repr

/-- C99 6.4.1: the words that are not identifiers. -/
def cKeywords : List String :=
  ["auto", "break", "case", "char", "const", "continue", "default", "do", "double", "else", "enum",
   "extern", "float", "for", "goto", "if", "inline", "int", "long", "register", "restrict", "return",
   "short", "signed", "sizeof", "static", "struct", "switch", "typedef", "union", "unsigned", "void",
   "volatile", "while", "_Bool", "_Complex", "_Imaginary"]

/-- The binary operators of C99 6.5.5–6.5.14 and how tightly they bind. -/
def cLevel (op : String) : Option Nat :=
  if op = "||" then some 3
  else if op = "&&" then some 4
  else if op = "|" then some 5
  else if op = "^" then some 6
  else if op = "&" then some 7
  else if op ∈ ["==", "!="] then some 8
  else if op ∈ ["<", ">", "<=", ">="] then some 9
  else if op ∈ ["<<", ">>"] then some 10
  else if op ∈ ["+", "-"] then some 11
  else if op ∈ ["*", "/", "%"] then some 12
  else none

/-- C99 6.5.16: the assignment operators. -/
def cAssignOps : List String := ["=", "*=", "/=", "%=", "+=", "-=", "<<=", ">>=", "&=", "^=", "|="]

/-- C99 6.5.3: the unary operators. -/
def cUnaryOps : List String := ["&", "*", "+", "-", "~", "!"]

/-- The word names a type. -/
def CTypeWord (ty : String → Bool) (w : String) : Prop := ty w = true ∧ w ≠ "const" ∧ w ≠ "sizeof"

/-- The word is an identifier for a value. -/
def CValueWord (ty : String → Bool) (w : String) : Prop := ty w = false ∧ w ∉ cKeywords

/-- A number of stars. -/
def starToks (n : Nat) : List CTok := List.replicate n (.punct "*")

/-- A type. -/
inductive CType (ty : String → Bool) : CBareTypeform → List CTok → Prop
  | plain {w n} : CTypeWord ty w → CType ty ⟨⟨false, w⟩, n⟩ (.word w :: starToks n)
  | const {w n} : CTypeWord ty w → CType ty ⟨⟨true, w⟩, n⟩ (.word "const" :: .word w :: starToks n)

/-- What the rules describe: an expression of some binding strength, the rest of an
argument list, an initialiser, the initialisers in braces, one of them. -/
inductive CCat
  | ex (s : Nat) (e : CExpr)
  | args (es : List CExpr)
  | init (e : CExpr)
  | inits (es : List CEntry)
  | item (e : CEntry)

/-- The rules.  Strength 2 is an assignment expression, 3–12 the binary operators,
13 a cast expression, 14 a unary expression, 15 a postfix expression. -/
inductive CEx (ty : String → Bool) : CCat → List CTok → Prop
  | up {s e c} : 2 ≤ s → s < 15 → CEx ty (.ex (s + 1) e) c → CEx ty (.ex s e) c
  -- 6.5.16; to the right
  | assign {op a b c1 c2} : op ∈ cAssignOps → CEx ty (.ex 14 a) c1 → CEx ty (.ex 2 b) c2 →
      CEx ty (.ex 2 (.binaryOp op a b)) (c1 ++ .punct op :: c2)
  -- 6.5.5–6.5.14; to the left
  | bin {s op a b c1 c2} : cLevel op = some s → CEx ty (.ex s a) c1 → CEx ty (.ex (s + 1) b) c2 →
      CEx ty (.ex s (.binaryOp op a b)) (c1 ++ .punct op :: c2)
  -- 6.5.4
  | cast {t e c1 c2} : CType ty t c1 → CEx ty (.ex 13 e) c2 →
      CEx ty (.ex 13 (.cast t e)) (.punct "(" :: (c1 ++ .punct ")" :: c2))
  -- 6.5.3
  | unary {op e c} : op ∈ cUnaryOps → CEx ty (.ex 13 e) c →
      CEx ty (.ex 14 (.prefixOp op e)) (.punct op :: c)
  | incr {op e c} : op ∈ ["++", "--"] → CEx ty (.ex 14 e) c →
      CEx ty (.ex 14 (.prefixOp op e)) (.punct op :: c)
  | sizeofExpr {e c} : CEx ty (.ex 14 e) c → CEx ty (.ex 14 (.sizeofExpr e)) (.word "sizeof" :: c)
  | sizeofType {t c} : CType ty t c →
      CEx ty (.ex 14 (.sizeofType t)) (.word "sizeof" :: .punct "(" :: (c ++ [.punct ")"]))
  -- 6.5.1; adjacent string literals are one (5.1.1.2 phase 6)
  | ident {w} : CValueWord ty w → CEx ty (.ex 15 (.ident w)) [.word w]
  | num {s} : CEx ty (.ex 15 (.lit (.number s))) [.num s]
  | chr {s} : CEx ty (.ex 15 (.lit (.char s))) [.chr s]
  | strs {l ls} : CEx ty (.ex 15 (.lit (.string (String.join (l :: ls))))) (.str l :: ls.map .str)
  | paren {e c} : CEx ty (.ex 2 e) c → CEx ty (.ex 15 e) (.punct "(" :: (c ++ [.punct ")"]))
  -- 6.5.2
  | call0 {f c} : CEx ty (.ex 15 f) c →
      CEx ty (.ex 15 (.call f [])) (c ++ [.punct "(", .punct ")"])
  | call {f c a as c1 c2} : CEx ty (.ex 15 f) c → CEx ty (.ex 2 a) c1 → CEx ty (.args as) c2 →
      CEx ty (.ex 15 (.call f (a :: as))) (c ++ .punct "(" :: (c1 ++ (c2 ++ [.punct ")"])))
  | index {a c i c1} : CEx ty (.ex 15 a) c → CEx ty (.ex 2 i) c1 →
      CEx ty (.ex 15 (.arrIndex a i)) (c ++ .punct "[" :: (c1 ++ [.punct "]"]))
  | post {op a c} : op ∈ ["++", "--"] → CEx ty (.ex 15 a) c →
      CEx ty (.ex 15 (.postfixOp op a)) (c ++ [.punct op])
  | field {op a c w} : op ∈ [".", "->"] → CEx ty (.ex 15 a) c → w ∉ cKeywords →
      CEx ty (.ex 15 (.fieldAccess op a w)) (c ++ [.punct op, .word w])
  | argsNil : CEx ty (.args []) []
  | argsCons {a as c1 c2} : CEx ty (.ex 2 a) c1 → CEx ty (.args as) c2 →
      CEx ty (.args (a :: as)) (.punct "," :: (c1 ++ c2))
  -- 6.7.8; a comma may follow the last initialiser
  | initExpr {e c} : CEx ty (.ex 2 e) c → CEx ty (.init e) c
  | initList {es c} : CEx ty (.inits es) c →
      CEx ty (.init (.compLit es)) (.punct "{" :: (c ++ [.punct "}"]))
  | initsLast {e c} : CEx ty (.item e) c → CEx ty (.inits [e]) c
  | initsComma {e c} : CEx ty (.item e) c → CEx ty (.inits [e]) (c ++ [.punct ","])
  | initsCons {e es c1 c2} : CEx ty (.item e) c1 → CEx ty (.inits es) c2 →
      CEx ty (.inits (e :: es)) (c1 ++ .punct "," :: c2)
  | itemPlain {v c} : CEx ty (.init v) c → CEx ty (.item (.mk false none v)) c
  | itemField {w v c} : w ∉ cKeywords → CEx ty (.init v) c →
      CEx ty (.item (.mk false (some (.ident w)) v)) (.punct "." :: .word w :: .punct "=" :: c)
  | itemIndex {k v c1 c2} : CEx ty (.ex 3 k) c1 → CEx ty (.init v) c2 →
      CEx ty (.item (.mk true (some k) v)) (.punct "[" :: (c1 ++ .punct "]" :: .punct "=" :: c2))

/-- An expression. -/
abbrev CExpression (ty : String → Bool) (e : CExpr) (c : List CTok) : Prop := CEx ty (.ex 2 e) c

/-- An initialiser: an expression or a list in braces. -/
abbrev CInitializer (ty : String → Bool) (e : CExpr) (c : List CTok) : Prop := CEx ty (.init e) c

end Che.Spec
