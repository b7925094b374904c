import Verif.Spec.CLex
/-!
# Specification: which trees can be printed without losing their shape

The trees that are spelt properly (`Plain`), what text without typing can at best
give back (`canon`), and the places where parentheses that C needs are missing
(`Faithful`).
-/
namespace Che.Spec
open Che

/-- Raw newlines in a string literal become the escape `\n`. -/
def escNewlines (s : List Char) : List Char :=
  s.flatMap (fun c => if c = '\n' then ['\\', 'n'] else [c])

mutual
/-- The tree that the text can at best give back: the null literal is the word
`NULL`, a raw newline in a string is an escape, and the list `{}`, which C does not
have, is `{0}`. -/
def canon : CExpr → CExpr
  | .lit .null => .ident "NULL"
  | .lit (.string v) => .lit (.string (String.ofList (escNewlines v.toList)))
  | .lit l => .lit l
  | .compLit es =>
    match es with
    | [] => .compLit [.mk false none (.lit (.number "0"))]
    | e :: es => .compLit (canonEntry e :: canonEntries es)
  | .ident s => .ident s
  | .binaryOp op a b => .binaryOp op (canon a) (canon b)
  | .fieldAccess op t f => .fieldAccess op (canon t) f
  | .prefixOp op e => .prefixOp op (canon e)
  | .postfixOp op e => .postfixOp op (canon e)
  | .cast t e => .cast t (canon e)
  | .call f args => .call (canon f) (canonArgs args)
  | .sizeofType t => .sizeofType t
  | .sizeofExpr e => .sizeofExpr (canon e)
  | .arrIndex a i => .arrIndex (canon a) (canon i)
/-- `canon` on arguments. -/
def canonArgs : List CExpr → List CExpr
  | [] => []
  | e :: es => canon e :: canonArgs es
/-- `canon` on entries. -/
def canonEntries : List CEntry → List CEntry
  | [] => []
  | e :: es => canonEntry e :: canonEntries es
/-- `canon` on an entry. -/
def canonEntry : CEntry → CEntry
  | .mk b k v => .mk b (match k with | some k => some (canon k) | none => none) (canon v)
end

/-- The characters of a string literal as the trees have it: newlines may be raw. -/
inductive RawBody : List Char → Prop
  | nil : RawBody []
  | plain {c cs} : c ≠ '"' → c ≠ '\\' → RawBody cs → RawBody (c :: cs)
  | esc {c cs} : c ≠ '\n' → RawBody cs → RawBody ('\\' :: c :: cs)

/-- A word that is an identifier for a value. -/
def PlainWord (ty : String → Bool) (w : String) : Prop := CWord w.toList ∧ CValueWord ty w

/-- A type that is spelt with a type name. -/
def PlainType (ty : String → Bool) (t : CBareTypeform) : Prop :=
  CWord t.typename.name.toList ∧ CTypeWord ty t.typename.name

/-- A literal that is one in C. -/
def PlainLit (ty : String → Bool) : CLiteral → Prop
  | .char v => v.toList ≠ [] ∧ LitBody '\'' v.toList
  | .string v => RawBody v.toList
  | .number v => ∃ c cs, v.toList = c :: cs ∧ cDigit c = true ∧ PPTail c cs
  | .null => CValueWord ty "NULL"

/-- The prefix operator at the left end of the text. -/
def leads : CExpr → Option String
  | .prefixOp op _ => some op
  | .postfixOp _ e => leads e
  | .binaryOp _ a _ => leads a
  | .fieldAccess _ t _ => leads t
  | .call f _ => leads f
  | .arrIndex a _ => leads a
  | _ => none

/-- The operator and the text after it would be read as `--` or `&&`. -/
def sticks (op : String) (e : CExpr) : Bool :=
  op == "-" && (leads e == some "-" || leads e == some "--") || op == "&" && leads e == some "&"

/-- The text ends with a number. -/
def endsNum : CExpr → Bool
  | .lit (.number _) => true
  | .prefixOp _ e => endsNum e
  | .binaryOp _ _ b => endsNum b
  | _ => false

/-- A number. -/
def isNumber : CExpr → Bool
  | .lit (.number _) => true
  | _ => false

/-- An operation that is neither a call, an index nor a field access. -/
def isOperation : CExpr → Bool
  | .binaryOp _ _ _ => true
  | .prefixOp _ _ => true
  | .postfixOp _ _ => true
  | _ => false

/-- A binary operation. -/
def isBinary : CExpr → Bool
  | .binaryOp _ _ _ => true
  | _ => false

mutual
/-- Names, types, literals and operators are those of C; no operator or number
sticks to the token after it. -/
def Plain (ty : String → Bool) : CExpr → Prop
  | .lit l => PlainLit ty l
  | .compLit es => PlainEntries ty es
  | .ident s => PlainWord ty s
  | .binaryOp op a b => ((∃ s, cLevel op = some s) ∨ op ∈ cAssignOps) ∧ Plain ty a ∧ Plain ty b
  | .fieldAccess op t f =>
    op ∈ [".", "->"] ∧ Plain ty t ∧ isNumber t = false ∧ CWord f.toList ∧ f ∉ cKeywords
  | .prefixOp op e =>
    op ∈ ["!", "--", "++", "*", "~", "&", "-"] ∧ Plain ty e ∧ (isBinary e = false → sticks op e = false)
  | .postfixOp op e => op ∈ ["++", "--"] ∧ Plain ty e ∧ endsNum e = false
  | .cast t e => PlainType ty t ∧ Plain ty e
  | .call f args => Plain ty f ∧ PlainArgs ty args
  | .sizeofType t => PlainType ty t
  | .sizeofExpr e => Plain ty e
  | .arrIndex a i => Plain ty a ∧ Plain ty i
/-- `Plain` on arguments. -/
def PlainArgs (ty : String → Bool) : List CExpr → Prop
  | [] => True
  | e :: es => Plain ty e ∧ PlainArgs ty es
/-- `Plain` on entries. -/
def PlainEntries (ty : String → Bool) : List CEntry → Prop
  | [] => True
  | e :: es => PlainEntry ty e ∧ PlainEntries ty es
/-- `Plain` on an entry; a field is a name. -/
def PlainEntry (ty : String → Bool) : CEntry → Prop
  | .mk b k v =>
    (match k with
     | some k =>
       if b then Plain ty k else ∃ w : String, k = .ident w ∧ CWord w.toList ∧ w ∉ cKeywords
     | none => b = false) ∧ Plain ty v
end

/-- Postfix expressions: what may stand before `(`, `[`, `.`, `->`, `++`, `--`. -/
def isPostfix : CExpr → Bool
  | .lit _ => true
  | .ident _ => true
  | .fieldAccess _ _ _ => true
  | .postfixOp _ _ => true
  | .call _ _ => true
  | .arrIndex _ _ => true
  | _ => false

/-- Unary expressions: what may stand before `=` and after `++`. -/
def isUnary (e : CExpr) : Bool :=
  isPostfix e ||
  match e with
  | .prefixOp _ _ => true
  | .sizeofType _ => true
  | .sizeofExpr _ => true
  | _ => false

/-- The right operand of a left-associative operator binds no tighter than the
operator. -/
def sameLevel (op : String) : CExpr → Bool
  | .binaryOp k _ _ => cLevel k == cLevel op
  | _ => false

mutual
/-- The printed text has all the parentheses that C needs. -/
def Faithful : CExpr → Bool
  | .lit _ => true
  | .compLit _ => false
  | .ident _ => true
  | .binaryOp op a b =>
    Faithful a && Faithful b &&
    -- `a - (b - c)` is printed without the parentheses, `a & (b & c)` with them
    (if op ∈ cAssignOps then isUnary a
     else !sameLevel op b || op == "&" || op == "<<" || op == ">>")
  -- `((T)x)->f` is printed without the parentheses, `(*p).f` with them
  | .fieldAccess _ t _ => Faithful t && (isPostfix t || isOperation t)
  -- `++(T)x`
  | .prefixOp op e => Faithful e && (op != "++" && op != "--" || isUnary e || isBinary e)
  -- `(*p)++`, `(*f)(x)`, `(*p)[i]`
  | .postfixOp _ e => Faithful e && isPostfix e
  | .call f args => Faithful f && isPostfix f && FaithfulArgs args
  | .arrIndex a i => Faithful a && isPostfix a && Faithful i
  | .cast _ e => Faithful e
  | .sizeofType _ => true
  | .sizeofExpr e => Faithful e
/-- `Faithful` on arguments. -/
def FaithfulArgs : List CExpr → Bool
  | [] => true
  | e :: es => Faithful e && FaithfulArgs es
end

mutual
/-- The same of an initialiser. -/
def FaithfulInit : CExpr → Bool
  | .compLit es => FaithfulEntries es
  | e => Faithful e
/-- The same of the entries of a list. -/
def FaithfulEntries : List CEntry → Bool
  | [] => true
  | e :: es => FaithfulEntry e && FaithfulEntries es
/-- The same of an entry; an index is no assignment. -/
def FaithfulEntry : CEntry → Bool
  | .mk b k v =>
    (match k with
     | some k => !b || Faithful k && !(match k with | .binaryOp op _ _ => op ∈ cAssignOps | _ => false)
     | none => true) && FaithfulInit v
end

end Che.Spec
