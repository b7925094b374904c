import Verif.Model.Parser
/-!
# `src/format_che.rs`: printing of Che syntax (used in error messages)

As in `FormatC`, the functions are total and `panics…` says when
`operator_strength` would have panicked.
-/
namespace Che.FormatChe

/-- `operator_strength` where it does not panic. -/
def strength (op : String) : Nat := (operatorStrength op).getD 0

/-- Does `operator_strength` panic (`src/parser.rs:469`)? -/
def unknownOp (op : String) : Bool := (operatorStrength op).isNone

/-- `src/format_che.rs:122-129` `fmt_typename`. -/
def fmtTypename (t : Typename) : String :=
  (if t.isConst then "const " else "") ++
  (if t.name.ns ≠ "" then t.name.ns ++ "." ++ t.name.name else t.name.name)

/-- `src/format_che.rs:142-144` `fmt_bare_typeform`. -/
def fmtBareTypeform (x : BareTypeform) : String := fmtTypename x.typename ++ RStr.rep "*" x.hops

/-- `src/format_che.rs:178-185` `fmt_literal`. -/
def fmtLiteral : Literal → String
  | .char v => "'" ++ v ++ "'"
  | .string v => "\"" ++ v ++ "\""
  | .number v => v
  | .null => "NULL"

/-- `src/format_che.rs:151-172`: is the operand wrapped? -/
def wrapOperand (op : String) (a : Expr) : Bool :=
  match a.isOp with
  | some k => decide (strength k < strength op)
  | none => false

/-- `src/format_che.rs:82-90`: is the operand of a prefix operator wrapped? -/
def wrapPrefix (e : Expr) : Bool :=
  match e with
  | .binaryOp _ op _ _ => decide (strength "prefix" > strength op)
  | _ => false

/-- Parentheses around a text if the flag is set. -/
def paren (b : Bool) (s : String) : String := if b then "(" ++ s ++ ")" else s

/-- `src/format_che.rs:173-175`: the glue between the parts of a binary
operation. -/
def glue (op : String) : String := if op = "." ∨ op = "->" then "" else " "

mutual
/-- `src/format_che.rs:9-120` `fmt_expr`, with `fmt_binop` (`:146-176`) and
`fmt_field_access` (`:5-7`) inlined. -/
def fmtExpr : Expr → String
  | .fieldAccess _ op t f => fmtExpr t ++ op ++ f
  | .cast t e => "(" ++ fmtBareTypeform t ++ ")(" ++ fmtExpr e ++ ")"
  | .name n => if n.ns = "" then n.name else n.ns ++ "." ++ n.name
  | .call _ f args => fmtExpr f ++ "(" ++ RStr.join ", " (fmtArgs args) ++ ")"
  | .lit l => fmtLiteral l
  | .compLit entries =>
    match entries with
    | [] => "{0}"
    | e :: es => "{\n" ++ RStr.join ",\n" (fmtEntries (e :: es)) ++ "\n}"
  | .sizeofType t => "sizeof(" ++ fmtBareTypeform t ++ ")"
  | .sizeofExpr e => "sizeof(" ++ fmtExpr e ++ ")"
  | .binaryOp _ op a b =>
    paren (wrapOperand op a) (fmtExpr a) ++ glue op ++ op ++ glue op ++
      paren (wrapOperand op b) (fmtExpr b)
  | .prefixOp _ op e => op ++ paren (wrapPrefix e) (fmtExpr e)
  | .postfixOp op e => fmtExpr e ++ op
  | .arrIndex a i => fmtExpr a ++ "[" ++ fmtExpr i ++ "]"
/-- The arguments of a call, `src/format_che.rs:32-37`. -/
def fmtArgs : List Expr → List String
  | [] => []
  | e :: es => fmtExpr e :: fmtArgs es
/-- The entries of a composite literal, `src/format_che.rs:48-65`. -/
def fmtEntries : List Entry → List String
  | [] => []
  | e :: es => fmtEntry e :: fmtEntries es
/-- One entry, `src/format_che.rs:52-64`. -/
def fmtEntry : Entry → String
  | .mk isIndex key val =>
    "\t" ++
    match key with
    | some k =>
      if isIndex then "[" ++ fmtExpr k ++ "] = " ++ fmtExpr val
      else "." ++ fmtExpr k ++ " = " ++ fmtExpr val
    | none => fmtExpr val
end

/-- `src/format_che.rs:146-176` `fmt_binop`. -/
def fmtBinop (op : String) (a b : Expr) : String := fmtExpr (.binaryOp default op a b)

mutual
/-- Does `fmt_expr` reach `operator_strength` with an unknown operator? -/
def panicsExpr : Expr → Bool
  | .fieldAccess _ _ t _ => panicsExpr t
  | .cast _ e => panicsExpr e
  | .name _ => false
  | .call _ f args => panicsExpr f || panicsArgs args
  | .lit _ => false
  | .compLit entries => panicsEntries entries
  | .sizeofType _ => false
  | .sizeofExpr e => panicsExpr e
  | .binaryOp _ op a b =>
    (match a.isOp with | some k => unknownOp k || unknownOp op | none => false) ||
    (match b.isOp with | some k => unknownOp k || unknownOp op | none => false) ||
    panicsExpr a || panicsExpr b
  | .prefixOp _ _ e =>
    (match e with | .binaryOp _ op _ _ => unknownOp op | _ => false) || panicsExpr e
  | .postfixOp _ e => panicsExpr e
  | .arrIndex a i => panicsExpr a || panicsExpr i
/-- `panicsExpr` on the arguments of a call. -/
def panicsArgs : List Expr → Bool
  | [] => false
  | e :: es => panicsExpr e || panicsArgs es
/-- `panicsExpr` on the entries of a composite literal. -/
def panicsEntries : List Entry → Bool
  | [] => false
  | e :: es => panicsEntry e || panicsEntries es
/-- `panicsExpr` on an entry. -/
def panicsEntry : Entry → Bool
  | .mk _ key val =>
    (match key with | some k => panicsExpr k | none => false) || panicsExpr val
end

/-- One index of a form, `src/format_che.rs:133-138`. -/
def fmtIndex : Option Expr → String
  | some e => "[" ++ fmtExpr e ++ "]"
  | none => "[]"

/-- `src/format_che.rs:131-140` `fmt_form`. -/
def fmtForm (x : Form) : String :=
  RStr.rep "*" x.hops ++ x.name ++ String.join (x.indexes.map fmtIndex)

end Che.FormatChe
