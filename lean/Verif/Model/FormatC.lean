import Verif.Model.CAst
import Verif.Model.Parser
/-!
# `src/format_c.rs`: printing of generated C

`parser::operator_strength` panics on an operator it does not know.  The
printing functions here are total, using strength 0 for an unknown operator, and
`panics…` says exactly when the code would have panicked instead;
`formatModule` puts the two together.
-/
namespace Che.FormatC

/-- `operator_strength` where it does not panic. -/
def strength (op : String) : Nat := (operatorStrength op).getD 0

/-- Does `operator_strength` panic (`src/parser.rs:469`)? -/
def unknownOp (op : String) : Bool := (operatorStrength op).isNone

/-- `src/format_c.rs:107-109` `format_type`. -/
def formatType (t : CTypename) : String := (if t.isConst then "const " else "") ++ t.name

/-- `src/format_c.rs:235-237` `fmt_bare_typeform`. -/
def fmtBareTypeform (x : CBareTypeform) : String := formatType x.typename ++ RStr.rep "*" x.hops

/-- `src/format_c.rs:246-253` `is_op`. -/
def isOp : CExpr → Option String
  | .binaryOp op _ _ => some op
  | .postfixOp _ _ => some "prefix"
  | .prefixOp _ _ => some "prefix"
  | _ => none

/-- `src/format_c.rs:364-377` `format_literal`. -/
def formatLiteral : CLiteral → String
  | .char v => "'" ++ v ++ "'"
  | .string v =>
    RStr.join "\"\\n\"\n" ((RStr.split '\n' v).map (fun line => "\"" ++ line ++ "\""))
  | .number v => v
  | .null => "NULL"

/-- `src/format_c.rs:257-271`: the condition under which an operand of a binary
operator is wrapped in parentheses. -/
def wrapOperand (op : String) (a : CExpr) : Bool :=
  match isOp a with
  | some k => decide (strength k < strength op) || op == "&" || op == ">>" || op == "<<"
  | none => false

/-- `src/format_c.rs:188-196`: the condition under which the target of a field
access is wrapped. -/
def wrapTarget (op : String) (t : CExpr) : Bool :=
  match isOp t with
  | some k => decide (strength k < strength op)
  | none => false

/-- `src/format_c.rs:201-209`: the condition under which the operand of a prefix
operator is wrapped.  (The `BinaryOp` arm of `:211-213` is unreachable; the
`Cast` arm of `:214-222` prints what `fmt_expr` prints.) -/
def wrapPrefix (e : CExpr) : Bool :=
  match e with
  | .binaryOp op _ _ => decide (strength "prefix" > strength op)
  | _ => false

/-- Parentheses around a text if the flag is set. -/
def paren (b : Bool) (s : String) : String := if b then "(" ++ s ++ ")" else s

mutual
/-- `src/format_c.rs:124-233` `fmt_expr`, with `format_binary_op` (`:255-273`)
inlined. -/
def fmtExpr : CExpr → String
  | .cast t e => "(" ++ fmtBareTypeform t ++ ")(" ++ fmtExpr e ++ ")"
  | .call f args => fmtExpr f ++ "(" ++ RStr.join ", " (fmtArgs args) ++ ")"
  | .lit l => formatLiteral l
  | .ident s => s
  | .compLit entries =>
    match entries with
    | [] => "{0}"
    | e :: es => "{\n" ++ RStr.join ",\n" (fmtEntries (e :: es)) ++ "\n}"
  | .sizeofType t => "sizeof(" ++ fmtBareTypeform t ++ ")"
  | .sizeofExpr e => "sizeof(" ++ fmtExpr e ++ ")"
  | .fieldAccess op t f => paren (wrapTarget op t) (fmtExpr t) ++ op ++ f
  | .binaryOp op a b =>
    paren (wrapOperand op a) (fmtExpr a) ++ " " ++ op ++ " " ++ paren (wrapOperand op b) (fmtExpr b)
  | .prefixOp op e => op ++ paren (wrapPrefix e) (fmtExpr e)
  | .postfixOp op e => fmtExpr e ++ op
  | .arrIndex a i => fmtExpr a ++ "[" ++ fmtExpr i ++ "]"
/-- The arguments of a call, `src/format_c.rs:138-143`. -/
def fmtArgs : List CExpr → List String
  | [] => []
  | e :: es => fmtExpr e :: fmtArgs es
/-- The entries of a composite literal, `src/format_c.rs:155-172`. -/
def fmtEntries : List CEntry → List String
  | [] => []
  | e :: es => fmtEntry e :: fmtEntries es
/-- One entry, `src/format_c.rs:159-171`. -/
def fmtEntry : CEntry → String
  | .mk isIndex key val =>
    "\t" ++
    match key with
    | some k =>
      if isIndex then "[" ++ fmtExpr k ++ "] = " ++ fmtExpr val
      else "." ++ fmtExpr k ++ " = " ++ fmtExpr val
    | none => fmtExpr val
end

mutual
/-- Does `fmt_expr` reach `operator_strength` with an unknown operator? -/
def panicsExpr : CExpr → Bool
  | .cast _ e => panicsExpr e
  | .call f args => panicsExpr f || panicsArgs args
  | .lit _ => false
  | .ident _ => false
  | .compLit entries => panicsEntries entries
  | .sizeofType _ => false
  | .sizeofExpr e => panicsExpr e
  | .fieldAccess op t _ =>
    (match isOp t with | some k => unknownOp k || unknownOp op | none => false) || panicsExpr t
  | .binaryOp op a b =>
    (match isOp a with | some k => unknownOp k || unknownOp op | none => false) ||
    (match isOp b with | some k => unknownOp k || unknownOp op | none => false) ||
    panicsExpr a || panicsExpr b
  | .prefixOp _ e =>
    (match e with | .binaryOp op _ _ => unknownOp op | _ => false) || panicsExpr e
  | .postfixOp _ e => panicsExpr e
  | .arrIndex a i => panicsExpr a || panicsExpr i
/-- `panicsExpr` on the arguments of a call. -/
def panicsArgs : List CExpr → Bool
  | [] => false
  | e :: es => panicsExpr e || panicsArgs es
/-- `panicsExpr` on the entries of a composite literal. -/
def panicsEntries : List CEntry → Bool
  | [] => false
  | e :: es => panicsEntry e || panicsEntries es
/-- `panicsExpr` on an entry. -/
def panicsEntry : CEntry → Bool
  | .mk _ key val =>
    (match key with | some k => panicsExpr k | none => false) || panicsExpr val
end

/-- One index of a form, `src/format_c.rs:116-119`. -/
def formatIndex : Option CExpr → String
  | some e => "[" ++ fmtExpr e ++ "]"
  | none => "[]"

/-- `src/format_c.rs:111-122` `format_form`. -/
def formatForm (x : CForm) : String :=
  x.stars ++ x.name ++ String.join (x.indexes.map formatIndex)

/-- `src/format_c.rs:355-362` `fmt_vardecl`. -/
def fmtVarDecl (x : CVarDecl) : String :=
  formatType x.typename ++ " " ++ formatForm x.form ++ " = " ++ fmtExpr x.value

/-- `src/format_c.rs:275-280` `indent`, on characters: a run of newlines at the
end is left alone, every other newline is followed by a tab. -/
def indentL (s : List Char) : List Char :=
  let body := (s.reverse.dropWhile (· == '\n')).reverse
  let tail := s.reverse.takeWhile (· == '\n')
  '\t' :: (body.flatMap (fun c => if c == '\n' then ['\n', '\t'] else [c])) ++ tail

/-- `src/format_c.rs:275-280` `indent`. -/
def indent (s : String) : String := String.ofList (indentL s.toList)

/-- One declared form of a `VarDecl`, `src/format_c.rs:397-404`. -/
def fmtDeclarator (f : CForm) (v : Option CExpr) : String :=
  match v with
  | some e => formatForm f ++ " = " ++ fmtExpr e
  | none => formatForm f

/-- `src/format_c.rs:331-337`: the initialiser of a `for`. -/
def fmtForInit : Option CForInit → String
  | some (.expr e) => fmtExpr e
  | some (.decl d) => fmtVarDecl d
  | none => ""

/-- `src/format_c.rs:338-345`: an optional expression. -/
def fmtOpt : Option CExpr → String
  | some e => fmtExpr e
  | none => ""

/-- `src/format_c.rs:455-459`: one label of a switch case. -/
def fmtCaseValue : CCaseValue → String
  | .ident x => "case " ++ x ++ ":"
  | .literal l => "case " ++ formatLiteral l ++ ":"

mutual
/-- `src/format_c.rs:379-444` `format_statement`. -/
def formatStatement : CStmt → String
  | .block ss => "{\n" ++ indent (formatStatements ss) ++ "}\n"
  | .brk => "break;"
  | .cont => "continue;"
  | .varDecl t forms values =>
    formatType t ++ " " ++ RStr.join ", " (List.zipWith fmtDeclarator forms values) ++ ";"
  | .ifS cond body els =>
    "if (" ++ fmtExpr cond ++ ") " ++ "{\n" ++ indent (formatStatements body) ++ "}\n" ++
    (match els with
     | some b => " else " ++ "{\n" ++ indent (formatStatements b) ++ "}\n"
     | none => "")
  | .forS init cond act body =>
    "for (" ++ fmtForInit init ++ "; " ++ fmtOpt cond ++ "; " ++ fmtOpt act ++ ") " ++
    "{\n" ++ indent (formatStatements body) ++ "}\n"
  | .whileS cond body =>
    "while (" ++ fmtExpr cond ++ ") " ++ "{\n" ++ indent (formatStatements body) ++ "}\n"
  | .ret e => (match e with | none => "return;" | some x => "return " ++ fmtExpr x) ++ ";"
  | .switchS value cases dflt =>
    "switch (" ++ fmtExpr value ++ ") {\n" ++ formatCases cases ++
    (match dflt with
     | some b => "default: {\n" ++ formatCaseBody b ++ "}\n"
     | none => "") ++ "}"
  | .expr e => fmtExpr e ++ ";"
/-- The loop of `format_body`, `src/format_c.rs:284-287`. -/
def formatStatements : List CStmt → String
  | [] => ""
  | s :: ss => formatStatement s ++ "\n" ++ formatStatements ss
/-- The cases of a switch, `src/format_c.rs:450-466`. -/
def formatCases : List CSwitchCase → String
  | [] => ""
  | .mk values body :: cs =>
    RStr.join "\n" (values.map fmtCaseValue) ++ " {\n" ++ formatCaseBody body ++ "\tbreak;\n}\n" ++
    formatCases cs
/-- The statements of a case, `src/format_c.rs:462-464`, `:469-471`. -/
def formatCaseBody : List CStmt → String
  | [] => ""
  | s :: ss => "\t" ++ formatStatement s ++ ";\n" ++ formatCaseBody ss
end

/-- `src/format_c.rs:282-289` `format_body`. -/
def formatBody (b : CBody) : String := "{\n" ++ indent (formatStatements b) ++ "}\n"

/-- `panicsExpr` on an optional expression. -/
def panicsOpt : Option CExpr → Bool
  | some e => panicsExpr e
  | none => false

/-- `panicsExpr` on a form. -/
def panicsForm (x : CForm) : Bool := x.indexes.any panicsOpt

/-- `panicsExpr` on a `for` initialiser. -/
def panicsForInit : Option CForInit → Bool
  | some (.expr e) => panicsExpr e
  | some (.decl d) => panicsForm d.form || panicsExpr d.value
  | none => false

mutual
/-- Does `format_statement` panic: unknown operator, or (`src/format_c.rs:393`)
fewer values than forms? -/
def panicsStmt : CStmt → Bool
  | .block ss => panicsStmts ss
  | .brk => false
  | .cont => false
  | .varDecl _ forms values =>
    forms.any panicsForm || (values.take forms.length).any panicsOpt ||
    decide (values.length < forms.length)
  | .ifS cond body els =>
    panicsExpr cond || panicsStmts body ||
    (match els with | some b => panicsStmts b | none => false)
  | .forS init cond act body =>
    panicsForInit init || panicsOpt cond || panicsOpt act || panicsStmts body
  | .whileS cond body => panicsExpr cond || panicsStmts body
  | .ret e => panicsOpt e
  | .switchS value cases dflt =>
    panicsExpr value || panicsCases cases ||
    (match dflt with | some b => panicsStmts b | none => false)
  | .expr e => panicsExpr e
/-- `panicsStmt` on a statement list. -/
def panicsStmts : List CStmt → Bool
  | [] => false
  | s :: ss => panicsStmt s || panicsStmts ss
/-- `panicsStmt` on the cases of a switch. -/
def panicsCases : List CSwitchCase → Bool
  | [] => false
  | .mk _ body :: cs => panicsStmts body || panicsCases cs
end

/-- `src/format_c.rs:291-293` `format_typeform`. -/
def formatTypeform (x : CTypeForm) : String :=
  formatType x.typename ++ " " ++ formatForm x.form ++ ";\n"

/-- `src/format_c.rs:91-105` `format_union`. -/
def formatUnion (x : CUnion) : String :=
  "union {\n" ++
  String.join (x.fields.map (fun f =>
    "\t" ++ formatType f.typename ++ " " ++ formatForm f.form ++ ";\n")) ++
  "\n} " ++ formatForm x.form ++ ";\n"

/-- `src/format_c.rs:299-308`: one item of a struct. -/
def formatStructItem : CStructItem → String
  | .field f => formatTypeform f
  | .union u => formatUnion u

/-- `src/format_c.rs:295-314` `format_compat_struct_definition`. -/
def formatStructDef (x : CStructDef) : String :=
  "struct " ++ x.name ++ " {\n" ++ indent (String.join (x.fields.map formatStructItem)) ++ "\n};\n"

/-- `src/format_c.rs:316-323` `format_enum_member`. -/
def formatEnumMember (x : CEnumEntry) : String :=
  match x.value with
  | some v => x.id ++ " = " ++ fmtExpr v
  | none => x.id

/-- `src/format_c.rs:28-38` `fmt_enumdef`. -/
def fmtEnumDef (x : CEnumDef) : String :=
  "enum {\n" ++ RStr.join ",\n" (x.entries.map (fun m => "\t" ++ formatEnumMember m)) ++ "\n};\n"

/-- `src/format_c.rs:71-89` `fmt_func_params`. -/
def fmtFuncParams (x : CFuncParams) : String :=
  "(" ++ RStr.join ", " (x.list.map (fun p => formatType p.typename ++ " " ++ formatForm p.form)) ++
  (if x.variadic then ", ..." else "") ++ (if x.list.length = 0 then "void" else "") ++ ")"

/-- `src/format_c.rs:43-45`, `:59-61`: the `static` marker. -/
def staticMark (isStatic : Bool) (form : String) : String :=
  if isStatic && form != "main" then "static " else ""

/-- `src/format_c.rs:40-54` `fmt_func_def`. -/
def fmtFuncDef (x : CFuncDef) : String :=
  staticMark x.isStatic (formatForm x.form) ++ formatType x.typename ++ " " ++ formatForm x.form ++
  " " ++ fmtFuncParams x.params ++ " " ++ formatBody x.body

/-- `src/format_c.rs:56-69` `fmt_forward_func`. -/
def fmtForwardFunc (x : CForwardFunc) : String :=
  staticMark x.isStatic (formatForm x.form) ++ formatType x.typename ++ " " ++ formatForm x.form ++
  " " ++ fmtFuncParams x.params ++ ";\n"

/-- `src/format_c.rs:492-509` `fmt_anon_params`. -/
def fmtAnonParams (x : CAnonParams) : String :=
  if x.forms.length = 0 then "(void)"
  else "(" ++ RStr.join ", " (x.forms.map fmtBareTypeform) ++
       (if x.ellipsis then ", ..." else "") ++ ")"

/-- `src/format_c.rs:478-490` `format_typedef`. -/
def formatTypedef (x : CTypedef) : String :=
  "typedef " ++ formatType x.typename ++ " " ++ x.form.stars ++ x.form.alias ++
  (match x.form.params with | some p => fmtAnonParams p | none => "") ++
  (if x.form.size > 0 then "[" ++ toString x.form.size ++ "]" else "") ++ ";\n"

/-- One element of `format_module`, `src/format_c.rs:8-23`. -/
def formatElem : CModElem → String
  | .varDecl x => "static " ++ formatType x.typename ++ " " ++ formatForm x.form ++ " = " ++
      fmtExpr x.value ++ ";\n"
  | .typedef x => formatTypedef x
  | .macro x => "#" ++ x.name ++ " " ++ x.value ++ "\n"
  | .include x => "#include " ++ x ++ "\n"
  | .defEnum x => fmtEnumDef x
  | .forwardStruct x => "struct " ++ x ++ ";\n"
  | .structDef x => formatStructDef x
  | .forwardFunc x => fmtForwardFunc x
  | .funcDef x => fmtFuncDef x

/-- Does printing the parameters panic? -/
def panicsParams (x : CFuncParams) : Bool := x.list.any (fun p => panicsForm p.form)

/-- Does printing a struct item panic? -/
def panicsStructItem : CStructItem → Bool
  | .field f => panicsForm f.form
  | .union u => panicsForm u.form || u.fields.any (fun f => panicsForm f.form)

/-- Does printing an element panic? -/
def panicsElem : CModElem → Bool
  | .varDecl x => panicsForm x.form || panicsExpr x.value
  | .typedef _ => false
  | .macro _ => false
  | .include _ => false
  | .defEnum x => x.entries.any (fun m => panicsOpt m.value)
  | .forwardStruct _ => false
  | .structDef x => x.fields.any panicsStructItem
  | .forwardFunc x => panicsForm x.form || panicsParams x.params
  | .funcDef x => panicsForm x.form || panicsParams x.params || panicsStmts x.body

/-- The text `format_module` builds when nothing panics. -/
def formatElems (m : CModule) : String := String.join (m.elements.map formatElem)

/-- `src/format_c.rs:5-26` `format_module`. -/
def formatModule (m : CModule) : Res Empty String :=
  if m.elements.any panicsElem then .panic "parser.rs:469" else .ok (formatElems m)

end Che.FormatC
