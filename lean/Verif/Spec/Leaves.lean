import Verif.Spec.Emit
import Verif.Spec.CUnit
/-!
# Specification: Che modules that can be written in C

Conditions on the tree of a Che module, without translating it: its names and
literals (`leavesE` …) must be such that C can spell them (`LeafFine`), its operators
and lists must not run into each other (`neatE` …), and it must not need parentheses
that are not printed (`faithE` …).
-/
namespace Che.Spec
open Che

/-! ## Names and literals of a tree -/

/-- A name or a literal in a tree. -/
inductive Leaf where
  /-- a variable, parameter, function or constant, declared or mentioned -/
  | value (x : String)
  /-- a field after `.` or `->`, or in a list -/
  | field (x : String)
  /-- a type that is mentioned -/
  | type (n : NsName)
  /-- a type that is declared, or the tag of a structure -/
  | tag (x : String)
  | lit (l : Literal)

mutual
/-- The names and literals of an expression. -/
def leavesE : Expr → List Leaf
  | .lit l => [.lit l]
  | .name n => [.value n.name]
  | .arrIndex a i => leavesE a ++ leavesE i
  | .binaryOp _ _ a b => leavesE a ++ leavesE b
  | .fieldAccess _ _ t f => leavesE t ++ [.field f]
  | .compLit es => leavesEntries es
  | .prefixOp _ _ e => leavesE e
  | .postfixOp _ e => leavesE e
  | .cast tf e => .type tf.typename.name :: leavesE e
  | .call _ f args =>
    if isIdent f "calloc!" then .value "calloc_or_panic" :: leavesArgs args
    else leavesE f ++ leavesArgs args
  | .sizeofType t => [.type t.typename.name]
  | .sizeofExpr e => leavesE e
/-- The same of arguments. -/
def leavesArgs : List Expr → List Leaf
  | [] => []
  | e :: es => leavesE e ++ leavesArgs es
/-- The same of a list in braces. -/
def leavesEntries : List Entry → List Leaf
  | [] => []
  | e :: es => leavesEntry e ++ leavesEntries es
/-- The same of an entry. -/
def leavesEntry : Entry → List Leaf
  | .mk isIndex key v =>
    (match key with
     | some (.name n) => if isIndex then [.value n.name] else [.field n.name]
     | _ => []) ++ leavesE v
end

/-- The same of an optional expression. -/
def leavesOpt : Option Expr → List Leaf
  | some e => leavesE e
  | none => []

/-- The same of a declared name. -/
def leavesForm (f : Form) : List Leaf := .value f.name :: f.indexes.flatMap leavesOpt

/-- The same of the first part of a `for`. -/
def leavesInit : Option ForInit → List Leaf
  | none => []
  | some (.expr e) => leavesE e
  | some (.decl t f v) => .type t.name :: (leavesForm f ++ leavesE v)

/-- The same of a case label. -/
def leavesLabel : CaseValue → List Leaf
  | .ident n => [.value n.name]
  | .literal l => [.lit l]

mutual
/-- The names and literals of a statement. -/
def leavesS : Stmt → List Leaf
  | .brk => []
  | .cont => []
  | .expr e => leavesE e
  | .varDecl d => .type d.typename.name :: (leavesForm d.form ++ leavesOpt d.value)
  | .ret e => leavesOpt e
  | .ifS c b e => leavesE c ++ leavesSs b ++ leavesB e
  | .whileS c b => leavesE c ++ leavesSs b
  | .forS i c a b => leavesInit i ++ leavesOpt c ++ leavesOpt a ++ leavesSs b
  | .switchS _ v cs d => leavesE v ++ leavesCs cs ++ leavesB d
/-- The same of a list. -/
def leavesSs : List Stmt → List Leaf
  | [] => []
  | s :: ss => leavesS s ++ leavesSs ss
/-- The same of an optional block. -/
def leavesB : Option (List Stmt) → List Leaf
  | some b => leavesSs b
  | none => []
/-- The same of cases. -/
def leavesCs : List SwitchCase → List Leaf
  | [] => []
  | .mk vs b :: cs => vs.flatMap leavesLabel ++ leavesSs b ++ leavesCs cs
end

/-- The same of a type and the names declared with it. -/
def leavesFields (g : TypeAndForms) : List Leaf := .type g.typename.name :: g.forms.flatMap leavesForm

/-- The same of a member of a structure. -/
def leavesMember : StructEntry → List Leaf
  | .plain g => leavesFields g
  | .union u => leavesForm u.form ++ u.fields.flatMap (fun f => .type f.typename.name :: leavesForm f.form)

/-- The names and literals of an element of a module. -/
def leavesElem : ModElem → List Leaf
  | .macro _ => []
  | .enum x => x.entries.flatMap (fun m => .value m.name :: leavesOpt m.val)
  | .structAlias x => [.tag x.structname, .tag x.typename]
  | .typedef x => .type x.typename.name :: .tag x.alias ::
      (match x.funcParams with
       | some p => p.forms.map (fun t => .type t.typename.name)
       | none => [])
  | .structTypedef x => .tag x.name :: x.entries.flatMap leavesMember
  | .modVar d => .type d.typename.name :: (leavesForm d.form ++ leavesOpt d.value)
  | .funcDecl f =>
    .type f.typename.name :: (leavesForm f.form ++ f.params.list.flatMap leavesFields ++ leavesSs f.body)

/-- The names and literals of a module. -/
def leaves (mo : Module) : List Leaf := mo.elements.flatMap leavesElem

/-- C can spell it.  `ty` tells which words are type names in the C file. -/
def LeafFine (M : ModEnv) (ty : String → Bool) : Leaf → Prop
  | .value x => CWord x.toList ∧ x ∉ cKeywords ∧ ty x = false ∧ ∀ u, ty (globalName u x) = false
  | .field x => CWord x.toList ∧ x ∉ cKeywords
  | .type n => CWord n.name.toList ∧ CTypeWord ty (emitTypename M ⟨false, n⟩).name
  | .tag x => CWord x.toList ∧ x ∉ cKeywords
  | .lit l => PlainLit ty (emitLit l)

/-! ## Shapes -/

/-- The prefix operator that the expression starts with. -/
def leadsE : Expr → Option String
  | .prefixOp _ op _ => some op
  | .postfixOp _ e => leadsE e
  | .binaryOp _ _ a _ => leadsE a
  | .fieldAccess _ _ t _ => leadsE t
  | .call _ f _ => leadsE f
  | .arrIndex a _ => leadsE a
  | _ => none

/-- The operator and the next one would be read as `--` or `&&`. -/
def sticksE (op : String) (e : Expr) : Bool :=
  op == "-" && (leadsE e == some "-" || leadsE e == some "--") || op == "&" && leadsE e == some "&"

/-- A number. -/
def isNumE : Expr → Bool
  | .lit (.number _) => true
  | _ => false

/-- The expression ends with a number. -/
def endsNumE : Expr → Bool
  | .lit (.number _) => true
  | .prefixOp _ _ e => endsNumE e
  | .binaryOp _ _ _ b => endsNumE b
  | _ => false

/-- A binary operation. -/
def isBinE : Expr → Bool
  | .binaryOp .. => true
  | _ => false

/-- The expression starts with a list. -/
def opensE : Expr → Bool
  | .compLit _ => true
  | .postfixOp _ e => opensE e
  | .binaryOp _ _ a _ => opensE a
  | .fieldAccess _ _ t _ => opensE t
  | .call _ f _ => opensE f
  | .arrIndex a _ => opensE a
  | _ => false

mutual
/-- No operator or number runs into the next token, indexes in lists are names. -/
def neatE : Expr → Bool
  | .lit _ => true
  | .name _ => true
  | .arrIndex a i => neatE a && neatE i
  | .binaryOp _ _ a b => neatE a && neatE b
  | .fieldAccess _ _ t _ => neatE t && !isNumE t
  | .compLit es => neatEntries es
  | .prefixOp _ op e => neatE e && (isBinE e || !sticksE op e)
  | .postfixOp _ e => neatE e && !endsNumE e
  | .cast _ e => neatE e
  | .call _ f args => neatE f && neatArgs args
  | .sizeofType _ => true
  | .sizeofExpr e => neatE e
/-- `neatE` on arguments. -/
def neatArgs : List Expr → Bool
  | [] => true
  | e :: es => neatE e && neatArgs es
/-- `neatE` on a list in braces. -/
def neatEntries : List Entry → Bool
  | [] => true
  | e :: es => neatEntry e && neatEntries es
/-- `neatE` on an entry. -/
def neatEntry : Entry → Bool
  | .mk isIndex key v => (match key with | some (.name _) => true | _ => !isIndex) && neatE v
end

/-- `neatE` on an optional expression. -/
def neatOpt : Option Expr → Bool
  | some e => neatE e
  | none => true

/-- `neatE` on a declared name. -/
def neatForm (f : Form) : Bool := f.indexes.all neatOpt

/-- `neatE` on the first part of a `for`. -/
def neatInit : Option ForInit → Bool
  | none => true
  | some (.expr e) => neatE e && !opensE e
  | some (.decl _ f v) => neatForm f && neatE v

mutual
/-- `neatE` on a statement; it does not start with a list. -/
def neatS : Stmt → Bool
  | .brk => true
  | .cont => true
  | .expr e => neatE e && !opensE e
  | .varDecl d => neatForm d.form && neatOpt d.value
  | .ret e => neatOpt e
  | .ifS c b e => neatE c && neatSs b && neatB e
  | .whileS c b => neatE c && neatSs b
  | .forS i c a b => neatInit i && neatOpt c && neatOpt a && neatSs b
  | .switchS _ v cs d => neatE v && neatCs cs && neatB d
/-- `neatS` on a list. -/
def neatSs : List Stmt → Bool
  | [] => true
  | s :: ss => neatS s && neatSs ss
/-- `neatS` on an optional block. -/
def neatB : Option (List Stmt) → Bool
  | some b => neatSs b
  | none => true
/-- `neatS` on cases. -/
def neatCs : List SwitchCase → Bool
  | [] => true
  | .mk _ b :: cs => neatSs b && neatCs cs
end

/-- `neatE` on a member; a union has fields. -/
def neatMember : StructEntry → Bool
  | .plain g => !g.forms.isEmpty && g.forms.all neatForm
  | .union u => !u.fields.isEmpty && u.fields.all (fun f => neatForm f.form) && neatForm u.form

/-- An element: directives fit on their line, structures and enumerations are not
empty, dots follow a parameter. -/
def NeatElem : ModElem → Prop
  | .macro x => x.name = "type" ∨ x.name = "link" ∨ DirLine (x.name ++ " " ++ x.value).toList
  | .enum x => x.entries ≠ [] ∧ ∀ m ∈ x.entries, neatOpt m.val = true
  | .structAlias _ => True
  | .typedef x => ∀ p, x.funcParams = some p → p.ellipsis = true → p.forms ≠ []
  | .structTypedef x => x.entries ≠ [] ∧ ∀ e ∈ x.entries, neatMember e = true
  | .modVar d => neatForm d.form = true ∧ neatOpt d.value = true
  | .funcDecl f => neatForm f.form = true ∧ (∀ g ∈ f.params.list, g.forms ≠ [] ∧ g.forms.all neatForm = true) ∧
      (f.params.ellipsis = true → f.params.list ≠ []) ∧ neatSs f.body = true

/-! ## Parentheses -/

/-- A name, a literal, or an operation that is written behind its operand. -/
def isPostE : Expr → Bool
  | .lit _ => true
  | .name _ => true
  | .fieldAccess .. => true
  | .postfixOp .. => true
  | .call .. => true
  | .arrIndex .. => true
  | _ => false

/-- What may stand before `=` and after `++`. -/
def isUnE (e : Expr) : Bool :=
  isPostE e ||
  match e with
  | .prefixOp .. => true
  | .sizeofType _ => true
  | .sizeofExpr _ => true
  | _ => false

/-- An operation that is printed in parentheses before `.` and `->`. -/
def isOperE : Expr → Bool
  | .binaryOp .. => true
  | .prefixOp .. => true
  | .postfixOp .. => true
  | _ => false

/-- The right operand binds no tighter than the operator. -/
def sameE (op : String) : Expr → Bool
  | .binaryOp _ k _ _ => cLevel k == cLevel op
  | _ => false

mutual
/-- The expression does not need parentheses that are not printed. -/
def faithE : Expr → Bool
  | .lit _ => true
  | .name _ => true
  | .compLit _ => false
  | .binaryOp _ op a b =>
    faithE a && faithE b && (if op ∈ cAssignOps then isUnE a else !sameE op b || op == "&" || op == "<<" || op == ">>")
  | .fieldAccess _ _ t _ => faithE t && (isPostE t || isOperE t)
  | .prefixOp _ op e => faithE e && (op != "++" && op != "--" || isUnE e || isBinE e)
  | .postfixOp _ e => faithE e && isPostE e
  | .call _ f args => faithE f && isPostE f && faithArgs args
  | .arrIndex a i => faithE a && isPostE a && faithE i
  | .cast _ e => faithE e
  | .sizeofType _ => true
  | .sizeofExpr e => faithE e
/-- `faithE` on arguments. -/
def faithArgs : List Expr → Bool
  | [] => true
  | e :: es => faithE e && faithArgs es
end

mutual
/-- The same of an initialiser. -/
def faithInit : Expr → Bool
  | .compLit es => faithEntries es
  | e => faithE e
/-- The same of a list in braces. -/
def faithEntries : List Entry → Bool
  | [] => true
  | .mk _ _ v :: es => faithInit v && faithEntries es
end

/-- `faithE` on an optional expression. -/
def faithOpt : Option Expr → Bool
  | some e => faithE e
  | none => true

/-- `faithInit` on an optional initialiser. -/
def faithInitOpt : Option Expr → Bool
  | some e => faithInit e
  | none => true

/-- `faithE` on a constant expression: it is no assignment. -/
def faithConst : Option Expr → Bool
  | some (.binaryOp p op a b) => faithE (.binaryOp p op a b) && !(decide (op ∈ cAssignOps))
  | some e => faithE e
  | none => true

/-- `faithE` on a declared name. -/
def faithForm (f : Form) : Bool := f.indexes.all faithOpt

/-- `faithE` on the first part of a `for`. -/
def faithFirst : Option ForInit → Bool
  | none => true
  | some (.expr e) => faithE e
  | some (.decl _ f v) => faithForm f && faithInit v

mutual
/-- `faithE` on a statement. -/
def faithS : Stmt → Bool
  | .brk => true
  | .cont => true
  | .expr e => faithE e
  | .varDecl d => faithForm d.form && faithInitOpt d.value
  | .ret e => faithOpt e
  | .ifS c b e => faithE c && faithSs b && faithB e
  | .whileS c b => faithE c && faithSs b
  | .forS i c a b => faithFirst i && faithOpt c && faithOpt a && faithSs b
  | .switchS _ v cs d => faithE v && faithCs cs && faithB d
/-- `faithS` on a list. -/
def faithSs : List Stmt → Bool
  | [] => true
  | s :: ss => faithS s && faithSs ss
/-- `faithS` on an optional block. -/
def faithB : Option (List Stmt) → Bool
  | some b => faithSs b
  | none => true
/-- `faithS` on cases. -/
def faithCs : List SwitchCase → Bool
  | [] => true
  | .mk _ b :: cs => faithSs b && faithCs cs
end

/-- `faithE` on a member. -/
def faithMember : StructEntry → Bool
  | .plain g => g.forms.all faithForm
  | .union u => u.fields.all (fun f => faithForm f.form) && faithForm u.form

/-- `faithE` on an element of a module. -/
def faithElem : ModElem → Bool
  | .macro _ => true
  | .enum x => x.entries.all (fun m => faithConst m.val)
  | .structAlias _ => true
  | .typedef _ => true
  | .structTypedef x => x.entries.all faithMember
  | .modVar d => faithForm d.form && faithInitOpt d.value
  | .funcDecl f => faithForm f.form && f.params.list.all (fun g => g.forms.all faithForm) && faithSs f.body

/-! ## Modules -/

/-- The names that the translator brings in are not type names, and the types are. -/
structure HelperNames (ty : String → Bool) : Prop where
  values : ∀ w ∈ ["calloc", "calloc_or_panic", "count", "exit", "fprintf", "size", "stderr", "strcmp", "x"], ty w = false
  types : ty "void" = true ∧ ty "size_t" = true

/-- The identifiers of modules are words, and the file name can stand in a string. -/
structure EnvFine (M : ModEnv) : Prop where
  uid : CWord M.uid.toList
  nsUid : ∀ ns u, M.nsUid ns = some u → CWord u.toList
  file : '"' ∉ M.file.toList ∧ '\\' ∉ M.file.toList

end Che.Spec
