import Verif.Model.CAst
import Verif.Spec.Scoping
/-!
# Specification: the C tree that belongs to a Che tree

A pure, compositional account of the translation: every construct is mapped to C
by looking only at the construct, at the scopes around it and at what is known
about the module.  There is no state.
-/
namespace Che.Spec
open Che

/-- What is fixed while a module is translated. -/
structure ModEnv where
  /-- the identifier of this module -/
  uid : String
  /-- the file of this module -/
  file : String
  /-- is the name a type of the language or of this module? -/
  typeKnown : String → Bool
  /-- is the name an exported type of this module? -/
  typePub : String → Bool
  /-- the identifier of the module behind a namespace -/
  nsUid : String → Option String
  /-- does the module behind a namespace export the name? -/
  nsExports : String → String → Bool
  /-- is the name a symbol of the C library? -/
  builtin : String → Bool

/-! ## What a module must satisfy -/

/-- A mention that is allowed. -/
def OccOk (M : ModEnv) (o : Occ) : Prop :=
  match o.use with
  | .val n => n.ns = "OS" ∨ (n.ns = "" ∧ ((lookup o.scopes n.name).isSome ∨ M.builtin n.name)) ∨
      (n.ns ≠ "" ∧ (M.nsUid n.ns).isSome ∧ M.nsExports n.ns n.name)
  | .typ n => n.ns = "OS" ∨ (n.ns = "" ∧ M.typeKnown n.name) ∨
      (n.ns ≠ "" ∧ (M.nsUid n.ns).isSome ∧ M.nsExports n.ns n.name)
  | .calloc => True

/-- The mention makes the namespace used. -/
def MentionsNs (o : Occ) (ns : String) : Prop :=
  ns ≠ "" ∧ ns ≠ "OS" ∧ ∃ n, n.ns = ns ∧ (o.use = .val n ∨ o.use = .typ n)

/-- Every private declaration of the scope is mentioned inside it, and no name is
declared twice. -/
def RegionOk (r : Region) : Prop :=
  (∀ d ∈ r.decls, d.2 = false → ∃ o ∈ r.occs, RefersTo o r.height d.1) ∧
  (r.decls.map (·.1)).Nodup

/-! ## Names -/

/-- The C name of an exported element of the module with the given identifier. -/
def globalName (uid x : String) : String := uid ++ "__" ++ x

/-- The C name for a mention of a value. -/
def emitName (M : ModEnv) (Γ : Scopes) (n : NsName) : String :=
  if n.ns = "OS" then n.name
  else if n.ns ≠ "" then globalName ((M.nsUid n.ns).getD "") n.name
  else if lookup Γ n.name = some true then globalName M.uid n.name
  else n.name

/-- The C name for a mention of a type. -/
def emitTypename (M : ModEnv) (t : Typename) : CTypename where
  isConst := t.isConst
  name :=
    if t.name.ns = "OS" then t.name.name
    else if t.name.ns ≠ "" then globalName ((M.nsUid t.name.ns).getD "") t.name.name
    else if M.typePub t.name.name then globalName M.uid t.name.name
    else t.name.name

/-- A type with stars. -/
def emitBare (M : ModEnv) (b : BareTypeform) : CBareTypeform :=
  { typename := emitTypename M b.typename, hops := b.hops }

/-- Literals are copied. -/
def emitLit : Literal → CLiteral
  | .char s => .char s
  | .string s => .string s
  | .number s => .number s
  | .null => .null

/-- The key of an entry of a composite literal: a field name. -/
def emitKey : Option Expr → Option CExpr
  | some (.name n) => some (.ident n.name)
  | _ => none

mutual
/-- Expressions. -/
def emitE (M : ModEnv) (Γ : Scopes) : Expr → CExpr
  | .lit l => .lit (emitLit l)
  | .name n => .ident (emitName M Γ n)
  | .arrIndex a i => .arrIndex (emitE M Γ a) (emitE M Γ i)
  | .binaryOp _ op a b => .binaryOp op (emitE M Γ a) (emitE M Γ b)
  | .fieldAccess _ op t f => .fieldAccess op (emitE M Γ t) f
  | .compLit es => .compLit (emitEntries M Γ es)
  | .prefixOp _ op e => .prefixOp op (emitE M Γ e)
  | .postfixOp op e => .postfixOp op (emitE M Γ e)
  | .cast tf e => .cast (emitBare M tf) (emitE M Γ e)
  | .call pos f args =>
    if isIdent f "calloc!" then
      .call (.ident (emitName M Γ { ns := "", name := "calloc_or_panic", pos := pos }))
        (emitArgs M Γ args)
    else .call (emitE M Γ f) (emitArgs M Γ args)
  | .sizeofType t => .sizeofType (emitBare M t)
  | .sizeofExpr e => .sizeofExpr (emitE M Γ e)
/-- Arguments. -/
def emitArgs (M : ModEnv) (Γ : Scopes) : List Expr → List CExpr
  | [] => []
  | e :: es => emitE M Γ e :: emitArgs M Γ es
/-- Entries of a composite literal. -/
def emitEntries (M : ModEnv) (Γ : Scopes) : List Entry → List CEntry
  | [] => []
  | e :: es => emitEntry M Γ e :: emitEntries M Γ es
/-- One entry. -/
def emitEntry (M : ModEnv) (Γ : Scopes) : Entry → CEntry
  | .mk isIndex key v => .mk isIndex (emitKey key) (emitE M Γ v)
end

/-- Optional expressions. -/
def emitOptE (M : ModEnv) (Γ : Scopes) : Option Expr → Option CExpr
  | some e => some (emitE M Γ e)
  | none => none

/-- A declared form; `name` is its C name. -/
def emitFormAs (M : ModEnv) (Γ : Scopes) (f : Form) (name : String) : CForm where
  stars := RStr.rep "*" f.hops
  name := name
  indexes := f.indexes.map (emitOptE M Γ)

/-- A local form keeps its name. -/
def emitForm (M : ModEnv) (Γ : Scopes) (f : Form) : CForm := emitFormAs M Γ f f.name

/-- The C name of a function or module variable being declared inside `Γ`. -/
def declName (M : ModEnv) (Γ : Scopes) (x : String) : String :=
  if lookup Γ x = some true ∧ x ≠ "main" then globalName M.uid x else x

/-- A type and a form. -/
def emitTypeForm (M : ModEnv) (Γ : Scopes) (t : Typename) (f : Form) : CTypeForm :=
  { typename := emitTypename M t, form := emitForm M Γ f }

/-- The initialiser of a `for`. -/
def emitInit (M : ModEnv) (Γ : Scopes) : Option ForInit → Option CForInit
  | some (.expr e) => some (.expr (emitE M Γ e))
  | some (.decl tn f v) => some (.decl
      { typename := emitTypename M tn, form := emitForm M Γ f, value := emitE M Γ v })
  | none => none

/-- A case label. -/
def emitCaseValue (M : ModEnv) (Γ : Scopes) : CaseValue → CCaseValue
  | .ident n => .ident (emitName M Γ n)
  | .literal l => .literal (emitLit l)

/-- A case label of `switch str` as an expression. -/
def emitStrValue (M : ModEnv) (Γ : Scopes) : CaseValue → CExpr
  | .ident n => .ident (emitName M Γ n)
  | .literal l => .lit (emitLit l)

/-- `!strcmp(label, value)`. -/
def emitStrTest (M : ModEnv) (Γ : Scopes) (v : CExpr) (l : CaseValue) : CExpr :=
  .prefixOp "!" (.call (.ident "strcmp") [emitStrValue M Γ l, v])

/-- The tests for the labels of one case, joined with `||`. -/
def emitStrCond (M : ModEnv) (Γ : Scopes) (v : CExpr) : List CaseValue → CExpr
  | [] => .lit (.number "0")
  | l :: ls => ls.foldl (fun acc l => .binaryOp "||" acc (emitStrTest M Γ v l)) (emitStrTest M Γ v l)

/-- `fprintf(stderr, …)` as a statement. -/
def emitPrint (args : List CExpr) : CStmt := .expr (.call (.ident "fprintf") (.ident "stderr" :: args))

/-- The block for a `panic` statement. -/
def emitPanic (M : ModEnv) (Γ : Scopes) (pos : Pos) (args : List Expr) : CStmt :=
  .block [
    emitPrint [.lit (.string "*** panic at %s ***\\n"), .lit (.string (M.file ++ ":" ++ pos.fmt))],
    emitPrint (emitArgs M Γ args),
    emitPrint [.lit (.string "\\n")],
    .expr (.call (.ident "exit") [.lit (.number "1")])]

/-- An expression statement. -/
def emitExprStmt (M : ModEnv) (Γ : Scopes) : Expr → CStmt
  | .call pos f args =>
    if isIdent f "panic" then emitPanic M Γ (expressionPos f) args
    else .expr (emitE M Γ (.call pos f args))
  | e => .expr (emitE M Γ e)

/-- A local variable; it is in scope in its own declaration. -/
def emitVar (M : ModEnv) (Γ : Scopes) (d : VarDecl) : CStmt :=
  .varDecl (emitTypename M d.typename) [emitForm M (declare [(d.form.name, false)] Γ) d.form]
    [emitOptE M (declare [(d.form.name, false)] Γ) d.value]

mutual
/-- The statements of a block. -/
def emitSs (M : ModEnv) (Γ : Scopes) : List Stmt → List CStmt
  | [] => []
  | s :: ss => emitS M Γ s :: emitSs M (declare (declS s) Γ) ss
/-- A statement. -/
def emitS (M : ModEnv) (Γ : Scopes) : Stmt → CStmt
  | .brk => .brk
  | .cont => .cont
  | .expr e => emitExprStmt M Γ e
  | .varDecl d => emitVar M Γ d
  | .ret e => .ret (emitOptE M Γ e)
  | .ifS c b e => .ifS (emitE M Γ c) (emitSs M ([] :: Γ) b) (emitOptB M Γ e)
  | .whileS c b => .whileS (emitE M Γ c) (emitSs M ([] :: Γ) b)
  | .forS i c a b =>
    let Γ' := declInit i :: Γ
    .forS (emitInit M Γ' i) (emitOptE M Γ' c) (emitOptE M Γ' a) (emitSs M ([] :: Γ') b)
  | .switchS isStr v cs d =>
    if isStr then
      match cs with
      | [] => .block []
      | c :: rest =>
        let s := emitStrCase M Γ (emitE M Γ v) c
        .ifS s.1 s.2 (emitStrElse M Γ (emitE M Γ v) (emitOptB M Γ d) rest)
    else .switchS (emitE M Γ v) (emitCases M Γ cs) (emitOptB M Γ d)
/-- An optional block. -/
def emitOptB (M : ModEnv) (Γ : Scopes) : Option (List Stmt) → Option CBody
  | some b => some (emitSs M ([] :: Γ) b)
  | none => none
/-- The cases of a plain switch. -/
def emitCases (M : ModEnv) (Γ : Scopes) : List SwitchCase → List CSwitchCase
  | [] => []
  | .mk vs b :: cs => .mk (vs.map (emitCaseValue M Γ)) (emitSs M ([] :: Γ) b) :: emitCases M Γ cs
/-- One case of `switch str`: test and body. -/
def emitStrCase (M : ModEnv) (Γ : Scopes) (v : CExpr) : SwitchCase → CExpr × CBody
  | .mk vs b => (emitStrCond M Γ v vs, emitSs M ([] :: Γ) b)
/-- The other cases of `switch str` as nested else branches. -/
def emitStrElse (M : ModEnv) (Γ : Scopes) (v : CExpr) (d : Option CBody) :
    List SwitchCase → Option CBody
  | [] => d
  | c :: rest =>
    let s := emitStrCase M Γ v c
    some [.ifS s.1 s.2 (emitStrElse M Γ v d rest)]
end

/-! ## Module elements -/

/-- The C name of a type or constant declared `pub` or not. -/
def pubName (M : ModEnv) (pub : Bool) (x : String) : String := if pub then globalName M.uid x else x

/-- The parameters: one per declared name. -/
def emitParams (M : ModEnv) (Γ : Scopes) (ps : FuncParams) : CFuncParams where
  list := ps.list.flatMap (fun p => p.forms.map (emitTypeForm M Γ p.typename))
  variadic := ps.ellipsis

/-- The items of a struct. -/
def emitStructEntry (M : ModEnv) (Γ : Scopes) : StructEntry → List CStructItem
  | .plain x => x.forms.map (fun f => .field (emitTypeForm M Γ x.typename f))
  | .union u => [.union { form := emitForm M Γ u.form,
                          fields := u.fields.map (fun f => emitTypeForm M Γ f.typename f.form) }]

/-- The prototype of a function. -/
def emitProto (M : ModEnv) (Γ : Scopes) (f : FuncDecl) : CForwardFunc :=
  let Γ' := declParams f.params :: Γ
  { isStatic := !f.ispub
    typename := emitTypename M f.typename
    form := emitFormAs M Γ' f.form (declName M Γ' f.form.name)
    params := emitParams M Γ' f.params }

/-- The definition of a function. -/
def emitFunc (M : ModEnv) (Γ : Scopes) (f : FuncDecl) : CFuncDef :=
  let p := emitProto M Γ f
  { isStatic := p.isStatic, typename := p.typename, form := p.form, params := p.params
    body := emitSs M ([] :: declParams f.params :: Γ) f.body }

/-- A module element. -/
def emitElem (M : ModEnv) (Γ : Scopes) : ModElem → List CModElem
  | .macro x => if x.name = "type" ∨ x.name = "link" then [] else [.macro { name := x.name, value := x.value }]
  | .structAlias x => [.typedef {
      ispub := x.ispub
      typename := { isConst := false, name := "struct " ++ x.structname }
      form := { stars := "", params := none, size := 0, alias := pubName M x.ispub x.typename } }]
  | .enum x => [.defEnum {
      isHidden := !x.isPub
      entries := x.entries.map (fun e =>
        { id := pubName M x.isPub e.name, value := emitOptE M Γ e.val }) }]
  | .typedef x => [.typedef {
      ispub := x.ispub
      typename := emitTypename M x.typename
      form := {
        stars := RStr.rep "*" x.derefs
        params := x.funcParams.map (fun p =>
          { ellipsis := p.ellipsis, forms := p.forms.map (emitBare M) })
        size := x.arraySize
        alias := pubName M x.ispub x.alias } }]
  | .structTypedef x =>
    let name := pubName M x.ispub x.name
    let tag := "__" ++ name ++ "_struct"
    [.forwardStruct tag,
     .structDef { name := tag, fields := x.entries.flatMap (emitStructEntry M Γ), isPub := x.ispub },
     .typedef {
       ispub := x.ispub
       typename := { isConst := false, name := "struct " ++ tag }
       form := { stars := "", params := none, size := 0, alias := name } }]
  | .modVar d =>
    match d.value with
    | some e => [.varDecl { typename := emitTypename M d.typename,
                            form := emitFormAs M Γ d.form (declName M Γ d.form.name),
                            value := emitE M Γ e }]
    | none => []
  | .funcDecl f =>
    .funcDef (emitFunc M Γ f) ::
      (if f.form.name = "main" then [] else [.forwardFunc (emitProto M Γ f)])

end Che.Spec
