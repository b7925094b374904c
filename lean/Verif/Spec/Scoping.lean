import Verif.Model.Nodes
/-!
# Specification: lexical scoping of a Che module

Purely syntactic: which names an expression or statement mentions, which scopes
enclose each mention, and what each scope declares.  Nothing here refers to the
translator.

A stack of scopes lists for every enclosing scope, innermost first, the declared
names and whether they are exported.
-/
namespace Che.Spec
open Che

/-- Enclosing scopes, innermost first: declared names and "is exported". -/
abbrev Scopes := List (List (String × Bool))

/-- Does a scope declare the name? -/
def declares (s : List (String × Bool)) (x : String) : Bool := s.any (fun d => d.1 == x)

/-- Is the innermost declaration of the name an exported one?  `none`: not
declared in any scope. -/
def lookup : Scopes → String → Option Bool
  | [], _ => none
  | s :: rest, x =>
    match s.find? (fun d => d.1 == x) with
    | some d => some d.2
    | none => lookup rest x

/-- The height of the innermost scope declaring the name (the outermost scope
has height 1). -/
def heightOf : Scopes → String → Option Nat
  | [], _ => none
  | s :: rest, x => if declares s x then some (rest.length + 1) else heightOf rest x

/-- Add declarations to the innermost scope. -/
def declare (ds : List (String × Bool)) : Scopes → Scopes
  | [] => []
  | s :: rest => (s ++ ds) :: rest

/-- A mention of a name: as a value, as a type, or the `calloc!` form. -/
inductive Use where
  | val (n : NsName)
  | typ (n : NsName)
  | calloc
deriving DecidableEq

/-- A mention together with the scopes around it. -/
structure Occ where
  scopes : Scopes
  use : Use

/-- The mention is of the declaration of `x` in the scope of height `h`. -/
def RefersTo (o : Occ) (h : Nat) (x : String) : Prop :=
  ∃ n, o.use = .val n ∧ n.ns = "" ∧ n.name = x ∧ heightOf o.scopes x = some h

mutual
/-- The mentions in an expression. -/
def usesE : Expr → List Use
  | .lit _ => []
  | .name n => [.val n]
  | .arrIndex a i => usesE a ++ usesE i
  | .binaryOp _ _ a b => usesE a ++ usesE b
  | .fieldAccess _ _ t _ => usesE t
  | .compLit es => usesEntries es
  | .prefixOp _ _ e => usesE e
  | .postfixOp _ e => usesE e
  | .cast tf e => usesE e ++ [.typ tf.typename.name]
  | .call pos f args =>
    if isIdent f "calloc!" then
      .calloc :: usesArgs args ++ [.val { ns := "", name := "calloc_or_panic", pos := pos }]
    else usesArgs args ++ usesE f
  | .sizeofType t => [.typ t.typename.name]
  | .sizeofExpr e => usesE e
/-- The mentions in the arguments of a call. -/
def usesArgs : List Expr → List Use
  | [] => []
  | e :: es => usesE e ++ usesArgs es
/-- The mentions in a composite literal; keys are field names, not mentions. -/
def usesEntries : List Entry → List Use
  | [] => []
  | e :: es => usesEntry e ++ usesEntries es
/-- The mentions in one entry. -/
def usesEntry : Entry → List Use
  | .mk _ _ v => usesE v
end

/-- The mentions in an optional expression. -/
def usesOpt : Option Expr → List Use
  | some e => usesE e
  | none => []

/-- The mentions in the brackets of a form. -/
def usesIndexes : List (Option Expr) → List Use
  | [] => []
  | e :: es => usesOpt e ++ usesIndexes es

/-- The mentions in a declared form. -/
def usesForm (f : Form) : List Use := usesIndexes f.indexes

/-- The mentions in a declaration of a variable. -/
def usesVar (d : VarDecl) : List Use :=
  .typ d.typename.name :: (usesForm d.form ++ usesOpt d.value)

/-- A case label mentions a name or nothing. -/
def usesCase : CaseValue → List Use
  | .ident n => [.val n]
  | .literal _ => []

/-- The mentions in an expression statement; `panic` itself is not a name. -/
def usesExprStmt : Expr → List Use
  | .call pos f args =>
    if isIdent f "panic" then usesArgs args else usesE (.call pos f args)
  | e => usesE e

/-- What a statement declares in the scope it stands in. -/
def declS : Stmt → List (String × Bool)
  | .varDecl d => [(d.form.name, false)]
  | _ => []

/-- What the initialiser of a `for` declares. -/
def declInit : Option ForInit → List (String × Bool)
  | some (.decl _ f _) => [(f.name, false)]
  | _ => []

/-- The mentions in the initialiser of a `for`. -/
def usesInit : Option ForInit → List Use
  | some (.expr e) => usesE e
  | some (.decl tn f v) => .typ tn.name :: (usesForm f ++ usesE v)
  | none => []

/-- Mentions in the given scopes. -/
def occAt (Γ : Scopes) (us : List Use) : List Occ := us.map (Occ.mk Γ)

mutual
/-- The mentions in the statements of a block, each with its scopes.  A
declaration is visible from its own type, brackets and initialiser onwards. -/
def occSs (Γ : Scopes) : List Stmt → List Occ
  | [] => []
  | s :: ss => occS Γ s ++ occSs (declare (declS s) Γ) ss
/-- The mentions in a statement. -/
def occS (Γ : Scopes) : Stmt → List Occ
  | .brk => []
  | .cont => []
  | .expr e => occAt Γ (usesExprStmt e)
  | .varDecl d => occAt (declare [(d.form.name, false)] Γ) (usesVar d)
  | .ret e => occAt Γ (usesOpt e)
  | .ifS c b e => occOpt Γ e ++ occAt Γ (usesE c) ++ occSs ([] :: Γ) b
  | .whileS c b => occAt Γ (usesE c) ++ occSs ([] :: Γ) b
  | .forS i c a b =>
    let Γ' := declInit i :: Γ
    occAt Γ' (usesInit i ++ usesOpt c ++ usesOpt a) ++ occSs ([] :: Γ') b
  | .switchS _ v cs d => occAt Γ (usesE v) ++ occCases Γ cs ++ occOpt Γ d
/-- The mentions in an optional block. -/
def occOpt (Γ : Scopes) : Option (List Stmt) → List Occ
  | some b => occSs ([] :: Γ) b
  | none => []
/-- The mentions in the cases of a switch. -/
def occCases (Γ : Scopes) : List SwitchCase → List Occ
  | [] => []
  | .mk vs b :: cs => occAt Γ (vs.flatMap usesCase) ++ occSs ([] :: Γ) b ++ occCases Γ cs
end

/-- A scope of the program: its height, what it declares, and all mentions
inside it. -/
structure Region where
  height : Nat
  decls : List (String × Bool)
  occs : List Occ

/-- The scope of a block opened inside `Γ`. -/
def blockRegion (Γ : Scopes) (b : List Stmt) : Region where
  height := Γ.length + 1
  decls := b.flatMap declS
  occs := occSs ([] :: Γ) b

mutual
/-- The scopes opened inside the statements of a block. -/
def regSs (Γ : Scopes) : List Stmt → List Region
  | [] => []
  | s :: ss => regS Γ s ++ regSs (declare (declS s) Γ) ss
/-- The scopes opened by a statement. -/
def regS (Γ : Scopes) : Stmt → List Region
  | .ifS _ b e => blockRegion Γ b :: regSs ([] :: Γ) b ++ regOpt Γ e
  | .whileS _ b => blockRegion Γ b :: regSs ([] :: Γ) b
  | .forS i c a b =>
    let Γ' := declInit i :: Γ
    { height := Γ.length + 1, decls := declInit i,
      occs := occAt Γ' (usesInit i ++ usesOpt c ++ usesOpt a) ++ occSs ([] :: Γ') b } ::
    blockRegion Γ' b :: regSs ([] :: Γ') b
  | .switchS _ _ cs d => regCases Γ cs ++ regOpt Γ d
  | _ => []
/-- The scopes of an optional block. -/
def regOpt (Γ : Scopes) : Option (List Stmt) → List Region
  | some b => blockRegion Γ b :: regSs ([] :: Γ) b
  | none => []
/-- The scopes of the cases of a switch. -/
def regCases (Γ : Scopes) : List SwitchCase → List Region
  | [] => []
  | .mk _ b :: cs => blockRegion Γ b :: regSs ([] :: Γ) b ++ regCases Γ cs
end

/-! ## Module elements -/

/-- The mentions in a declared name with its type. -/
def usesTypeForm (t : Typename) (f : Form) : List Use := .typ t.name :: usesForm f

/-- The mentions in the parameters of a function. -/
def usesParams (ps : FuncParams) : List Use :=
  ps.list.flatMap (fun p => p.forms.flatMap (usesTypeForm p.typename))

/-- The names of the parameters of a function. -/
def declParams (ps : FuncParams) : List (String × Bool) :=
  ps.list.flatMap (fun p => p.forms.map (fun f => (f.name, false)))

/-- The mentions in an entry of a struct. -/
def usesStructEntry : StructEntry → List Use
  | .plain x => x.forms.flatMap (usesTypeForm x.typename)
  | .union u => usesForm u.form ++ u.fields.flatMap (fun f => usesTypeForm f.typename f.form)

/-- The mentions in a function, with `Γ` the scopes outside it. -/
def occFunc (Γ : Scopes) (f : FuncDecl) : List Occ :=
  let Γ' := declParams f.params :: Γ
  occSs ([] :: Γ') f.body ++
    occAt Γ' (.typ f.typename.name :: (usesForm f.form ++ usesParams f.params))

/-- The mentions in a module element. -/
def occElem (Γ : Scopes) : ModElem → List Occ
  | .macro _ => []
  | .structAlias _ => []
  | .enum x => occAt Γ (x.entries.flatMap (fun e => usesOpt e.val))
  | .typedef x => occAt Γ
      ((match x.funcParams with
        | some p => p.forms.map (fun b => Use.typ b.typename.name)
        | none => []) ++ [.typ x.typename.name])
  | .structTypedef x => occAt Γ (x.entries.flatMap usesStructEntry)
  | .modVar d => occAt Γ (usesVar d)
  | .funcDecl f => occFunc Γ f

/-- The scopes inside a module element. -/
def regElem (Γ : Scopes) : ModElem → List Region
  | .funcDecl f =>
    { height := Γ.length + 1, decls := declParams f.params, occs := occFunc Γ f } ::
      blockRegion (declParams f.params :: Γ) f.body ::
      regSs ([] :: declParams f.params :: Γ) f.body
  | _ => []

/-- The name a `#define` line defines: its first word. -/
def definedName (value : String) : List (String × Bool) :=
  match RStr.splitWs (RStr.trim value) with
  | x :: _ => [(x, false)]
  | [] => []

/-- What a module element declares in the scope of the module.  `main` counts as
exported. -/
def declElem : ModElem → List (String × Bool)
  | .macro x => if x.name = "define" then definedName x.value else []
  | .enum x => x.entries.map (fun e => (e.name, x.isPub))
  | .modVar d => [(d.form.name, false)]
  | .funcDecl f => [(f.form.name, f.ispub || f.form.name == "main")]
  | _ => []

/-- The scope of a module. -/
def moduleScope (m : Module) : Scopes := [m.elements.flatMap declElem]

/-- All mentions in a module. -/
def occModule (m : Module) : List Occ := m.elements.flatMap (occElem (moduleScope m))

/-- All scopes of a module. -/
def regModule (m : Module) : List Region :=
  { height := 1, decls := m.elements.flatMap declElem, occs := occModule m } ::
    m.elements.flatMap (regElem (moduleScope m))

end Che.Spec
