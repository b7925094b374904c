import Verif.Model.Cspec
import Verif.Model.FormatC
import Verif.Model.FormatChe
/-!
# `src/translator.rs`: from Che modules to C modules

`ctx: &mut TrCtx` is threaded as a state.  `scopes` is kept innermost first (the
code keeps the innermost scope at the end of a vector).  The `DEBUG_TYPES` and
`TRACE` branches are dead (both constants are `false`, `:15-16`) and left out.
-/
namespace Che

/-- `src/translator.rs:64-71` `Binding`. -/
structure Binding where
  pos : Pos
  name : String
  typ : Ty
  used : Bool
  ispub : Bool
deriving Repr, Inhabited

/-- `src/translator.rs:73-77` `TI`. -/
structure TI where
  isPub : Bool
  t : Ty
deriving Repr, Inhabited

/-- `src/translator.rs:107-117` `TrCtx`. -/
structure TrCtx where
  thisModHead : ModuleInfo
  allModHeads : List ModuleInfo
  cmods : List CModule
  mods : List Module
  scopes : List (List Binding)
  usedNs : List String
  usedCustoms : List String
  structTypedefs : List (String × StructTypedef)
  otherTypedefs : List (String × TI)
deriving Repr, Inhabited

/-- A translator call. -/
def Tr (α : Type) := TrCtx → Res BuildError (α × TrCtx)

namespace Tr
variable {α β : Type}

/-- Sequencing with `?`. -/
def bind (m : Tr α) (f : α → Tr β) : Tr β := fun c =>
  match m c with
  | .ok (a, c') => f a c'
  | .err e => .err e
  | .panic s => .panic s
  | .diverge => .diverge

instance : Monad Tr where
  pure a := fun c => .ok (a, c)
  bind := bind

/-- The current context. -/
def get : Tr TrCtx := fun c => .ok (c, c)

/-- Update the context. -/
def modify (f : TrCtx → TrCtx) : Tr Unit := fun c => .ok ((), f c)

/-- Return a `BuildError` in the current module. -/
def fail (message pos : String) : Tr α := fun c =>
  .err { path := c.thisModHead.filepath, pos := pos, message := message }

/-- Panic. -/
def panic (m : String) : Tr α := fun _ => .panic m

/-- Run forever. -/
def diverge : Tr α := fun _ => .diverge

/-- `.map_err(|e| BuildError {...})?` on a `Result<_, String>`. -/
def lift (r : Res String α) (msg : String → String) (pos : String) : Tr α := fun c =>
  match r with
  | .ok a => .ok (a, c)
  | .err e => .err { path := c.thisModHead.filepath, pos := pos, message := msg e }
  | .panic s => .panic s
  | .diverge => .diverge

/-- `unwrap` of an option. -/
def unwrap (o : Option α) (m : String) : Tr α := fun c =>
  match o with
  | some a => .ok (a, c)
  | none => .panic m

end Tr

/-- `src/translator.rs:1792-1794` `nsprefix`. -/
def nsprefix (pre id : String) : String := pre ++ "__" ++ id

/-- `src/translator.rs:84-98` `find_type`: is the type public? -/
def findType (c : TrCtx) (name : String) : Res String Bool :=
  if Cspec.hasType name then .ok false
  else
    match mapGet c.structTypedefs name with
    | some t => .ok t.ispub
    | none =>
      match mapGet c.otherTypedefs name with
      | some t => .ok t.isPub
      | none =>
        if c.thisModHead.typedefs.contains name then .ok false
        else .err ("unknown type: " ++ name)

/-- `src/translator.rs:119-133` `getnspos`; `none` is the `unwrap` panic. -/
def getNsPos (c : TrCtx) (ns : String) : Option Nat :=
  match c.thisModHead.imports.find? (fun x => x.ns == ns) with
  | none => none
  | some imp => c.allModHeads.findIdx? (fun x => x.filepath == imp.path)

/-- `src/translator.rs:135-137` `begin_scope`. -/
def beginScope : Tr Unit := Tr.modify fun c => { c with scopes := [] :: c.scopes }

/-- The loop of `src/translator.rs:147-155`. -/
def firstUnused (s : List Binding) : Option Binding := s.find? (fun b => !b.ispub && !b.used)

/-- `src/translator.rs:139-157` `end_scope`. -/
def endScope : Tr Unit := fun c =>
  match c.scopes with
  | [] => .panic "translator.rs:146"
  | s :: rest =>
    match firstUnused s with
    | some b =>
      .err { path := c.thisModHead.filepath, pos := b.pos.fmt, message := b.name ++ " is unused" }
    | none => .ok ((), { c with scopes := rest })

/-- `src/translator.rs:159-164` `find_binding`. -/
def findBinding (scopes : List (List Binding)) (name : String) : Option Binding :=
  scopes.findSome? (fun s => s.find? (fun b => b.name == name))

/-- Set `used` on the last binding with this name in a scope. -/
def markLast (name : String) : List Binding → List Binding
  | [] => []
  | b :: bs =>
    if bs.any (fun x => x.name == name) then b :: markLast name bs
    else if b.name == name then { b with used := true } :: bs
    else b :: bs

/-- `src/translator.rs:166-179`: mark the last match of the scan from the
outermost to the innermost scope, that is the last one in the innermost scope
having one; `none` if there is no match. -/
def markUse (name : String) : List (List Binding) → Option (List (List Binding))
  | [] => none
  | s :: rest =>
    if s.any (fun b => b.name == name) then some (markLast name s :: rest)
    else (markUse name rest).map (s :: ·)

/-- `src/translator.rs:166-185` `mark_binding_use`. -/
def markBindingUse (name : String) : Tr Bool := fun c =>
  match markUse name c.scopes with
  | some scopes => .ok (true, { c with scopes := scopes })
  | none => .ok ((Cspec.findSym name).isSome || name == "nelem", c)

/-- `src/translator.rs:187-199` `add_binding`. -/
def addBinding (name : String) (pos : Pos) (ispub : Bool) (t : Ty) : Tr Unit := fun c =>
  match c.scopes with
  | [] => .panic "translator.rs:189"
  | s :: rest =>
    if s.any (fun x => x.name == name) then .panic "translator.rs:190"
    else
      .ok ((), { c with scopes :=
        (s ++ [{ name := name, pos := pos, used := false, ispub := ispub, typ := t }]) :: rest })

/-! ## Types of declarations -/

/-- `src/translator.rs:1624-1633` `typefrom_typename`. -/
def typefromTypename (x : Typename) (y : Form) : Ty :=
  tMk (y.indexes.map (fun _ => TypeOp.index) ++ List.replicate y.hops TypeOp.deref)
    x.name.ns x.name.name

/-- `src/translator.rs:1635-1641` `typefrom_baretypeform`. -/
def typefromBareTypeform (x : BareTypeform) : Ty :=
  tMk (List.replicate x.hops TypeOp.deref) x.typename.name.ns x.typename.name.name

/-- `src/translator.rs:1643-1671` `typefrom_typedef`. -/
def typefromTypedef (x : Typedef) : Ty :=
  tMk
    ((match x.funcParams with
      | some p =>
        [TypeOp.call (p.forms.map typefromBareTypeform ++ (if p.ellipsis then [tEllipsis] else []))]
      | none => []) ++
     (if x.arraySize > 0 then [TypeOp.index] else []) ++
     List.replicate x.derefs TypeOp.deref)
    x.typename.name.ns x.typename.name.name

/-- The parameter types of `src/translator.rs:1182-1190`. -/
def paramTypes (ps : FuncParams) : List Ty :=
  (ps.list.flatMap (fun p => p.forms.map (fun f => typefromTypename p.typename f))) ++
  (if ps.ellipsis then [tEllipsis] else [])

/-- `src/translator.rs:1180-1193` `typefrom_funcdecl`. -/
def typefromFuncDecl (f : FuncDecl) : Ty :=
  let t := typefromTypename f.typename f.form
  .mk t.base (TypeOp.call (paramTypes f.params) :: t.ops)

/-- `src/translator.rs:1692-1699` `typeof_literal`. -/
def typeofLiteral : Literal → Ty
  | .char _ => tJust "char"
  | .string _ => tJustp "char"
  | .number _ => tNumber
  | .null => tJust "null"

/-- The loop of `src/translator.rs:1714-1725`: `none` when it runs to the end. -/
def fieldInEntries (field : String) : List StructEntry → Option Ty
  | [] => none
  | .plain tf :: rest =>
    match tf.forms.find? (fun f => f.name == field) with
    | some f => some (typefromTypename tf.typename f)
    | none => fieldInEntries field rest
  | .union _ :: _ => some tTodo

/-- `src/translator.rs:1701-1736` `typeof_struct_field`: never an error. -/
def typeofStructField (c : TrCtx) (t : Ty) (field : String) : Ty :=
  if isTodo t then tTodo
  else if t.base.ns = "" then
    match mapGet c.structTypedefs t.base.name with
    | some x => (fieldInEntries field x.entries).getD tTodo
    | none => tTodo
  else tTodo

/-- `src/translator.rs:1745-1761`: the argument count check of a call. -/
def arityError (args : List Ty) (aa : Nat) : Option String :=
  if (match args.getLast? with | some x => isEllipsis x | none => false) then
    if aa < args.length - 1 then
      some ("expected at least " ++ toString (args.length - 1) ++ " arguments, got " ++ toString aa)
    else none
  else if aa ≠ args.length then
    some ("expected " ++ toString args.length ++ " arguments, got " ++ toString aa)
  else none

/-- `src/translator.rs:1738-1790` `typeof_call`; `aa` is the number of arguments
(their types are not looked at).  The budget bounds the recursion through
typedefs. -/
def typeofCall (c : TrCtx) : Nat → Ty → Nat → Res String Ty
  | 0, _, _ => .diverge
  | n + 1, t, aa =>
    if isTodo t then .ok tTodo
    else
      match t.ops with
      | .call args :: rest =>
        match arityError args aa with
        | some e => .err e
        | none => .ok (.mk t.base rest)
      | [] =>
        if t.base.ns = "" then
          match mapGet c.otherTypedefs t.base.name with
          | some d => typeofCall c n d.t aa
          | none => .err ("call of a non-function (" ++ t.fmt ++ ")")
        else .err ("call of a non-function (" ++ t.fmt ++ ")")
      | [.deref] =>
        if t.base.ns = "" then
          match mapGet c.otherTypedefs t.base.name with
          | some d => typeofCall c n d.t aa
          | none => .err ("call of a non-function (" ++ t.fmt ++ ")")
        else .err ("call of a non-function (" ++ t.fmt ++ ")")
      | _ => .err ("call of a non-function (" ++ t.fmt ++ ")")

/-- The budget at which a `typeof_call` that has not returned never will: one
more than the number of distinct calls it can make. -/
def typeofCallFuel (c : TrCtx) : Nat := c.otherTypedefs.length + 2

/-- `src/translator.rs:720-737` `root_type`. -/
def rootType (t : Ty) (c : TrCtx) : Ty :=
  if t.base.ns ≠ "" then tTodo
  else if Cspec.hasType t.base.name then t
  else
    match mapGet c.otherTypedefs t.base.name with
    | some b => .mk b.t.base (t.ops ++ b.t.ops)
    | none => t

/-! ## Names -/

/-- `src/translator.rs:1094-1139` `tr_typename`. -/
def trTypename (x : Typename) : Tr CTypename := do
  if x.name.ns = "OS" then pure { isConst := x.isConst, name := x.name.name }
  else if x.name.ns = "" then
    let c ← Tr.get
    let ispub ← Tr.lift (findType c x.name.name) id x.name.pos.fmt
    pure { isConst := x.isConst,
           name := if ispub then nsprefix c.thisModHead.uniqid x.name.name else x.name.name }
  else
    let c ← Tr.get
    let pos ← Tr.unwrap (getNsPos c x.name.ns) "translator.rs:119-133"
    let head ← Tr.unwrap c.allModHeads[pos]? "translator.rs:1123"
    let mod ← Tr.unwrap c.mods[pos]? "translator.rs:1124"
    if !exportsHas mod.exports x.name.name then
      Tr.fail (x.name.ns ++ " doesn't have exported " ++ x.name.name) x.name.pos.fmt
    else do
      Tr.modify fun c => { c with usedNs := x.name.ns :: c.usedNs }
      pure { isConst := x.isConst, name := nsprefix head.uniqid x.name.name }

/-- `src/translator.rs:1195-1231` `tr_nsid`. -/
def trNsid (x : NsName) : Tr String := do
  if x.ns = "OS" then pure x.name
  else if x.ns ≠ "" then
    Tr.modify fun c => { c with usedNs := x.ns :: c.usedNs }
    let c ← Tr.get
    let pos ← Tr.unwrap (getNsPos c x.ns) "translator.rs:119-133"
    let head ← Tr.unwrap c.allModHeads[pos]? "translator.rs:1205"
    let mod ← Tr.unwrap c.mods[pos]? "translator.rs:1206"
    if !exportsHas mod.exports x.name then
      Tr.fail (x.ns ++ " doesn't have exported " ++ x.name) x.pos.fmt
    else pure (nsprefix head.uniqid x.name)
  else
    let c ← Tr.get
    let name :=
      match findBinding c.scopes x.name with
      | some b => if b.ispub then nsprefix c.thisModHead.uniqid x.name else x.name
      | none => x.name
    if !(← markBindingUse x.name) then Tr.fail ("nsid: " ++ x.name ++ " is undefined") x.pos.fmt
    else pure name

/-- `src/translator.rs:1163-1175`: the type of an imported name. -/
def typeofExport (ex : Exports) (name : String) : Tr Ty :=
  if ex.consts.any (fun c => c.name == name) then pure tNumber
  else
    match ex.fns.find? (fun f => f.form.name == name) with
    | some f => pure (typefromFuncDecl f)
    | none => Tr.panic "translator.rs:1172"

/-- `src/translator.rs:1141-1178` `tr_nsid_in_expr`. -/
def trNsidInExpr (x : NsName) : Tr (Ty × String) := do
  let val ← trNsid x
  if x.ns = "OS" then pure (tTodo, val)
  else
    let c ← Tr.get
    if x.ns = "" then
      match findBinding c.scopes x.name with
      | some b => pure (b.typ, val)
      | none =>
        match Cspec.findSym x.name with
        | some s => pure (s.t, val)
        | none => Tr.panic "translator.rs:1158"
    else
      let pos ← Tr.unwrap (getNsPos c x.ns) "translator.rs:119-133"
      let mod ← Tr.unwrap c.mods[pos]? "translator.rs:1165"
      let t ← typeofExport mod.exports x.name
      pure (t, val)

/-- `src/translator.rs:1464-1472` `tr_literal`. -/
def trLiteral : Literal → CLiteral
  | .char v => .char v
  | .string v => .string v
  | .number v => .number v
  | .null => .null

/-- `src/translator.rs:1003-1012` `tr_bare_typeform`. -/
def trBareTypeform (x : BareTypeform) : Tr CBareTypeform := do
  let t ← trTypename x.typename
  pure { typename := t, hops := x.hops }

/-! ## Expressions -/

/-- `src/translator.rs:747-756`: the type of a binary operation. -/
def typeofBinop (c : TrCtx) (op : String) (a b : Ty) : Res String Ty :=
  let at' := rootType a c
  let bt := rootType b c
  if ["||", "&&"].contains op then typeofBoolcomp a b
  else if ["==", "<", ">", "!=", ">=", "<="].contains op then typeofCmp at' bt
  else if ["-", "+"].contains op then typeofPlusminus op at' bt
  else if ["*", "/", "%", "<<", ">>", "&", "|", "^"].contains op then typeofArith at' bt
  else if ["=", "+=", "-=", "/=", "*=", "|=", "%=", "&=", "^="].contains op then .ok (tJust "void")
  else .panic "translator.rs:754"

/-- `src/translator.rs:784-795`: the type of a prefix operation. -/
def typeofPrefop (op : String) (t : Ty) : Res String Ty :=
  if op = "++" ∨ op = "--" then .ok t
  else if op = "!" then .ok (tJust "bool")
  else if op = "-" ∨ op = "~" then .ok t
  else if op = "&" then .ok (typeofAddr t)
  else if op = "*" then typeofDeref t
  else .panic "translator.rs:793"

/-- `src/translator.rs:902-916`: the key of a composite literal entry. -/
def trKey : Option Expr → Tr (Option CExpr)
  | some (.name n) => if n.ns ≠ "" then Tr.panic "translator.rs:906" else pure (some (.ident n.name))
  | some _ => Tr.panic "translator.rs:912"
  | none => pure none

mutual
/-- `src/translator.rs:472-492` `tr_expr` with the functions it calls. -/
def trExpr : Expr → Tr (Ty × CExpr)
  | .lit l => pure (typeofLiteral l, .lit (trLiteral l))
  | .name n => do
    let (t, v) ← trNsidInExpr n
    pure (t, .ident v)
  -- `tr_arr_index`, `:849-865`
  | .arrIndex a i => do
    let (at', av) ← trExpr a
    let (it, iv) ← trExpr i
    let t ← Tr.lift (typeofIndex at' it) id "?"
    pure (t, .arrIndex av iv)
  -- `tr_binary_op`, `:739-779`
  | .binaryOp pos op a b => do
    let (at', av) ← trExpr a
    let (bt, bv) ← trExpr b
    let c ← Tr.get
    match typeofBinop c op at' bt with
    | .ok t => pure (t, .binaryOp op av bv)
    | .err e =>
      if FormatChe.panicsExpr (.binaryOp pos op a b) then Tr.panic "parser.rs:469"
      else Tr.fail (e ++ ": " ++ FormatChe.fmtBinop op a b) pos.fmt
    | .panic m => Tr.panic m
    | .diverge => Tr.diverge
  -- `tr_field_access`, `:871-896`
  | .fieldAccess _ op t f => do
    let (tt, tv) ← trExpr t
    let c ← Tr.get
    pure (typeofStructField c tt f, .fieldAccess op tv f)
  -- `tr_comp_literal`, `:898-934`
  | .compLit entries => do
    let es ← trEntries entries
    pure (tComplit, .compLit es)
  -- `tr_prefop`, `:781-808`
  | .prefixOp pos op e => do
    let (t, v) ← trExpr e
    let t' ← Tr.lift (typeofPrefop op t) id pos.fmt
    pure (t', .prefixOp op v)
  -- `tr_postop`, `:810-827`
  | .postfixOp op e => do
    let (t, v) ← trExpr e
    if op = "++" ∨ op = "--" then pure (t, .postfixOp op v)
    else Tr.panic "translator.rs:817"
  -- `tr_cast`, `:829-847`
  | .cast tf e => do
    let (_, v) ← trExpr e
    let ctf ← trBareTypeform tf
    pure (typefromBareTypeform tf, .cast ctf v)
  -- `tr_call`, `:960-1001`; `calloc!` is renamed and the call repeated
  | .call pos f args => do
    if isIdent f "calloc!" then
      Tr.modify fun c => { c with usedCustoms := "calloc_or_panic" :: c.usedCustoms }
      let targs ← trArgs args
      let (ft, fv) ← trNsidInExpr { ns := "", name := "calloc_or_panic", pos := pos }
      let c ← Tr.get
      let t ← Tr.lift (typeofCall c (typeofCallFuel c) ft targs.length) id pos.fmt
      pure (t, .call (.ident fv) (targs.map (·.2)))
    else
      let targs ← trArgs args
      let (ft, fv) ← trExpr f
      let c ← Tr.get
      let t ← Tr.lift (typeofCall c (typeofCallFuel c) ft targs.length) id pos.fmt
      pure (t, .call fv (targs.map (·.2)))
  -- `tr_sizeof`, `:936-946`
  | .sizeofType t => do
    let ct ← trBareTypeform t
    pure (tJust "size_t", .sizeofType ct)
  | .sizeofExpr e => do
    let (_, v) ← trExpr e
    pure (tJust "size_t", .sizeofExpr v)
/-- The arguments of a call, `src/translator.rs:976-979`. -/
def trArgs : List Expr → Tr (List (Ty × CExpr))
  | [] => pure []
  | e :: es => do
    let x ← trExpr e
    let xs ← trArgs es
    pure (x :: xs)
/-- The entries of a composite literal, `src/translator.rs:901-923`. -/
def trEntries : List Entry → Tr (List CEntry)
  | [] => pure []
  | e :: es => do
    let x ← trEntry e
    let xs ← trEntries es
    pure (x :: xs)
/-- One entry, `src/translator.rs:902-922`. -/
def trEntry : Entry → Tr CEntry
  | .mk isIndex key value => do
    let k ← trKey key
    let (_, v) ← trExpr value
    pure (.mk isIndex k v)
end

/-- An optional expression, as in `src/translator.rs:688-691`. -/
def trOptExpr : Option Expr → Tr (Option CExpr)
  | some e => do
    let (_, v) ← trExpr e
    pure (some v)
  | none => pure none

/-- The loop of `src/translator.rs:687-692`. -/
def trIndexes : List (Option Expr) → Tr (List (Option CExpr))
  | [] => pure []
  | e :: es => do
    let x ← trOptExpr e
    let xs ← trIndexes es
    pure (x :: xs)

/-- `src/translator.rs:684-706` `tr_form`. -/
def trForm (x : Form) (publishable : Bool) : Tr CForm := do
  let indexes ← trIndexes x.indexes
  let c ← Tr.get
  let pub := match findBinding c.scopes x.name with
    | some b => b.ispub
    | none => false
  let name := if publishable && pub && x.name != "main" then nsprefix c.thisModHead.uniqid x.name
    else x.name
  pure { indexes := indexes, name := name, stars := RStr.rep "*" x.hops }

/-! ## Statements -/

/-- `src/translator.rs:1474-1479` `mk_call_expr`. -/
def mkCallExpr (func : String) (args : List CExpr) : CExpr := .call (.ident func) args

/-- `src/translator.rs:1481-1483` `mk_call_st`. -/
def mkCallSt (func : String) (args : List CExpr) : CStmt := .expr (mkCallExpr func args)

/-- `src/translator.rs:1090-1092` `mk_str`. -/
def mkStr (s : String) : CExpr := .lit (.string s)

/-- `src/translator.rs:1597-1599` `mk_id`. -/
def mkId (s : String) : CExpr := .ident s

/-- `src/translator.rs:1601-1604` `mk_exit1`. -/
def mkExit1 : CStmt := .expr (mkCallExpr "exit" [.lit (.number "1")])

/-- `src/translator.rs:1606-1612` `mk_neg`. -/
def mkNeg (e : CExpr) : CExpr := .prefixOp "!" e

/-- `src/translator.rs:1614-1620` `mk_or`. -/
def mkOr (a b : CExpr) : CExpr := .binaryOp "||" a b

/-- `src/translator.rs:1485-1511` `mk_panic`. -/
def mkPanic (pos : String) (args : List Expr) : Tr CStmt := do
  let targs ← trArgs args
  let c ← Tr.get
  pure (.block
    [mkCallSt "fprintf" [.ident "stderr", mkStr "*** panic at %s ***\\n",
       mkStr (c.thisModHead.filepath ++ ":" ++ pos)],
     mkCallSt "fprintf" (.ident "stderr" :: targs.map (·.2)),
     mkCallSt "fprintf" [.ident "stderr", mkStr "\\n"],
     mkExit1])

/-- `src/translator.rs:501-516`: an expression statement. -/
def trExprStmt (x : Expr) : Tr CStmt :=
  match x with
  | .call _ func args =>
    if isIdent func "panic" then mkPanic (expressionPos x).fmt args
    else do
      let (_, v) ← trExpr x
      pure (.expr v)
  | _ => do
    let (_, v) ← trExpr x
    pure (.expr v)

/-- `src/translator.rs:1428-1446` `tr_vardecl`. -/
def trVarDecl (x : VarDecl) : Tr CStmt := do
  addBinding x.form.name x.form.pos false (typefromTypename x.typename x.form)
  let t ← trTypename x.typename
  let f ← trForm x.form false
  let v ← trOptExpr x.value
  pure (.varDecl t [f] [v])

/-- `src/translator.rs:1237-1263`: the initialiser of a `for`. -/
def trForInit : Option ForInit → Tr (Option CForInit)
  | some (.expr e) => do
    let (_, v) ← trExpr e
    pure (some (.expr v))
  | some (.decl tn form value) => do
    addBinding form.name form.pos false (typefromTypename tn form)
    let t ← trTypename tn
    let f ← trForm form false
    let (_, v) ← trExpr value
    pure (some (.decl { typename := t, form := f, value := v }))
  | none => pure none

/-- `src/translator.rs:1265-1278` and `:1450-1457`: a condition has to be
boolean-like. -/
def trCond (e : Expr) : Tr CExpr := do
  let (t, v) ← trExpr e
  if !isBooly t then Tr.fail (t.fmt ++ " used as condition") (expressionPos e).fmt
  else pure v

/-- The optional condition of a `for`, `src/translator.rs:1265-1278`. -/
def trOptCond : Option Expr → Tr (Option CExpr)
  | some e => do
    let v ← trCond e
    pure (some v)
  | none => pure none

/-- `src/translator.rs:1338-1344`: a case label. -/
def trCaseValue : CaseValue → Tr CCaseValue
  | .ident n => do
    let (_, v) ← trNsidInExpr n
    pure (.ident v)
  | .literal l => pure (.literal (trLiteral l))

/-- The loop of `src/translator.rs:1337-1345`. -/
def trCaseValues : List CaseValue → Tr (List CCaseValue)
  | [] => pure []
  | v :: vs => do
    let x ← trCaseValue v
    let xs ← trCaseValues vs
    pure (x :: xs)

/-- `src/translator.rs:1381-1386`, `:1392-1397`: a case value of `switch str` as
an expression. -/
def trStrCaseValue : CaseValue → Tr CExpr
  | .ident n => do
    let (_, v) ← trNsidInExpr n
    pure (.ident v)
  | .literal l => pure (.lit (trLiteral l))

/-- The loop of `src/translator.rs:1390-1400`. -/
def switchStrCondLoop (switchval : CExpr) : CExpr → List CaseValue → Tr CExpr
  | root, [] => pure root
  | root, v :: vs => do
    let a ← trStrCaseValue v
    switchStrCondLoop switchval (mkOr root (mkNeg (mkCallExpr "strcmp" [a, switchval]))) vs

/-- `src/translator.rs:1375-1402` `mk_switchstr_cond`. -/
def mkSwitchStrCond (values : List CaseValue) (switchval : CExpr) : Tr CExpr :=
  match values with
  | [] => Tr.panic "translator.rs:1381"
  | v :: vs => do
    let a ← trStrCaseValue v
    switchStrCondLoop switchval (mkNeg (mkCallExpr "strcmp" [a, switchval])) vs

/-- `begin_scope` … `end_scope` around an action. -/
def inScope {α : Type} (m : Tr α) : Tr α := do
  beginScope
  let x ← m
  endScope
  pure x

mutual
/-- The loop of `src/translator.rs:497-524`. -/
def trStmts : List Stmt → Tr (List CStmt)
  | [] => pure []
  | s :: ss => do
    let x ← trStmt s
    let xs ← trStmts ss
    pure (x :: xs)
/-- One arm of `src/translator.rs:498-523`. -/
def trStmt : Stmt → Tr CStmt
  | .brk => pure .brk
  | .cont => pure .cont
  | .expr x => trExprStmt x
  -- `tr_for`, `:1233-1291`
  | .forS init cond act body => inScope do
    let i ← trForInit init
    let c ← trOptCond cond
    let a ← trOptExpr act
    let b ← inScope (trStmts body)
    pure (.forS i c a b)
  -- `tr_if`, `:1293-1306`: the else branch is translated first
  | .ifS cond body els => do
    let e ← trOptBody els
    let (_, c) ← trExpr cond
    let b ← inScope (trStmts body)
    pure (.ifS c b e)
  -- `tr_return`, `:1308-1317`
  | .ret e => do
    let v ← trOptExpr e
    pure (.ret v)
  -- `tr_switch`, `:1319-1327`
  | .switchS isStr value cases dflt =>
    if isStr then do
      -- `mk_str_switch`, `:1361-1373`
      let (_, sv) ← trExpr value
      match cases with
      | [] => Tr.panic "translator.rs:1367"
      | c0 :: rest => do
        let s ← strCase sv c0
        let e ← switchStrElse sv (trOptBody dflt) rest
        pure (.ifS s.1 s.2 e)
    else do
      -- `mk_old_switch`, `:1329-1359`
      let tcases ← trCases cases
      let (_, v) ← trExpr value
      let d ← trOptBody dflt
      pure (.switchS v tcases d)
  | .varDecl x => trVarDecl x
  -- `tr_while`, `:1448-1462`
  | .whileS cond body => do
    let c ← trCond cond
    let b ← inScope (trStmts body)
    pure (.whileS c b)
/-- An optional body, as in `src/translator.rs:1296-1299`. -/
def trOptBody : Option (List Stmt) → Tr (Option CBody)
  | some b => do
    let x ← inScope (trStmts b)
    pure (some x)
  | none => pure none
/-- The cases of a plain switch, `src/translator.rs:1335-1350`. -/
def trCases : List SwitchCase → Tr (List CSwitchCase)
  | [] => pure []
  | .mk values body :: cs => do
    let vs ← trCaseValues values
    let b ← inScope (trStmts body)
    let rest ← trCases cs
    pure (.mk vs b :: rest)
/-- Condition and body of one case of `switch str`, `src/translator.rs:1369-1370`
and `:1419-1420`. -/
def strCase (sv : CExpr) : SwitchCase → Tr (CExpr × CBody)
  | .mk values body => do
    let c ← mkSwitchStrCond values sv
    let b ← inScope (trStmts body)
    pure (c, b)
/-- `src/translator.rs:1404-1426` `mk_switchstr_else`; `dflt` is the translation
of the default body, run when the cases are used up. -/
def switchStrElse (sv : CExpr) (dflt : Tr (Option CBody)) : List SwitchCase → Tr (Option CBody)
  | [] => dflt
  | c :: rest => do
    let s ← strCase sv c
    let e ← switchStrElse sv dflt rest
    pure (some [.ifS s.1 s.2 e])
end

/-- `src/translator.rs:494-527` `tr_body`. -/
def trBody (b : List Stmt) : Tr CBody := inScope (trStmts b)

/-! ## Module elements -/

/-- `tr_x(..)?` over a list, in order. -/
def trList {α β : Type} (f : α → Tr β) : List α → Tr (List β)
  | [] => pure []
  | x :: xs => do
    let y ← f x
    let ys ← trList f xs
    pure (y :: ys)

/-- `src/translator.rs:529-548` `tr_struct_alias`. -/
def trStructAlias (x : StructAlias) : Tr (List CModElem) := do
  let c ← Tr.get
  let alias := if x.ispub then nsprefix c.thisModHead.uniqid x.typename else x.typename
  pure [.typedef {
    ispub := x.ispub
    typename := { isConst := false, name := "struct " ++ x.structname }
    form := { stars := "", params := none, size := 0, alias := alias } }]

/-- The parameters of a function typedef, `src/translator.rs:551-563`. -/
def trAnonParams : Option AnonParams → Tr (Option CAnonParams)
  | some p => do
    let forms ← trList trBareTypeform p.forms
    pure (some { ellipsis := p.ellipsis, forms := forms })
  | none => pure none

/-- `src/translator.rs:550-581` `tr_typedef`. -/
def trTypedef (x : Typedef) : Tr (List CModElem) := do
  let params ← trAnonParams x.funcParams
  let c ← Tr.get
  let alias := if x.ispub then nsprefix c.thisModHead.uniqid x.alias else x.alias
  let t ← trTypename x.typename
  pure [.typedef {
    ispub := x.ispub
    typename := t
    form := { stars := RStr.rep "*" x.derefs, params := params, size := x.arraySize, alias := alias } }]

/-- One declared name: type, then form. -/
def trTypeForm (t : Typename) (f : Form) : Tr CTypeForm := do
  let ct ← trTypename t
  let cf ← trForm f false
  pure { typename := ct, form := cf }

/-- `src/translator.rs:708-718` `tr_union`. -/
def trUnion (x : UnionDef) : Tr CUnion := do
  let form ← trForm x.form false
  let fields ← trList (fun (f : UnionField) => trTypeForm f.typename f.form) x.fields
  pure { form := form, fields := fields }

/-- `src/translator.rs:603-616`: the items of one struct entry. -/
def trStructEntry : StructEntry → Tr (List CStructItem)
  | .plain x => do
    let fs ← trList (trTypeForm x.typename) x.forms
    pure (fs.map CStructItem.field)
  | .union u => do
    let cu ← trUnion u
    pure [.union cu]

/-- `src/translator.rs:584-639` `tr_struct_typedef`. -/
def trStructTypedef (x : StructTypedef) : Tr (List CModElem) := do
  let c ← Tr.get
  let name := if x.ispub then nsprefix c.thisModHead.uniqid x.name else x.name
  let structName := "__" ++ name ++ "_struct"
  let fields ← trList trStructEntry x.entries
  pure [
    .forwardStruct structName,
    .structDef { name := structName, fields := fields.flatten, isPub := x.ispub },
    .typedef {
      ispub := x.ispub
      typename := { isConst := false, name := "struct " ++ structName }
      form := { stars := "", size := 0, params := none, alias := name } }]

/-- `src/translator.rs:644-657`: one enum entry. -/
def trEnumEntry (isPub : Bool) (e : EnumEntry) : Tr CEnumEntry := do
  let c ← Tr.get
  let id := if isPub then nsprefix c.thisModHead.uniqid e.name else e.name
  let v ← trOptExpr e.val
  pure { id := id, value := v }

/-- `src/translator.rs:642-662` `tr_enum`. -/
def trEnum (x : EnumDef) : Tr (List CModElem) := do
  let entries ← trList (trEnumEntry x.isPub) x.entries
  pure [.defEnum { entries := entries, isHidden := !x.isPub }]

/-- `src/translator.rs:664-673` `tr_macro`. -/
def trMacro (x : Macro) : List CModElem :=
  if x.name = "type" ∨ x.name = "link" then [] else [.macro { name := x.name, value := x.value }]

/-- `src/translator.rs:676-682` `tr_modvar`. -/
def trModVar (x : VarDecl) : Tr (List CModElem) := do
  let t ← trTypename x.typename
  let f ← trForm x.form true
  match x.value with
  | none => Tr.panic "translator.rs:680"
  | some e => do
    let (_, v) ← trExpr e
    pure [.varDecl { typename := t, form := f, value := v }]

/-- `src/translator.rs:1014-1030` `tr_func_params`. -/
def trFuncParams (x : FuncParams) : Tr CFuncParams := do
  let ps ← trList (fun (p : TypeAndForms) => trList (trTypeForm p.typename) p.forms) x.list
  pure { list := ps.flatten, variadic := x.ellipsis }

/-- `src/translator.rs:1036-1046`: bind the parameters. -/
def bindParams (x : FuncParams) : Tr Unit := do
  let _ ← trList (fun (p : TypeAndForms) =>
    trList (fun (f : Form) => addBinding f.name f.pos false (typefromTypename p.typename f))
      p.forms) x.list
  pure ()

/-- `src/translator.rs:1033-1079` `tr_func_decl`. -/
def trFuncDecl (x : FuncDecl) : Tr (List CModElem) := do
  let r ← inScope do
    bindParams x.params
    let rbody ← trBody x.body
    let t ← trTypename x.typename
    let form ← trForm x.form true
    let ps ← trFuncParams x.params
    let d : CModElem := .funcDef
      { isStatic := !x.ispub, typename := t, form := form, params := ps, body := rbody }
    if x.form.name ≠ "main" then
      let t ← trTypename x.typename
      let form ← trForm x.form true
      let ps ← trFuncParams x.params
      pure [d, .forwardFunc { isStatic := !x.ispub, typename := t, form := form, params := ps }]
    else pure [d]
  if (!isVoid x.typename || x.form.hops == 1) && !bodyReturns x.body then
    Tr.fail (x.form.name ++ ": missing return") x.pos.fmt
  else pure r

/-- `src/translator.rs:460-470` `tr_mod_elem`. -/
def trModElem : ModElem → Tr (List CModElem)
  | .typedef x => trTypedef x
  | .structAlias x => trStructAlias x
  | .structTypedef x => trStructTypedef x
  | .funcDecl x => trFuncDecl x
  | .enum x => trEnum x
  | .macro x => pure (trMacro x)
  | .modVar x => trModVar x

/-! ## Modules -/

/-- The `f64` literals `str::parse` accepts, after the sign. -/
def isUnsignedFloat (s : List Char) : Bool :=
  let low := s.map Char.toLower
  if low = "inf".toList ∨ low = "infinity".toList ∨ low = "nan".toList then true
  else
    let ip := s.takeWhile Char.isDigit
    let r := s.dropWhile Char.isDigit
    let (fp, r) : List Char × List Char :=
      match r with
      | '.' :: r' => (r'.takeWhile Char.isDigit, r'.dropWhile Char.isDigit)
      | _ => ([], r)
    if ip.isEmpty && fp.isEmpty then false
    else
      match r with
      | [] => true
      | e :: r' =>
        if e = 'e' ∨ e = 'E' then
          let d := match r' with
            | '+' :: d => d
            | '-' :: d => d
            | _ => r'
          !d.isEmpty && d.all Char.isDigit
        else false

/-- `src/translator.rs:1673-1675` `is_numeric`: Rust's `f64::from_str` succeeds.
Its documented grammar: an optional sign, then `inf`, `infinity`, `nan` in any
case or digits with an optional fraction and exponent. -/
def isNumeric (s : String) : Bool :=
  match s.toList with
  | '+' :: r => isUnsignedFloat r
  | '-' :: r => isUnsignedFloat r
  | r => isUnsignedFloat r

/-- `src/translator.rs:209-220`: the `#link` values. -/
def linkOf (elems : List ModElem) : List String :=
  elems.filterMap fun
    | .macro x => if x.name = "link" then some x.value else none
    | _ => none

/-- `src/translator.rs:236-295`: register one module element. -/
def bindElem : ModElem → Tr Unit
  | .macro x =>
    if x.name = "define" then
      match RStr.splitWs (RStr.trim x.value) with
      | id :: val :: _ => addBinding id x.pos false (if isNumeric val then tNumber else tTodo)
      | _ => Tr.panic "translator.rs:244-245"
    else pure ()
  | .enum x => do
    let _ ← trList (fun (e : EnumEntry) => addBinding e.name x.pos x.isPub tNumber) x.entries
    pure ()
  | .structAlias x => Tr.modify fun c => { c with
      otherTypedefs := mapInsert c.otherTypedefs x.typename { isPub := x.ispub, t := tTodo } }
  | .typedef x => Tr.modify fun c => { c with
      otherTypedefs := mapInsert c.otherTypedefs x.alias { isPub := x.ispub, t := typefromTypedef x } }
  | .structTypedef x => Tr.modify fun c => { c with
      structTypedefs := mapInsert c.structTypedefs x.name x }
  | .modVar x => addBinding x.form.name x.pos false (typefromTypename x.typename x.form)
  | .funcDecl x =>
    addBinding x.form.name x.pos (x.ispub || x.form.name == "main") (typefromFuncDecl x)

/-- `src/translator.rs:25-62` `get_module_synopsis`. -/
def inSynopsis : CModElem → Bool
  | .typedef x => x.ispub
  | .structDef x => x.isPub
  | .forwardFunc x => !x.isStatic
  | .macro _ => true
  | .defEnum x => !x.isHidden
  | _ => false

/-- `src/translator.rs:25-62` `get_module_synopsis`. -/
def getModuleSynopsis (m : CModule) : List CModElem := m.elements.filter inSynopsis

/-- `src/translator.rs:409-429` `get_obj_key`; `none` is the panic. -/
def getObjKey : CModElem → Option String
  | .defEnum x => some ("enum-" ++ RStr.join "," (x.entries.map (·.id)))
  | .typedef x => some x.form.alias
  | .structDef x => some x.name
  | .include x => some x
  | .macro x => some x.value
  | .forwardStruct x => some x
  | .forwardFunc x => some x.form.name
  | .varDecl _ => none
  | .funcDef _ => none

/-- The inner loop of `src/translator.rs:447-454`: the new `present` set (latest
first) and the new elements. -/
def addSynopsis (present : List String) : List CModElem → Option (List String × List CModElem)
  | [] => some (present, [])
  | obj :: rest =>
    match getObjKey obj with
    | none => none
    | some id =>
      if present.contains id then addSynopsis present rest
      else (addSynopsis (id :: present) rest).map (fun (p, es) => (p, obj :: es))

/-- The outer loop of `src/translator.rs:438-455`. -/
def expandLoop (c : TrCtx) (present : List String) : List ModuleRef → Res BuildError (List CModElem)
  | [] => .ok []
  | imp :: rest =>
    match c.allModHeads.findIdx? (fun x => x.filepath == imp.path) with
    | none => .panic "translator.rs:445"
    | some pos =>
      match c.cmods[pos]? with
      | none => .panic "translator.rs:446"
      | some m =>
        match addSynopsis present (getModuleSynopsis m) with
        | none => .panic "translator.rs:426"
        | some (present, es) =>
          match expandLoop c present rest with
          | .ok es' => .ok (es ++ es')
          | .err e => .err e
          | .panic s => .panic s
          | .diverge => .diverge

/-- `src/translator.rs:431-458` `expand_imports`. -/
def expandImports (c : TrCtx) : Res BuildError (List CModElem) :=
  expandLoop c [] c.thisModHead.imports

/-- `src/translator.rs:369-379`: the group of an element. -/
def elemOrder : CModElem → Nat
  | .include _ => 0
  | .macro _ => 0
  | .forwardStruct _ => 1
  | .typedef _ => 2
  | .structDef _ => 3
  | .defEnum _ => 3
  | .forwardFunc _ => 4
  | .varDecl _ => 5
  | .funcDef _ => 6

/-- `src/translator.rs:381-397`: the printed form typedefs and structs are
deduplicated by. -/
def dedupKey : CModElem → Option String
  | .typedef x => some (FormatC.formatTypedef x)
  | .structDef x => some (FormatC.formatStructDef x)
  | _ => none

/-- `src/translator.rs:381-397`: drop the typedefs and structs printed before. -/
def dedupElems (seen : List String) : List CModElem → List CModElem
  | [] => []
  | e :: es =>
    match dedupKey e with
    | some s => if seen.contains s then dedupElems seen es else e :: dedupElems (s :: seen) es
    | none => e :: dedupElems seen es

/-- `src/translator.rs:365-406`: the groups one after another. -/
def groupElems (es : List CModElem) : List CModElem :=
  (List.range 7).flatMap (fun i => es.filter (fun e => elemOrder e == i))

/-- `src/translator.rs:362-407` `reorder_elems` when no struct panics in
`format_compat_struct_definition`. -/
def reorderElems (es : List CModElem) : List CModElem := groupElems (dedupElems [] es)

/-- Does `reorder_elems` panic (`src/translator.rs:390`)? -/
def reorderPanics (es : List CModElem) : Bool :=
  es.any fun
    | .structDef s => FormatC.panicsElem (.structDef s)
    | _ => false

/-- `src/translator.rs:1513-1595` `mk_calloc_or_panic`. -/
def mkCallocOrPanic : CModElem :=
  .funcDef {
    isStatic := true
    typename := { isConst := false, name := "void" }
    form := { stars := "*", name := "calloc_or_panic", indexes := [] }
    params := {
      list := [
        { typename := { isConst := false, name := "size_t" },
          form := { indexes := [], name := "count", stars := "" } },
        { typename := { isConst := false, name := "size_t" },
          form := { indexes := [], name := "size", stars := "" } }]
      variadic := false }
    body := [
      .varDecl { isConst := false, name := "void" }
        [{ indexes := [], name := "x", stars := "*" }]
        [some (mkCallExpr "calloc" [mkId "count", mkId "size"])],
      .ifS (mkNeg (mkId "x"))
        [.expr (mkCallExpr "fprintf" [mkId "stderr", .lit (.string "calloc failed")]), mkExit1]
        none,
      .ret (some (mkId "x"))] }

/-- `src/translator.rs:330-333`: the standard headers. -/
def clibs : List String :=
  ["assert", "ctype", "errno", "limits", "math", "stdarg", "stdbool", "stddef", "stdint",
   "stdio", "stdlib", "string", "time", "setjmp", "signal"]

/-- `src/translator.rs:321-345`: the head of a C module before the imports. -/
def moduleHead (usedCustoms : List String) : List CModElem :=
  [.macro { name := "define", value := "_XOPEN_SOURCE 700" }] ++
  clibs.map (fun n => .include ("<" ++ n ++ ".h>")) ++
  (if usedCustoms.contains "calloc_or_panic" then [mkCallocOrPanic] else []) ++
  [.macro { name := "define", value := "nelem(x) (sizeof (x)/sizeof (x)[0])" }]

/-- `src/translator.rs:100-105` `TrParams`. -/
structure TrParams where
  thisModHead : ModuleInfo
  allModHeads : List ModuleInfo
  cmods : List CModule
  mods : List Module

/-- `src/translator.rs:222-232`: the initial context. -/
def TrParams.ctx (p : TrParams) : TrCtx := {
  allModHeads := p.allModHeads
  cmods := p.cmods
  mods := p.mods
  scopes := []
  thisModHead := p.thisModHead
  usedNs := []
  usedCustoms := []
  structTypedefs := []
  otherTypedefs := [] }

/-- `src/translator.rs:234-304`: the translated body of the module. -/
def trModuleBody (m : Module) : Tr (List CModElem) := inScope do
  let _ ← trList bindElem m.elements
  let body ← trList trModElem m.elements
  pure body.flatten

/-- `src/translator.rs:306-315`: the first unused import. -/
def unusedImport (c : TrCtx) : Option ModuleRef :=
  c.thisModHead.imports.find? (fun imp => !c.usedNs.contains imp.ns)

/-- `src/translator.rs:207-360` `translate`. -/
def translate (m : Module) (p : TrParams) : Res BuildError CModule :=
  match trModuleBody m p.ctx with
  | .err e => .err e
  | .panic s => .panic s
  | .diverge => .diverge
  | .ok (body, c) =>
    match unusedImport c with
    | some imp =>
      .err { path := c.thisModHead.filepath, pos := "1:1", message := "unused import: " ++ imp.ns }
    | none =>
      match expandImports c with
      | .err e => .err e
      | .panic s => .panic s
      | .diverge => .diverge
      | .ok imported =>
        let elems := moduleHead c.usedCustoms ++ imported ++ body
        if reorderPanics elems then .panic "parser.rs:469"
        else .ok { elements := reorderElems elems, link := linkOf m.elements }

end Che
