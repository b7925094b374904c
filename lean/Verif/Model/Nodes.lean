import Verif.Model.Basic
/-!
# `src/nodes.rs`: the syntax tree of a Che module

Rust `Box`es disappear, `Vec` is `List`.  `Body` (one field, `statements`) is
the list itself, and the two arms of `SizeofArg` become two constructors of
`Expr`.
-/
namespace Che

/-- `src/nodes.rs:145-151` `NsName`. -/
structure NsName where
  pos : Pos
  ns : String
  name : String
deriving DecidableEq, Repr, Inhabited

/-- `src/nodes.rs:139-143` `Typename`. -/
structure Typename where
  isConst : Bool
  name : NsName
deriving DecidableEq, Repr, Inhabited

/-- `src/nodes.rs:286-290` `BareTypeform`. -/
structure BareTypeform where
  typename : Typename
  hops : Nat
deriving DecidableEq, Repr, Inhabited

/-- `src/nodes.rs:308-314` `Literal`. -/
inductive Literal where
  | char (s : String)
  | string (s : String)
  | number (s : String)
  | null
deriving DecidableEq, Repr, Inhabited

mutual
/-- `src/nodes.rs:49-63` `Expr`, with the structures of `:153-226` inlined. -/
inductive Expr where
  | arrIndex (array index : Expr)
  | binaryOp (pos : Pos) (op : String) (a b : Expr)
  | fieldAccess (pos : Pos) (op : String) (target : Expr) (field : String)
  | cast (typeform : BareTypeform) (operand : Expr)
  | compLit (entries : List Entry)
  | call (pos : Pos) (func : Expr) (args : List Expr)
  | lit (l : Literal)
  | name (n : NsName)
  | postfixOp (op : String) (operand : Expr)
  | prefixOp (pos : Pos) (op : String) (operand : Expr)
  | sizeofType (t : BareTypeform)
  | sizeofExpr (e : Expr)
/-- `src/nodes.rs:158-163` `CompositeLiteralEntry`. -/
inductive Entry where
  | mk (isIndex : Bool) (key : Option Expr) (value : Expr)
end

deriving instance Repr for Expr, Entry

instance : Inhabited Expr := ⟨.lit .null⟩

/-- `src/nodes.rs:277-284` `Form`. -/
structure Form where
  pos : Pos
  name : String
  hops : Nat
  indexes : List (Option Expr)
deriving Repr, Inhabited

/-- `src/nodes.rs:233-241` `VarDecl`. -/
structure VarDecl where
  pos : Pos
  typename : Typename
  form : Form
  value : Option Expr
deriving Repr, Inhabited

/-- `src/nodes.rs:292-300` `ForInit`. -/
inductive ForInit where
  | expr (e : Expr)
  | decl (typename : Typename) (form : Form) (value : Expr)
deriving Repr, Inhabited

/-- `src/nodes.rs:302-306` `SwitchCaseValue`. -/
inductive CaseValue where
  | ident (n : NsName)
  | literal (l : Literal)
deriving DecidableEq, Repr, Inhabited

mutual
/-- `src/nodes.rs:35-47` `Statement`, with the structures of `:243-275`
inlined. -/
inductive Stmt where
  | brk
  | cont
  | varDecl (d : VarDecl)
  | ifS (cond : Expr) (body : List Stmt) (els : Option (List Stmt))
  | forS (init : Option ForInit) (cond act : Option Expr) (body : List Stmt)
  | whileS (cond : Expr) (body : List Stmt)
  | ret (e : Option Expr)
  | switchS (isStr : Bool) (value : Expr) (cases : List SwitchCase) (dflt : Option (List Stmt))
  | expr (e : Expr)
/-- `src/nodes.rs:316-320` `SwitchCase`. -/
inductive SwitchCase where
  | mk (values : List CaseValue) (body : List Stmt)
end

deriving instance Repr for Stmt, SwitchCase

instance : Inhabited Stmt := ⟨.brk⟩

/-- `src/nodes.rs:316-320` field `values`. -/
def SwitchCase.values : SwitchCase → List CaseValue
  | .mk v _ => v

/-- `src/nodes.rs:316-320` field `body`. -/
def SwitchCase.body : SwitchCase → List Stmt
  | .mk _ b => b

/-- `src/nodes.rs:228-231` `Body`. -/
abbrev Body := List Stmt

/-- `src/nodes.rs:89-94` `EnumEntry`. -/
structure EnumEntry where
  name : String
  val : Option Expr
deriving Repr, Inhabited

/-- `src/nodes.rs:328-333` `TypeAndForms`. -/
structure TypeAndForms where
  typename : Typename
  forms : List Form
deriving Repr, Inhabited

/-- `src/nodes.rs:322-326` `FuncParams`. -/
structure FuncParams where
  list : List TypeAndForms
  ellipsis : Bool
deriving Repr, Inhabited

/-- `src/nodes.rs:96-105` `FuncDecl`. -/
structure FuncDecl where
  pos : Pos
  ispub : Bool
  typename : Typename
  form : Form
  params : FuncParams
  body : Body
deriving Repr, Inhabited

/-- `src/nodes.rs:347-351` `AnonymousParameters`. -/
structure AnonParams where
  ellipsis : Bool
  forms : List BareTypeform
deriving Repr, Inhabited, DecidableEq

/-- `src/nodes.rs:107-115` `Typedef`. -/
structure Typedef where
  ispub : Bool
  alias : String
  typename : Typename
  derefs : Nat
  arraySize : Nat
  funcParams : Option AnonParams
deriving Repr, Inhabited, DecidableEq

/-- `src/nodes.rs:341-345` `UnionField`. -/
structure UnionField where
  typename : Typename
  form : Form
deriving Repr, Inhabited

/-- `src/nodes.rs:335-339` `Union`. -/
structure UnionDef where
  form : Form
  fields : List UnionField
deriving Repr, Inhabited

/-- `src/nodes.rs:125-129` `StructEntry`. -/
inductive StructEntry where
  | plain (t : TypeAndForms)
  | union (u : UnionDef)
deriving Repr, Inhabited

/-- `src/nodes.rs:117-123` `StructTypedef`. -/
structure StructTypedef where
  ispub : Bool
  entries : List StructEntry
  name : String
deriving Repr, Inhabited

/-- `src/nodes.rs:65-72` `StructAlias`. -/
structure StructAlias where
  ispub : Bool
  structname : String
  typename : String
deriving Repr, Inhabited, DecidableEq

/-- `src/nodes.rs:74-79` `Macro`. -/
structure Macro where
  name : String
  value : String
  pos : Pos
deriving Repr, Inhabited, DecidableEq

/-- `src/nodes.rs:81-87` `Enum`. -/
structure EnumDef where
  isPub : Bool
  entries : List EnumEntry
  pos : Pos
deriving Repr, Inhabited

/-- `src/nodes.rs:23-33` `ModElem`. -/
inductive ModElem where
  | macro (m : Macro)
  | enum (e : EnumDef)
  | structAlias (s : StructAlias)
  | typedef (t : Typedef)
  | structTypedef (s : StructTypedef)
  | modVar (v : VarDecl)
  | funcDecl (f : FuncDecl)
deriving Repr, Inhabited

/-- `src/nodes.rs:9-15` `Exports`. -/
structure Exports where
  consts : List EnumEntry
  fns : List FuncDecl
  types : List String
  structs : List StructTypedef
deriving Repr, Inhabited

/-- `src/nodes.rs:3-7` `Module`. -/
structure Module where
  elements : List ModElem
  exports : Exports
deriving Repr, Inhabited

/-- `src/nodes.rs:17-21` `exports_has`. -/
def exportsHas (e : Exports) (name : String) : Bool :=
  e.consts.any (fun x => x.name == name) ||
  e.fns.any (fun x => x.form.name == name) ||
  e.types.any (fun x => x == name)

/-- `src/nodes.rs:353-360` `is_op`. -/
def Expr.isOp : Expr → Option String
  | .binaryOp _ op _ _ => some op
  | .postfixOp _ _ => some "prefix"
  | .prefixOp _ _ _ => some "prefix"
  | _ => none

/-- `src/nodes.rs:369-375` `is_ident`. -/
def isIdent (x : Expr) (name : String) : Bool :=
  match x with
  | .name n => n.ns == "" && n.name == name
  | _ => false

/-- `src/nodes.rs:377-379` `is_void`. -/
def isVoid (t : Typename) : Bool := t.name.ns == "" && t.name.name == "void"

/-- `src/node_queries.rs:3-37` `body_returns`.  Structural recursion: the last
statement of the list decides. -/
def bodyReturns : List Stmt → Bool
  | [] => false
  | [s] => lastReturns s
  | _ :: s :: rest => bodyReturns (s :: rest)
where
  /-- The `match last` of `src/node_queries.rs:9-36`. -/
  lastReturns : Stmt → Bool
    | .ret _ => true
    | .ifS _ body _ => bodyReturns body
    | .switchS _ _ cases dflt =>
      match dflt with
      | none => false
      | some d => bodyReturns d && casesReturn cases
    | .whileS cond body => isIdent cond "true" || bodyReturns body
    | .expr (.call _ func _) => isIdent func "panic"
    | _ => false
  /-- The loop of `src/node_queries.rs:19-23`. -/
  casesReturn : List SwitchCase → Bool
    | [] => true
    | .mk _ body :: cs => bodyReturns body && casesReturn cs

/-- `src/node_queries.rs:60-78` `expression_pos`. -/
def expressionPos : Expr → Pos
  | .arrIndex a _ => expressionPos a
  | .binaryOp _ _ a _ => expressionPos a
  | .fieldAccess _ _ t _ => expressionPos t
  | .cast _ _ => ⟨0, 0⟩
  | .compLit _ => ⟨0, 0⟩
  | .call _ f _ => expressionPos f
  | .lit _ => ⟨0, 0⟩
  | .name n => n.pos
  | .postfixOp _ e => expressionPos e
  | .prefixOp _ _ e => expressionPos e
  | .sizeofType _ => ⟨0, 0⟩
  | .sizeofExpr _ => ⟨0, 0⟩

end Che
