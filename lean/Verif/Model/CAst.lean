import Verif.Model.Basic
/-!
# `src/c.rs`: the syntax tree of generated C

`CBody` (one field) is the statement list itself; the two arms of `SizeofArg`
become two constructors of `CExpr`.
-/
namespace Che

/-- `src/c.rs:252-256` `Typename`. -/
structure CTypename where
  isConst : Bool
  name : String
deriving DecidableEq, Repr, Inhabited

/-- `src/c.rs:232-236` `BareTypeform`. -/
structure CBareTypeform where
  typename : CTypename
  hops : Nat
deriving DecidableEq, Repr, Inhabited

/-- `src/c.rs:244-250` `CLiteral`. -/
inductive CLiteral where
  | char (s : String)
  | string (s : String)
  | number (s : String)
  | null
deriving DecidableEq, Repr, Inhabited

mutual
/-- `src/c.rs:115-149` `Expr`. -/
inductive CExpr where
  | lit (l : CLiteral)
  | compLit (entries : List CEntry)
  | ident (s : String)
  | binaryOp (op : String) (a b : CExpr)
  | fieldAccess (op : String) (target : CExpr) (field : String)
  | prefixOp (op : String) (operand : CExpr)
  | postfixOp (op : String) (operand : CExpr)
  | cast (typeform : CBareTypeform) (operand : CExpr)
  | call (func : CExpr) (args : List CExpr)
  | sizeofType (t : CBareTypeform)
  | sizeofExpr (e : CExpr)
  | arrIndex (array index : CExpr)
/-- `src/c.rs:100-105` `CCompositeLiteralEntry`. -/
inductive CEntry where
  | mk (isIndex : Bool) (key : Option CExpr) (val : CExpr)
end

deriving instance Repr for CExpr, CEntry
instance : Inhabited CExpr := ⟨.lit .null⟩

/-- `src/c.rs:157-162` `Form`. -/
structure CForm where
  stars : String
  name : String
  indexes : List (Option CExpr)
deriving Repr, Inhabited

/-- `src/c.rs:37-43` `VarDecl`. -/
structure CVarDecl where
  typename : CTypename
  form : CForm
  value : CExpr
deriving Repr, Inhabited

/-- `src/c.rs:151-155` `ForInit`. -/
inductive CForInit where
  | expr (e : CExpr)
  | decl (d : CVarDecl)
deriving Repr, Inhabited

/-- `src/c.rs:238-242` `CSwitchCaseValue`. -/
inductive CCaseValue where
  | ident (s : String)
  | literal (l : CLiteral)
deriving DecidableEq, Repr, Inhabited

mutual
/-- `src/c.rs:170-202` `Statement`.  `VarDecl` there has parallel vectors of
forms and values. -/
inductive CStmt where
  | block (ss : List CStmt)
  | brk
  | cont
  | varDecl (typename : CTypename) (forms : List CForm) (values : List (Option CExpr))
  | ifS (cond : CExpr) (body : List CStmt) (els : Option (List CStmt))
  | forS (init : Option CForInit) (cond act : Option CExpr) (body : List CStmt)
  | whileS (cond : CExpr) (body : List CStmt)
  | ret (e : Option CExpr)
  | switchS (value : CExpr) (cases : List CSwitchCase) (dflt : Option (List CStmt))
  | expr (e : CExpr)
/-- `src/c.rs:212-216` `CSwitchCase`. -/
inductive CSwitchCase where
  | mk (values : List CCaseValue) (body : List CStmt)
end

deriving instance Repr for CStmt, CSwitchCase
instance : Inhabited CStmt := ⟨.brk⟩

/-- `src/c.rs:90-93` `CBody`. -/
abbrev CBody := List CStmt

/-- `src/c.rs:8-14` `Macro`. -/
structure CMacro where
  name : String
  value : String
deriving DecidableEq, Repr, Inhabited

/-- `src/c.rs:23-27` `EnumEntry`. -/
structure CEnumEntry where
  id : String
  value : Option CExpr
deriving Repr, Inhabited

/-- `src/c.rs:16-21` `EnumDef`. -/
structure CEnumDef where
  isHidden : Bool
  entries : List CEnumEntry
deriving Repr, Inhabited

/-- `src/c.rs:226-230` `CAnonymousParameters`. -/
structure CAnonParams where
  ellipsis : Bool
  forms : List CBareTypeform
deriving DecidableEq, Repr, Inhabited

/-- `src/c.rs:218-224` `TypedefForm`. -/
structure CTypedefForm where
  stars : String
  params : Option CAnonParams
  size : Nat
  alias : String
deriving DecidableEq, Repr, Inhabited

/-- `src/c.rs:29-35` `Typedef`. -/
structure CTypedef where
  ispub : Bool
  typename : CTypename
  form : CTypedefForm
deriving DecidableEq, Repr, Inhabited

/-- `src/c.rs:258-262` `CTypeForm`; `src/c.rs:276-280` `CUnionField` has the
same fields. -/
structure CTypeForm where
  typename : CTypename
  form : CForm
deriving Repr, Inhabited

/-- `src/c.rs:270-274` `CUnion`. -/
structure CUnion where
  form : CForm
  fields : List CTypeForm
deriving Repr, Inhabited

/-- `src/c.rs:264-268` `CStructItem`. -/
inductive CStructItem where
  | field (f : CTypeForm)
  | union (u : CUnion)
deriving Repr, Inhabited

/-- `src/c.rs:44-50` `StructDef`. -/
structure CStructDef where
  name : String
  fields : List CStructItem
  isPub : Bool
deriving Repr, Inhabited

/-- `src/c.rs:84-88` `FuncParams`. -/
structure CFuncParams where
  list : List CTypeForm
  variadic : Bool
deriving Repr, Inhabited

/-- `src/c.rs:52-59` `ForwardFunc`. -/
structure CForwardFunc where
  isStatic : Bool
  typename : CTypename
  form : CForm
  params : CFuncParams
deriving Repr, Inhabited

/-- `src/c.rs:61-69` `FuncDef`. -/
structure CFuncDef where
  isStatic : Bool
  typename : CTypename
  form : CForm
  params : CFuncParams
  body : CBody
deriving Repr, Inhabited

/-- `src/c.rs:71-82` `ModElem`. -/
inductive CModElem where
  | include (s : String)
  | macro (m : CMacro)
  | forwardStruct (s : String)
  | forwardFunc (f : CForwardFunc)
  | defEnum (e : CEnumDef)
  | typedef (t : CTypedef)
  | structDef (s : CStructDef)
  | varDecl (v : CVarDecl)
  | funcDef (f : CFuncDef)
deriving Repr, Inhabited

/-- `src/c.rs:1-6` `CModule`. -/
structure CModule where
  elements : List CModElem
  link : List String
deriving Repr, Inhabited

end Che
