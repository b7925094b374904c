import Verif.Model.FormatC
import Verif.Spec.ModuleEnv
/-!
# Specification: the emitted C module
-/
namespace Che.Spec
open Che

/-- The group an element of a C module belongs to: headers and macros, forward
declarations of structs, typedefs, structs and enums, prototypes, variables,
functions. -/
def group : CModElem → Nat
  | .include _ | .macro _ => 0
  | .forwardStruct _ => 1
  | .typedef _ => 2
  | .structDef _ | .defEnum _ => 3
  | .forwardFunc _ => 4
  | .varDecl _ => 5
  | .funcDef _ => 6

/-- Is the element a typedef or a struct definition? -/
def isTypeDecl : CModElem → Bool
  | .typedef _ | .structDef _ => true
  | _ => false

/-- Leave out the typedefs and structs whose C text was there before; `before`
has all earlier elements. -/
def dropRepeats (before : List CModElem) : List CModElem → List CModElem
  | [] => []
  | e :: es =>
    if isTypeDecl e && before.any (fun b => isTypeDecl b && FormatC.formatElem b == FormatC.formatElem e)
    then dropRepeats (before ++ [e]) es
    else e :: dropRepeats (before ++ [e]) es

/-- Is the element a function with a body? -/
def isFunc : CModElem → Bool
  | .funcDef _ => true
  | _ => false

/-- The public interface of a C module: exported typedefs, structs and enums,
prototypes of exported functions, and macros. -/
def isInterface : CModElem → Bool
  | .typedef x => x.ispub
  | .structDef x => x.isPub
  | .defEnum x => !x.isHidden
  | .forwardFunc x => !x.isStatic
  | .macro _ => true
  | _ => false

/-- What makes two interface elements the same: the name declared (for macros
the text after the name, for enums the constants). -/
def interfaceKey : CModElem → String
  | .typedef x => x.form.alias
  | .structDef x => x.name
  | .defEnum x => "enum-" ++ RStr.join "," (x.entries.map (·.id))
  | .forwardFunc x => x.form.name
  | .macro x => x.value
  | .include x => x
  | .forwardStruct x => x
  | _ => ""

/-- The C names an element defines. -/
def definesC : CModElem → List String
  | .funcDef x => [x.form.name]
  | .typedef x => [x.form.alias]
  | .defEnum x => x.entries.map (·.id)
  | _ => []

/-- The head of a function as C text, without `static`. -/
def signature (t : CTypename) (f : CForm) (ps : CFuncParams) : String :=
  FormatC.formatType t ++ " " ++ FormatC.formatForm f ++ " " ++ FormatC.fmtFuncParams ps

/-- Every scope in the list declares private names only. -/
def Local (locals : Scopes) : Prop := ∀ s ∈ locals, ∀ d ∈ s, d.2 = false

/-- The exported functions and constants among a module's elements: names. -/
def exportedValues : ModElem → List String
  | .enum x => if x.isPub then x.entries.map (·.name) else []
  | .funcDecl x => if x.ispub then [x.form.name] else []
  | _ => []

mutual
/-- The identifiers in a C expression, leaving out the keys of composite
literals, arguments before the function. -/
def identsE : CExpr → List String
  | .lit _ => []
  | .ident s => [s]
  | .compLit es => identsEntries es
  | .binaryOp _ a b => identsE a ++ identsE b
  | .fieldAccess _ t _ => identsE t
  | .prefixOp _ e => identsE e
  | .postfixOp _ e => identsE e
  | .cast _ e => identsE e
  | .call f args => identsArgs args ++ identsE f
  | .sizeofType _ => []
  | .sizeofExpr e => identsE e
  | .arrIndex a i => identsE a ++ identsE i
/-- Identifiers in arguments. -/
def identsArgs : List CExpr → List String
  | [] => []
  | e :: es => identsE e ++ identsArgs es
/-- Identifiers in the entries of a composite literal. -/
def identsEntries : List CEntry → List String
  | [] => []
  | e :: es => identsEntry e ++ identsEntries es
/-- Identifiers in an entry. -/
def identsEntry : CEntry → List String
  | .mk _ _ v => identsE v
end

/-- The values mentioned. -/
def valNames (us : List Use) : List NsName :=
  us.filterMap fun
    | .val n => some n
    | _ => none

end Che.Spec
