import Verif.Spec.ModuleEnv
/-!
# Specification: files the translator can be given

A list of things a Che file must not contain, each found by looking at the
source alone.  `T ns x` says that the module behind `ns` exports `x` as a type
and as nothing else.
-/
namespace Che.Spec
open Che

/-- A name used as a value does not name an imported type. -/
def FineName (T : String → String → Prop) (n : NsName) : Prop :=
  n.ns = "" ∨ n.ns = "OS" ∨ ¬ T n.ns n.name

/-- The key of an entry of a composite literal, if any, is a plain name. -/
def FineKey : Option Expr → Prop
  | none => True
  | some (.name n) => n.ns = ""
  | some _ => False

mutual
/-- No shift assignments, no computed keys, no types as values. -/
def FineE (T : String → String → Prop) : Expr → Prop
  | .lit _ => True
  | .name n => FineName T n
  | .arrIndex a i => FineE T a ∧ FineE T i
  | .binaryOp _ op a b => op ≠ "<<=" ∧ op ≠ ">>=" ∧ FineE T a ∧ FineE T b
  | .fieldAccess _ _ t _ => FineE T t
  | .compLit es => FineEntries T es
  | .prefixOp _ _ e => FineE T e
  | .postfixOp _ e => FineE T e
  | .cast _ e => FineE T e
  | .call _ f args => FineE T f ∧ FineArgs T args
  | .sizeofType _ => True
  | .sizeofExpr e => FineE T e
/-- All of the arguments. -/
def FineArgs (T : String → String → Prop) : List Expr → Prop
  | [] => True
  | e :: es => FineE T e ∧ FineArgs T es
/-- All of the entries. -/
def FineEntries (T : String → String → Prop) : List Entry → Prop
  | [] => True
  | e :: es => FineEntry T e ∧ FineEntries T es
/-- One entry. -/
def FineEntry (T : String → String → Prop) : Entry → Prop
  | .mk _ key v => FineKey key ∧ FineE T v
end

/-- An expression that may be left out. -/
def FineOpt (T : String → String → Prop) : Option Expr → Prop
  | some e => FineE T e
  | none => True

/-- The array sizes of a declared form. -/
def FineForm (T : String → String → Prop) (f : Form) : Prop := ∀ i ∈ f.indexes, FineOpt T i

/-- The initialiser of a `for`. -/
def FineInit (T : String → String → Prop) : Option ForInit → Prop
  | some (.expr e) => FineE T e
  | some (.decl _ f v) => FineForm T f ∧ FineE T v
  | none => True

/-- The labels of a case. -/
def FineLabels (T : String → String → Prop) (vs : List CaseValue) : Prop :=
  ∀ v ∈ vs, match v with
    | .ident n => FineName T n
    | .literal _ => True

/-- The names a list of statements declares, not looking into inner blocks. -/
def declared (b : List Stmt) : List String :=
  b.filterMap fun
    | .varDecl d => some d.form.name
    | _ => none

mutual
/-- All of the statements. -/
def FineSs (T : String → String → Prop) : List Stmt → Prop
  | [] => True
  | s :: ss => FineS T s ∧ FineSs T ss
/-- A block declares no name twice, and a `switch str` has a case. -/
def FineS (T : String → String → Prop) : Stmt → Prop
  | .brk => True
  | .cont => True
  | .expr e => FineE T e
  | .varDecl d => FineForm T d.form ∧ FineOpt T d.value
  | .ret e => FineOpt T e
  | .ifS c b e => FineE T c ∧ (FineSs T b ∧ (declared b).Nodup) ∧ FineOptB T e
  | .whileS c b => FineE T c ∧ FineSs T b ∧ (declared b).Nodup
  | .forS i c a b => FineInit T i ∧ FineOpt T c ∧ FineOpt T a ∧ FineSs T b ∧ (declared b).Nodup
  | .switchS isStr v cs d =>
    (isStr = true → cs ≠ []) ∧ FineE T v ∧ FineCases T cs ∧ FineOptB T d
/-- A block that may be left out. -/
def FineOptB (T : String → String → Prop) : Option (List Stmt) → Prop
  | some b => FineSs T b ∧ (declared b).Nodup
  | none => True
/-- All of the cases. -/
def FineCases (T : String → String → Prop) : List SwitchCase → Prop
  | [] => True
  | .mk vs b :: cs => FineLabels T vs ∧ (FineSs T b ∧ (declared b).Nodup) ∧ FineCases T cs
end

/-- A struct member. -/
def FineMember (T : String → String → Prop) : StructEntry → Prop
  | .plain x => ∀ f ∈ x.forms, FineForm T f
  | .union u => FineForm T u.form ∧ ∀ f ∈ u.fields, FineForm T f.form

/-- The names of the parameters. -/
def paramNames (ps : FuncParams) : List String := ps.list.flatMap (fun p => p.forms.map (·.name))

/-- A module element; a `#define` has a name and a value. -/
def FineElem (T : String → String → Prop) : ModElem → Prop
  | .macro x => x.name = "define" → 2 ≤ (RStr.splitWs (RStr.trim x.value)).length
  | .structAlias _ => True
  | .enum x => ∀ e ∈ x.entries, FineOpt T e.val
  | .typedef _ => True
  | .structTypedef x => ∀ e ∈ x.entries, FineMember T e
  | .modVar d => FineForm T d.form ∧ FineOpt T d.value
  | .funcDecl f => FineForm T f.form ∧ (∀ p ∈ f.params.list, ∀ g ∈ p.forms, FineForm T g) ∧
      (paramNames f.params).Nodup ∧ FineSs T f.body ∧ (declared f.body).Nodup

/-- The module behind the namespace exports the name, but not as a constant or a
function. -/
def OnlyType (heads : List ModuleInfo) (mods : List Module) (this : ModuleInfo) (ns x : String) : Prop :=
  ∃ i m, nsIndex heads this ns = some i ∧ mods[i]? = some m ∧ exportsHas m.exports x = true ∧
    (∀ c ∈ m.exports.consts, c.name ≠ x) ∧ (∀ f ∈ m.exports.fns, f.form.name ≠ x)

/-- A module the translator can be given: its elements are fine and it declares
no name twice. -/
def FineModule (heads : List ModuleInfo) (mods : List Module) (this : ModuleInfo) (m : Module) : Prop :=
  (∀ e ∈ m.elements, FineElem (OnlyType heads mods this) e) ∧
  ((m.elements.flatMap declElem).map (·.1)).Nodup

end Che.Spec
