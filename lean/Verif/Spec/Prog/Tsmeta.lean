import Verif.Model.Prog.Tsmeta

/-!
What calls of types mean: the expression of the type with the arguments in the place of the parameters.
-/
namespace Che.Spec.Tsmeta
open Che.Lib Che.Prog.Tsmeta

mutual
/-- The names in an expression. -/
def names : E → List Bytes
  | .t => []
  | .f => []
  | .num _ => []
  | .str _ => []
  | .list es => namesAll es
  | .union es => namesAll es
  | .call n es => n :: namesAll es

def namesAll : List E → List Bytes
  | [] => []
  | e :: es => names e ++ namesAll es
end

mutual
/-- An expression with others in the place of names. -/
def subst (s : Bytes → Option E) : E → E
  | .t => .t
  | .f => .f
  | .num x => .num x
  | .str x => .str x
  | .list es => .list (substAll s es)
  | .union es => .union (substAll s es)
  | .call n es =>
    match s n with
    | some e => e
    | none => .call n (substAll s es)

def substAll (s : Bytes → Option E) : List E → List E
  | [] => []
  | e :: es => subst s e :: substAll s es
end

/-- The argument for a parameter. -/
def argument : List Bytes → List E → Bytes → Option E
  | p :: ps, a :: as, n => if p = n then some a else argument ps as n
  | _, _, _ => none

/-- No names of the type and of its parameters anywhere but in its own expression, which does not have its own name: the arguments do not have them, and neither have the other types. -/
structure Apart (types : List Def) (name : Bytes) (ps : List Bytes) (body : E) (args : List E) : Prop where
  own : name ∉ names body ∧ name ∉ ps
  args : ∀ n ∈ namesAll args, n ≠ name ∧ n ∉ ps
  other : ∀ d ∈ types, d.name ≠ name → d.name ∉ ps ∧ (∀ p ∈ d.args, p ≠ name ∧ p ∉ ps) ∧ ∀ e, d.expr = some e → ∀ n ∈ names e, n ≠ name ∧ n ∉ ps
end Che.Spec.Tsmeta
