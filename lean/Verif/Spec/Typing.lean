import Verif.Model.Translator
/-!
# What the types of expressions should be

The numeric types with their kinds and widths, sameness of types, and the
function type behind a called expression, written without the tables and the
loops of the code.
-/
namespace Che.Spec

/-- The kinds of numbers.  `const` is the type of a number literal or an enum
constant, which has no width of its own. -/
inductive NumKind where
  | const | signed | unsigned | floating
deriving DecidableEq, Repr

/-- The numeric types of C that Che knows, by name. -/
def numNamed : String → Option (NumKind × Nat)
  | "number" => some (.const, 0)
  | "int8_t" => some (.signed, 8)
  | "int16_t" => some (.signed, 16)
  | "int" => some (.signed, 32)
  | "int32_t" => some (.signed, 32)
  | "int64_t" => some (.signed, 64)
  | "ptrdiff_t" => some (.signed, 64)
  | "uint8_t" => some (.unsigned, 8)
  | "uint16_t" => some (.unsigned, 16)
  | "uint32_t" => some (.unsigned, 32)
  | "uint64_t" => some (.unsigned, 64)
  | "size_t" => some (.unsigned, 64)
  | "float" => some (.floating, 32)
  | "double" => some (.floating, 64)
  | _ => none

/-- The kind and the width of a numeric type: no pointer, array or function, and
not from another module. -/
def numOf (t : Ty) : Option (NumKind × Nat) :=
  match t.ops with
  | [] => if t.base.ns = "" then numNamed t.base.name else none
  | _ => none

/-- Whole numbers that have a width. -/
def NumKind.whole : NumKind → Bool
  | .signed | .unsigned => true
  | _ => false

/-- `r` is the result type of arithmetic on `a` and `b`: one of the two; a
constant only if both are; a float if one is; and otherwise the wider one. -/
structure ArithResult (a b r : Ty) (ka kb : NumKind × Nat) : Prop where
  one_of : r = a ∨ r = b
  const_left : ka.1 = .const → r = b ∨ kb.1 = .const
  const_right : kb.1 = .const → r = a
  float : (ka.1 = .floating ∨ kb.1 = .floating) → ∃ w, numOf r = some (.floating, w)
  same_kind : ka.1 = kb.1 → ∃ k, numOf r = some (k, max ka.2 kb.2)
  whole : ka.1.whole → kb.1.whole → ∃ k, numOf r = some (k, max ka.2 kb.2)

/-- The same type; where its name was written does not matter. -/
def SameType (a b : Ty) : Prop :=
  a.base.ns = b.base.ns ∧ a.base.name = b.base.name ∧ a.ops = b.ops

/-- One step through a typedef, looking through at most one pointer. -/
def Unalias (defs : String → Option Ty) (t u : Ty) : Prop :=
  t.base.ns = "" ∧ (t.ops = [] ∨ t.ops = [.deref]) ∧ defs t.base.name = some u

/-- `u` is what `t` stands for. -/
inductive StandsFor (defs : String → Option Ty) : Ty → Ty → Prop
  | refl (t) : StandsFor defs t t
  | step {t u v} : Unalias defs t u → StandsFor defs u v → StandsFor defs t v

/-- `n` arguments suit the parameter types: as many as parameters, or at least as
many as there are before a final `...`. -/
def ArityOk (dots : Ty → Prop) (params : List Ty) (n : Nat) : Prop :=
  (∃ ps d, params = ps ++ [d] ∧ dots d ∧ ps.length ≤ n) ∨
  ((∀ ps d, params = ps ++ [d] → ¬ dots d) ∧ n = params.length)

end Che.Spec
