import Verif.Model.Prog.Logic

/-!
Unification: applying a substitution to a term, unifiers, and most general unifiers.
-/
namespace Che.Spec.Logic
open Che.Lib Che.Prog.Logic

mutual
/-- The term with its variables replaced. -/
def app (σ : Bytes → Term) : Term → Term
  | .var v => σ v
  | .const c => .const c
  | .func f as => .func f (appArgs σ as)
def appArgs (σ : Bytes → Term) : List Term → List Term
  | [] => []
  | t :: ts => app σ t :: appArgs σ ts
end

/-- The replacement makes the terms equal. -/
def Unifier (σ : Bytes → Term) (x y : Term) : Prop := app σ x = app σ y

/-- The replacement satisfies the equations of a substitution of the program. -/
def Solves (σ : Bytes → Term) (s : Subst) : Prop := ∀ v t, get s v = some t → σ v = app σ t

/-- Every other unifier is this one followed by a replacement (itself). -/
def MostGeneral (τ : Bytes → Term) (x y : Term) : Prop :=
  Unifier τ x y ∧ ∀ σ, Unifier σ x y → ∀ v, σ v = app σ (τ v)

mutual
/-- Every function has the number of arguments that goes with its name. -/
def Uniform (arity : Bytes → Nat) : Term → Prop
  | .var _ => True
  | .const _ => True
  | .func f as => as.length = arity f ∧ UniformArgs arity as
def UniformArgs (arity : Bytes → Nat) : List Term → Prop
  | [] => True
  | t :: ts => Uniform arity t ∧ UniformArgs arity ts
end

/-- A name has only letters, and not too many. -/
def Name (n : Bytes) : Prop :=
  n.length ≤ 9 ∧ ∀ c ∈ n, (65 ≤ c.toNat ∧ c.toNat ≤ 90) ∨ (97 ≤ c.toNat ∧ c.toNat ≤ 122)

/-- There is a small letter. -/
def Small (n : Bytes) : Prop := ∃ c ∈ n, 97 ≤ c.toNat ∧ c.toNat ≤ 122

mutual
/-- A term that the program can read: names of at most nine letters, with a small letter
exactly if they are not variables, and between one and ten arguments.  (A variable can have
the empty name: it is what is read where there is no name.) -/
def Readable : Term → Prop
  | .var v => Name v ∧ ¬ Small v
  | .const c => Name c ∧ Small c
  | .func f as => Name f ∧ Small f ∧ 1 ≤ as.length ∧ as.length ≤ 10 ∧ ReadableArgs as
def ReadableArgs : List Term → Prop
  | [] => True
  | t :: ts => Readable t ∧ ReadableArgs ts
end

end Che.Spec.Logic
