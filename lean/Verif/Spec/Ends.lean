import Verif.Spec.Exec
/-!
# Specification: bodies that cannot be left at the end
-/
namespace Che.Spec
open Che

mutual
/-- What `body_returns` does not look at, for a statement it accepts: the `else`
branches are there and return, a loop at the end is `while (true)` with no `break`
out of it, and no `break` leaves the switch. -/
def firm : Stmt → Bool
  | .ifS _ b els => firmIn b && firmElse els
  | .whileS c b => isIdent c "true" && !breaksIn b
  | .switchS _ _ cs d => firmCases cs && firmDflt d
  | _ => true
/-- `firm` on the last statement. -/
def firmIn : List Stmt → Bool
  | [] => true
  | s :: ss => if ss.isEmpty then firm s else firmIn ss
/-- There is an `else` branch and it returns. -/
def firmElse : Option (List Stmt) → Bool
  | some b => bodyReturns b && firmIn b
  | none => false
/-- `firm` on a default case. -/
def firmDflt : Option (List Stmt) → Bool
  | some b => !breaksIn b && firmIn b
  | none => true
/-- `firm` on the cases of a switch. -/
def firmCases : List SwitchCase → Bool
  | [] => true
  | .mk _ b :: cs => !breaksIn b && firmIn b && firmCases cs
end

section
variable {m : Type → Type} [Monad m] {V : Type}

/-- Nothing after it is reached. -/
def NoReturn {α : Type} (x : m α) : Prop := ∀ {β : Type} (k k' : α → m β), x >>= k = x >>= k'

/-- The end of the statement is not reached: what would be done there makes no
difference. -/
def NeverEnds (x : m (Out V)) : Prop :=
  ∀ {β : Type} (k k' : Out V → m β), (∀ r, r ≠ .normal → k r = k' r) → x >>= k = x >>= k'

end

end Che.Spec
