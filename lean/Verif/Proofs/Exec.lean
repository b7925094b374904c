import Verif.Spec.Exec
/-!
# Running generated statements
-/
namespace Che.Spec
open Che

set_option linter.unusedSectionVars false

section
variable {m : Type → Type} [Monad m] [LawfulMonad m] {V : Type}

theorem andThen_assoc (x y z : m (Out V)) : andThen (andThen x y) z = andThen x (andThen y z) := by
  simp only [andThen, bind_assoc]
  congr 1; funext r
  cases r <;> simp

@[simp] theorem normal_andThen (y : m (Out V)) : andThen (pure .normal) y = y := by simp [andThen]

@[simp] theorem andThen_normal (x : m (Out V)) : andThen x (pure .normal) = x := by
  have : (fun r : Out V => (match r with | .normal => pure .normal | r => pure r : m (Out V))) = pure := by
    funext r; cases r <;> rfl
  simp only [andThen]
  refine Eq.trans ?_ (bind_pure x)
  exact congrArg _ this

/-- A result that is never `normal` is not continued. -/
theorem andThen_stuck {α : Type} (x : m α) (f : α → Out V) (hf : ∀ a, f a ≠ .normal) (y : m (Out V)) :
    andThen (x >>= fun a => pure (f a)) y = x >>= fun a => pure (f a) := by
  simp only [andThen, bind_assoc, pure_bind]
  congr 1; funext a
  have := hf a
  cases h : f a <;> simp_all

/-- What follows a case body: `break`. -/
def toBreak : Out V → Out V
  | .normal => .brk
  | r => r

theorem andThen_brk (x : m (Out V)) : andThen x (pure .brk) = x >>= fun r => pure (toBreak r) := by
  simp only [andThen]
  congr 1; funext r; cases r <;> rfl

@[simp] theorem caught_toBreak (r : Out V) : (toBreak r).caught = r.caught := by cases r <;> rfl

theorem toBreak_ne (r : Out V) : toBreak r ≠ .normal := by cases r <;> simp [toBreak]

end

namespace CSem
variable {m : Type → Type} [Monad m] [LawfulMonad m] {V : Type} {S : CSem m V}

theorem runs_append (N : Nat) (a b : List KStmt) :
    S.runs N (a ++ b) = andThen (S.runs N a) (S.runs N b) := by
  induction a with
  | nil => simp [runs]
  | cons s a ih => simp [runs, ih, andThen_assoc]

theorem runs_one (N : Nat) (s : KStmt) : S.runs N [s] = S.run N s := by simp [runs]

theorem runs_lowerBody (N : Nat) (b : List CStmt) : S.runs N (lowerBody b) = S.runs N (lowers b) := by
  induction b with
  | nil => simp [lowerBody, lowers]
  | cons s b ih => simp [lowerBody, lowers, runs_append, runs, run, ih]

theorem run_labels (N : Nat) (ls : List CCaseValue) (s : KStmt) :
    S.run N (labels ls s) = S.run N s := by
  induction ls with
  | nil => rfl
  | cons l ls ih => simpa [labels, run] using ih

theorem labelled_labels (p : Option CCaseValue → Bool) (ls : List CCaseValue) (b : List KStmt) :
    (labels ls (.block b)).labelled p = ls.any (fun l => p (some l)) := by
  induction ls with
  | nil => rfl
  | cons l ls ih =>
    have : labels (l :: ls) (.block b) = .case l (labels ls (.block b)) := rfl
    rw [this, KStmt.labelled, ih, List.any_cons]

/-- Select the first case listing the value. -/
def caseBody (S : CSem m V) (x : V) : List CSwitchCase → Option (List CStmt)
  | [] => none
  | .mk ls b :: cs => if ls.any (S.hit x) then some b else caseBody S x cs

/-- Run an optional body in a scope of its own. -/
def runBody (S : CSem m V) (N : Nat) : Option (List CStmt) → m (Out V)
  | some b => S.scope (S.runs N (lowers b))
  | none => pure .normal

theorem jump_dflt (N : Nat) (cs : List CSwitchCase) (T : List KStmt) :
    S.jump N (·.labelled fun l => l.isNone) (lowerCases cs ++ T) =
    S.jump N (·.labelled fun l => l.isNone) T := by
  induction cs with
  | nil => simp [lowerCases]
  | cons c cs ih =>
    cases c with | mk ls b =>
    rw [lowerCases, List.cons_append, jump, labelled_labels]
    simp [ih]

theorem jump_hit (hS : S.Lawful) (N : Nat) (x : V) (T : List KStmt) (Z W : m (Out V))
    (hT : S.jump N (·.labelled fun l => match l with | some l => S.hit x l | none => false) T = none)
    (hZ : (S.scope Z >>= fun r => pure r.caught) = W >>= fun r => pure r.caught)
    (cs : List CSwitchCase) :
    (S.scope (match S.jump N (·.labelled fun l => match l with | some l => S.hit x l | none => false)
        (lowerCases cs ++ T) with
      | some y => y
      | none => Z) >>= fun r => pure r.caught) =
    (match caseBody S x cs with
      | some b => runBody S N (some b)
      | none => W) >>= fun r => pure r.caught := by
  induction cs with
  | nil => simp only [lowerCases, List.nil_append, hT, caseBody]; exact hZ
  | cons c cs ih =>
    cases c with | mk ls b =>
    rw [lowerCases, List.cons_append, jump, labelled_labels, caseBody]
    by_cases h : ls.any (S.hit x) = true
    · simp only [h, if_true, run_labels, run, runs_append, runs_lowerBody, runs_one, andThen_brk,
        hS.map, andThen_stuck _ _ toBreak_ne, hS.nest, runBody]
      simp
    · simp only [h]
      exact ih

/-- A printed switch runs the selected body only. -/
theorem run_switch (hS : S.Lawful) (N : Nat) (v : CExpr) (cs : List CSwitchCase)
    (d : Option (List CStmt)) :
    S.runs N (lower (.switchS v cs d)) = (do
      let x ← S.eval v
      let r ← (match caseBody S x cs with
        | some b => runBody S N (some b)
        | none => runBody S N d)
      pure r.caught) := by
  rw [lower, runs_one, run]
  congr 1; funext x
  rw [jump_dflt]
  apply jump_hit hS
  · cases d with
    | none => rfl
    | some b => simp [lowerDflt, jump, KStmt.labelled]
  · cases d with
    | none => simp [lowerDflt, jump, hS.nothing, runBody]
    | some b =>
      simp [lowerDflt, jump, KStmt.labelled, run, runs, hS.nest, runBody, runs_lowerBody]

end CSem

end Che.Spec
