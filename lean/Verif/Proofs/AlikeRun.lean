import Verif.Spec.CStmtGrammar
/-!
# Statements that are alike run alike
-/
namespace Che.Proofs.AlikeRun
open Che Che.Spec

/-- What text can give back. -/
abbrev Same (e e' : CExpr) : Prop := e' = canon e

variable {m : Type → Type} [Monad m] {V : Type} {S : CSem m V}

theorem test_alike (hS : S.Textual) {e e'} (h : Same e e') : S.test e' = S.test e := by
  cases h; simp only [CSem.test, hS.eval]

theorem effect_alike (hS : S.Textual) {e e'} (h : Same e e') : S.effect e' = S.effect e := by
  cases h; simp only [CSem.effect, hS.eval]

theorem testOpt_alike (hS : S.Textual) {e e'} (h : OptAlike Same e e') : S.testOpt e' = S.testOpt e := by
  cases h with
  | none => rfl
  | some h => exact test_alike hS h

theorem effectOpt_alike (hS : S.Textual) {e e'} (h : OptAlike Same e e') : S.effectOpt e' = S.effectOpt e := by
  cases h with
  | none => rfl
  | some h => exact effect_alike hS h

theorem result_alike (hS : S.Textual) {e e'} (h : OptAlike Same e e') : S.result e' = S.result e := by
  cases h with
  | none => rfl
  | some h => cases h; simp only [CSem.result, hS.eval]

theorem declares_alike (hS : S.Textual) (t : CTypename) {ds ds'} (h : ListAlike (DeclAlike Same Same) ds ds') :
    S.declares t ds' = S.declares t ds := by
  induction h with
  | nil => rfl
  | cons h _ ih => simp only [CSem.declares, ih, hS.declare h.form h.value]

theorem init_alike (hS : S.Textual) {i i'} (h : InitAlike Same Same i i') : S.init i' = S.init i := by
  cases h with
  | none => rfl
  | expr h => exact effect_alike hS h
  | decl h1 h2 => exact hS.declare h1 (.some h2) _

/-- Labels are chosen alike. -/
theorem labelled_alike {p : Option CCaseValue → Bool}
    (hp : ∀ ⦃l l'⦄, Same (labelExpr l) (labelExpr l') → p (some l') = p (some l)) :
    ∀ {s s'}, Alike Same Same s s' → s'.labelled p = s.labelled p
  | _, _, .empty => rfl
  | _, _, .expr _ => rfl
  | _, _, .decl _ => rfl
  | _, _, .ret _ => rfl
  | _, _, .brk => rfl
  | _, _, .cont => rfl
  | _, _, .block _ => rfl
  | _, _, .ifS _ _ => rfl
  | _, _, .ifElse _ _ _ => rfl
  | _, _, .whileS _ _ => rfl
  | _, _, .forS _ _ _ _ => rfl
  | _, _, .switchS _ _ => rfl
  | _, _, .case h1 h2 => by simp only [KStmt.labelled, hp h1, labelled_alike hp h2]
  | _, _, .dflt h => by simp only [KStmt.labelled, labelled_alike hp h]

mutual
theorem run_alike (hS : S.Textual) (N : Nat) : ∀ {s s'}, Alike Same Same s s' → S.run N s' = S.run N s
  | _, _, .empty => rfl
  | _, _, .expr h => by rw [CSem.run, CSem.run, effect_alike hS h]
  | _, _, .decl h => by rw [CSem.run, CSem.run, declares_alike hS _ h]
  | _, _, .ret h => by rw [CSem.run, CSem.run, result_alike hS h]
  | _, _, .brk => rfl
  | _, _, .cont => rfl
  | _, _, .block h => by rw [CSem.run, CSem.run, runs_alike hS N h]
  | _, _, .ifS h1 h2 => by
    rw [CSem.run, CSem.run, test_alike hS h1, run_alike hS N h2]
  | _, _, .ifElse h1 h2 h3 => by
    rw [CSem.run, CSem.run, test_alike hS h1, run_alike hS N h2, CSem.runElse, CSem.runElse, run_alike hS N h3]
  | _, _, .whileS h1 h2 => by rw [CSem.run, CSem.run, test_alike hS h1, run_alike hS N h2]
  | _, _, .forS h1 h2 h3 h4 => by
    rw [CSem.run, CSem.run, init_alike hS h1, testOpt_alike hS h2, effectOpt_alike hS h3, run_alike hS N h4]
  | _, _, .switchS (a := a) h1 h2 => by
    cases h1
    rw [CSem.run, CSem.run, hS.eval]
    refine congrArg (S.eval a >>= ·) (funext fun x => ?_)
    rw [jump_alike hS N _ ?_ h2, jump_alike hS N _ ?_ h2]
    · intro l l' _; rfl
    · intro l l' h; exact hS.hit h x
  | _, _, .case _ h => by rw [CSem.run, CSem.run, run_alike hS N h]
  | _, _, .dflt h => by rw [CSem.run, CSem.run, run_alike hS N h]
theorem runs_alike (hS : S.Textual) (N : Nat) : ∀ {s s'}, Alikes Same Same s s' → S.runs N s' = S.runs N s
  | _, _, .nil => rfl
  | _, _, .cons h1 h2 => by rw [CSem.runs, CSem.runs, run_alike hS N h1, runs_alike hS N h2]
theorem jump_alike (hS : S.Textual) (N : Nat) (p : Option CCaseValue → Bool)
    (hp : ∀ ⦃l l'⦄, Same (labelExpr l) (labelExpr l') → p (some l') = p (some l)) :
    ∀ {s s'}, Alikes Same Same s s' → S.jump N (·.labelled p) s' = S.jump N (·.labelled p) s
  | _, _, .nil => rfl
  | _, _, .cons h1 h2 => by
    rw [CSem.jump, CSem.jump, labelled_alike hp h1, run_alike hS N h1, runs_alike hS N h2, jump_alike hS N p hp h2]
end

end Che.Proofs.AlikeRun
