import Verif.Spec.Ends
import Verif.Proofs.ExecStmt
/-!
# Bodies that cannot be left at the end
-/
namespace Che.Spec
open Che

variable {m : Type → Type} [Monad m] [LawfulMonad m] {V : Type} {E : ESem m V} {S : CSem m V}

/-- `NeverEnds` as an equation. -/
def Firm (x : m (Out V)) : Prop := (x >>= fun r => pure (toBreak r)) = x

theorem Firm.neverEnds {x : m (Out V)} (h : Firm x) : NeverEnds x := by
  intro β k k' hk
  rw [← h]
  simp only [bind_assoc, pure_bind]
  congr 1; funext r
  exact hk _ (toBreak_ne r)

theorem NeverEnds.firm {x : m (Out V)} (h : NeverEnds x) : Firm x := by
  have := h (fun r => pure (toBreak r)) pure (by intro r hr; cases r <;> simp_all [toBreak])
  rw [Firm, this, bind_pure]

theorem Firm.pure {r : Out V} (h : r ≠ .normal) : Firm (pure r : m (Out V)) := by
  cases r <;> simp_all [Firm, toBreak]

theorem Firm.bind {α : Type} {x : m α} {f : α → m (Out V)} (h : ∀ a, Firm (f a)) :
    Firm (x >>= f) := by
  unfold Firm
  rw [bind_assoc]
  congr 1; funext a
  exact h a

theorem Firm.andThen {x y : m (Out V)} (hy : Firm y) : Firm (andThen x y) := by
  refine Firm.bind fun r => ?_
  cases r
  case normal => exact hy
  all_goals exact Firm.pure (by simp)

theorem Firm.stuck {α : Type} {x : m α} (h : NoReturn x) (f : α → m (Out V)) : Firm (x >>= f) := by
  unfold Firm
  rw [bind_assoc]
  exact h _ _

omit [LawfulMonad m] in
theorem Firm.scope (hB : Base E S) {x : m (Out V)} (hx : Firm x) : Firm (E.scope x) := by
  unfold Firm
  rw [← hB.scope, ← hB.lawful.map, hx]

omit [LawfulMonad m] in
theorem Firm.caught {x : m (Out V)} (h : Firm x) (hq : Quiet x) :
    Firm (x >>= fun r => Pure.pure r.caught) := by
  rw [hq]; exact h

theorem Firm.loop {body : m (Out V)} {step : m Unit} (hb : Quiet body) :
    ∀ n, Firm (loop (Pure.pure true) body step n)
  | 0 => by rw [Spec.loop]; exact Firm.pure (by simp)
  | n + 1 => by
    have ih := Firm.loop (step := step) hb n
    rw [Spec.loop]
    simp only [pure_bind, if_true]
    generalize Spec.loop (Pure.pure true) body step n = rest at ih ⊢
    rw [← hb]
    simp only [bind_assoc, pure_bind]
    refine Firm.bind fun r => ?_
    cases r <;> simp only [Out.caught]
    · exact Firm.bind fun _ => ih
    · exact Firm.bind fun _ => ih
    · exact Firm.bind fun _ => ih
    · exact Firm.pure (by simp)
    · exact Firm.pure (by simp)

/-- `true` is true where it stands. -/
def TrueIsTrue (E : ESem m V) : Piece → Prop
  | .eval Γ c => isIdent c "true" = true → E.test Γ c = pure true
  | _ => True

/-- What is asked of the meaning of expressions: the conditions `true` in the body
are true and `exit(1)` does not return. -/
structure Final (E : ESem m V) (file : String) (Γ : Scopes) (ss : List Stmt) : Prop where
  tru : ∀ p ∈ piecesSs file Γ ss, TrueIsTrue E p
  exit : NoReturn (E.exit 1)

omit [LawfulMonad m] in
theorem tru_cases {file : String} {Γ : Scopes} : ∀ {cs : List SwitchCase},
    (∀ p ∈ piecesCases file Γ cs, TrueIsTrue E p) →
    ∀ c ∈ cs, ∀ p ∈ piecesSs file ([] :: Γ) c.body, TrueIsTrue E p
  | .mk ls b :: cs, h, c, hc, p, hp => by
    rcases List.mem_cons.1 hc with rfl | hc
    · exact h p (by simp only [piecesCases, List.mem_append]; exact Or.inl (Or.inr hp))
    · exact tru_cases (fun p hp => h p (by simp [piecesCases, hp])) c hc p hp

omit [LawfulMonad m] in
theorem tru_str {file : String} {Γ : Scopes} {v : Expr} {d : Option (List Stmt)} :
    ∀ {cs : List SwitchCase}, (∀ p ∈ piecesStr file Γ v d cs, TrueIsTrue E p) →
    ∀ c ∈ cs, ∀ p ∈ piecesSs file ([] :: Γ) c.body, TrueIsTrue E p
  | .mk ls b :: cs, h, c, hc, p, hp => by
    rcases List.mem_cons.1 hc with rfl | hc
    · exact h p (by
        simp only [piecesStr, List.mem_cons, List.mem_append]; exact Or.inr (Or.inl (Or.inr hp)))
    · exact tru_str (v := v) (d := d) (fun p hp => h p (by simp [piecesStr, hp])) c hc p hp

theorem bodyReturns_cons (s : Stmt) (ss : List Stmt) :
    bodyReturns (s :: ss) = if ss.isEmpty then bodyReturns.lastReturns s else bodyReturns ss := by
  cases ss with
  | nil => rw [bodyReturns]; rfl
  | cons t ts => rw [bodyReturns]; rfl

mutual
theorem firm_run (hB : Base E S) (hF : NoReturn (E.exit 1)) (file : String) (N : Nat) : ∀ (Γ : Scopes) (s : Stmt),
    (∀ p ∈ piecesS file Γ s, TrueIsTrue E p) →
    bodyReturns.lastReturns s = true → firm s = true → Firm (E.run file N Γ s)
  | _, .brk, _, h, _ => by simp [bodyReturns.lastReturns] at h
  | _, .cont, _, h, _ => by simp [bodyReturns.lastReturns] at h
  | _, .varDecl d, _, h, _ => by simp [bodyReturns.lastReturns] at h
  | _, .forS _ _ _ _, _, h, _ => by simp [bodyReturns.lastReturns] at h
  | _, .ret e, _, _, _ => by rw [ESem.run]; exact Firm.bind fun _ => Firm.pure (by simp)
  | Γ, .expr e, _, h, _ => by
    cases e with
    | call pos f args =>
      simp only [bodyReturns.lastReturns] at h
      rw [ESem.run, ESem.exprStmt, if_pos h, ESem.panic]
      simp only [bind_assoc]
      exact Firm.bind fun _ => Firm.bind fun _ => Firm.bind fun _ => Firm.stuck hF _
    | _ => simp [bodyReturns.lastReturns] at h
  | Γ, .ifS c b els, hp, h, hf => by
    simp only [bodyReturns.lastReturns] at h
    simp only [firm, Bool.and_eq_true] at hf
    rw [ESem.run]
    refine Firm.bind fun x => ?_
    cases x with
    | true => exact Firm.scope hB (firm_runs hB hF file N _ b (fun p h => hp p (by simp [piecesS, h])) h hf.1)
    | false => exact firm_else hB hF file N Γ els (fun p h => hp p (by simp [piecesS, h])) hf.2
  | Γ, .whileS c b, hp, h, hf => by
    simp only [firm, Bool.and_eq_true, Bool.not_eq_true'] at hf
    rw [ESem.run, hp (.eval Γ c) (by simp [piecesS]) hf.1]
    exact Firm.loop (Quiet.scope hB (quiet_runs hB file N _ b hf.2)) N
  | Γ, .switchS isStr v cs none, _, h, _ => by simp [bodyReturns.lastReturns] at h
  | Γ, .switchS isStr v cs (some d), hp, h, hf => by
    simp only [bodyReturns.lastReturns, Bool.and_eq_true] at h
    simp only [firm, firmDflt, Bool.and_eq_true, Bool.not_eq_true'] at hf
    have hd : ∀ p ∈ piecesSs file ([] :: Γ) d, TrueIsTrue E p := fun p h => hp p (by
      simp [piecesS, piecesOptB, h])
    have hcs : ∀ c ∈ cs, ∀ p ∈ piecesSs file ([] :: Γ) c.body, TrueIsTrue E p := by
      cases isStr with
      | true => exact tru_str (v := v) (d := some d) (fun p h => hp p (by simp [piecesS, h]))
      | false => exact tru_cases (fun p h => hp p (by simp [piecesS, h]))
    rw [ESem.run]
    refine Firm.bind fun x => ?_
    obtain ⟨h1, h2⟩ := firm_select hB hF file N Γ
      (if isStr then E.sameAny Γ x else fun ls => Pure.pure (ls.any (E.hit Γ x)))
      (other := E.runOpt file N Γ (some d))
      (by rw [ESem.runOpt]; exact Firm.scope hB (firm_runs hB hF file N _ d hd h.1 hf.2.2))
      (by rw [ESem.runOpt]; exact Quiet.scope hB (quiet_runs hB file N _ d hf.2.1)) cs hcs h.2 hf.1
    exact Firm.caught h1 h2
theorem firm_runs (hB : Base E S) (hF : NoReturn (E.exit 1)) (file : String) (N : Nat) : ∀ (Γ : Scopes) (ss : List Stmt),
    (∀ p ∈ piecesSs file Γ ss, TrueIsTrue E p) → bodyReturns ss = true → firmIn ss = true → Firm (E.runs file N Γ ss)
  | _, [], _, h, _ => by simp [bodyReturns] at h
  | Γ, s :: ss, hp, h, hf => by
    rw [bodyReturns_cons] at h
    rw [firmIn] at hf
    rw [ESem.runs]
    cases ss with
    | nil =>
      simp only [List.isEmpty_nil, if_true] at h hf
      rw [ESem.runs, andThen_normal]
      exact firm_run hB hF file N Γ s (fun p h => hp p (by simp [piecesSs, h])) h hf
    | cons t ts =>
      simp only [List.isEmpty_cons, Bool.false_eq_true, if_false] at h hf
      exact Firm.andThen (firm_runs hB hF file N _ (t :: ts) (fun p h => hp p (by rw [piecesSs]; simp [h])) h hf)
theorem firm_else (hB : Base E S) (hF : NoReturn (E.exit 1)) (file : String) (N : Nat) :
    ∀ (Γ : Scopes) (b : Option (List Stmt)), (∀ p ∈ piecesOptB file Γ b, TrueIsTrue E p) →
    firmElse b = true → Firm (E.runOpt file N Γ b)
  | _, none, _, h => by simp [firmElse] at h
  | Γ, some b, hp, h => by
    simp only [firmElse, Bool.and_eq_true] at h
    rw [ESem.runOpt]; exact Firm.scope hB (firm_runs hB hF file N _ b (fun p h => hp p (by simp [piecesOptB, h])) h.1 h.2)
theorem firm_select (hB : Base E S) (hF : NoReturn (E.exit 1)) (file : String) (N : Nat) (Γ : Scopes)
    (p : List CaseValue → m Bool) {other : m (Out V)} (ho : Firm other) (hq : Quiet other) :
    ∀ (cs : List SwitchCase),
    (∀ c ∈ cs, ∀ p ∈ piecesSs file ([] :: Γ) c.body, TrueIsTrue E p) → bodyReturns.casesReturn cs = true → firmCases cs = true →
    Firm (E.select file N Γ p other cs) ∧ Quiet (E.select file N Γ p other cs)
  | [], _, _, _ => by rw [ESem.select]; exact ⟨ho, hq⟩
  | .mk ls b :: cs, hp, h, hf => by
    simp only [bodyReturns.casesReturn, Bool.and_eq_true] at h
    simp only [firmCases, Bool.and_eq_true, Bool.not_eq_true'] at hf
    obtain ⟨h1, h2⟩ := firm_select hB hF file N Γ p ho hq cs (fun c hc => hp c (by simp [hc])) h.2 hf.2
    have f1 := Firm.scope hB (firm_runs hB hF file N ([] :: Γ) b (hp (.mk ls b) (by simp)) h.1 hf.1.2)
    have f2 := Quiet.scope hB (quiet_runs hB file N ([] :: Γ) b hf.1.1)
    rw [ESem.select]
    constructor
    · refine Firm.bind fun x => ?_
      cases x with
      | true => exact f1
      | false => exact h1
    · refine Quiet.bind fun x => ?_
      cases x with
      | true => exact f2
      | false => exact h2
end

end Che.Spec
