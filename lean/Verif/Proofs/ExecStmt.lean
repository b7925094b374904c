import Verif.Proofs.Exec
import Mathlib.Tactic.Tauto
/-!
# Translation preserves the behaviour of statements
-/
namespace Che.Spec
open Che

set_option linter.unusedSectionVars false

section
variable {m : Type → Type} [Monad m] [LawfulMonad m] {V : Type}
variable {M : ModEnv} {E : ESem m V} {S : CSem m V}

/-- What holds of everything in a run, apart from the pieces. -/
structure Base (E : ESem m V) (S : CSem m V) : Prop where
  lawful : S.Lawful
  truth : S.truth = E.truth
  scope : ∀ {α : Type} (x : m α), S.scope x = E.scope x

/-! ## Pieces -/

theorem test_eq (hB : Base E S) {Γ : Scopes} {e : Expr} (h : Agree M E S (.eval Γ e)) :
    S.test (emitE M Γ e) = E.test Γ e := by
  simp only [Agree] at h
  simp only [CSem.test, ESem.test, h, hB.truth]

theorem effect_eq {Γ : Scopes} {e : Expr} (h : Agree M E S (.eval Γ e)) :
    S.effect (emitE M Γ e) = E.effect Γ e := by
  simp only [Agree] at h
  simp only [CSem.effect, ESem.effect, h]

theorem testOpt_eq (hB : Base E S) {Γ : Scopes} {e : Option Expr}
    (h : ∀ p ∈ piecesOpt Γ e, Agree M E S p) :
    S.testOpt (emitOptE M Γ e) = E.testOpt Γ e := by
  cases e with
  | none => rfl
  | some e => exact test_eq hB (h _ (by simp [piecesOpt]))

theorem effectOpt_eq {Γ : Scopes} {e : Option Expr}
    (h : ∀ p ∈ piecesOpt Γ e, Agree M E S p) :
    S.effectOpt (emitOptE M Γ e) = E.effectOpt Γ e := by
  cases e with
  | none => rfl
  | some e => exact effect_eq (h _ (by simp [piecesOpt]))

theorem result_eq {Γ : Scopes} {e : Option Expr}
    (h : ∀ p ∈ piecesOpt Γ e, Agree M E S p) :
    S.result (emitOptE M Γ e) = E.result Γ e := by
  cases e with
  | none => rfl
  | some e =>
    have := h (.eval Γ e) (by simp [piecesOpt])
    simp only [Agree] at this
    simp only [emitOptE, CSem.result, ESem.result, this]

theorem init_eq {Γ : Scopes} {i : Option ForInit}
    (h : ∀ p ∈ piecesInit Γ i, Agree M E S p) :
    S.init (emitInit M Γ i) = E.init Γ i := by
  match i with
  | none => rfl
  | some (.expr e) => exact effect_eq (h _ (by simp [piecesInit]))
  | some (.decl t f v) => exact h _ (List.mem_singleton.2 rfl)

/-! ## `panic` -/

theorem scope_effect (hB : Base E S) {α : Type} (e : CExpr) (x : m α) :
    S.scope (S.effect e >>= fun _ => x) = S.effect e >>= fun _ => S.scope x := by
  simp only [CSem.effect, bind_assoc, pure_bind, hB.lawful.eval]

theorem panic_eq (hB : Base E S) {N : Nat} {Γ : Scopes} {pos : Pos} {args : List Expr}
    (h1 : Agree M E S (.say Γ [ESem.str "*** panic at %s ***\\n", ESem.str (M.file ++ ":" ++ pos.fmt)]))
    (h2 : Agree M E S (.say Γ args)) (h3 : Agree M E S (.say Γ [ESem.str "\\n"]))
    (h4 : Agree M E S .exit) :
    S.runs N (lower (emitPanic M Γ pos args)) = (do E.panic M.file Γ pos args; pure .normal) := by
  simp only [Agree] at h1 h2 h3 h4
  simp only [ESem.panic, ← h1, ← h2, ← h3, ← h4, bind_assoc]
  simp only [emitPanic, lower, lowers, CSem.runs_one, CSem.run, emitPrint, List.append_nil,
    List.singleton_append, CSem.runs, andThen_normal]
  simp only [andThen, bind_assoc, pure_bind, scope_effect hB, hB.lawful.nothing]
  rfl

theorem exprStmt_eq (hB : Base E S) {N : Nat} {Γ : Scopes} {e : Expr}
    (h : ∀ p ∈ piecesExprStmt M.file Γ e, Agree M E S p) :
    S.runs N (lower (emitExprStmt M Γ e)) = (do E.exprStmt M.file Γ e; pure .normal) := by
  have other : (∀ pos f args, e ≠ .call pos f args) →
      S.runs N (lower (emitExprStmt M Γ e)) = (do E.exprStmt M.file Γ e; pure .normal) := by
    intro hn
    have h1 : emitExprStmt M Γ e = .expr (emitE M Γ e) := by
      cases e <;> first | rfl | exact absurd rfl (hn _ _ _)
    have h2 : E.exprStmt M.file Γ e = E.effect Γ e := by
      cases e <;> first | rfl | exact absurd rfl (hn _ _ _)
    have h3 : piecesExprStmt M.file Γ e = [.eval Γ e] := by
      cases e <;> first | rfl | exact absurd rfl (hn _ _ _)
    rw [h3] at h
    rw [h1, h2, lower, CSem.runs_one, CSem.run, effect_eq (h _ (by simp))]
  match e with
  | .call pos f args =>
    simp only [piecesExprStmt] at h
    simp only [emitExprStmt, ESem.exprStmt]
    by_cases hp : isIdent f "panic" = true
    · simp only [hp, if_true] at h ⊢
      exact panic_eq hB (h _ (by simp)) (h _ (by simp)) (h _ (by simp)) (h _ (by simp))
    · simp only [hp] at h ⊢
      have := effect_eq (h (.eval Γ (.call pos f args)) (by simp))
      simp [lower, CSem.runs, CSem.run, this]
  | .arrIndex .. | .binaryOp .. | .fieldAccess .. | .cast .. | .compLit .. | .lit .. | .name ..
  | .postfixOp .. | .prefixOp .. | .sizeofType .. | .sizeofExpr .. => exact other (by simp)

/-! ## `switch str` -/

theorem or_foldl (hB : Base E S) {Γ : Scopes} {v : Expr} :
    ∀ (ls : List CaseValue) (a : CExpr), (∀ l ∈ ls, Agree M E S (.str Γ v l)) →
    S.test (ls.foldl (fun acc l => .binaryOp "||" acc (emitStrTest M Γ (emitE M Γ v) l)) a) = (do
      if ← S.test a then pure true
      else match ls with
        | [] => pure false
        | l :: ls => S.test (emitStrCond M Γ (emitE M Γ v) (l :: ls)))
  | [], a, _ => by
    have : (fun b : Bool => (if b = true then pure true else pure false : m Bool)) = pure := by
      funext b; cases b <;> rfl
    simp [this]
  | l :: ls, a, h => by
    rw [List.foldl_cons, or_foldl hB ls _ (fun x hx => h x (by simp [hx])), hB.lawful.or]
    simp only [bind_assoc]
    congr 1; funext b
    cases b with
    | true => simp
    | false =>
      simp only [Bool.false_eq_true, if_false, emitStrCond]
      rw [or_foldl hB ls _ (fun x hx => h x (by simp [hx]))]
      cases ls <;> simp [emitStrCond]

theorem steadyAny {Γ : Scopes} {v : Expr} :
    ∀ (ls : List CaseValue), ls ≠ [] → (∀ l ∈ ls, Steady E Γ v l) → ∀ k : Bool → V → m (Out V),
    (do let x ← E.eval Γ v
        let b ← E.sameAny Γ x ls
        let y ← E.eval Γ v
        k b y) =
    (do let x ← E.eval Γ v
        let b ← E.sameAny Γ x ls
        k b x)
  | [], h, _, _ => absurd rfl h
  | [l], _, h, k => by
    have hs := h l (by simp)
    have one : ∀ (x : V) (g : Bool → m (Out V)), (E.sameAny Γ x [l] >>= g) = E.same Γ x l >>= g := by
      intro x g
      simp only [ESem.sameAny, bind_assoc]
      congr 1; funext b; cases b <;> simp
    simp only [one]
    exact hs.after k
  | l :: l' :: ls, _, h, k => by
    have hs := h l (by simp)
    have ih := steadyAny (l' :: ls) (by simp) (fun x hx => h x (List.mem_cons_of_mem _ hx)) k
    -- `A`: evaluate again, then go on; `Q`: compare with the rest
    have key : ∀ (P : V → m (Out V)) (Q : V → m (Out V)),
        (do let x ← E.eval Γ v
            let b ← E.same Γ x l
            if b then P x else Q x) =
        (do let x ← E.eval Γ v
            let b ← E.same Γ x l
            if b then E.eval Γ v >>= P else E.eval Γ v >>= Q) := by
      intro P Q
      have := hs.after (fun b y => if b then P y else Q y)
      rw [← this]
      congr 1; funext x; congr 1; funext b
      cases b <;> simp
    have split : ∀ (g : Bool → V → m (Out V)),
        (do let x ← E.eval Γ v
            let b ← E.sameAny Γ x (l :: l' :: ls)
            g b x) =
        (do let x ← E.eval Γ v
            let b ← E.same Γ x l
            if b then g true x else E.sameAny Γ x (l' :: ls) >>= fun b => g b x) := by
      intro g
      congr 1; funext x
      rw [ESem.sameAny]
      simp only [bind_assoc]
      congr 1; funext b
      cases b <;> simp
    rw [split (fun b x => E.eval Γ v >>= fun y => k b y), split k]
    rw [key, key (fun x => k true x)]
    congr 1; funext x; congr 1; funext b
    cases b with
    | true => exact hs.again (fun _ y => k true y)
    | false => exact ih

theorem strCond_eq (hB : Base E S) {Γ : Scopes} {v : Expr} :
    ∀ (ls : List CaseValue), ls ≠ [] → (∀ l ∈ ls, Agree M E S (.str Γ v l)) →
    ∀ k : Bool → m (Out V), (S.test (emitStrCond M Γ (emitE M Γ v) ls) >>= k) =
      E.eval Γ v >>= fun x => E.sameAny Γ x ls >>= k
  | [], h, _, _ => absurd rfl h
  | [l], _, h, k => by
    have h1 := h l (by simp)
    simp only [Agree] at h1
    simp only [emitStrCond, List.foldl_nil, h1.1, ESem.sameAny, bind_assoc]
    congr 1; funext x; congr 1; funext b; cases b <;> simp
  | l :: l' :: ls, _, h, k => by
    have h1 := h l (by simp)
    simp only [Agree] at h1
    rw [emitStrCond, or_foldl hB _ _ (fun x hx => h x (List.mem_cons_of_mem _ hx)), h1.1]
    have ih := strCond_eq hB (l' :: ls) (by simp) (fun x hx => h x (List.mem_cons_of_mem _ hx)) k
    simp only [bind_assoc]
    have := h1.2.after (fun b y => if b then k true else E.sameAny Γ y (l' :: ls) >>= k)
    calc _ = (do
            let x ← E.eval Γ v
            let b ← E.same Γ x l
            let y ← E.eval Γ v
            if b then k true else E.sameAny Γ y (l' :: ls) >>= k) := ?_
      _ = _ := ?_
    · have h2 := h1.2.after (fun b _ => if b then k true else
        E.eval Γ v >>= fun y => E.sameAny Γ y (l' :: ls) >>= k)
      refine Eq.trans ?_ (Eq.trans h2.symm ?_)
      · congr 1; funext x; congr 1; funext b
        cases b with
        | true => simp
        | false => simpa using ih
      · congr 1; funext x; congr 1; funext b
        cases b with
        | true => simp
        | false => exact h1.2.again (fun _ y => E.sameAny Γ y (l' :: ls) >>= k)
    · rw [this]
      congr 1; funext x
      conv => rhs; rw [ESem.sameAny]
      simp only [bind_assoc]
      congr 1; funext b
      cases b <;> simp

/-! ## No `break` leaves -/

theorem loop_caught (t : m Bool) (b : m (Out V)) (st : m Unit) (n : Nat) :
    (loop t b st n >>= fun r => pure r.caught) = loop t b st n := by
  induction n with
  | zero => simp [loop, Out.caught]
  | succ n ih =>
    rw [loop]
    simp only [bind_assoc]
    congr 1; funext x
    cases x with
    | false => simp [Out.caught]
    | true =>
      simp only [if_true, bind_assoc]
      congr 1; funext r
      cases r
      case normal => simp only [bind_assoc, ih]
      case cont => simp only [bind_assoc, ih]
      all_goals simp [Out.caught]

/-- Nothing to catch. -/
def Quiet (x : m (Out V)) : Prop := (x >>= fun r => pure r.caught) = x

theorem Quiet.andThen {x y : m (Out V)} (hx : Quiet x) (hy : Quiet y) : Quiet (andThen x y) := by
  have : Spec.andThen x y = x >>= fun r => (match r.caught with | .normal => y | r => pure r) := by
    conv => lhs; rw [← hx]
    simp only [Spec.andThen, bind_assoc, pure_bind]
    rfl
  unfold Quiet
  rw [this]
  simp only [bind_assoc]
  congr 1; funext r
  cases r
  case normal => exact hy
  case brk => exact hy
  all_goals simp [Out.caught]

theorem Quiet.pure {r : Out V} (h : r ≠ .brk) : Quiet (pure r : m (Out V)) := by
  cases r <;> simp_all [Quiet, Out.caught]

theorem Quiet.scope (hB : Base E S) {x : m (Out V)} (hx : Quiet x) : Quiet (E.scope x) := by
  unfold Quiet
  rw [← hB.scope, ← hB.lawful.map, hx]

theorem Quiet.bind {α : Type} {x : m α} {f : α → m (Out V)} (h : ∀ a, Quiet (f a)) :
    Quiet (x >>= f) := by
  unfold Quiet
  rw [bind_assoc]
  congr 1; funext a
  exact h a

mutual
theorem quiet_run (hB : Base E S) (file : String) (N : Nat) : ∀ (Γ : Scopes) (s : Stmt),
    breaks s = false → Quiet (E.run file N Γ s)
  | _, .brk, h => by simp [breaks] at h
  | _, .cont, _ => by rw [ESem.run]; exact Quiet.pure (by simp)
  | _, .expr e, _ => by rw [ESem.run]; exact Quiet.bind fun _ => Quiet.pure (by simp)
  | _, .varDecl d, _ => by rw [ESem.run]; exact Quiet.bind fun _ => Quiet.pure (by simp)
  | _, .ret e, _ => by rw [ESem.run]; exact Quiet.bind fun _ => Quiet.pure (by simp)
  | Γ, .ifS c b els, h => by
    simp only [breaks, Bool.or_eq_false_iff] at h
    rw [ESem.run]
    refine Quiet.bind fun x => ?_
    cases x with
    | true => exact Quiet.scope hB (quiet_runs hB file N _ b h.1)
    | false => exact quiet_runOpt hB file N Γ els h.2
  | _, .whileS c b, _ => by rw [ESem.run]; exact loop_caught ..
  | _, .forS i c a b, _ => by
    rw [ESem.run]
    exact Quiet.scope hB (Quiet.bind fun _ => loop_caught ..)
  | _, .switchS isStr v cs d, _ => by
    rw [ESem.run]
    exact Quiet.bind fun _ => Quiet.bind fun r => Quiet.pure (by cases r <;> simp [Out.caught])
theorem quiet_runs (hB : Base E S) (file : String) (N : Nat) : ∀ (Γ : Scopes) (ss : List Stmt),
    breaksIn ss = false → Quiet (E.runs file N Γ ss)
  | _, [], _ => by rw [ESem.runs]; exact Quiet.pure (by simp)
  | Γ, s :: ss, h => by
    simp only [breaksIn, Bool.or_eq_false_iff] at h
    rw [ESem.runs]
    exact Quiet.andThen (quiet_run hB file N Γ s h.1) (quiet_runs hB file N _ ss h.2)
theorem quiet_runOpt (hB : Base E S) (file : String) (N : Nat) : ∀ (Γ : Scopes) (b : Option (List Stmt)),
    breaksOpt b = false → Quiet (E.runOpt file N Γ b)
  | _, none, _ => by rw [ESem.runOpt]; exact Quiet.pure (by simp)
  | Γ, some b, h => by
    simp only [breaksOpt] at h
    rw [ESem.runOpt]; exact Quiet.scope hB (quiet_runs hB file N _ b h)
end

/-! ## Statements -/

theorem run_block (N : Nat) (b : List CStmt) : S.run N (.block (lowers b)) = S.scope (S.runs N (lowers b)) := by
  rw [CSem.run]

theorem runElse_eq (N : Nat) (b : Option (List CStmt)) :
    S.runElse N (lowerOpt b) = CSem.runBody S N b := by
  cases b with
  | none => rw [lowerOpt, CSem.runElse, CSem.runBody]
  | some b => rw [lowerOpt, CSem.runElse, CSem.runBody, run_block]

theorem scope_runBody (hS : S.Lawful) (N : Nat) (b : Option (List CStmt)) :
    S.scope (CSem.runBody S N b) = CSem.runBody S N b := by
  cases b with
  | none => rw [CSem.runBody, hS.nothing]
  | some b => rw [CSem.runBody, hS.nest]

theorem run_if (N : Nat) (c : CExpr) (b : List CStmt) (els : Option (List CStmt)) :
    S.runs N (lower (.ifS c b els)) =
    S.test c >>= fun x => if x then CSem.runBody S N (some b) else CSem.runBody S N els := by
  rw [lower, CSem.runs_one, CSem.run, run_block]
  simp only [runElse_eq, CSem.runBody]

theorem scope_if (hS : S.Lawful) (N : Nat) (c : CExpr) (b : List CStmt) (els : Option (List CStmt)) :
    S.scope (S.runs N (lower (.ifS c b els))) = S.runs N (lower (.ifS c b els)) := by
  simp only [run_if, CSem.test, bind_assoc, hS.eval, pure_bind]
  congr 1; funext x
  cases S.truth x <;> simp [scope_runBody hS]

theorem caseBody_eq {Γ : Scopes} (N : Nat) (x : V) (other : m (Out V)) (cs : List SwitchCase)
    (h : ∀ c ∈ cs, (∀ l ∈ c.values, Agree M E S (.label Γ l)) ∧
      CSem.runBody S N (some (emitSs M ([] :: Γ) c.body)) = E.scope (E.runs M.file N ([] :: Γ) c.body)) :
    (match CSem.caseBody S x (emitCases M Γ cs) with
      | some b => CSem.runBody S N (some b)
      | none => other) =
    E.select M.file N Γ (fun ls => pure (ls.any (E.hit Γ x))) other cs := by
  induction cs with
  | nil => simp [emitCases, CSem.caseBody, ESem.select]
  | cons c cs ih =>
    have ih := ih (fun c hc => h c (by simp [hc]))
    have hc := h c (by simp)
    cases c with | mk ls b =>
    have e : (ls.map (emitCaseValue M Γ)).any (S.hit x) = ls.any (E.hit Γ x) := by
      have : ∀ ls : List CaseValue, (∀ l ∈ ls, Agree M E S (.label Γ l)) →
          (ls.map (emitCaseValue M Γ)).any (S.hit x) = ls.any (E.hit Γ x) := by
        intro ls hls
        induction ls with
        | nil => rfl
        | cons l ls ih =>
          have h1 := hls l (by simp)
          simp only [Agree] at h1
          simp only [List.map_cons, List.any_cons, h1, ih (fun l hl => hls l (by simp [hl]))]
      exact this ls hc.1
    rw [emitCases, CSem.caseBody, ESem.select, e, pure_bind]
    cases ls.any (E.hit Γ x) with
    | true => exact hc.2
    | false => exact ih

/-- What is known of a case of a `switch str`. -/
structure StrOk (M : ModEnv) (E : ESem m V) (S : CSem m V) (N : Nat) (Γ : Scopes) (v : Expr)
    (c : SwitchCase) : Prop where
  agree : ∀ l ∈ c.values, Agree M E S (.str Γ v l)
  some : c.values ≠ []
  body : S.runs N (lowers (emitSs M ([] :: Γ) c.body)) = E.runs M.file N ([] :: Γ) c.body

theorem str_eq (hB : Base E S) (N : Nat) : ∀ (Γ : Scopes) (v : Expr) (d : Option (List Stmt)),
    CSem.runBody S N (emitOptB M Γ d) = E.runOpt M.file N Γ d →
    ∀ (c : SwitchCase) (rest : List SwitchCase), (∀ c' ∈ c :: rest, StrOk M E S N Γ v c') →
    S.runs N (lower (.ifS (emitStrCase M Γ (emitE M Γ v) c).1 (emitStrCase M Γ (emitE M Γ v) c).2
      (emitStrElse M Γ (emitE M Γ v) (emitOptB M Γ d) rest))) =
      E.eval Γ v >>= fun x =>
      E.select M.file N Γ (E.sameAny Γ x) (E.runOpt M.file N Γ d) (c :: rest)
  | Γ, v, d, hd, .mk ls b, rest, h => by
    obtain ⟨hst, hls, hb⟩ := h (.mk ls b) (by simp)
    simp only [SwitchCase.values, SwitchCase.body] at hst hls hb
    have hst' : ∀ l ∈ ls, Steady E Γ v l := fun l hl => by
      have := hst l hl
      simp only [Agree] at this
      exact this.2
    have hb' : CSem.runBody S N (some (emitSs M ([] :: Γ) b)) = E.scope (E.runs M.file N ([] :: Γ) b) := by
      rw [CSem.runBody, hb, hB.scope]
    rw [emitStrCase, run_if, strCond_eq hB ls hls hst, hb']
    have sel : ∀ x : V, E.select M.file N Γ (E.sameAny Γ x) (E.runOpt M.file N Γ d) (.mk ls b :: rest) =
        E.sameAny Γ x ls >>= fun t => if t then E.scope (E.runs M.file N ([] :: Γ) b) else
          E.select M.file N Γ (E.sameAny Γ x) (E.runOpt M.file N Γ d) rest := by
      intro x
      rw [ESem.select]
    simp only [sel]
    match rest with
    | [] =>
      rw [emitStrElse, hd]
      simp only [ESem.select]
    | c2 :: rest2 =>
      have ih := str_eq hB N Γ v d hd c2 rest2 (fun c hc => h c (List.mem_cons_of_mem _ hc))
      rw [emitStrElse]
      simp only [CSem.runBody, lowers, List.append_nil]
      rw [scope_if hB.lawful, ih]
      have := steadyAny ls hls hst' (fun t y => if t then E.scope (E.runs M.file N ([] :: Γ) b) else
          E.select M.file N Γ (E.sameAny Γ y) (E.runOpt M.file N Γ d) (c2 :: rest2))
      have key := steadyAny ls hls hst' (fun t _ => if t then E.scope (E.runs M.file N ([] :: Γ) b) else
          E.eval Γ v >>= fun y =>
          E.select M.file N Γ (E.sameAny Γ y) (E.runOpt M.file N Γ d) (c2 :: rest2))
      rw [← key, ← this]
      congr 1; funext x; congr 1; funext t
      cases t with
      | true => rfl
      | false =>
        obtain ⟨l, hl'⟩ := List.exists_mem_of_ne_nil ls hls
        exact (hst' l hl').again (fun _ y =>
          E.select M.file N Γ (E.sameAny Γ y) (E.runOpt M.file N Γ d) (c2 :: rest2))
termination_by _ _ _ _ _ rest => rest.length

theorem quiet_select (hB : Base E S) (file : String) (N : Nat) (Γ : Scopes) (p : List CaseValue → m Bool)
    {other : m (Out V)} (ho : Quiet other) : ∀ (cs : List SwitchCase),
    (∀ c ∈ cs, breaksIn c.body = false) → Quiet (E.select file N Γ p other cs)
  | [], _ => by rw [ESem.select]; exact ho
  | .mk ls b :: cs, h => by
    rw [ESem.select]
    refine Quiet.bind fun x => ?_
    cases x with
    | true => exact Quiet.scope hB (quiet_runs hB _ N _ b (h (.mk ls b) (by simp)))
    | false => exact quiet_select hB file N Γ p ho cs (fun c hc => h c (by simp [hc]))

theorem strBodies {file : String} {Γ : Scopes} {v : Expr} {d : Option (List Stmt)} :
    ∀ {cs : List SwitchCase}, ∀ c ∈ cs, Piece.strBody c.body ∈ piecesStr file Γ v d cs
  | .mk ls b :: cs, c, hc => by
    rcases List.mem_cons.1 hc with rfl | hc
    · simp [piecesStr, SwitchCase.body]
    · simp [piecesStr, strBodies c hc]

theorem last_piece (file : String) (Γ : Scopes) (v : Expr) (d : Option (List Stmt)) :
    ∀ cs, Piece.strBody (d.getD []) ∈ piecesStr file Γ v d cs
  | [] => by simp [piecesStr]
  | .mk ls b :: cs => by simp [piecesStr, last_piece file Γ v d cs]

mutual
theorem run_eq (hB : Base E S) (N : Nat) : ∀ (Γ : Scopes) (s : Stmt),
    (∀ p ∈ piecesS M.file Γ s, Agree M E S p) → labelled s = true →
    S.runs N (lower (emitS M Γ s)) = E.run M.file N Γ s
  | Γ, .brk, _, _ => by rw [emitS, lower, CSem.runs_one, CSem.run, ESem.run]
  | Γ, .cont, _, _ => by rw [emitS, lower, CSem.runs_one, CSem.run, ESem.run]
  | Γ, .expr e, h, _ => by
    rw [piecesS] at h
    rw [emitS, ESem.run, exprStmt_eq hB h]
  | Γ, .varDecl d, h, _ => by
    have := h (.decl (declare [(d.form.name, false)] Γ) d.typename d.form d.value) (by simp [piecesS])
    simp only [Agree] at this
    rw [emitS, ESem.run, emitVar, lower, CSem.runs_one, CSem.run]
    simp [CSem.declares, this]
  | Γ, .ret e, h, _ => by
    rw [piecesS] at h
    rw [emitS, ESem.run, ← result_eq h]
    cases e with
    | none => simp [emitOptE, lower, CSem.runs, CSem.run, andThen, CSem.result]
    | some e => rw [emitOptE, lower, CSem.runs_one, CSem.run]
  | Γ, .ifS c b els, h, hl => by
    rw [piecesS] at h
    simp only [labelled, Bool.and_eq_true] at hl
    have ht := test_eq (e := c) (Γ := Γ) hB (h _ (by simp))
    have h1 := runs_eq hB N ([] :: Γ) b (fun p hp => h p (by simp [hp])) hl.1
    have h2 := runOpt_eq hB N Γ els (fun p hp => h p (by simp [hp])) hl.2
    rw [emitS, ESem.run, lower, CSem.runs_one, CSem.run, ht]
    congr 1; funext x
    cases x with
    | true => simp only [if_true, run_block, h1, hB.scope]
    | false => simp only [Bool.false_eq_true, if_false, ← h2, runElse_eq]
  | Γ, .whileS c b, h, hl => by
    rw [piecesS] at h
    simp only [labelled] at hl
    have ht := test_eq (e := c) (Γ := Γ) hB (h _ (by simp))
    have h1 := runs_eq hB N ([] :: Γ) b (fun p hp => h p (by simp [hp])) hl
    rw [emitS, ESem.run, lower, CSem.runs_one, CSem.run, ht, run_block, h1, hB.scope]
  | Γ, .forS i c a b, h, hl => by
    rw [piecesS] at h
    simp only [labelled] at hl
    have hi := init_eq (i := i) (Γ := declInit i :: Γ) (fun p hp => h p (by simp [hp]))
    have ht := testOpt_eq (e := c) (Γ := declInit i :: Γ) hB (fun p hp => h p (by simp [hp]))
    have ha := effectOpt_eq (e := a) (Γ := declInit i :: Γ) (fun p hp => h p (by simp [hp]))
    have h1 := runs_eq hB N ([] :: declInit i :: Γ) b (fun p hp => h p (by simp [hp])) hl
    rw [emitS, ESem.run, lower, CSem.runs_one, CSem.run, hi, ht, ha, run_block, h1]
    simp only [hB.scope]
  | Γ, .switchS isStr v cs d, h, hl => by
    rw [piecesS] at h
    simp only [labelled, Bool.and_eq_true] at hl
    have hd := runOpt_eq hB N Γ d (fun p hp => h p (by simp [hp])) hl.2
    cases isStr with
    | false =>
      simp only [Bool.false_eq_true, if_false, List.cons_append] at h
      have hv := h (.eval Γ v) (by simp)
      simp only [Agree] at hv
      have hc := cases_eq hB N Γ cs (fun p hp => h p (by simp [hp])) hl.1.2
      rw [ESem.run]
      simp only [emitS, Bool.false_eq_true, if_false]
      rw [CSem.run_switch hB.lawful, hv]
      congr 1; funext x
      rw [hd]
      exact congrArg (fun y => y >>= fun r => pure (Out.caught r)) (caseBody_eq N x _ cs hc)
    | true =>
      simp only [if_true] at h
      simp only [Bool.true_and, Bool.not_eq_true'] at hl
      match cs with
      | [] => simp at hl
      | c :: rest =>
        have := str_eq hB N Γ v d hd c rest
          (strCases_eq hB N Γ v d _ (fun p hp => h p (by simp [hp])) hl.1.2)
        have hqd : Quiet (E.runOpt M.file N Γ d) := by
          have hbd : breaksIn (d.getD []) = false := h (.strBody (d.getD [])) (by simp [last_piece])
          refine quiet_runOpt hB _ N Γ d ?_
          cases d with
          | none => rfl
          | some d => exact hbd
        have hq : ∀ x, Quiet (E.select M.file N Γ (E.sameAny Γ x) (E.runOpt M.file N Γ d) (c :: rest)) :=
          fun x => quiet_select hB _ N Γ _ hqd _ (fun c' hc' => h (.strBody c'.body) (by
            rw [List.mem_append]; exact Or.inl (strBodies c' hc')))
        rw [ESem.run]
        simp only [emitS, if_true]
        rw [this]
        congr 1; funext x
        exact (hq x).symm
theorem runs_eq (hB : Base E S) (N : Nat) : ∀ (Γ : Scopes) (ss : List Stmt),
    (∀ p ∈ piecesSs M.file Γ ss, Agree M E S p) → labelledIn ss = true →
    S.runs N (lowers (emitSs M Γ ss)) = E.runs M.file N Γ ss
  | Γ, [], _, _ => by rw [emitSs, lowers, CSem.runs, ESem.runs]
  | Γ, s :: ss, h, hl => by
    rw [piecesSs] at h
    simp only [labelledIn, Bool.and_eq_true] at hl
    rw [emitSs, lowers, CSem.runs_append, ESem.runs,
      run_eq hB N Γ s (fun p hp => h p (by simp [hp])) hl.1,
      runs_eq hB N _ ss (fun p hp => h p (by simp [hp])) hl.2]
theorem runOpt_eq (hB : Base E S) (N : Nat) : ∀ (Γ : Scopes) (b : Option (List Stmt)),
    (∀ p ∈ piecesOptB M.file Γ b, Agree M E S p) → labelledOpt b = true →
    CSem.runBody S N (emitOptB M Γ b) = E.runOpt M.file N Γ b
  | Γ, none, _, _ => by rw [emitOptB, CSem.runBody, ESem.runOpt]
  | Γ, some b, h, hl => by
    rw [piecesOptB] at h
    simp only [labelledOpt] at hl
    rw [emitOptB, CSem.runBody, ESem.runOpt, runs_eq hB N _ b h hl, hB.scope]
theorem cases_eq (hB : Base E S) (N : Nat) : ∀ (Γ : Scopes) (cs : List SwitchCase),
    (∀ p ∈ piecesCases M.file Γ cs, Agree M E S p) → labelledCases false cs = true →
    ∀ c ∈ cs, (∀ l ∈ c.values, Agree M E S (.label Γ l)) ∧
      CSem.runBody S N (some (emitSs M ([] :: Γ) c.body)) = E.scope (E.runs M.file N ([] :: Γ) c.body)
  | Γ, [], _, _ => by simp
  | Γ, .mk ls b :: cs, h, hl => by
    rw [piecesCases] at h
    simp only [labelledCases, Bool.and_eq_true] at hl
    intro c hc
    rcases List.mem_cons.1 hc with rfl | hc
    · refine ⟨fun l hl => h _ ?_, ?_⟩
      · simp only [SwitchCase.values] at hl
        simp [hl]
      · simp only [SwitchCase.body]
        rw [CSem.runBody, runs_eq hB N _ b (fun p hp => h p (by simp [hp])) hl.1.2, hB.scope]
    · exact cases_eq hB N Γ cs (fun p hp => h p (by simp [hp])) hl.2 c hc
theorem strCases_eq (hB : Base E S) (N : Nat) : ∀ (Γ : Scopes) (v : Expr) (d : Option (List Stmt))
    (cs : List SwitchCase), (∀ p ∈ piecesStr M.file Γ v d cs, Agree M E S p) →
    labelledCases true cs = true → ∀ c ∈ cs, StrOk M E S N Γ v c
  | Γ, _, _, [], _, _ => by simp
  | Γ, v, d, .mk ls b :: cs, h, hl => by
    rw [piecesStr] at h
    simp only [labelledCases, Bool.and_eq_true] at hl
    intro c hc
    rcases List.mem_cons.1 hc with rfl | hc
    · refine ⟨fun l hl => h _ ?_, ?_, ?_⟩
      · simp only [SwitchCase.values] at hl
        simp [hl]
      · have := hl.1.1; intro e; simp only [SwitchCase.values] at e; subst e; simp at this
      · exact runs_eq hB N _ b (fun p hp => h p (by simp [hp])) hl.1.2
    · exact strCases_eq hB N Γ v d cs (fun p hp => h p (by simp [hp])) hl.2 c hc
end

end
end Che.Spec
