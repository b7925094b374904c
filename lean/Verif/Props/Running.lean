import Verif.Proofs.ExecTr
import Verif.Proofs.ExecEnd
import Verif.Props.Modules
import Verif.Spec.DemoSem
import Verif.Spec.DemoRun
/-!
# C29, C35–C38, C41: what the generated statements do

The meaning of C and Che statements is in `Verif.Spec.Exec`; it is parametric in
the meaning of expressions.
-/
namespace Che.Props
open Che Spec

variable {m : Type → Type} [Monad m] [LawfulMonad m] {V : Type}

/-! ## Examples: run a function of a Che text and of its C code -/

section Demo
attribute [local instance] asciiOnly

/-- The first function of a program of one module: environment, scopes and body
of the source and the body in C. -/
def demoFunc (text : String) : Option (ModEnv × Scopes × List Stmt × List CStmt) :=
  match parseProject (memFS [("/main.c", text)]) 2000 "/main.c" with
  | .ok p =>
    match p.modules, p.cmodules, p.modheads with
    | [mo], [cm], [mi] =>
      match mo.elements.findSome? (fun e => match e with
        | .funcDecl f => some f
        | _ => none) with
      | some f =>
        cm.elements.findSome? (fun e => match e with
          | .funcDef d =>
            some (envFor mo { thisModHead := mi, allModHeads := p.modheads, cmods := [], mods := [] },
              [] :: declParams f.params :: moduleScope mo, f.body, d.body)
          | _ => none)
      | none => none
    | _, _, _ => none
  | _ => none

/-- How the source of the function and its C code end in the small meaning of
`Verif.Spec.DemoSem`. -/
def demoEndings (text : String) (N : Nat) : Option (String × String) :=
  (demoFunc text).map fun (M, Γ, b, cb) =>
    (Demo.ending ((Demo.source M).runs M.file N Γ b), Demo.ending (Demo.sem.runs N (lowers cb)))

end Demo

/-! ## C35 -/

/-- The values a generated case lists. -/
def caseValues : CSwitchCase → List CCaseValue
  | .mk ls _ => ls

/-- The body of a generated case. -/
def caseStmts : CSwitchCase → List CStmt
  | .mk _ b => b

omit [Monad m] [LawfulMonad m] in
theorem caseBody_find (S : CSem m V) (x : V) (cs : List CSwitchCase) :
    CSem.caseBody S x cs = (cs.find? (fun c => (caseValues c).any (S.hit x))).map caseStmts := by
  induction cs with
  | nil => rfl
  | cons c cs ih =>
    cases c with | mk ls b =>
    simp only [CSem.caseBody, List.find?_cons, caseValues]
    cases ls.any (S.hit x) with
    | true => rfl
    | false => simpa [caseValues] using ih

/-- C35: the C statements printed for a switch (labels, then the body, then
`break`, with control falling from one case to the next as in C) run exactly the
body of the first case that lists the value, or else the default body, or else
nothing; then the switch is over.  This holds for any cases and bodies and any
meaning of expressions. -/
theorem C35_switch {S : CSem m V} (hS : S.Lawful) (N : Nat) (v : CExpr) (cs : List CSwitchCase)
    (d : Option (List CStmt)) :
    S.runs N (lower (.switchS v cs d)) = (do
      let x ← S.eval v
      let r ← (match ((cs.find? (fun c => (caseValues c).any (S.hit x))).map caseStmts).or d with
        | some b => S.scope (S.runs N (lowers b))
        | none => pure .normal)
      pure r.caught) := by
  rw [CSem.run_switch hS]
  congr 1; funext x
  rw [caseBody_find]
  cases (cs.find? (fun c => (caseValues c).any (S.hit x))).map caseStmts <;> cases d <;> rfl

/-- C35 for a Che switch: the C code runs the C code of the body of the first case
that lists the value. -/
theorem C35_source {E : ESem m V} {S : CSem m V} {M : ModEnv} (hB : Base E S) (N : Nat) (Γ : Scopes)
    (v : Expr) (cs : List SwitchCase) (d : Option (List Stmt)) :
    S.runs N (lower (emitS M Γ (.switchS false v cs d))) = (do
      let x ← S.eval (emitE M Γ v)
      let r ← (match ((cs.find? (fun c => c.values.any (fun l => S.hit x (emitCaseValue M Γ l)))).map
          SwitchCase.body).or d with
        | some b => S.scope (S.runs N (lowers (emitSs M ([] :: Γ) b)))
        | none => pure .normal)
      pure r.caught) := by
  simp only [emitS, Bool.false_eq_true, if_false]
  rw [CSem.run_switch hB.lawful]
  congr 1; funext x
  have : CSem.caseBody S x (emitCases M Γ cs) =
      (cs.find? (fun c => c.values.any (fun l => S.hit x (emitCaseValue M Γ l)))).map
        (fun c => emitSs M ([] :: Γ) c.body) := by
    induction cs with
    | nil => simp [emitCases, CSem.caseBody]
    | cons c cs ih =>
      cases c with | mk ls b =>
      simp only [emitCases, CSem.caseBody, List.find?_cons, SwitchCase.values, List.any_map,
        Function.comp_def]
      cases ls.any (fun l => S.hit x (emitCaseValue M Γ l)) with
      | true => rfl
      | false => simpa [SwitchCase.values] using ih
  rw [this]
  cases cs.find? (fun c => c.values.any (fun l => S.hit x (emitCaseValue M Γ l))) <;> cases d <;>
    simp [CSem.runBody, emitOptB]

/-- C35 for what the translator makes of a switch, wherever it stands. -/
theorem C35_translated {E : ESem m V} {S : CSem m V} (hB : Base E S) (N : Nat) (v : Expr) (cs : List SwitchCase)
    (d : Option (List Stmt)) {c c' : TrCtx} {k : CStmt} (h : trStmt (.switchS false v cs d) c = .ok (k, c')) :
    S.runs N (lower k) = (do
      let x ← S.eval (emitE (envOf c) (scopesOf c.scopes) v)
      let r ← (match ((cs.find? (fun y => y.values.any (fun l => S.hit x (emitCaseValue (envOf c) (scopesOf c.scopes) l)))).map
          SwitchCase.body).or d with
        | some b => S.scope (S.runs N (lowers (emitSs (envOf c) ([] :: scopesOf c.scopes) b)))
        | none => pure .normal)
      pure r.caught) := by
  rw [(trStmt_spec _ h).1]
  exact C35_source hB N _ v cs d

/-! ## C36 -/

/-- C36: the code emitted for a `switch str` compares the value with the labels in
order and runs the body of the first case with an equal label, else the default
body, else nothing.  Asked of the value and labels: the C test
`!strcmp(label, value)` compares the value of the expression with the label, and
evaluating the value again after that changes nothing (`Steady`). -/
theorem C36_first_equal {E : ESem m V} {S : CSem m V} {M : ModEnv} (hB : Base E S) (N : Nat)
    (Γ : Scopes) (v : Expr) (cs : List SwitchCase) (d : Option (List Stmt)) (equal : V → CaseValue → Bool)
    (hne : cs ≠ []) (hls : ∀ c ∈ cs, c.values ≠ [])
    (heq : ∀ x l, E.same Γ x l = pure (equal x l))
    (hv : E.eval Γ v = S.eval (emitE M Γ v))
    (hstr : ∀ c ∈ cs, ∀ l ∈ c.values, Agree M E S (.str Γ v l))
    -- the bodies mean what their C code means
    (hbody : ∀ c ∈ cs, E.runs M.file N ([] :: Γ) c.body = S.runs N (lowers (emitSs M ([] :: Γ) c.body)))
    (hd : ∀ b, d = some b → E.runs M.file N ([] :: Γ) b = S.runs N (lowers (emitSs M ([] :: Γ) b))) :
    S.runs N (lower (emitS M Γ (.switchS true v cs d))) = (do
      let x ← S.eval (emitE M Γ v)
      match ((cs.find? (fun c => c.values.any (equal x))).map SwitchCase.body).or d with
        | some b => S.scope (S.runs N (lowers (emitSs M ([] :: Γ) b)))
        | none => pure .normal) := by
  match cs with
  | [] => exact absurd rfl hne
  | c :: rest =>
    have hd' : CSem.runBody S N (emitOptB M Γ d) = E.runOpt M.file N Γ d := by
      cases d with
      | none => rw [emitOptB, CSem.runBody, ESem.runOpt]
      | some b => rw [emitOptB, CSem.runBody, ESem.runOpt, hd b rfl, hB.scope]
    have := str_eq hB N Γ v d hd' c rest
      (fun c' hc' => ⟨hstr c' hc', hls c' hc', (hbody c' hc').symm⟩)
    simp only [emitS, if_true]
    rw [this, hv]
    congr 1; funext x
    have any : ∀ ls : List CaseValue, E.sameAny Γ x ls = pure (ls.any (equal x)) := by
      intro ls
      induction ls with
      | nil => simp [ESem.sameAny]
      | cons l ls ih =>
        simp only [ESem.sameAny, heq, pure_bind, ih, List.any_cons]
        cases equal x l <;> simp
    have sel : ∀ cs : List SwitchCase,
        (∀ c ∈ cs, E.runs M.file N ([] :: Γ) c.body = S.runs N (lowers (emitSs M ([] :: Γ) c.body))) →
        E.select M.file N Γ (E.sameAny Γ x) (E.runOpt M.file N Γ d) cs =
        (match ((cs.find? (fun c => c.values.any (equal x))).map SwitchCase.body).or d with
          | some b => S.scope (S.runs N (lowers (emitSs M ([] :: Γ) b)))
          | none => pure .normal) := by
      intro cs h
      induction cs with
      | nil =>
        rw [ESem.select, ← hd']
        cases d <;> simp [emitOptB, CSem.runBody]
      | cons c cs ih =>
        have hc := h c (by simp)
        cases c with | mk ls b =>
        rw [ESem.select, any, pure_bind, List.find?_cons]
        simp only [SwitchCase.values]
        simp only [SwitchCase.body] at hc
        cases ls.any (equal x) with
        | true => simp [hc, hB.scope, SwitchCase.body]
        | false => simpa [SwitchCase.values] using ih (fun c hc => h c (by simp [hc]))
    exact sel (c :: rest) hbody

/-- C36 for what the translator makes of a `switch str`, wherever it stands. -/
theorem C36_translated {E : ESem m V} {S : CSem m V} (hB : Base E S) (N : Nat) (v : Expr) (cs : List SwitchCase)
    (d : Option (List Stmt)) {c c' : TrCtx} {k : CStmt} (h : trStmt (.switchS true v cs d) c = .ok (k, c'))
    (equal : V → CaseValue → Bool) (hne : cs ≠ []) (hls : ∀ y ∈ cs, y.values ≠ [])
    (heq : ∀ x l, E.same (scopesOf c.scopes) x l = pure (equal x l))
    (hv : E.eval (scopesOf c.scopes) v = S.eval (emitE (envOf c) (scopesOf c.scopes) v))
    (hstr : ∀ y ∈ cs, ∀ l ∈ y.values, Agree (envOf c) E S (.str (scopesOf c.scopes) v l))
    (hbody : ∀ y ∈ cs, E.runs (envOf c).file N ([] :: scopesOf c.scopes) y.body =
      S.runs N (lowers (emitSs (envOf c) ([] :: scopesOf c.scopes) y.body)))
    (hd : ∀ b, d = some b → E.runs (envOf c).file N ([] :: scopesOf c.scopes) b =
      S.runs N (lowers (emitSs (envOf c) ([] :: scopesOf c.scopes) b))) :
    S.runs N (lower k) = (do
      let x ← S.eval (emitE (envOf c) (scopesOf c.scopes) v)
      match ((cs.find? (fun y => y.values.any (equal x))).map SwitchCase.body).or d with
        | some b => S.scope (S.runs N (lowers (emitSs (envOf c) ([] :: scopesOf c.scopes) b)))
        | none => pure .normal) := by
  rw [(trStmt_spec _ h).1]
  exact C36_first_equal hB N _ v cs d equal hne hls heq hv hstr hbody hd

/-! ## C37 -/

/-- C37: the code emitted for a `panic` statement prints where it stands (file, line
and column), prints the message, prints a line break, all to stderr, and calls
`exit(1)`; nothing else happens. -/
theorem C37_panic {S : CSem m V} (hS : S.Lawful) (M : ModEnv) (N : Nat) (Γ : Scopes) (pos : Pos)
    (f : Expr) (args : List Expr) (hf : isIdent f "panic" = true) :
    S.runs N (lower (emitS M Γ (.expr (.call pos f args)))) = (do
      S.effect (printCall [.lit (.string "*** panic at %s ***\\n"),
        .lit (.string (M.file ++ ":" ++ (expressionPos f).fmt))])
      S.effect (printCall (emitArgs M Γ args))
      S.effect (printCall [.lit (.string "\\n")])
      S.effect exitCall
      pure .normal) := by
  simp only [emitS, emitExprStmt, hf, if_true]
  have sc : ∀ {α : Type} (e : CExpr) (x : m α),
      S.scope (S.effect e >>= fun _ => x) = S.effect e >>= fun _ => S.scope x := by
    intro α e x
    simp only [CSem.effect, bind_assoc, pure_bind, hS.eval]
  simp only [emitPanic, lower, lowers, CSem.runs_one, CSem.run, emitPrint, List.append_nil,
    List.singleton_append, CSem.runs, andThen_normal]
  simp only [andThen, bind_assoc, pure_bind, sc, hS.nothing]
  rfl

/-- C37: if `exit(1)` does not return then neither does a `panic` statement: what
the program would do afterwards, in any context, makes no difference. -/
theorem C37_never_returns {S : CSem m V} (hS : S.Lawful) (hexit : NoReturn (S.eval exitCall))
    (M : ModEnv) (N : Nat) (Γ : Scopes) (pos : Pos) (f : Expr) (args : List Expr)
    (hf : isIdent f "panic" = true) :
    NoReturn (S.runs N (lower (emitS M Γ (.expr (.call pos f args))))) := by
  intro β k k'
  rw [C37_panic hS M N Γ pos f args hf]
  simp only [bind_assoc, CSem.effect]
  congr 1; funext _; congr 1; funext _; congr 1; funext _; congr 1; funext _; congr 1; funext _
  congr 1; funext _
  exact hexit _ _

/-- C37: in particular the statements after it do not run. -/
theorem C37_rest {S : CSem m V} (hS : S.Lawful) (hexit : NoReturn (S.eval exitCall))
    (M : ModEnv) (N : Nat) (Γ : Scopes) (pos : Pos) (f : Expr) (args : List Expr)
    (hf : isIdent f "panic" = true) (rest rest' : List KStmt) :
    S.runs N (lower (emitS M Γ (.expr (.call pos f args))) ++ rest) =
    S.runs N (lower (emitS M Γ (.expr (.call pos f args))) ++ rest') := by
  rw [CSem.runs_append, CSem.runs_append]
  exact C37_never_returns hS hexit M N Γ pos f args hf _ _

/-- C37 for what the translator makes of a `panic` statement, wherever it stands. -/
theorem C37_translated {S : CSem m V} (hS : S.Lawful) (N : Nat) (pos : Pos) (f : Expr) (args : List Expr)
    (hf : isIdent f "panic" = true) {c c' : TrCtx} {k : CStmt} (h : trStmt (.expr (.call pos f args)) c = .ok (k, c')) :
    S.runs N (lower k) = (do
      S.effect (printCall [.lit (.string "*** panic at %s ***\\n"),
        .lit (.string ((envOf c).file ++ ":" ++ (expressionPos f).fmt))])
      S.effect (printCall (emitArgs (envOf c) (scopesOf c.scopes) args))
      S.effect (printCall [.lit (.string "\\n")])
      S.effect exitCall
      pure .normal) ∧
    (NoReturn (S.eval exitCall) → ∀ rest rest', S.runs N (lower k ++ rest) = S.runs N (lower k ++ rest')) := by
  rw [(trStmt_spec _ h).1]
  exact ⟨C37_panic hS _ N _ pos f args hf, fun hexit => C37_rest hS hexit _ N _ pos f args hf⟩

/-! ## C38 -/

/-- The body of the helper for `calloc!`. -/
def helperBody : List CStmt :=
  match mkCallocOrPanic with
  | .funcDef d => d.body
  | _ => []

/-- What is asked of the meaning of expressions: `void *x = e` makes a variable `x`
that has the value of `e` when read, and `!e` is the negation of `e`. -/
structure PointerLocal (S : CSem m V) (set : V → m Unit) : Prop where
  declare : ∀ e, S.declare { isConst := false, name := "void" }
    { indexes := [], name := "x", stars := "*" } (some e) = S.eval e >>= set
  read : ∀ {β : Type} (v : V) (k : V → m β),
    (set v >>= fun _ => S.eval (.ident "x") >>= k) = set v >>= fun _ => k v
  not : ∀ e, S.test (.prefixOp "!" e) = S.eval e >>= fun v => pure (!S.truth v)

/-- C38: the helper calls `calloc` with its two arguments and returns the result if
it is not null; otherwise it prints a message and calls `exit(1)`. -/
theorem C38_helper {S : CSem m V} (hS : S.Lawful) {set : V → m Unit} (hx : PointerLocal S set)
    (hexit : NoReturn (S.eval exitCall)) (N : Nat) :
    S.runs N (lowers helperBody) = (do
      let v ← S.eval (.call (.ident "calloc") [.ident "count", .ident "size"])
      set v
      if S.truth v then pure (.ret (some v))
      else do
        S.effect (printCall [.lit (.string "calloc failed")])
        S.effect exitCall
        pure .normal) := by
  have e : lowers helperBody = [
      .decl { isConst := false, name := "void" } [({ indexes := [], name := "x", stars := "*" },
        some (.call (.ident "calloc") [.ident "count", .ident "size"]))],
      .ifS (.prefixOp "!" (.ident "x"))
        (.block [.expr (printCall [.lit (.string "calloc failed")]), .expr exitCall]) none,
      .ret (some (.ident "x"))] := rfl
  have sc : ∀ {α : Type} (e : CExpr) (x : m α),
      S.scope (S.effect e >>= fun _ => x) = S.effect e >>= fun _ => S.scope x := by
    intro α e x
    simp only [CSem.effect, bind_assoc, pure_bind, hS.eval]
  rw [e]
  simp only [CSem.runs, CSem.run, CSem.declares, CSem.runElse, andThen_normal, CSem.result,
    hx.declare, hx.not]
  simp only [andThen, bind_assoc, pure_bind, hx.read, sc, hS.nothing]
  congr 1; funext v
  cases S.truth v with
  | true =>
    simp only [Bool.not_true, Bool.false_eq_true, if_false, pure_bind, hx.read, if_true]
  | false =>
    simp only [Bool.not_false, if_true, Bool.false_eq_true, if_false, bind_assoc, pure_bind]
    congr 1; funext _; congr 1; funext _
    simp only [CSem.effect, bind_assoc]
    exact hexit _ _

/-- C38: the helper never returns a null pointer: whatever is done with its result,
only results that are not null matter. -/
theorem C38_not_null {S : CSem m V} (hS : S.Lawful) {set : V → m Unit} (hx : PointerLocal S set)
    (hexit : NoReturn (S.eval exitCall)) (N : Nat) {β : Type} (k k' : Out V → m β)
    (hk : ∀ v, S.truth v = true → k (.ret (some v)) = k' (.ret (some v))) :
    S.runs N (lowers helperBody) >>= k = S.runs N (lowers helperBody) >>= k' := by
  rw [C38_helper hS hx hexit]
  simp only [bind_assoc]
  congr 1; funext v; congr 1; funext _
  cases h : S.truth v with
  | true => simp [hk v h]
  | false =>
    simp only [Bool.false_eq_true, if_false, bind_assoc, CSem.effect]
    congr 1; funext _; congr 1; funext _
    exact hexit _ _

/-- C38: `calloc!(…)` is a call of the helper with the same arguments, unless the
module exports a `calloc_or_panic` of its own. -/
theorem C38_call (M : ModEnv) (Γ : Scopes) (pos : Pos) (f : Expr) (args : List Expr)
    (hf : isIdent f "calloc!" = true) (hown : lookup Γ "calloc_or_panic" ≠ some true) :
    emitE M Γ (.call pos f args) = .call (.ident "calloc_or_panic") (emitArgs M Γ args) := by
  have h : ("calloc_or_panic" : String) ≠ "" := by decide
  simp [emitE, hf, emitName, hown]

/-- C38 for what the translator makes of `calloc!(…)`. -/
theorem C38_translated (pos : Pos) (f : Expr) (args : List Expr) (hf : isIdent f "calloc!" = true) {c c' : TrCtx}
    {r : Ty × CExpr} (h : trExpr (.call pos f args) c = .ok (r, c'))
    (hown : lookup (scopesOf c.scopes) "calloc_or_panic" ≠ some true) :
    r.2 = .call (.ident "calloc_or_panic") (emitArgs (envOf c) (scopesOf c.scopes) args) := by
  rw [(trExpr_spec _ h).1]
  exact C38_call _ _ pos f args hf hown

/-- C38: the helper is in the C module of every module that mentions `calloc!`,
before all other functions, and in no other. -/
theorem C38_defined {mo : Module} {p : TrParams} {cm : CModule} (h : translate mo p = .ok cm) :
    ((∃ o ∈ occModule mo, o.use = .calloc) → ∃ rest, cm.elements.filter isFunc = mkCallocOrPanic :: rest) ∧
    ((¬ ∃ o ∈ occModule mo, o.use = .calloc) → ∀ d, .funcDef d ∈ cm.elements →
      ∃ f, .funcDecl f ∈ mo.elements ∧ d = emitFunc (envFor mo p) (moduleScope mo) f) := by
  obtain ⟨helper, h1, h2, h3⟩ := C31_helper_first h
  constructor
  · intro hu
    rw [h1 hu] at h3
    exact ⟨_, h3⟩
  · intro hu d hd
    rw [h2 hu] at h3
    have : CModElem.funcDef d ∈ cm.elements.filter isFunc := by simp [hd, isFunc]
    rw [h3] at this
    simp only [List.nil_append, List.mem_filterMap] at this
    obtain ⟨e, he, hd⟩ := this
    cases e <;> simp at hd
    exact ⟨_, he, hd.symm⟩

/-! ## C41 -/

/-- C41: the C code of a function of an accepted module runs like the source of the
function: same outcome, same effects, for any number `N` of rounds allowed to the
loops.  Asked for: the C meaning of expressions respects the Che meaning
(`Respects`).  What is missing: a `break` directly in a case of a `switch str`,
which the C code takes to leave the loop or switch around it; `Respects` leaves it
out (see `C41_counterexample`). -/
theorem C41_function_partial {E : ESem m V} {S : CSem m V} (hS : S.Lawful) {mo : Module} {p : TrParams}
    {cm : CModule} (h : translate mo p = .ok cm) {f : FuncDecl} (hf : .funcDecl f ∈ mo.elements)
    (hr : Respects (envFor mo p) E S ([] :: declParams f.params :: moduleScope mo) f.body) (N : Nat) :
    .funcDef (emitFunc (envFor mo p) (moduleScope mo) f) ∈ cm.elements ∧
    S.runs N (lowers (emitFunc (envFor mo p) (moduleScope mo) f).body) =
      E.runs (envFor mo p).file N ([] :: declParams f.params :: moduleScope mo) f.body := by
  constructor
  · obtain ⟨helper, -, -, h3⟩ := C31_helper_first h
    have : CModElem.funcDef (emitFunc (envFor mo p) (moduleScope mo) f) ∈ cm.elements.filter isFunc := by
      rw [h3, List.mem_append, List.mem_filterMap]
      exact Or.inr ⟨_, hf, rfl⟩
    exact (List.mem_filter.1 this).1
  · exact runs_eq ⟨hS, hr.truth, hr.scope⟩ N _ _ hr.pieces (func_labelled h hf)

/-- C41 for statements anywhere: whatever `tr_body` makes of a list of statements
runs like it. -/
theorem C41_statements_partial {E : ESem m V} {S : CSem m V} (hS : S.Lawful) {ss : List Stmt}
    {c c' : TrCtx} {r : List CStmt} (h : trStmts ss c = .ok (r, c'))
    (hr : Respects (envOf c) E S (scopesOf c.scopes) ss) (N : Nat) :
    S.runs N (lowers r) = E.runs (envOf c).file N (scopesOf c.scopes) ss := by
  rw [(trStmts_spec ss _ _ _ h).1]
  exact runs_eq ⟨hS, hr.truth, hr.scope⟩ N _ _ hr.pieces (labelledIn_of_tr ss h)

/-! ## C29 -/

/-- C29: no execution of the body of an accepted function with a result reaches the
end of the body, neither in the source nor in the C code.  Asked for: `true` is
true, `exit` does not return.  What is missing: the body has to be `firm`, because
the check does not look at `else` branches, at the condition of a loop, or at
`break`; and results of type `void **` are not checked (see the counterexamples). -/
theorem C29_partial {E : ESem m V} {S : CSem m V} (hS : S.Lawful) {mo : Module}
    {p : TrParams} {cm : CModule} (h : translate mo p = .ok cm) {f : FuncDecl}
    (hf : .funcDecl f ∈ mo.elements) (hvoid : isVoid f.typename = false ∨ f.form.hops = 1)
    (hfirm : firmIn f.body = true)
    (hF : Final E (envFor mo p).file ([] :: declParams f.params :: moduleScope mo) f.body)
    (hr : Respects (envFor mo p) E S ([] :: declParams f.params :: moduleScope mo) f.body) (N : Nat) :
    NeverEnds (E.runs (envFor mo p).file N ([] :: declParams f.params :: moduleScope mo) f.body) ∧
    NeverEnds (S.runs N (lowers (emitFunc (envFor mo p) (moduleScope mo) f).body)) := by
  have hret : bodyReturns f.body = true := by
    rcases func_returns h hf with h | h
    · rcases hvoid with hv | hv
      · rw [hv] at h; simp at h
      · exact absurd hv h.2
    · exact h
  have hB : Base E S := ⟨hS, hr.truth, hr.scope⟩
  have := firm_runs hB hF.exit (envFor mo p).file N ([] :: declParams f.params :: moduleScope mo) f.body
    hF.tru hret hfirm
  rw [(C41_function_partial hS h hf hr N).2]
  exact ⟨this.neverEnds, this.neverEnds⟩

/-! ## Examples -/

section Examples
attribute [local instance] asciiOnly

-- C35: one case of three runs, also from a list of labels
example : demoEndings "pub int f() { int n = 1; switch (2) { case 1, 2: { n = 5; }
    case 3: { n = 7; } default: { n = 9; } } return n; }" 5 =
    some ("return 5: ", "return 5: ") := by decide +kernel

-- C36: the second label of the second case
example : demoEndings "pub int f() { switch str (\"c\") { case \"a\": { return 1; }
    case \"b\", \"c\": { return 2; } default: { return 3; } } return 0; }" 5 =
    some ("return 2: ", "return 2: ") := by decide +kernel

/-- C36: a value with an effect is evaluated again for each comparison.  `next()`
gives `"a"` and then `"b"`; the C code runs the case of `"b"`. -/
theorem C36_counterexample : demoEndings "pub int f() { switch str (OS.next()) {
    case \"x\", \"b\": { return 1; } case \"a\": {return 2;} default: { return 3; } } return 0;}" 9 =
    some ("return 2: next", "return 1: next; next") := by decide +kernel

-- C37: where, the message, a line break, status 1; the rest does not run
example : demoEndings "pub int f() { panic(\"oops %d\", 3); return 5; }" 5 =
    some ("exit 1: stderr *** panic at %s ***\\n /main.c:1:15; stderr oops %d 3; stderr \\n",
      "exit 1: stderr *** panic at %s ***\\n /main.c:1:15; stderr oops %d 3; stderr \\n") := by
  decide +kernel

-- C37: the hypothesis of `C37_never_returns` holds of the small meaning
example : NoReturn (Demo.sem.eval exitCall) := Demo.exit_stops

-- C38: no memory, memory
example : Demo.ending (do Demo.declareAs "count" (.int 0); Demo.sem.runs 1 (lowers helperBody)) =
    "exit 1: stderr calloc failed" := by decide +kernel
example : Demo.ending (do Demo.declareAs "count" (.int 3); Demo.sem.runs 1 (lowers helperBody)) =
    "return 64: " := by decide +kernel

/-- The hypotheses of `C38_helper` hold of the small meaning. -/
theorem demo_pointer : PointerLocal Demo.sem (Demo.declareAs "x") where
  declare e := rfl
  read := Demo.pointer_read
  not e := by
    funext w
    simp only [CSem.test, Demo.sem, Demo.eval, bind, StateT.bind, Demo.evalIn]
    cases Demo.evalIn w.env e w.mem with
    | error s => rfl
    | ok r =>
      obtain ⟨x, μ⟩ := r
      simp only [Except.bind, pure, Except.pure, StateT.pure]
      cases h : Demo.truth x <;> simp [Demo.ofBool] <;> rfl

-- C41: loop, continue, output, nested branches
example : demoEndings "pub int f() { int n = 0; for (int i = 0; i < 4; i++) {
    if (i == 1) {continue;} n = n + i; OS.fprintf(stderr, n); }
    if (n == 5) { return n;} else { return 0; } }" 9 =
    some ("return 5: stderr 0; stderr 2; stderr 5", "return 5: stderr 0; stderr 2; stderr 5") := by
  decide +kernel

/-- C41: `break` in a case of a `switch str` leaves the loop around it. -/
theorem C41_counterexample : demoEndings "pub int f() { int n = 0; while (true) { n++;
    switch str (\"b\") { case \"a\", \"b\": { break; } default: { n = 9; } }
    if (n == 3) { break; } } return n; }" 9 =
    some ("return 3: ", "return 1: ") := by decide +kernel

-- C29: a body covered by the theorem, and its runs
example : (demoFunc "pub int f() { int n = 2; if (n == 1) { panic(\"x\"); } else {
    switch (n) { case 2: { return 4; } default: { while (true) { n++; } } } } }").map
      (fun (_, _, b, _) => firmIn b && bodyReturns b) = some true := by decide +kernel
example : demoEndings "pub int f() { int n = 2; if (n == 1) { panic(\"x\"); } else {
    switch (n) { case 2: { return 4; } default: { while (true) { n++; } } } } }" 3 =
    some ("return 4: ", "return 4: ") := by decide +kernel
example : demoEndings "pub int f() { while (true) { } }" 3 = some ("timeout: ", "timeout: ") := by
  decide +kernel

/-- C29: accepted functions with a result that reach the end of their body: an `if`
without `else`, a `while` that does not run, a `while (true)` with a `break`, and a
pointer to a pointer to void. -/
theorem C29_counterexample :
    demoEndings "pub int f() { int n = 0; if (n == 1) { return 1; } }" 9 = some ("end: ", "end: ") ∧
    demoEndings "pub int f() { int n = 0; while (n < 0) { return 1; } }" 9 = some ("end: ", "end: ") ∧
    demoEndings "pub int f() { while (true) { break; } }" 9 = some ("end: ", "end: ") ∧
    demoEndings "pub void **f() { }" 9 = some ("end: ", "end: ") := by decide +kernel

end Examples

end Che.Props
