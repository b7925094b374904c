import Verif.Proofs.ParseExpr
/-!
# Declarations, statements and modules: progress, budget and crashes
-/
namespace Che

variable {α β : Type} {ts0 ts : List Token} {k K K1 : Nat} {T T1 : Prop}

theorem J.bind_pure {a : α} {f1 f2 : α → P β} (h : J ts0 K T (f1 a ts) (f2 a ts)) :
    J ts0 K T (((Pure.pure a : P α) >>= f1) ts) (((Pure.pure a : P α) >>= f2) ts) := h

/-- A loop with its own budget. -/
theorem J.loop {A : Type} {F : Nat → A → List Token → PR α} {c : Nat} (hc : 0 < c)
    (h0 : ∀ a ts, F 0 a ts = .diverge)
    (step : ∀ m n, (∀ a ts, 40 * ts.length + c ≤ n → J ts K T (F m a ts) (F n a ts)) →
      ∀ a ts, 40 * ts.length + c ≤ n + 1 → J ts K T (F (m + 1) a ts) (F (n + 1) a ts)) :
    ∀ m n a ts, 40 * ts.length + c ≤ n → J ts K T (F m a ts) (F n a ts) := by
  have diag : ∀ n a ts, 40 * ts.length + c ≤ n → J ts K T (F n a ts) (F n a ts) := by
    intro n
    induction n with
    | zero => intro a ts h; omega
    | succ n ih => exact step n n ih
  intro m
  induction m with
  | zero => intro n a ts h; rw [h0]; exact (diag n a ts h).zero
  | succ m ih =>
    intro n
    cases n with
    | zero => intro a ts h; omega
    | succ n => exact step m n (ih n)

theorem expr_J (ctx : ParseCtx) (m : Nat) {n : Nat} (hn : 40 * ts.length + 31 ≤ n) :
    J ts 1 True (parseExpr m ctx 0 ts) (parseExpr n ctx 0 ts) := parseExpr_J ctx (by omega) hn

theorem enumLoop_J (ctx : ParseCtx) : ∀ m n es ts, 40 * ts.length + 1 ≤ n →
    J ts 1 T (enumLoop ctx m es ts) (enumLoop ctx n es ts) := by
  refine J.loop (F := fun n es ts => enumLoop ctx n es ts) (by omega) (fun _ _ => rfl) ?_
  intro m n ih es ts hn
  unfold enumLoop
  refine J.bind_expect (Left.refl _) fun t ts' h _ _ => ?_
  have fin : ∀ (es : List EnumEntry) k ts', 1 ≤ k → Left ts k ts' →
      J ts 1 T ((P.eat "," >>= fun b => if (!b) = true then pure es else P.follows "}" >>= fun c =>
          if c = true then pure es else enumLoop ctx m es) ts')
        ((P.eat "," >>= fun b => if (!b) = true then pure es else P.follows "}" >>= fun c =>
          if c = true then pure es else enumLoop ctx n es) ts') := by
    intro es k ts' hk h
    refine J.bind_eat h (J.pure h hk) fun ts' h => ?_
    refine J.bind_follows ?_ fun t rest e _ => ?_
    · have := h.length
      exact (ih es ts' (by omega)).tail h (by omega) id
    · subst e; exact J.pure h (by omega)
  refine J.bind_eat h ?_ fun ts' h => ?_
  · exact fin _ _ _ (by omega) h
  · have := h.length
    exact J.bind h (expr_J ctx m (by omega)) (fun _ => trivial) fun e ts' h => fin _ _ _ (by omega) h

theorem parseEnum_J (ctx : ParseCtx) {m n : Nat} {p : Bool} (hn : 40 * ts.length + 1 ≤ n) :
    J ts 1 T (parseEnum m ctx p ts) (parseEnum n ctx p ts) := by
  unfold parseEnum
  refine J.bind_peekU (by decide) fun t rest e => ?_
  subst e
  refine J.bind_expect (Left.refl _) fun t ts' h _ _ => ?_
  refine J.bind_expect h fun t ts' h _ _ => ?_
  have := h.length
  refine J.bind h (enumLoop_J (T := T) ctx m n _ _ (by omega)) id fun e ts' h => ?_
  refine J.bind_expect h fun t ts' h _ _ => ?_
  exact J.bind_eat h (J.pure h (by omega)) fun ts' h => J.pure h (by omega)

theorem formLoop_J (ctx : ParseCtx) : ∀ m n f ts, 40 * ts.length + 1 ≤ n →
    J ts 0 T (formLoop ctx m f ts) (formLoop ctx n f ts) := by
  refine J.loop (F := fun n f ts => formLoop ctx n f ts) (by omega) (fun _ _ => rfl) ?_
  intro m n ih f ts hn
  unfold formLoop
  refine J.bind_eat (Left.refl _) (J.pure (Left.refl _) (by omega)) fun ts' h => ?_
  refine J.bind_peek ?_
  have fin : ∀ (f : Form) k ts', Left ts k ts' → 1 ≤ k →
      J ts 0 T ((expect ctx "]" >>= fun _ => formLoop ctx m f) ts')
        ((expect ctx "]" >>= fun _ => formLoop ctx n f) ts') := by
    intro f k ts' h hk
    refine J.bind_expect h fun t ts' h _ _ => ?_
    have := h.length
    exact (ih f ts' (by omega)).tail h (by omega) id
  have := h.length
  cases ts' with
  | nil => exact fin { f with indexes := f.indexes ++ [none] } _ _ h (by omega)
  | cons t rest =>
    simp only [List.head?_cons]
    split
    · exact J.bind h (expr_J ctx m (by omega)) (fun _ => trivial) fun e ts' h => fin _ _ _ h (by omega)
    · exact fin { f with indexes := f.indexes ++ [none] } _ _ h (by omega)

theorem parseForm_J (ctx : ParseCtx) (m : Nat) {n : Nat} (hn : 40 * ts.length + 1 ≤ n) :
    J ts 1 T (parseForm m ctx ts) (parseForm n ctx ts) := by
  unfold parseForm
  refine J.bind_peekU (by decide) fun t rest e => ?_
  subst e
  refine J.bind_same (Left.refl _) (fun _ => eatStars_J _) fun a ts' h => ?_
  refine J.bind_expect h fun t ts' h _ _ => ?_
  split
  · exact J.err h
  · have := h.length
    exact (formLoop_J (T := T) ctx m n _ ts' (by omega)).tail h (by omega) id

theorem parseVarDecl_J (ctx : ParseCtx) (m : Nat) {n : Nat} (hn : 40 * ts.length + 1 ≤ n) :
    J ts 1 T (parseVarDecl m ctx ts) (parseVarDecl n ctx ts) := by
  unfold parseVarDecl
  refine J.bind_peekU (by decide) fun t rest e => ?_
  subst e
  refine J.bind_same (Left.refl _) (fun _ => parseTypename_J ctx _) fun a ts' h => ?_
  have := h.length
  refine J.bind h (parseForm_J (T := T) ctx m (by omega)) id fun a ts' h => ?_
  refine J.bind_eat h ?_ fun ts' h => ?_
  · exact J.bind_expect h fun t ts' h _ _ => J.pure h (by omega)
  · have := h.length
    refine J.bind h (expr_J ctx m (by omega)) (fun _ => trivial) fun e ts' h => ?_
    exact J.bind_expect h fun t ts' h _ _ => J.pure h (by omega)

theorem parseReturn_J (ctx : ParseCtx) (m : Nat) {n : Nat} (hn : 40 * ts.length + 1 ≤ n) :
    J ts 1 T (parseReturn m ctx ts) (parseReturn n ctx ts) := by
  unfold parseReturn
  refine J.bind_expect (Left.refl _) fun t ts' h _ _ => ?_
  refine J.bind_peekU (by decide) fun t rest e => ?_
  subst e
  have := h.length
  split
  · exact J.bind_get (J.pure h.cons (by omega))
  · refine J.bind h (expr_J ctx m (by omega)) (fun _ => trivial) fun e ts' h => ?_
    exact J.bind_expect h fun t ts' h _ _ => J.pure h (by omega)

theorem parseForInit_J (ctx : ParseCtx) (m : Nat) {n : Nat} (hn : 40 * ts.length + 31 ≤ n) :
    J ts 0 T (parseForInit m ctx ts) (parseForInit n ctx ts) := by
  unfold parseForInit
  refine J.bind_follows ?_ fun t rest e _ => ?_
  · refine J.bind_peekU (by decide) fun t rest e => ?_
    subst e
    split
    · refine J.bind_same (Left.refl _) (fun _ => parseTypename_J ctx _) fun a ts' h => ?_
      have := h.length
      refine J.bind h (parseForm_J (T := T) ctx m (by omega)) id fun a ts' h => ?_
      refine J.bind_expect h fun t ts' h _ _ => ?_
      have := h.length
      exact J.bind h (expr_J ctx m (by omega)) (fun _ => trivial) fun e ts' h => J.pure h (by omega)
    · exact J.bind (Left.refl _) (expr_J ctx m (by omega)) (fun _ => trivial) fun e ts' h =>
        J.pure h (by omega)
  · subst e; exact J.pure (Left.refl _) (by omega)

theorem parseOptExpr_J (ctx : ParseCtx) (m : Nat) {n : Nat} (stop : String)
    (hn : 40 * ts.length + 31 ≤ n) :
    J ts 0 T (parseOptExpr m ctx stop ts) (parseOptExpr n ctx stop ts) := by
  unfold parseOptExpr
  refine J.bind_follows ?_ fun t rest e _ => ?_
  · exact J.bind (Left.refl _) (expr_J ctx m (by omega)) (fun _ => trivial) fun e ts' h =>
      J.pure h (by omega)
  · subst e; exact J.pure (Left.refl _) (by omega)

theorem caseValuesLoop_J (ctx : ParseCtx) : ∀ m n vs ts, 40 * ts.length + 1 ≤ n →
    J ts 1 T (caseValuesLoop ctx m vs ts) (caseValuesLoop ctx n vs ts) := by
  refine J.loop (F := fun n vs ts => caseValuesLoop ctx n vs ts) (by omega) (fun _ _ => rfl) ?_
  intro m n ih vs ts hn
  unfold caseValuesLoop
  have fin : ∀ (vs : List CaseValue) k ts', 1 ≤ k → Left ts k ts' →
      J ts 1 T ((P.eat "," >>= fun b => if b = true then caseValuesLoop ctx m vs else pure vs) ts')
        ((P.eat "," >>= fun b => if b = true then caseValuesLoop ctx n vs else pure vs) ts') := by
    intro vs k ts' hk h
    refine J.bind_eat h (J.pure h hk) fun ts' h => ?_
    have := h.length
    exact (ih vs ts' (by omega)).tail h (by omega) id
  refine J.bind_follows ?_ fun t rest e _ => ?_
  · exact J.bind_same (Left.refl _) (fun _ => parseLiteral_J _) fun a ts' h => fin _ _ _ (by omega) h
  · subst e
    exact J.bind_same (Left.refl _) (fun _ => readNsId_J ctx _) fun a ts' h => fin _ _ _ (by omega) h

theorem skipToEnd_left (ts : List Token) : Left ts 0 (skipToEnd ts) := by
  induction ts with
  | nil => exact Left.refl _
  | cons t ts ih =>
    unfold skipToEnd
    split
    · exact Left.refl _
    · exact ((Left.refl (t :: ts)).cons.trans ih).weaken (by omega)

theorem recover_left (ts : List Token) : Left ts 0 (recover ts) := by
  unfold recover
  have h := skipToEnd_left ts
  split
  · rename_i t rest e
    rw [e] at h
    split
    · exact h.cons.weaken (by omega)
    · exact h
  · rename_i e; rw [e] at h; exact h

/-- Recovery gets past a token that does not close a block. -/
theorem recover_left_cons {t : Token} {ts : List Token} (ht : t.kind ≠ "}") :
    Left (t :: ts) 1 (recover (t :: ts)) := by
  by_cases hs : t.kind = ";"
  · have : recover (t :: ts) = ts := by simp [recover, skipToEnd, hs]
    rw [this]; exact (Left.refl (t :: ts)).cons.weaken (by omega)
  · have : recover (t :: ts) = recover ts := by simp [recover, skipToEnd, ht, hs]
    rw [this]; exact ((Left.refl (t :: ts)).cons.trans (recover_left ts)).weaken (by omega)

/-- What `read_body` does after a statement. -/
def afterStmt (go : List Stmt → List Error → P (Body × List Error)) (ss : List Stmt) (es : List Error) :
    PR (Stmt × List Error) → PR (Body × List Error)
  | .ok (s, es') ts => go (ss ++ [s]) (es ++ es') ts
  | .err e ts => go ss (es ++ [e]) (recover ts)
  | .panic m => .panic m
  | .diverge => .diverge

theorem bodyLoop_close {ctx : ParseCtx} {n : Nat} {ss : List Stmt} {es : List Error} {t : Token}
    {rest : List Token} (h : t.kind = "}") :
    bodyLoop (n + 1) ctx ss es (t :: rest) = .ok (ss, es) (t :: rest) := by
  unfold bodyLoop
  rw [P.bind_eq]
  simp only [P.follows, h, beq_self_eq_true, if_true]
  rfl

theorem bodyLoop_step {ctx : ParseCtx} {n : Nat} {ss : List Stmt} {es : List Error} {t : Token}
    {rest : List Token} (h : t.kind ≠ "}") :
    bodyLoop (n + 1) ctx ss es (t :: rest) =
      afterStmt (bodyLoop n ctx) ss es (parseStatement n ctx (t :: rest)) := by
  have hb : (t.kind == "}") = false := by simpa using h
  rw [bodyLoop, P.bind_eq]
  simp only [P.follows, hb]
  show (match parseStatement n ctx (t :: rest) with
    | .ok (s, es') ts' => bodyLoop n ctx (ss ++ [s]) (es ++ es') ts'
    | .err e ts' => bodyLoop n ctx ss (es ++ [e]) (recover ts')
    | .panic m => .panic m
    | .diverge => .diverge) = _
  cases parseStatement n ctx (t :: rest) <;> rfl

/-- At the end of the tokens `read_body` never ends. -/
theorem bodyLoop_nil (ctx : ParseCtx) (n : Nat) : ∀ ss es, bodyLoop n ctx ss es [] = .diverge := by
  induction n with
  | zero => intro ss es; rfl
  | succ n ih =>
    intro ss es
    rw [bodyLoop, P.bind_eq]
    simp only [P.follows]
    show (match parseStatement n ctx [] with
      | .ok (s, es') ts' => bodyLoop n ctx (ss ++ [s]) (es ++ es') ts'
      | .err e ts' => bodyLoop n ctx ss (es ++ [e]) (recover ts')
      | .panic m => .panic m
      | .diverge => .diverge) = _
    cases n with
    | zero => rfl
    | succ n =>
      have : parseStatement (n + 1) ctx [] =
          .err ⟨"reached end of file while parsing statement", ctx.eof⟩ [] := rfl
      rw [this]
      exact ih _ _

/-- Everything about the statement parser with budgets `m` and `n`. -/
structure StmtJ (ctx : ParseCtx) (m n : Nat) : Prop where
  stmt : ∀ ts, 40 * ts.length + 32 ≤ n →
    J ts 1 False (parseStatement m ctx ts) (parseStatement n ctx ts)
  whileS : ∀ ts, 40 * ts.length + 1 ≤ n → J ts 1 False (parseWhile m ctx ts) (parseWhile n ctx ts)
  ifS : ∀ ts, 40 * ts.length + 1 ≤ n → J ts 1 False (parseIf m ctx ts) (parseIf n ctx ts)
  forS : ∀ ts, 40 * ts.length + 1 ≤ n → J ts 1 False (parseFor m ctx ts) (parseFor n ctx ts)
  switchS : ∀ ts, 40 * ts.length + 1 ≤ n →
    J ts 1 False (parseSwitch m ctx ts) (parseSwitch n ctx ts)
  cases : ∀ cs es ts, 40 * ts.length + 2 ≤ n →
    J ts 0 False (casesLoop m ctx cs es ts) (casesLoop n ctx cs es ts)
  case1 : ∀ ts, 40 * ts.length + 1 ≤ n → J ts 1 False (parseCase m ctx ts) (parseCase n ctx ts)
  block : ∀ ts, 40 * ts.length + 33 ≤ n →
    J ts 1 False (parseBlock m ctx ts) (parseBlock n ctx ts)
  body : ∀ ts, 40 * ts.length + 1 ≤ n → J ts 1 False (readBody m ctx ts) (readBody n ctx ts)
  bodyLoop : ∀ ss es ts, 40 * ts.length + 33 ≤ n →
    J ts 0 False (bodyLoop m ctx ss es ts) (bodyLoop n ctx ss es ts)

theorem StmtJ.step {ctx : ParseCtx} {m n : Nat} (ih : StmtJ ctx m n) : StmtJ ctx (m + 1) (n + 1) where
  stmt := by
    intro ts hn
    unfold parseStatement
    refine J.bind_more ?_
    cases ts with
    | nil => exact J.err (Left.refl _)
    | cons t rest =>
      simp only [List.isEmpty_cons, Bool.not_false, Bool.not_true, Bool.false_eq_true, if_false]
      show J _ _ _ ((if _ then _ else _ : P (Stmt × List Error)) (t :: rest))
        ((if _ then _ else _ : P (Stmt × List Error)) (t :: rest))
      split
      · exact J.bind (Left.refl _) (parseVarDecl_J (T := False) ctx m (by omega)) id fun a ts' h =>
          J.pure h (by omega)
      refine J.bind_peekU (by decide) fun t' rest' e => ?_
      cases e
      have hg := (Left.refl (t :: rest)).cons
      by_cases h1 : t.kind = "break"
      · simp only [h1]
        exact J.bind_getU (J.bind_expect hg fun t ts' h _ _ => J.pure h (by omega))
      by_cases h2 : t.kind = "continue"
      · simp only [h2]
        exact J.bind_getU (J.bind_expect hg fun t ts' h _ _ => J.pure h (by omega))
      by_cases h3 : t.kind = "for"
      · simp only [h3]; exact ih.forS _ (by omega)
      by_cases h4 : t.kind = "if"
      · simp only [h4]; exact ih.ifS _ (by omega)
      by_cases h5 : t.kind = "return"
      · simp only [h5]
        exact J.bind (Left.refl _) (parseReturn_J (T := False) ctx m (by omega)) id fun a ts' h =>
          J.pure h (by omega)
      by_cases h6 : t.kind = "switch"
      · simp only [h6]; exact ih.switchS _ (by omega)
      by_cases h7 : t.kind = "while"
      · simp only [h7]; exact ih.whileS _ (by omega)
      simp only
      exact J.bind (Left.refl _) (expr_J ctx m (by omega)) (fun _ => trivial) fun e ts' h =>
        J.bind_expect h fun t ts' h _ _ => J.pure h (by omega)
  whileS := by
    intro ts hn
    unfold parseWhile
    refine J.bind_expect (Left.refl _) fun t ts' h _ _ => ?_
    refine J.bind_expect h fun t ts' h _ _ => ?_
    have := h.length
    refine J.bind h (expr_J ctx m (by omega)) (fun _ => trivial) fun e ts' h => ?_
    refine J.bind_expect h fun t ts' h _ _ => ?_
    have := h.length
    exact J.bind h (ih.block _ (by omega)) id fun e ts' h => J.pure h (by omega)
  ifS := by
    intro ts hn
    unfold parseIf
    refine J.bind_expect (Left.refl _) fun t ts' h _ _ => ?_
    refine J.bind_expect h fun t ts' h _ _ => ?_
    have := h.length
    refine J.bind h (expr_J ctx m (by omega)) (fun _ => trivial) fun e ts' h => ?_
    refine J.bind_expect h fun t ts' h _ _ => ?_
    have := h.length
    refine J.bind h (ih.block _ (by omega)) id fun e ts' h => ?_
    refine J.bind_eat h (J.pure h (by omega)) fun ts' h => ?_
    have := h.length
    exact J.bind h (ih.block _ (by omega)) id fun e ts' h => J.pure h (by omega)
  forS := by
    intro ts hn
    unfold parseFor
    refine J.bind_expect (Left.refl _) fun t ts' h _ _ => ?_
    refine J.bind_expect h fun t ts' h _ _ => ?_
    have := h.length
    refine J.bind h (parseForInit_J (T := False) ctx m (by omega)) id fun e ts' h => ?_
    refine J.bind_expect h fun t ts' h _ _ => ?_
    have := h.length
    refine J.bind h (parseOptExpr_J (T := False) ctx m _ (by omega)) id fun e ts' h => ?_
    refine J.bind_expect h fun t ts' h _ _ => ?_
    have := h.length
    refine J.bind h (parseOptExpr_J (T := False) ctx m _ (by omega)) id fun e ts' h => ?_
    refine J.bind_expect h fun t ts' h _ _ => ?_
    have := h.length
    exact J.bind h (ih.block _ (by omega)) id fun e ts' h => J.pure h (by omega)
  switchS := by
    intro ts hn
    unfold parseSwitch
    refine J.bind_expect (Left.refl _) fun t ts' h _ _ => ?_
    refine J.bind_peek ?_
    have fin : ∀ (isStr : Bool) k ts', 1 ≤ k → Left ts k ts' → ∀ F G : P (Stmt × List Error),
        F = (do
          let _ ← expect ctx "("
          let value ← parseExpr m ctx 0
          let _ ← expect ctx ")"
          let _ ← expect ctx "{"
          let (cases, errs) ← casesLoop m ctx [] []
          let (dflt, errs) ←
            if ← P.follows "default" then do
              let _ ← expect ctx "default"
              let _ ← expect ctx ":"
              let (b, errs2) ← readBody m ctx
              pure (some b, errs ++ errs2)
            else pure (none, errs)
          let _ ← expect ctx "}"
          pure (.switchS isStr value cases dflt, errs)) →
        G = (do
          let _ ← expect ctx "("
          let value ← parseExpr n ctx 0
          let _ ← expect ctx ")"
          let _ ← expect ctx "{"
          let (cases, errs) ← casesLoop n ctx [] []
          let (dflt, errs) ←
            if ← P.follows "default" then do
              let _ ← expect ctx "default"
              let _ ← expect ctx ":"
              let (b, errs2) ← readBody n ctx
              pure (some b, errs ++ errs2)
            else pure (none, errs)
          let _ ← expect ctx "}"
          pure (.switchS isStr value cases dflt, errs)) →
        J ts 1 False (F ts') (G ts') := by
      intro isStr k ts' hk h F G hF hG
      subst hF hG
      refine J.bind_expect h fun t ts' h _ _ => ?_
      have := h.length
      refine J.bind h (expr_J ctx m (by omega)) (fun _ => trivial) fun e ts' h => ?_
      refine J.bind_expect h fun t ts' h _ _ => ?_
      refine J.bind_expect h fun t ts' h _ _ => ?_
      have := h.length
      refine J.bind h (ih.cases _ _ _ (by omega)) id fun r ts' h => ?_
      refine J.bind_follows ?_ fun t rest e _ => ?_
      · exact J.bind_expect h fun t ts' h _ _ => J.pure h (by omega)
      · subst e
        refine J.bind_expect h fun t ts' h _ _ => ?_
        refine J.bind_expect h fun t ts' h _ _ => ?_
        have := h.length
        refine J.bind h (ih.body _ (by omega)) id fun r ts' h => ?_
        exact J.bind_expect h fun t ts' h _ _ => J.pure h (by omega)
    cases ts' with
    | nil => exact fin false _ _ (by omega) h _ _ rfl rfl
    | cons t rest =>
      simp only [List.head?_cons]
      by_cases hs : t.kind = "word" ∧ t.content = "str"
      · simp only [hs]
        exact fin true _ _ (by omega) h.cons _ _ rfl rfl
      · simp only [if_neg hs]
        exact fin false _ _ (by omega) h _ _ rfl rfl
  cases := by
    intro cs es ts hn
    unfold casesLoop
    refine J.bind_follows (J.pure (Left.refl _) (by omega)) fun t rest e _ => ?_
    subst e
    refine J.bind (Left.refl _) (ih.case1 _ (by omega)) id fun r ts' h => ?_
    have := h.length
    exact (ih.cases _ _ _ (by omega)).tail h (by omega) id
  case1 := by
    intro ts hn
    unfold parseCase
    refine J.bind_expect (Left.refl _) fun t ts' h _ _ => ?_
    have := h.length
    refine J.bind h (caseValuesLoop_J (T := False) ctx m n _ _ (by omega)) id fun r ts' h => ?_
    refine J.bind_expect h fun t ts' h _ _ => ?_
    have := h.length
    exact J.bind h (ih.body _ (by omega)) id fun r ts' h => J.pure h (by omega)
  block := by
    intro ts hn
    unfold parseBlock
    refine J.bind_follows ?_ fun t rest e _ => ?_
    · exact J.bind (Left.refl _) (ih.stmt _ (by omega)) id fun r ts' h => J.pure h (by omega)
    · subst e; exact ih.body _ (by omega)
  body := by
    intro ts hn
    unfold readBody
    refine J.bind_expect (Left.refl _) fun t ts' h _ _ => ?_
    have := h.length
    refine J.bind h (ih.bodyLoop _ _ _ (by omega)) id fun r ts' h => ?_
    exact J.bind_expect h fun t ts' h _ _ => J.pure h (by omega)
  bodyLoop := by
    intro ss es ts hn
    cases ts with
    | nil =>
      rw [bodyLoop_nil, bodyLoop_nil]
      exact ⟨trivial, trivial, fun _ => rfl, False.elim, fun m h => by cases h⟩
    | cons t rest =>
      by_cases hk : t.kind = "}"
      · rw [bodyLoop_close hk, bodyLoop_close hk]
        exact J.pure (Left.refl _) (by omega)
      · rw [bodyLoop_step hk, bodyLoop_step hk]
        obtain ⟨hl, hr, hs, _, hp⟩ := ih.stmt (t :: rest) (by omega)
        have cont : ∀ r : PR (Stmt × List Error), Rest (t :: rest) 1 r → r ≠ .diverge →
            (∀ m, r = .panic m → Bad (t :: rest) m) →
            J (t :: rest) 0 False (afterStmt (Che.bodyLoop m ctx) ss es r)
              (afterStmt (Che.bodyLoop n ctx) ss es r) := by
          intro r hr hne hp
          cases r with
          | ok a ts' =>
            have := Left.length hr
            exact (ih.bodyLoop _ _ ts' (by omega)).tail hr (by omega) id
          | err e ts' =>
            have h : Left (t :: rest) 1 (recover ts') := by
              obtain ⟨c, e', _⟩ := hr
              cases c with
              | nil => rw [List.nil_append] at e'; rw [← e']; exact recover_left_cons hk
              | cons x c =>
                exact (Left.trans (k := 1) ⟨x :: c, e', by simp⟩ (recover_left ts')).weaken (by omega)
            have := h.length
            exact (ih.bodyLoop _ _ _ (by omega)).tail h (by omega) id
          | panic s =>
            exact ⟨trivial, trivial, fun _ => rfl, False.elim,
              fun m h => by cases h; exact hp _ rfl⟩
          | diverge => exact absurd rfl hne
        by_cases hd : parseStatement m ctx (t :: rest) = .diverge
        · rw [hd]
          by_cases hd2 : parseStatement n ctx (t :: rest) = .diverge
          · rw [hd2]; exact ⟨trivial, trivial, fun _ => rfl, False.elim, fun m h => by cases h⟩
          · have := cont _ hr hd2 hp
            exact ⟨trivial, this.right, fun h => absurd rfl h, False.elim, this.reason⟩
        · have e := hs hd
          rw [e]
          exact cont _ hl hd (e ▸ hp)

theorem StmtJ.diag (ctx : ParseCtx) : ∀ n, StmtJ ctx n n
  | 0 => by constructor <;> intros <;> omega
  | n + 1 => (StmtJ.diag ctx n).step

theorem StmtJ.all (ctx : ParseCtx) : ∀ m n, StmtJ ctx m n
  | 0, n => by
    have h := StmtJ.diag ctx n
    constructor <;> intros
    · rw [parseStatement]; exact (h.stmt _ (by assumption)).zero
    · rw [parseWhile]; exact (h.whileS _ (by assumption)).zero
    · rw [parseIf]; exact (h.ifS _ (by assumption)).zero
    · rw [parseFor]; exact (h.forS _ (by assumption)).zero
    · rw [parseSwitch]; exact (h.switchS _ (by assumption)).zero
    · rw [casesLoop]; exact (h.cases _ _ _ (by assumption)).zero
    · rw [parseCase]; exact (h.case1 _ (by assumption)).zero
    · rw [parseBlock]; exact (h.block _ (by assumption)).zero
    · rw [readBody]; exact (h.body _ (by assumption)).zero
    · rw [Che.bodyLoop]; exact (h.bodyLoop _ _ _ (by assumption)).zero
  | m + 1, 0 => by constructor <;> intros <;> omega
  | m + 1, n + 1 => (StmtJ.all ctx m n).step

/-! ## Module objects -/

theorem typeFollows_J (ctx : ParseCtx) (ts : List Token) :
    J ts 0 T (typeFollows ctx ts) (typeFollows ctx ts) :=
  .same (Left.refl _) (by intro h; cases h) (by intro m h; cases h)

theorem J.bind_typeFollows {ctx : ParseCtx} {f1 f2 : Bool → P β}
    (h : J ts0 K T (f1 (typeFollowsL ctx ts) ts) (f2 (typeFollowsL ctx ts) ts)) :
    J ts0 K T ((typeFollows ctx >>= f1) ts) ((typeFollows ctx >>= f2) ts) := h

theorem paramFormsLoop_J (ctx : ParseCtx) : ∀ m n fs ts, 40 * ts.length + 1 ≤ n →
    J ts 0 T (paramFormsLoop ctx m fs ts) (paramFormsLoop ctx n fs ts) := by
  refine J.loop (F := fun n fs ts => paramFormsLoop ctx n fs ts) (by omega) (fun _ _ => rfl) ?_
  intro m n ih fs ts hn
  unfold paramFormsLoop
  refine J.bind_follows (J.pure (Left.refl _) (by omega)) fun t rest e _ => ?_
  subst e
  refine J.bind_getU ?_
  have h := (Left.refl (t :: rest)).cons
  have := h.length
  have go : J (t :: rest) 0 T
      ((parseForm m ctx >>= fun f => paramFormsLoop ctx m (fs ++ [f])) rest)
      ((parseForm n ctx >>= fun f => paramFormsLoop ctx n (fs ++ [f])) rest) := by
    refine J.bind h (parseForm_J (T := T) ctx m (by omega)) id fun f ts' h => ?_
    have := h.length
    exact (ih _ ts' (by omega)).tail h (by omega) id
  have stop : J (t :: rest) 0 T ((P.unget t >>= fun _ => (pure fs : P (List Form))) rest)
      ((P.unget t >>= fun _ => (pure fs : P (List Form))) rest) :=
    J.bind_unget (J.pure (Left.refl _) (by omega))
  refine J.bind_typeFollows ?_
  refine J.bind_follows ?_ fun t' rest' e _ => ?_
  · split
    · exact stop
    · exact go
  · cases e
    split
    · exact stop
    · exact go

theorem parseFuncParam_J (ctx : ParseCtx) (m : Nat) {n : Nat} (hn : 40 * ts.length + 1 ≤ n) :
    J ts 1 T (parseFuncParam m ctx ts) (parseFuncParam n ctx ts) := by
  unfold parseFuncParam
  refine J.bind_same (Left.refl _) (fun _ => parseTypename_J ctx _) fun a ts' h => ?_
  have := h.length
  refine J.bind h (parseForm_J (T := T) ctx m (by omega)) id fun a ts' h => ?_
  have := h.length
  exact J.bind h (paramFormsLoop_J (T := T) ctx m n _ _ (by omega)) id fun a ts' h =>
    J.pure h (by omega)

theorem paramsLoop_J (ctx : ParseCtx) : ∀ m n ps ts, 40 * ts.length + 2 ≤ n →
    J ts 0 T (paramsLoop ctx m ps ts) (paramsLoop ctx n ps ts) := by
  refine J.loop (F := fun n ps ts => paramsLoop ctx n ps ts) (by omega) (fun _ _ => rfl) ?_
  intro m n ih ps ts hn
  unfold paramsLoop
  refine J.bind_same (Left.refl _) (fun _ => typeFollows_J ctx ts) fun b ts' h => ?_
  have := h.length
  split
  · refine J.bind h (parseFuncParam_J (T := T) ctx m (by omega)) id fun a ts' h => ?_
    refine J.bind_eat h (J.pure h (by omega)) fun ts' h => ?_
    have := h.length
    exact (ih _ ts' (by omega)).tail h (by omega) id
  · exact J.pure h (by omega)

theorem parseFuncDecl_J (ctx : ParseCtx) (m : Nat) {n : Nat} {p : Bool} {ty : Typename} {f : Form}
    {pos : Pos} (hn : 40 * ts.length + 1 ≤ n) :
    J ts 1 False (parseFuncDecl m ctx p ty f pos ts) (parseFuncDecl n ctx p ty f pos ts) := by
  unfold parseFuncDecl
  refine J.bind_expect (Left.refl _) fun t ts' h _ _ => ?_
  have := h.length
  refine J.bind h (paramsLoop_J (T := False) ctx m n _ _ (by omega)) id fun a ts' h => ?_
  have fin : ∀ (v : Bool) k ts', 1 ≤ k → Left ts k ts' → ∀ F G : P (ModElem × List Error),
      F = (do
        let _ ← expect ctx ")" (some "parse_function_declaration")
        let (body, errs) ← parseBlock m ctx
        pure (.funcDecl ⟨pos, p, ty, f, ⟨a, v⟩, body⟩, errs)) →
      G = (do
        let _ ← expect ctx ")" (some "parse_function_declaration")
        let (body, errs) ← parseBlock n ctx
        pure (.funcDecl ⟨pos, p, ty, f, ⟨a, v⟩, body⟩, errs)) →
      J ts 1 False (F ts') (G ts') := by
    intro v k ts' hk h F G hF hG
    subst hF hG
    refine J.bind_expect h fun t ts' h _ _ => ?_
    have := h.length
    exact J.bind h ((StmtJ.all ctx m n).block _ (by omega)) id fun r ts' h => J.pure h (by omega)
  exact J.bind_eat h (fin _ _ _ (by omega) h _ _ rfl rfl) fun ts' h => fin _ _ _ (by omega) h _ _ rfl rfl

theorem unionLoop_J (ctx : ParseCtx) : ∀ m n fs ts, 40 * ts.length + 1 ≤ n →
    J ts 0 T (unionLoop ctx m fs ts) (unionLoop ctx n fs ts) := by
  refine J.loop (F := fun n fs ts => unionLoop ctx n fs ts) (by omega) (fun _ _ => rfl) ?_
  intro m n ih fs ts hn
  unfold unionLoop
  refine J.bind_follows ?_ fun t rest e _ => ?_
  · refine J.bind_same (Left.refl _) (fun _ => parseTypename_J ctx _) fun a ts' h => ?_
    have := h.length
    refine J.bind h (parseForm_J (T := T) ctx m (by omega)) id fun a ts' h => ?_
    refine J.bind_expect h fun t ts' h _ _ => ?_
    have := h.length
    exact (ih _ ts' (by omega)).tail h (by omega) id
  · subst e; exact J.pure (Left.refl _) (by omega)

theorem parseUnion_J (ctx : ParseCtx) (m : Nat) {n : Nat} (hn : 40 * ts.length + 1 ≤ n) :
    J ts 1 T (parseUnion m ctx ts) (parseUnion n ctx ts) := by
  unfold parseUnion
  refine J.bind_expect (Left.refl _) fun t ts' h _ _ => ?_
  refine J.bind_expect h fun t ts' h _ _ => ?_
  have := h.length
  refine J.bind h (unionLoop_J (T := T) ctx m n _ _ (by omega)) id fun a ts' h => ?_
  refine J.bind_expect h fun t ts' h _ _ => ?_
  have := h.length
  refine J.bind h (parseForm_J (T := T) ctx m (by omega)) id fun a ts' h => ?_
  exact J.bind_expect h fun t ts' h _ _ => J.pure h (by omega)

theorem formsLoop_J (ctx : ParseCtx) : ∀ m n fs ts, 40 * ts.length + 1 ≤ n →
    J ts 0 T (formsLoop ctx m fs ts) (formsLoop ctx n fs ts) := by
  refine J.loop (F := fun n fs ts => formsLoop ctx n fs ts) (by omega) (fun _ _ => rfl) ?_
  intro m n ih fs ts hn
  unfold formsLoop
  refine J.bind_eat (Left.refl _) (J.pure (Left.refl _) (by omega)) fun ts' h => ?_
  have := h.length
  refine J.bind h (parseForm_J (T := T) ctx m (by omega)) id fun a ts' h => ?_
  have := h.length
  exact (ih _ ts' (by omega)).tail h (by omega) id

theorem parseTypeAndForms_J (ctx : ParseCtx) (m : Nat) {n : Nat} (hn : 40 * ts.length + 1 ≤ n) :
    J ts 1 T (parseTypeAndForms m ctx ts) (parseTypeAndForms n ctx ts) := by
  unfold parseTypeAndForms
  refine J.bind_follows ?_ fun t rest e _ => ?_
  · refine J.bind_same (Left.refl _) (fun _ => parseTypename_J ctx _) fun a ts' h => ?_
    have := h.length
    refine J.bind h (parseForm_J (T := T) ctx m (by omega)) id fun a ts' h => ?_
    have := h.length
    refine J.bind h (formsLoop_J (T := T) ctx m n _ _ (by omega)) id fun a ts' h => ?_
    exact J.bind_expect h fun t ts' h _ _ => J.pure h (by omega)
  · subst e
    exact J.bind_peekU (by decide) fun t' rest' e => by cases e; exact J.err (Left.refl _)

theorem structLoop_J (ctx : ParseCtx) : ∀ m n fs ts, 40 * ts.length + 2 ≤ n →
    J ts 0 T (structLoop ctx m fs ts) (structLoop ctx n fs ts) := by
  refine J.loop (F := fun n fs ts => structLoop ctx n fs ts) (by omega) (fun _ _ => rfl) ?_
  intro m n ih fs ts hn
  unfold structLoop
  refine J.bind_peek ?_
  cases ts with
  | nil => exact J.pure (Left.refl _) (by omega)
  | cons t rest =>
    simp only [List.head?_cons]
    by_cases h1 : t.kind = "}"
    · simp only [h1]; exact J.pure (Left.refl _) (by omega)
    by_cases h2 : t.kind = "union"
    · simp only [h2]
      refine J.bind (Left.refl _) (parseUnion_J (T := T) ctx m (by omega)) id fun a ts' h => ?_
      have := h.length
      exact (ih _ ts' (by omega)).tail h (by omega) id
    simp only
    refine J.bind (Left.refl _) (parseTypeAndForms_J (T := T) ctx m (by omega)) id fun a ts' h => ?_
    have := h.length
    exact (ih _ ts' (by omega)).tail h (by omega) id

theorem anonParamsLoop_J (ctx : ParseCtx) : ∀ m n ps ts, 40 * ts.length + 1 ≤ n →
    J ts 0 T (anonParamsLoop ctx m ps ts) (anonParamsLoop ctx n ps ts) := by
  refine J.loop (F := fun n ps ts => anonParamsLoop ctx n ps ts) (by omega) (fun _ _ => rfl) ?_
  intro m n ih ps ts hn
  unfold anonParamsLoop
  refine J.bind_eat (Left.refl _) (J.pure (Left.refl _) (by omega)) fun ts' h => ?_
  refine J.bind_eat h ?_ fun ts' h => J.pure h (by omega)
  refine J.bind_same h (fun _ => parseBareTypeform_J ctx _) fun a ts' h => ?_
  have := h.length
  exact (ih _ ts' (by omega)).tail h (by omega) id

theorem parseAnonParams_J (ctx : ParseCtx) (m : Nat) {n : Nat} (hn : 40 * ts.length + 1 ≤ n) :
    J ts 1 T (parseAnonParams m ctx ts) (parseAnonParams n ctx ts) := by
  unfold parseAnonParams
  refine J.bind_expect (Left.refl _) fun t ts' h _ _ => ?_
  refine J.bind_follows ?_ fun t rest e _ => ?_
  · refine J.bind_same h (fun _ => parseBareTypeform_J ctx _) fun a ts' h => ?_
    have := h.length
    refine J.bind h (anonParamsLoop_J (T := T) ctx m n _ _ (by omega)) id fun a ts' h => ?_
    exact J.bind_expect h fun t ts' h _ _ => J.pure h (by omega)
  · subst e
    exact J.bind_expect h fun t ts' h _ _ => J.pure h (by omega)

theorem parseTypedefSize_J (ctx : ParseCtx) (ts : List Token) :
    J ts 0 T (parseTypedefSize ctx ts) (parseTypedefSize ctx ts) := by
  unfold parseTypedefSize
  refine J.bind_eat (Left.refl _) (J.pure (Left.refl _) (by omega)) fun ts' h => ?_
  have h1 := h
  refine J.bind_expect h fun t ts' h hk hm => ?_
  cases hs : parseUsize t.content with
  | none => exact J.panic (.size (h1.mem hm) hk hs)
  | some n => exact J.bind_expect h fun t ts' h _ _ => J.pure h (by omega)

theorem parseTypedef_J (ctx : ParseCtx) (m : Nat) {n : Nat} {p : Bool} (hn : 40 * ts.length + 1 ≤ n) :
    J ts 1 T (parseTypedef m ctx p ts) (parseTypedef n ctx p ts) := by
  unfold parseTypedef
  refine J.bind_expect (Left.refl _) fun t ts' h _ _ => ?_
  have := h.length
  refine J.bind_follows ?_ fun t rest e _ => ?_
  · refine J.bind_eat h ?_ fun ts' h => ?_
    · refine J.bind_same h (fun _ => parseTypename_J ctx _) fun ty ts' h => ?_
      refine J.bind_same h (fun _ => eatStars_J _) fun stars ts' h => ?_
      refine J.bind_expect h fun tok ts' h _ _ => ?_
      have := h.length
      refine J.bind_follows ?_ fun t rest e _ => ?_
      · refine J.bind_pure ?_
        refine J.bind_same h (fun _ => parseTypedefSize_J ctx _) fun size ts' h => ?_
        exact J.bind_expect h fun t ts' h _ _ => J.pure h (by omega)
      · subst e
        refine J.bind h (parseAnonParams_J (T := T) ctx m (by omega)) id fun a ts' h => ?_
        refine J.bind_pure ?_
        refine J.bind_same h (fun _ => parseTypedefSize_J ctx _) fun size ts' h => ?_
        exact J.bind_expect h fun t ts' h _ _ => J.pure h (by omega)
    · refine J.bind_expect h fun t ts' h _ _ => ?_
      refine J.bind_expect h fun t ts' h _ _ => ?_
      exact J.bind_expect h fun t ts' h _ _ => J.pure h (by omega)
  · subst e
    refine J.bind_expect h fun t ts' h _ _ => ?_
    have := h.length
    refine J.bind h (structLoop_J (T := T) ctx m n _ _ (by omega)) id fun a ts' h => ?_
    refine J.bind_expect h fun t ts' h _ _ => ?_
    refine J.bind_expect h fun t ts' h _ _ => ?_
    exact J.bind_expect h fun t ts' h _ _ => J.pure h (by omega)

theorem parseModuleObject_J (ctx : ParseCtx) (m : Nat) {n : Nat} (hn : 40 * ts.length + 1 ≤ n) :
    J ts 1 False (parseModuleObject m ctx ts) (parseModuleObject n ctx ts) := by
  unfold parseModuleObject
  refine J.bind_peekU (by decide) fun t rest e => ?_
  subst e
  have fin : ∀ (p : Bool) k ts', Left (t :: rest) k ts' → ∀ F G : P (ModElem × List Error),
      F = (do
        if ← P.follows "enum" then
          let e ← parseEnum m ctx p
          pure (e, [])
        else if ← P.follows "typedef" then
          let e ← parseTypedef m ctx p
          pure (e, [])
        else
          let typename ← parseTypename ctx
          let form ← parseForm m ctx
          let next ← P.peekU "parser.rs:165"
          if next.kind = "(" then parseFuncDecl m ctx p typename form t.pos
          else
            let _ ← expect ctx "=" (some "module variable")
            if p then P.err "module variables can't be exported" t.pos
            else
              let value ← parseExpr m ctx 0
              let _ ← expect ctx ";" (some "module variable declaration")
              pure (.modVar { typename := typename, form := form, value := some value, pos := t.pos }, [])) →
      G = (do
        if ← P.follows "enum" then
          let e ← parseEnum n ctx p
          pure (e, [])
        else if ← P.follows "typedef" then
          let e ← parseTypedef n ctx p
          pure (e, [])
        else
          let typename ← parseTypename ctx
          let form ← parseForm n ctx
          let next ← P.peekU "parser.rs:165"
          if next.kind = "(" then parseFuncDecl n ctx p typename form t.pos
          else
            let _ ← expect ctx "=" (some "module variable")
            if p then P.err "module variables can't be exported" t.pos
            else
              let value ← parseExpr n ctx 0
              let _ ← expect ctx ";" (some "module variable declaration")
              pure (.modVar { typename := typename, form := form, value := some value, pos := t.pos }, [])) →
      J (t :: rest) 1 False (F ts') (G ts') := by
    intro p k ts' h F G hF hG
    subst hF hG
    have := h.length
    refine J.bind_follows ?_ fun t' rest' e _ => ?_
    · refine J.bind_follows ?_ fun t' rest' e _ => ?_
      · refine J.bind_same h (fun _ => parseTypename_J ctx _) fun a ts' h => ?_
        have := h.length
        refine J.bind h (parseForm_J (T := False) ctx m (by omega)) id fun a ts' h => ?_
        refine J.bind_peekU (by decide) fun t' rest' e => ?_
        subst e
        have := h.length
        split
        · exact (parseFuncDecl_J ctx m (by omega)).tail h (by omega) id
        · refine J.bind_expect h fun t ts' h _ _ => ?_
          split
          · exact J.err h
          · have := h.length
            refine J.bind h (expr_J ctx m (by omega)) (fun _ => trivial) fun e ts' h => ?_
            exact J.bind_expect h fun t ts' h _ _ => J.pure h (by omega)
      · subst e
        exact J.bind h (parseTypedef_J (T := False) ctx m (by omega)) id fun e ts' h =>
          J.pure h (by omega)
    · subst e
      exact J.bind h (parseEnum_J (T := False) ctx (by omega)) id fun e ts' h => J.pure h (by omega)
  exact J.bind_eat (Left.refl _) (fin _ _ _ (Left.refl _) _ _ rfl rfl) fun ts' h =>
    fin _ _ _ h _ _ rfl rfl

theorem parseCompatMacro_J (ctx : ParseCtx) (ts : List Token) :
    J ts 1 T (parseCompatMacro ctx ts) (parseCompatMacro ctx ts) := by
  unfold parseCompatMacro
  refine J.bind_expect (Left.refl _) fun t ts' h hk hm => ?_
  cases hs : splitAtSpace t.content.toList with
  | none => exact J.err h
  | some p =>
    obtain ⟨a, b⟩ := p
    dsimp only
    cases hd : dropBytes 1 a with
    | none => exact J.panic (.define hm hk hs hd)
    | some nm => exact J.pure h (by omega)

end Che
