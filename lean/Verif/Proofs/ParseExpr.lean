import Verif.Proofs.ParseRun
/-!
# The expression parser: progress, budget and crashes
-/
namespace Che

variable {α β : Type} {ts0 ts : List Token} {k K K1 : Nat} {T T1 : Prop}

theorem readNsId_J (ctx : ParseCtx) (ts : List Token) :
    J ts 1 T (readNsId ctx ts) (readNsId ctx ts) := by
  unfold readNsId
  refine J.bind_expect (Left.refl _) fun a ts' h ha _ => ?_
  have h' : Left ts 1 ts' := h.weaken (by omega)
  have one : ∀ (nm : NsName) l, Left ts 1 l → J ts 1 T (.ok nm l : PR NsName) (.ok nm l) :=
    fun nm l h => .same h (by intro h; cases h) (by intro m h; cases h)
  split
  · rename_i dot b rest _
    split
    · rename_i hk
      refine one _ _ ?_
      have := (h'.cons).cons
      exact this.weaken (by omega)
    · exact one _ _ h'
  · exact one _ _ h'

theorem J.bind_same {m : P α} {f1 f2 : α → P β} (hat : Left ts0 k ts)
    (h1 : ∀ T, J ts K1 T (m ts) (m ts))
    (h2 : ∀ a ts', Left ts0 (k + K1) ts' → J ts0 K T (f1 a ts') (f2 a ts')) :
    J ts0 K T ((m >>= f1) ts) ((m >>= f2) ts) :=
  J.bind hat (h1 T) id h2

theorem parseTypename_J (ctx : ParseCtx) (ts : List Token) :
    J ts 1 T (parseTypename ctx ts) (parseTypename ctx ts) := by
  unfold parseTypename
  refine J.bind_eat (Left.refl _) ?_ fun ts' h => ?_
  · exact J.bind_same (Left.refl _) (fun _ => readNsId_J ctx _) fun a ts' h =>
      J.pure h (by omega)
  · exact J.bind_same h (fun _ => readNsId_J ctx _) fun a ts' h =>
      J.pure h (by omega)

theorem eatStars_J (ts : List Token) : J ts 0 T (eatStars ts) (eatStars ts) := by
  have : ∀ ts n, J ts 0 T (eatStars.go ts n) (eatStars.go ts n) := by
    intro ts
    induction ts with
    | nil => intro n; exact .same (Left.refl _) (by intro h; cases h) (by intro m h; cases h)
    | cons t ts ih =>
      intro n
      unfold eatStars.go
      split
      · rename_i hk
        exact ((ih (n + 1)).tail (T := T) ((Left.refl (t :: ts)).cons) (by omega) id)
      · exact .same (Left.refl _) (by intro h; cases h) (by intro m h; cases h)
  exact this ts 0

theorem parseBareTypeform_J (ctx : ParseCtx) (ts : List Token) :
    J ts 1 T (parseBareTypeform ctx ts) (parseBareTypeform ctx ts) := by
  unfold parseBareTypeform
  exact J.bind_same (Left.refl _) (fun _ => parseTypename_J ctx _) fun a ts' h =>
    J.bind_same h (fun _ => eatStars_J _) fun a ts' h => J.pure h (by omega)

theorem parseLiteral_J (ts : List Token) : J ts 1 T (parseLiteral ts) (parseLiteral ts) := by
  unfold parseLiteral
  refine J.bind_peekU (by decide) fun t rest e => ?_
  subst e
  have go : Left (t :: rest) 1 rest := ((Left.refl (t :: rest)).cons).weaken (by omega)
  split
  · rename_i hk
    exact J.bind_get (J.pure go (by omega))
  split
  · rename_i hk
    exact J.bind_get (J.pure go (by omega))
  split
  · rename_i hk
    exact J.bind_get (J.pure go (by omega))
  split
  · rename_i hk
    exact J.bind_get (J.pure go (by omega))
  · exact J.err (Left.refl _)

theorem closeParen_J {ctx : ParseCtx} {m1 m2 : P Expr} (h : J ts 1 T (m1 ts) (m2 ts)) :
    J ts 1 T (closeParen ctx m1 ts) (closeParen ctx m2 ts) := by
  have cont : ∀ r : PR Expr, Rest ts 1 r → (∀ m, r = .panic m → Bad ts m) → r ≠ .diverge →
      J ts 1 T
        (match r with
          | .panic s => .panic s
          | .diverge => .diverge
          | .ok e ts' => (expect ctx ")" (some "parenthesized expression") >>= fun _ => pure e) ts'
          | .err e ts' =>
            (expect ctx ")" (some "parenthesized expression") >>= fun _ => P.err e.message e.pos) ts')
        (match r with
          | .panic s => .panic s
          | .diverge => .diverge
          | .ok e ts' => (expect ctx ")" (some "parenthesized expression") >>= fun _ => pure e) ts'
          | .err e ts' =>
            (expect ctx ")" (some "parenthesized expression") >>= fun _ => P.err e.message e.pos) ts') := by
    intro r hr hp hd
    cases r with
    | ok a ts' =>
      exact J.bind_expect hr fun t ts'' h _ _ => J.pure h (by omega)
    | err e ts' =>
      exact J.bind_expect hr fun t ts'' h _ _ => J.err h
    | panic s => exact .same trivial (by intro h; cases h) (by intro m h; cases h; exact hp _ rfl)
    | diverge => exact absurd rfl hd
  unfold closeParen
  by_cases hd : m1 ts = .diverge
  · by_cases hd2 : m2 ts = .diverge
    · rw [hd, hd2]
      exact ⟨trivial, trivial, fun h => absurd rfl h, fun hT => absurd hd2 (h.stops hT),
        fun m h => by cases h⟩
    · rw [hd]
      have := cont (m2 ts) h.right h.reason hd2
      exact ⟨trivial, this.right, fun h => absurd rfl h, this.stops, this.reason⟩
  · have e := h.stable hd
    rw [e]
    exact cont (m1 ts) h.left (e ▸ h.reason) hd

/-- Binary operators the table does not know. -/
theorem operatorStrength_none {k : String} (ho : isOpTok k = true) (h : operatorStrength k = none) :
    k = "~" ∨ k = "++" ∨ k = "--" := by
  simp only [isOpTok, List.contains_eq_mem, decide_eq_true_eq, List.mem_cons, List.not_mem_nil,
    or_false] at ho
  rcases ho with h1 | h1 | h1 | h1 | h1 | h1 | h1 | h1 | h1 | h1 | h1 | h1 | h1 | h1 | h1 | h1 |
    h1 | h1 | h1 | h1 | h1 | h1 | h1 | h1 | h1 | h1 | h1 | h1 | h1 | h1 | h1 | h1 | h1 | h1 <;>
    subst h1 <;> first | exact absurd h (by decide) | decide

/-- Everything about the expression parser with budgets `m` and `n`. -/
structure ExprJ (ctx : ParseCtx) (m n : Nat) : Prop where
  expr : ∀ s ts, s ≤ 14 → 40 * ts.length + (5 + 2 * (13 - s)) ≤ n →
    J ts 1 True (parseExpr m ctx s ts) (parseExpr n ctx s ts)
  seq : ∀ s ts, s < 13 → 40 * ts.length + (4 + 2 * (13 - s)) ≤ n →
    J ts 1 True (parseSeq m ctx s ts) (parseSeq n ctx s ts)
  seqLoop : ∀ s r ts, s < 13 → 40 * ts.length + 1 ≤ n →
    J ts 0 True (seqLoop m ctx s r ts) (seqLoop n ctx s r ts)
  pre : ∀ ts, 40 * ts.length + 4 ≤ n →
    J ts 1 True (parsePrefix m ctx ts) (parsePrefix n ctx ts)
  base : ∀ ts, 40 * ts.length + 3 ≤ n →
    J ts 1 True (parseBase m ctx ts) (parseBase n ctx ts)
  baseLoop : ∀ r ts, 40 * ts.length + 2 ≤ n →
    J ts 0 True (baseLoop m ctx r ts) (baseLoop n ctx r ts)
  atom : ∀ ts, 40 * ts.length + 2 ≤ n →
    J ts 1 True (parseAtom m ctx ts) (parseAtom n ctx ts)
  compLit : ∀ ts, 40 * ts.length + 1 ≤ n →
    J ts 1 True (parseCompLit m ctx ts) (parseCompLit n ctx ts)
  compLitLoop : ∀ es ts, 40 * ts.length + 33 ≤ n →
    J ts 0 True (compLitLoop m ctx es ts) (compLitLoop n ctx es ts)
  entry : ∀ ts, 40 * ts.length + 32 ≤ n →
    J ts 1 True (parseEntry m ctx ts) (parseEntry n ctx ts)
  sizeof : ∀ ts, 40 * ts.length + 1 ≤ n →
    J ts 1 True (parseSizeof m ctx ts) (parseSizeof n ctx ts)
  call : ∀ f ts, 40 * ts.length + 1 ≤ n →
    J ts 1 True (parseCall m ctx f ts) (parseCall n ctx f ts)
  args : ∀ as ts, 40 * ts.length + 1 ≤ n →
    J ts 0 True (argsLoop m ctx as ts) (argsLoop n ctx as ts)

theorem ExprJ.step {ctx : ParseCtx} {m n : Nat} (ih : ExprJ ctx m n) : ExprJ ctx (m + 1) (n + 1) where
  expr := by
    intro s ts hs hn
    unfold parseExpr
    split
    · exact ih.seq s ts (by assumption) (by omega)
    split
    · exact ih.pre ts (by omega)
    split
    · exact ih.base ts (by omega)
    · omega
  seq := by
    intro s ts hs hn
    unfold parseSeq
    refine J.bind (Left.refl _) (ih.expr (s + 1) ts (by omega) (by omega)) id fun a ts' h => ?_
    have := h.length
    exact (ih.seqLoop s a ts' hs (by omega)).tail h (by omega) id
  seqLoop := by
    intro s r ts hs hn
    unfold Che.seqLoop
    refine J.bind_peek ?_
    cases ts with
    | nil => exact J.pure (Left.refl _) (by omega)
    | cons t rest =>
      simp only [List.head?_cons]
      split
      · exact J.pure (Left.refl _) (by omega)
      rename_i ho
      cases hk : operatorStrength t.kind with
      | none => exact J.panic (.operator (t := t) (by simp) (operatorStrength_none (by simpa using ho) hk))
      | some k =>
      dsimp only
      split
      · exact J.pure (Left.refl _) (by omega)
      refine J.bind_getU ?_
      have h := (Left.refl (t :: rest)).cons
      have hl := h.length
      refine J.bind h (ih.expr (s + 1) rest (by omega) (by simp only [List.length_cons] at *; omega)) id fun a ts' h => ?_
      have := h.length
      exact (ih.seqLoop s _ ts' hs (by simp only [List.length_cons] at *; omega)).tail h (by omega) id
  pre := by
    intro ts hn
    unfold parsePrefix
    refine J.bind_getU' (by decide) fun t rest e => ?_
    subst e
    simp only [List.length_cons] at hn
    split
    · rename_i hp
      have h := (Left.refl (t :: rest)).cons
      exact J.bind h (ih.pre rest (by omega)) id fun a ts' h =>
        J.pure h (by omega)
    have sz : t.kind = "sizeof" → J (t :: rest) 1 True
        ((P.unget t >>= fun _ => parseSizeof m ctx) rest)
        ((P.unget t >>= fun _ => parseSizeof n ctx) rest) := fun _ =>
      J.bind_unget (ih.sizeof (t :: rest) (by simp only [List.length_cons]; omega))
    have bs : J (t :: rest) 1 True
        ((P.unget t >>= fun _ => parseBase m ctx) rest)
        ((P.unget t >>= fun _ => parseBase n ctx) rest) :=
      J.bind_unget (ih.base (t :: rest) (by simp only [List.length_cons]; omega))
    by_cases hp : t.kind = "("
    · have h := (Left.refl (t :: rest)).cons
      simp only [hp, if_true]
      refine J.bind_peekU (by decide) fun t' rest' e => ?_
      subst e
      show J _ _ _ ((if _ then _ else _ : P Expr) (t' :: rest')) ((if _ then _ else _ : P Expr) (t' :: rest'))
      split
      · refine J.bind_same h (fun _ => parseBareTypeform_J ctx _) fun a ts' h => ?_
        refine J.bind_expect h fun t ts' h _ _ => ?_
        have := h.length
        simp only [List.length_cons] at *
        exact J.bind h (ih.pre ts' (by omega)) id fun a ts' h => J.pure h (by omega)
      · split
        · rename_i h; exact absurd h (by decide)
        · exact bs
    · simp only [hp, if_false]
      show J _ _ _ ((if _ then _ else _ : P Expr) rest) ((if _ then _ else _ : P Expr) rest)
      split
      · exact sz (by assumption)
      · exact bs
  base := by
    intro ts hn
    unfold parseBase
    refine J.bind (Left.refl _) (ih.atom ts (by omega)) id fun a ts' h => ?_
    have := h.length
    exact (ih.baseLoop a ts' (by omega)).tail h (by omega) id
  baseLoop := by
    intro r ts hn
    unfold Che.baseLoop
    refine J.bind_peek ?_
    cases ts with
    | nil => exact J.pure (Left.refl _) (by omega)
    | cons t rest =>
      simp only [List.head?_cons]
      split
      · refine J.bind (Left.refl _) (ih.call r (t :: rest) (by omega)) id fun a ts' h => ?_
        have := h.length
        exact (ih.baseLoop a ts' (by omega)).tail h (by omega) id
      split
      · refine J.bind_expect (Left.refl _) fun t' ts' h _ _ => ?_
        have := h.length
        refine J.bind h (ih.expr 0 ts' (by omega) (by omega)) id fun a ts' h => ?_
        refine J.bind_expect h fun t' ts' h _ _ => ?_
        have := h.length
        exact (ih.baseLoop _ ts' (by omega)).tail h (by omega) id
      split
      · rename_i hp
        have h := (Left.refl (t :: rest)).cons
        have := h.length
        exact J.bind_getU ((ih.baseLoop _ rest (by omega)).tail h (by omega) id)
      split
      · rename_i hp
        have h := (Left.refl (t :: rest)).cons
        refine J.bind_getU ?_
        refine J.bind_expect h fun t' ts' h _ _ => ?_
        have := h.length
        exact (ih.baseLoop _ ts' (by omega)).tail h (by omega) id
      · exact J.pure (Left.refl _) (by omega)
  atom := by
    intro ts hn
    unfold parseAtom
    refine J.bind_more ?_
    cases ts with
    | nil => exact J.err (Left.refl _)
    | cons t rest =>
      simp only [List.isEmpty_cons, Bool.not_false, Bool.not_true, Bool.false_eq_true, if_false]
      show J _ _ _ ((if _ then _ else _ : P Expr) (t :: rest)) ((if _ then _ else _ : P Expr) (t :: rest))
      split
      · exact J.bind_same (Left.refl _) (fun _ => readNsId_J ctx _) fun a ts' h =>
          J.pure h (by omega)
      refine J.bind_getU ?_
      simp only [List.length_cons] at hn
      have lit : J (t :: rest) 1 True
          ((P.unget t >>= fun _ => parseLiteral >>= fun l => (pure (.lit l) : P Expr)) rest)
          ((P.unget t >>= fun _ => parseLiteral >>= fun l => (pure (.lit l) : P Expr)) rest) :=
        J.bind_unget (J.bind_same (Left.refl _) (fun _ => parseLiteral_J _) fun a ts' h =>
          J.pure h (by omega))
      have go : Left (t :: rest) 1 rest := ((Left.refl (t :: rest)).cons).weaken (by omega)
      by_cases h1 : t.kind = "word"
      · simp only [h1]; exact J.pure go (by omega)
      by_cases h2 : t.kind = "num"
      · simp only [h2]; exact lit
      by_cases h3 : t.kind = "string"
      · simp only [h3]; exact lit
      by_cases h4 : t.kind = "char"
      · simp only [h4]; exact lit
      by_cases h5 : t.kind = "("
      · simp only [h5]
        exact (closeParen_J (ih.expr 0 rest (by omega) (by omega))).tail go (by omega) id
      by_cases h6 : t.kind = "{"
      · simp only [h6]
        exact J.bind_unget (ih.compLit (t :: rest) (by simp only [List.length_cons]; omega))
      simp only [h1, h2, h3, h4, h5, h6]
      exact J.err (Left.refl (t :: rest)).cons
  compLit := by
    intro ts hn
    unfold parseCompLit
    refine J.bind_expect (Left.refl _) fun t ts' h _ _ => ?_
    have := h.length
    refine J.bind h (ih.compLitLoop [] ts' (by omega)) id fun a ts' h => ?_
    refine J.bind_expect h fun t ts' h _ _ => ?_
    exact J.pure h (by omega)
  compLitLoop := by
    intro es ts hn
    unfold Che.compLitLoop
    refine J.bind_peekU (by decide) fun t rest e => ?_
    subst e
    split
    · exact J.pure (Left.refl _) (by omega)
    refine J.bind (Left.refl _) (ih.entry _ (by omega)) id fun a ts' h => ?_
    refine J.bind_peekU (by decide) fun t' rest' e => ?_
    subst e
    split
    · rename_i hk
      have h := h.cons
      have := h.length
      exact J.bind_get ((ih.compLitLoop _ rest' (by omega)).tail h (by omega) id)
    · exact J.pure h (by omega)
  entry := by
    intro ts hn
    unfold parseEntry
    refine J.bind_peekU (by decide) fun t rest e => ?_
    subst e
    split
    · refine J.bind_expect (Left.refl _) fun t ts' h _ _ => ?_
      refine J.bind_expect h fun t ts' h _ _ => ?_
      refine J.bind_expect h fun t ts' h _ _ => ?_
      have := h.length
      exact J.bind h (ih.expr 0 _ (by omega) (by omega)) id fun a ts' h =>
        J.pure h (by omega)
    refine J.bind_follows ?_ fun t' rest' e hk => ?_
    · exact J.bind (Left.refl _) (ih.expr 0 _ (by omega) (by omega)) id fun a ts' h =>
        J.pure h (by omega)
    · cases e
      refine J.bind_get ?_
      have h := (Left.refl (t :: rest)).cons
      have := h.length
      refine J.bind h (ih.expr 0 _ (by omega) (by omega)) id fun a ts' h => ?_
      refine J.bind_expect h fun t ts' h _ _ => ?_
      refine J.bind_expect h fun t ts' h _ _ => ?_
      have := h.length
      exact J.bind h (ih.expr 0 _ (by omega) (by omega)) id fun a ts' h =>
        J.pure h (by omega)
  sizeof := by
    intro ts hn
    unfold parseSizeof
    refine J.bind_expect (Left.refl _) fun t ts' h _ _ => ?_
    refine J.bind_expect h fun t ts' h _ _ => ?_
    have := h.length
    have fin : ∀ (r : Expr) k (ts' : List Token), 1 ≤ k → Left ts k ts' → J ts 1 True
        ((expect ctx ")" >>= fun _ => (pure r : P Expr)) ts')
        ((expect ctx ")" >>= fun _ => (pure r : P Expr)) ts') := fun r k ts' hk h =>
      J.bind_expect h fun t ts' h _ _ => J.pure h (by omega)
    show J _ _ _ ((if _ then _ else _ : P Expr) ts') ((if _ then _ else _ : P Expr) ts')
    split
    · exact J.bind_same h (fun _ => parseBareTypeform_J ctx _) fun a ts' h =>
        fin _ _ _ (by omega) h
    · exact J.bind h (ih.expr 0 _ (by omega) (by omega)) id fun a ts' h =>
        fin _ _ _ (by omega) h
  call := by
    intro f ts hn
    unfold parseCall
    refine J.bind_expect (Left.refl _) fun t ts' h _ _ => ?_
    have := h.length
    refine J.bind_peek ?_
    have fin : ∀ (r : List Expr) k (ts' : List Token), 1 ≤ k → Left ts k ts' → J ts 1 True
        ((expect ctx ")" >>= fun _ => (pure (.call t.pos f r) : P Expr)) ts')
        ((expect ctx ")" >>= fun _ => (pure (.call t.pos f r) : P Expr)) ts') := fun r k ts' hk h =>
      J.bind_expect h fun t ts' h _ _ => J.pure h (by omega)
    cases ts' with
    | nil => exact fin [] _ _ (by omega) h
    | cons t' rest =>
      simp only [List.head?_cons]
      split
      · refine J.bind h (ih.expr 0 _ (by omega) (by omega)) id fun a ts' h => ?_
        have := h.length
        exact J.bind h (ih.args _ _ (by omega)) id fun a ts' h =>
          fin _ _ _ (by omega) h
      · exact fin _ _ _ (by omega) h
  args := by
    intro as ts hn
    unfold argsLoop
    refine J.bind_eat (Left.refl _) ?_ fun ts' h => ?_
    · exact J.pure (Left.refl _) (by omega)
    · have := h.length
      refine J.bind h (ih.expr 0 _ (by omega) (by omega)) id fun a ts' h => ?_
      have := h.length
      exact (ih.args _ _ (by omega)).tail h (by omega) id

theorem ExprJ.diag (ctx : ParseCtx) : ∀ n, ExprJ ctx n n
  | 0 => by constructor <;> intros <;> omega
  | n + 1 => (ExprJ.diag ctx n).step

/-- Without a budget on the left. -/
theorem J.zero {r s : PR α} (h : J ts0 K T r s) : J ts0 K T (.diverge : PR α) s :=
  J.start h.right h.stops h.reason

theorem ExprJ.all (ctx : ParseCtx) : ∀ m n, ExprJ ctx m n
  | 0, n => by
    have h := ExprJ.diag ctx n
    constructor <;> intros
    · rw [parseExpr]; exact (h.expr _ _ (by assumption) (by assumption)).zero
    · rw [parseSeq]; exact (h.seq _ _ (by assumption) (by assumption)).zero
    · rw [Che.seqLoop]; exact (h.seqLoop _ _ _ (by assumption) (by assumption)).zero
    · rw [parsePrefix]; exact (h.pre _ (by assumption)).zero
    · rw [parseBase]; exact (h.base _ (by assumption)).zero
    · rw [Che.baseLoop]; exact (h.baseLoop _ _ (by assumption)).zero
    · rw [parseAtom]; exact (h.atom _ (by assumption)).zero
    · rw [parseCompLit]; exact (h.compLit _ (by assumption)).zero
    · rw [Che.compLitLoop]; exact (h.compLitLoop _ _ (by assumption)).zero
    · rw [parseEntry]; exact (h.entry _ (by assumption)).zero
    · rw [parseSizeof]; exact (h.sizeof _ (by assumption)).zero
    · rw [parseCall]; exact (h.call _ _ (by assumption)).zero
    · rw [argsLoop]; exact (h.args _ _ (by assumption)).zero
  | m + 1, 0 => by constructor <;> intros <;> omega
  | m + 1, n + 1 => (ExprJ.all ctx m n).step

/-- The expression parser on any tokens. -/
theorem parseExpr_J (ctx : ParseCtx) {m n s : Nat} (hs : s ≤ 14) (hn : 40 * ts.length + 31 ≤ n) :
    J ts 1 True (parseExpr m ctx s ts) (parseExpr n ctx s ts) :=
  (ExprJ.all ctx m n).expr s ts hs (by omega)

end Che
