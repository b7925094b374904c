import Verif.Proofs.ParseComplete
/-!
# The statement and module parsers accept the grammar
-/
namespace Che
open Spec

variable {α β : Type} {ctx : ParseCtx} {ts ts' : List Token}

theorem Ev.const {p : Prop} (h : Ev (fun _ => p)) : p := by
  obtain ⟨n, _, h⟩ := h.get 0; exact h

/-! ## Declarations -/

theorem formLoop_of {is : List (Option Expr)} {c : List Token} (h : Indexes ctx is c) :
    ∀ (node : Form) (rest : List Token), NotNext "[" rest →
    Ev (fun n => formLoop ctx n node (c ++ rest) = .ok { node with indexes := node.indexes ++ is } rest) := by
  induction h with
  | nil =>
    intro node rest hn
    refine Ev.succ (Ev.of fun n => ?_)
    unfold formLoop
    pstep P.eat_of_not hn
    pelse Bool.false_ne_true
    simp
    rfl
  | @empty l r is c hl hr _ ih =>
    intro node rest hn
    refine Ev.succ ((ih { node with indexes := node.indexes ++ [none] } rest hn).mono fun n h => ?_)
    show formLoop ctx (n + 1) node (l :: r :: (c ++ rest)) = _
    unfold formLoop
    pstep P.eat_of hl
    pthen rfl
    pstep (rfl : P.peek (r :: _) = .ok (some r) _)
    simp only [List.head?_cons, hr, ne_eq, not_true_eq_false, if_false]
    pstep (rfl : (pure none : P (Option Expr)) _ = .ok _ _)
    pstep expect_of hr
    refine h.trans ?_
    simp
  | @size l r e is c1 c2 hl g hr _ ih =>
    intro node rest hn
    have ev := g.parse (rest := r :: (c2 ++ rest)) (by omega) (.kind hr (by decide))
    refine Ev.succ ((ev.and (ih { node with indexes := node.indexes ++ [some e] } rest hn)).mono fun n h => ?_)
    obtain ⟨h1, h⟩ := h
    have : l :: c1 ++ r :: c2 ++ rest = l :: (c1 ++ r :: (c2 ++ rest)) := by simp
    rw [this]
    unfold formLoop
    pstep P.eat_of hl
    pthen rfl
    obtain ⟨t, c1, rfl, ht⟩ := g.head
    pstep (rfl : P.peek (t :: c1 ++ _) = .ok (some t) _)
    simp only [List.cons_append, List.head?_cons]
    pthen (not_head ht (by decide))
    pstep h1
    pstep (rfl : (pure (some e) : P (Option Expr)) _ = .ok _ _)
    pstep expect_of hr
    refine h.trans ?_
    simp

theorem parseForm_of {f : Form} {c rest : List Token} (h : FormG ctx f c) (hn : NotNext "[" rest) :
    Ev (fun n => parseForm n ctx (c ++ rest) = .ok f rest) := by
  cases h with
  | @mk t n c c1 w is c2 g1 hw hc g2 e =>
    have ev := formLoop_of g2 { pos := t.pos, name := w.content, hops := n, indexes := [] } rest hn
    refine ev.mono fun k hk => ?_
    unfold parseForm
    pstep (rfl : P.peekU _ (t :: c ++ rest) = .ok t _)
    have e' : t :: c ++ rest = c1 ++ w :: (c2 ++ rest) := by rw [← e]; simp
    rw [e']
    pstep eatStars_of g1 (NotNext.cons (show w.kind ≠ "*" by rw [hw]; decide))
    pstep expect_of hw
    pelse hc
    refine hk.trans ?_
    simp

theorem init_of {v : Option Expr} {c rest : List Token} (h : InitG ctx v c) (hf : Follow 0 rest)
    (hn : NotNext "=" rest) :
    Ev (fun n => ∃ b ts1, P.eat "=" (c ++ rest) = .ok b ts1 ∧
      (b = true → ∃ e, v = some e ∧ parseExpr n ctx 0 ts1 = .ok e rest) ∧
      (b = false → v = none ∧ ts1 = rest)) := by
  cases h with
  | none => exact Ev.of fun n => ⟨false, rest, P.eat_of_not hn, by simp, fun _ => ⟨rfl, rfl⟩⟩
  | @some t e c ht g =>
    exact (g.parse (by omega) hf).mono fun n h => ⟨true, c ++ rest, P.eat_of ht,
      fun _ => ⟨e, rfl, h⟩, by simp⟩

theorem _root_.Che.Spec.InitG.head {v : Option Expr} {t : Token} {c : List Token} (h : InitG ctx v (t :: c)) :
    t.kind = "=" := by
  cases h; assumption

/-- The next token is not one of these. -/
def NextNotIn (l : List String) (ts : List Token) : Prop := ∀ t r, ts = t :: r → t.kind ∉ l

theorem NextNotIn.notNext {l : List String} {k : String} (h : NextNotIn l ts) (hk : k ∈ l) :
    NotNext k ts := by
  rintro t r rfl e; exact h t r rfl (e ▸ hk)

theorem NextNotIn.kind {l : List String} {k : String} {t : Token} {r : List Token} (h : t.kind = k)
    (hk : k ∉ l) : NextNotIn l (t :: r) := by
  rintro _ _ ⟨⟩; rw [h]; exact hk

theorem NotNext.kind {k k' : String} {t : Token} {r : List Token} (h : t.kind = k) (hk : k ≠ k') :
    NotNext k' (t :: r) := by
  rintro _ _ ⟨⟩; rw [h]; exact hk

theorem NotNext.init {k : String} {v : Option Expr} {c rest : List Token} (h : InitG ctx v c)
    (hr : NotNext k rest) (hk : "=" ≠ k) : NotNext k (c ++ rest) := by
  cases c with
  | nil => exact hr
  | cons t c => exact NotNext.kind h.head hk

theorem NotNext.form {k : String} {f : Form} {c rest : List Token} (h : FormG ctx f c)
    (h1 : k ≠ "*") (h2 : k ≠ "word") : NotNext k (c ++ rest) := by
  obtain ⟨x, c, rfl⟩ := List.exists_cons_of_ne_nil h.ne_nil
  rcases h.head with e | e
  · exact NotNext.kind e h1.symm
  · exact NotNext.kind e h2.symm

theorem parseVarDecl_of {d : VarDecl} {c rest : List Token} (h : VarG ctx d c) :
    Ev (fun n => parseVarDecl n ctx (c ++ rest) = .ok (.varDecl d) rest) := by
  cases h with
  | @mk t c ty c1 f c2 v c3 e g1 g2 g3 he ec =>
    have ev1 := parseForm_of (rest := c3 ++ e :: rest) g2
      (NotNext.init g3 (NotNext.kind he (by decide)) (by decide))
    have ev2 := init_of (rest := e :: rest) g3 (.kind he (by decide)) (NotNext.kind he (by decide))
    refine (ev1.and ev2).mono fun n h => ?_
    obtain ⟨h1, b, ts1, h2, ht, hf⟩ := h
    unfold parseVarDecl
    pstep (rfl : P.peekU _ (t :: c ++ rest) = .ok t _)
    have e' : t :: c ++ rest = c1 ++ (c2 ++ (c3 ++ e :: rest)) := by rw [← ec]; simp
    rw [e']
    pstep parseTypename_of g1 (NotNext.form g2 (by decide) (by decide))
    pstep h1
    pstep h2
    cases b with
    | true =>
      obtain ⟨x, rfl, hx⟩ := ht rfl
      pthen rfl
      pstep hx
      pstep (rfl : (pure (some x) : P (Option Expr)) _ = .ok _ _)
      pstep expect_of he
      rfl
    | false =>
      obtain ⟨rfl, rfl⟩ := hf rfl
      pelse Bool.false_ne_true
      pstep (rfl : (pure none : P (Option Expr)) _ = .ok _ _)
      pstep expect_of he
      rfl

theorem parseReturn_of {t e : Token} {v : Option Expr} {c rest : List Token} (ht : t.kind = "return")
    (g : OptG ctx v c) (he : e.kind = ";") :
    Ev (fun n => parseReturn n ctx (t :: c ++ e :: rest) = .ok (.ret v) rest) := by
  cases g with
  | none =>
    refine Ev.of fun n => ?_
    unfold parseReturn
    pstep expect_of ht
    pstep (rfl : P.peekU _ (e :: rest) = .ok e _)
    pthen he
    pstep (rfl : P.get (e :: rest) = .ok _ _)
    rfl
  | some g =>
    refine (g.parse (rest := e :: rest) (by omega) (.kind he (by decide))).mono fun n h => ?_
    unfold parseReturn
    pstep expect_of ht
    obtain ⟨x, c, rfl, hx⟩ := g.head
    pstep (rfl : P.peekU _ (x :: c ++ e :: rest) = .ok x _)
    pelse (not_head hx (by decide))
    pstep h
    pstep expect_of he
    rfl

theorem parseForInit_of {i : Option ForInit} {c rest : List Token} {e : Token} (g : ForInitG ctx i c)
    (he : e.kind = ";") : Ev (fun n => parseForInit n ctx (c ++ e :: rest) = .ok i (e :: rest)) := by
  cases g with
  | none =>
    refine Ev.of fun n => ?_
    unfold parseForInit
    pstep P.follows_of he
    pthen rfl
    rfl
  | @decl w ty c1 f c2 v c3 q hw g1 g2 hq g3 =>
    have ev1 := parseForm_of (rest := q :: (c3 ++ e :: rest)) g2 (NotNext.kind hq (by decide))
    have ev2 := g3.parse (rest := e :: rest) (by omega) (.kind he (by decide))
    refine (ev1.and ev2).mono fun n h => ?_
    obtain ⟨h1, h2⟩ := h
    have : w :: c1 ++ c2 ++ q :: c3 ++ e :: rest = (w :: c1) ++ (c2 ++ q :: (c3 ++ e :: rest)) := by simp
    rw [this]
    unfold parseForInit
    pstep P.follows_of_not (NotNext.kind hw.1 (by decide))
    pelse Bool.false_ne_true
    pstep (rfl : P.peekU _ (w :: c1 ++ _) = .ok w _)
    pthen (by simp [hw.1, hw.2])
    pstep parseTypename_of g1 (NotNext.form g2 (by decide) (by decide))
    pstep h1
    pstep expect_of hq
    pstep h2
    rfl
  | expr g hnt =>
    have ev2 := g.parse (rest := e :: rest) (by omega) (.kind he (by decide))
    refine ev2.mono fun n h => ?_
    obtain ⟨x, c, rfl, hx⟩ := g.head
    unfold parseForInit
    pstep P.follows_of_not (NotNext.cons (not_head hx (by decide)))
    pelse Bool.false_ne_true
    pstep (rfl : P.peekU _ (x :: c ++ _) = .ok x _)
    pelse (by
      have := hnt x c rfl
      simpa [TypeWord] using this)
    pstep h
    rfl

theorem parseOptExpr_of {v : Option Expr} {stop : String} {c rest : List Token} {e : Token} (g : OptG ctx v c)
    (he : e.kind = stop) (h1 : stop ∉ postToks) (h2 : isOpTok stop = false) (h3 : stop ∉ exprHeads) :
    Ev (fun n => parseOptExpr n ctx stop (c ++ e :: rest) = .ok v (e :: rest)) := by
  cases g with
  | none =>
    refine Ev.of fun n => ?_
    unfold parseOptExpr
    pstep P.follows_of he
    pthen rfl
    rfl
  | some g =>
    refine (g.parse (rest := e :: rest) (by omega) (.kind he ⟨h1, h2⟩)).mono fun n h => ?_
    obtain ⟨x, c, rfl, hx⟩ := g.head
    unfold parseOptExpr
    pstep P.follows_of_not (NotNext.cons (not_head hx h3))
    pelse Bool.false_ne_true
    pstep h
    rfl

theorem parseLiteral_of {t : Token} {l : Literal} {rest : List Token}
    (h : t.kind = "num" ∧ l = .number t.content ∨ t.kind = "string" ∧ l = .string t.content ∨
      t.kind = "char" ∧ l = .char t.content) : parseLiteral (t :: rest) = .ok l rest := by
  unfold parseLiteral
  pstep (rfl : P.peekU _ (t :: rest) = .ok t (t :: rest))
  rcases h with ⟨h, rfl⟩ | ⟨h, rfl⟩ | ⟨h, rfl⟩ <;> simp [h] <;> rfl

theorem caseValuesLoop_of {vs : List CaseValue} {c : List Token} (h : ValuesG ctx vs c) :
    ∀ (acc : List CaseValue) (e : Token) (rest : List Token), e.kind = ":" →
    Ev (fun n => caseValuesLoop ctx n acc (c ++ e :: rest) = .ok (acc ++ vs) (e :: rest)) := by
  have first : ∀ {v : CaseValue} {c rest : List Token} {n : Nat} {acc : List CaseValue}, ValueG ctx v c →
      NotNext "." rest →
      caseValuesLoop ctx (n + 1) acc (c ++ rest) =
        (P.eat "," >>= fun b => if b = true then caseValuesLoop ctx n (acc ++ [v]) else pure (acc ++ [v])) rest := by
    intro v c rest n acc g hn
    have lit : ∀ {t : Token} {l : Literal}, t.kind ≠ "word" → parseLiteral (t :: rest) = .ok l rest →
        caseValuesLoop ctx (n + 1) acc (t :: rest) =
        (P.eat "," >>= fun b => if b = true then caseValuesLoop ctx n (acc ++ [.literal l])
          else pure (acc ++ [.literal l])) rest := by
      intro t l hk hl
      rw [caseValuesLoop]
      pstep P.follows_of_not (NotNext.cons hk)
      pelse Bool.false_ne_true
      pstep hl
      rfl
    cases g with
    | ident g =>
      obtain ⟨w, r, rfl, hw⟩ := g.head
      rw [caseValuesLoop]
      pstep P.follows_of hw
      pthen rfl
      pstep readNsId_of g (fun _ => by rintro ⟨d, b, r, e, h, _⟩; exact hn _ _ e h)
      rfl
    | num h => exact lit (by rw [h]; decide) (parseLiteral_of (.inl ⟨h, rfl⟩))
    | string h => exact lit (by rw [h]; decide) (parseLiteral_of (.inr (.inl ⟨h, rfl⟩)))
    | char h => exact lit (by rw [h]; decide) (parseLiteral_of (.inr (.inr ⟨h, rfl⟩)))
  induction h with
  | one g =>
    intro acc e rest he
    refine Ev.succ (Ev.of fun n => ?_)
    rw [first g (NotNext.kind he (by decide))]
    pstep P.eat_of_not (NotNext.kind he (by decide))
    rfl
  | @more v c vs c' t g ht _ ih =>
    intro acc e rest he
    refine Ev.succ ((ih (acc ++ [v]) e rest he).mono fun n h => ?_)
    rw [List.append_assoc, List.cons_append, first g (NotNext.kind ht (by decide))]
    pstep P.eat_of ht
    pthen rfl
    rw [h]
    simp

/-! ## Statements -/

/-- Kinds of tokens that do not begin a statement. -/
def notStmtHeads : List String := ["}", "else", "case", "default", ")", ",", ";"]

/-- What the head lemma says about statements. -/
def SHeadOf : SCat → List Token → Prop
  | .stmt _ _, c => c ≠ [] ∧ NextNotIn notStmtHeads c
  | .stmts _, c => NextNotIn notStmtHeads c
  | .case _, c => ∃ t r, c = t :: r ∧ t.kind = "case"
  | .dflt _, c => ∀ t r, c = t :: r → t.kind = "default"
  | .body _, c => ∃ t r, c = t :: r ∧ t.kind = "{"
  | .block _ _, c => c ≠ [] ∧ NextNotIn notStmtHeads c
  | .cases _, c => ∀ t r, c = t :: r → t.kind = "case"

theorem NextNotIn.append {l : List String} {c rest : List Token} (hc : c ≠ []) (h : NextNotIn l c) :
    NextNotIn l (c ++ rest) := by
  obtain ⟨t, c, rfl⟩ := List.exists_cons_of_ne_nil hc
  rintro _ _ ⟨⟩
  exact h _ _ rfl

theorem _root_.Che.Spec.VarG.head {d c} (h : VarG ctx d c) :
    ∃ w r, c = w :: r ∧ (w.kind = "word" ∨ w.kind = "const") := by
  cases h with
  | @mk t c ty c1 f c2 v c3 e g1 g2 g3 he ec =>
    obtain ⟨w, r, rfl, hw⟩ := g1.head
    injection ec with e1 e2
    subst e1
    exact ⟨_, _, rfl, hw⟩

theorem _root_.Che.Spec.StG.head {k : SCat} {c : List Token} (h : StG ctx k c) : SHeadOf k c := by
  induction h with
  | varDecl h _ =>
    obtain ⟨w, r, rfl, hw⟩ := h.head
    exact ⟨by simp, by rcases hw with e | e <;> exact .kind e (by decide)⟩
  | brk h _ => exact ⟨by simp, .kind h (by decide)⟩
  | cont h _ => exact ⟨by simp, .kind h (by decide)⟩
  | ret h _ _ => exact ⟨by simp, .kind h (by decide)⟩
  | expr g _ _ =>
    obtain ⟨x, c, rfl, hx⟩ := g.head
    refine ⟨by simp, ?_⟩
    rintro _ _ ⟨⟩
    intro hm
    have : ∀ k ∈ notStmtHeads, k ∉ exprHeads := by decide
    exact this _ hm hx
  | «while» h _ _ _ _ _ => exact ⟨by simp, .kind h (by decide)⟩
  | «if» h _ _ _ _ _ => exact ⟨by simp, .kind h (by decide)⟩
  | ifElse h _ _ _ _ _ _ _ _ => exact ⟨by simp, .kind h (by decide)⟩
  | «for» h _ _ _ _ _ _ _ _ _ => exact ⟨by simp, .kind h (by decide)⟩
  | switch h _ _ _ _ _ _ _ _ _ => exact ⟨by simp, .kind h (by decide)⟩
  | switchStr h _ _ _ _ _ _ _ _ _ _ _ => exact ⟨by simp, .kind h (by decide)⟩
  | casesNil => rintro _ _ ⟨⟩
  | casesCons _ _ ih _ =>
    obtain ⟨t, r, rfl, h⟩ := ih
    rintro _ _ ⟨⟩
    exact h
  | case h _ _ _ _ => exact ⟨_, _, rfl, h⟩
  | dfltNone => rintro _ _ ⟨⟩
  | dfltSome h _ _ _ => rintro _ _ ⟨⟩; exact h
  | blockBody _ ih =>
    obtain ⟨t, r, rfl, h⟩ := ih
    exact ⟨by simp, .kind h (by decide)⟩
  | blockStmt _ _ ih => exact ih
  | body h _ _ _ => exact ⟨_, _, rfl, h⟩
  | stmtsNil => rintro _ _ ⟨⟩
  | stmtsCons _ _ ih _ => exact ih.2.append ih.1

/-- The completeness claim for statements. -/
def SComplete (ctx : ParseCtx) : SCat → List Token → Prop
  | .stmt s o, c => ∀ rest, (o = true → ¬ ElseNext rest) →
      Ev (fun n => parseStatement n ctx (c ++ rest) = .ok (s, []) rest)
  | .block b o, c => ∀ rest, (o = true → ¬ ElseNext rest) →
      Ev (fun n => parseBlock n ctx (c ++ rest) = .ok (b, []) rest)
  | .body b, c => ∀ rest, Ev (fun n => readBody n ctx (c ++ rest) = .ok (b, []) rest)
  | .stmts b, c => ∀ ss es r rest, r.kind = "}" →
      Ev (fun n => bodyLoop n ctx ss es (c ++ r :: rest) = .ok (ss ++ b, es) (r :: rest))
  | .case x, c => ∀ rest, Ev (fun n => parseCase n ctx (c ++ rest) = .ok (x, []) rest)
  | .cases xs, c => ∀ acc es rest, NotNext "case" rest →
      Ev (fun n => casesLoop n ctx acc es (c ++ rest) = .ok (acc ++ xs, es) rest)
  | .dflt d, c => (d = none ∧ c = []) ∨ ∃ t e b c', d = some b ∧ c = t :: e :: c' ∧ t.kind = "default" ∧
      e.kind = ":" ∧ ∀ rest, Ev (fun n => readBody n ctx (c' ++ rest) = .ok (b, []) rest)

/-- A statement that begins with a keyword. -/
theorem parseStatement_key {n : Nat} {t : Token} {rest : List Token} {x : PR (Stmt × List Error)}
    (h1 : t.kind ≠ "word") (h2 : t.kind ≠ "const")
    (h : (match t.kind with
      | "break" => do
        let _ ← P.getU "parser.rs:737"
        let _ ← expect ctx ";" (some "break statement")
        pure (.brk, [])
      | "continue" => do
        let _ ← P.getU "parser.rs:745"
        let _ ← expect ctx ";" (some "continue statement")
        pure (.cont, [])
      | "for" => parseFor n ctx
      | "if" => parseIf n ctx
      | "return" => do
        let s ← parseReturn n ctx
        pure (s, [])
      | "switch" => parseSwitch n ctx
      | "while" => parseWhile n ctx
      | _ => do
        let e ← parseExpr n ctx 0
        let _ ← expect ctx ";" (some "parsing statement")
        pure (.expr e, []) : P (Stmt × List Error)) (t :: rest) = x) :
    parseStatement (n + 1) ctx (t :: rest) = x := by
  unfold parseStatement
  pstep (rfl : P.more (t :: rest) = .ok true (t :: rest))
  pelse (by simp)
  pstep (rfl : typeFollows ctx (t :: rest) = .ok (typeFollowsL ctx (t :: rest)) (t :: rest))
  pelse (by simp [typeFollowsL, h1, h2])
  pstep (rfl : P.peekU _ (t :: rest) = .ok t _)
  exact h

theorem parseSwitch_tail {n : Nat} {isStr : Bool} {l r lb rb : Token} {v : Expr} {c c1 c2 rest : List Token}
    {cs : List SwitchCase} {d : Option Body} (hl : l.kind = "(") (hr : r.kind = ")") (hlb : lb.kind = "{")
    (hrb : rb.kind = "}")
    (hv : parseExpr n ctx 0 (c ++ r :: (lb :: (c1 ++ (c2 ++ rb :: rest)))) = .ok v (r :: (lb :: (c1 ++ (c2 ++ rb :: rest)))))
    (hc : casesLoop n ctx [] [] (c1 ++ (c2 ++ rb :: rest)) = .ok (cs, []) (c2 ++ rb :: rest))
    (hd : (d = none ∧ c2 = []) ∨ ∃ t e b c', d = some b ∧ c2 = t :: e :: c' ∧ t.kind = "default" ∧
      e.kind = ":" ∧ readBody n ctx (c' ++ rb :: rest) = .ok (b, []) (rb :: rest)) :
    (do
      let _ ← expect ctx "("
      let value ← parseExpr n ctx 0
      let _ ← expect ctx ")"
      let _ ← expect ctx "{"
      let (cases, errs) ← casesLoop n ctx [] []
      let (dflt, errs) ←
        if ← P.follows "default" then do
          let _ ← expect ctx "default"
          let _ ← expect ctx ":"
          let (b, errs2) ← readBody n ctx
          pure (some b, errs ++ errs2)
        else pure (none, errs)
      let _ ← expect ctx "}"
      pure (.switchS isStr value cases dflt, errs) : P (Stmt × List Error))
      (l :: (c ++ r :: (lb :: (c1 ++ (c2 ++ rb :: rest))))) = .ok (.switchS isStr v cs d, []) rest := by
  pstep expect_of hl
  pstep hv
  pstep expect_of hr
  pstep expect_of hlb
  pstep hc
  rcases hd with ⟨rfl, rfl⟩ | ⟨t, e, b, c', rfl, rfl, ht, he, hb⟩
  · pstep P.follows_of_not (NotNext.kind hrb (by decide))
    pelse Bool.false_ne_true
    pstep (rfl : (pure (none, []) : P (Option Body × List Error)) _ = .ok _ _)
    pstep expect_of hrb
    rfl
  · pstep P.follows_of ht
    pthen rfl
    pstep expect_of ht
    pstep expect_of he
    pstep hb
    pstep (rfl : (pure (some b, []) : P (Option Body × List Error)) _ = .ok _ _)
    pstep expect_of hrb
    rfl

theorem _root_.Che.Spec.StG.complete {k : SCat} {c : List Token} (h : StG ctx k c) : SComplete ctx k c := by
  induction h with
  | @varDecl d c g hs =>
    intro rest _
    refine Ev.succ ((parseVarDecl_of (rest := rest) g).mono fun n h => ?_)
    obtain ⟨w, r, e, hw⟩ := g.head
    unfold parseStatement
    have hm : P.more (c ++ rest) = .ok true (c ++ rest) := by rw [e]; rfl
    pstep hm
    pelse (by decide)
    pstep (rfl : typeFollows ctx (c ++ rest) = .ok (typeFollowsL ctx (c ++ rest)) (c ++ rest))
    pthen (typeStart_iff.2 hs.mono)
    pstep h
    rfl
  | @brk t e ht he =>
    intro rest _
    refine Ev.succ (Ev.of fun n => ?_)
    refine parseStatement_key (by rw [ht]; decide) (by rw [ht]; decide) ?_
    simp only [ht]
    pstep (rfl : P.getU _ (t :: ([e] ++ rest)) = .ok t _)
    pstep expect_of he
    rfl
  | @cont t e ht he =>
    intro rest _
    refine Ev.succ (Ev.of fun n => ?_)
    refine parseStatement_key (by rw [ht]; decide) (by rw [ht]; decide) ?_
    simp only [ht]
    pstep (rfl : P.getU _ (t :: ([e] ++ rest)) = .ok t _)
    pstep expect_of he
    rfl
  | @ret t e v c ht g he =>
    intro rest _
    refine Ev.succ ((parseReturn_of (rest := rest) ht g he).mono fun n h => ?_)
    have : t :: c ++ [e] ++ rest = t :: (c ++ e :: rest) := by simp
    rw [this]
    refine parseStatement_key (by rw [ht]; decide) (by rw [ht]; decide) ?_
    simp only [ht]
    pstep h
    rfl
  | @expr v c e g hs he =>
    intro rest _
    refine Ev.succ ((g.parse (rest := e :: rest) (by omega) (.kind he (by decide))).mono fun n h => ?_)
    have : c ++ [e] ++ rest = c ++ e :: rest := by simp
    rw [this]
    have hnt : ¬ typeFollowsL ctx (c ++ e :: rest) = true := by
      rw [typeStart_iff, typeStart_append g.ne_nil (by rw [he]; decide) (by rw [he]; decide)]
      exact hs
    obtain ⟨x, c, rfl, hx⟩ := g.head
    unfold parseStatement
    pstep (rfl : P.more (x :: c ++ e :: rest) = .ok true (x :: c ++ e :: rest))
    pelse (by simp)
    pstep (rfl : typeFollows ctx (x :: c ++ e :: rest) = .ok (typeFollowsL ctx (x :: c ++ e :: rest)) _)
    pelse hnt
    pstep (rfl : P.peekU _ (x :: c ++ e :: rest) = .ok x _)
    have fin : (parseExpr n ctx 0 >>= fun e => expect ctx ";" (some "parsing statement") >>= fun _ =>
        (pure (.expr e, []) : P (Stmt × List Error))) (x :: c ++ e :: rest) = .ok (.expr v, []) rest := by
      pstep h
      pstep expect_of he
      rfl
    have n1 := not_head hx (show "break" ∉ exprHeads by decide)
    have n2 := not_head hx (show "continue" ∉ exprHeads by decide)
    have n3 := not_head hx (show "for" ∉ exprHeads by decide)
    have n4 := not_head hx (show "if" ∉ exprHeads by decide)
    have n5 := not_head hx (show "return" ∉ exprHeads by decide)
    have n6 := not_head hx (show "switch" ∉ exprHeads by decide)
    have n7 := not_head hx (show "while" ∉ exprHeads by decide)
    simp only
    exact fin
  | @«while» t l r v c b c' o ht hl g hr _ ih =>
    intro rest ho
    have ev := g.parse (rest := r :: (c' ++ rest)) (by omega) (.kind hr (by decide))
    refine Ev.succ (Ev.succ ((ev.and (ih rest ho)).mono fun n h => ?_))
    obtain ⟨h1, h2⟩ := h
    have : t :: l :: c ++ r :: c' ++ rest = t :: (l :: (c ++ r :: (c' ++ rest))) := by simp
    rw [this]
    refine parseStatement_key (by rw [ht]; decide) (by rw [ht]; decide) ?_
    simp only [ht]
    unfold parseWhile
    pstep expect_of ht
    pstep expect_of hl
    pstep h1
    pstep expect_of hr
    pstep h2
    rfl
  | @«if» t l r v c b c' o ht hl g hr _ ih =>
    intro rest ho
    have ev := g.parse (rest := r :: (c' ++ rest)) (by omega) (.kind hr (by decide))
    refine Ev.succ (Ev.succ ((ev.and (ih rest (fun _ => ho rfl))).mono fun n h => ?_))
    obtain ⟨h1, h2⟩ := h
    have : t :: l :: c ++ r :: c' ++ rest = t :: (l :: (c ++ r :: (c' ++ rest))) := by simp
    rw [this]
    refine parseStatement_key (by rw [ht]; decide) (by rw [ht]; decide) ?_
    simp only [ht]
    unfold parseIf
    pstep expect_of ht
    pstep expect_of hl
    pstep h1
    pstep expect_of hr
    pstep h2
    pstep P.eat_of_not (fun x r e hx => ho rfl ⟨x, r, e, hx⟩)
    rfl
  | @ifElse t l r x v c b c' b' c'' o ht hl g hr _ hx _ ih1 ih2 =>
    intro rest ho
    have ev := g.parse (rest := r :: (c' ++ x :: (c'' ++ rest))) (by omega) (.kind hr (by decide))
    have ev1 := ih1 (x :: (c'' ++ rest)) (by simp)
    refine Ev.succ (Ev.succ ((ev.and (ev1.and (ih2 rest ho))).mono fun n h => ?_))
    obtain ⟨h1, h2, h3⟩ := h
    have : t :: l :: c ++ r :: c' ++ x :: c'' ++ rest = t :: (l :: (c ++ r :: (c' ++ x :: (c'' ++ rest)))) := by
      simp
    rw [this]
    refine parseStatement_key (by rw [ht]; decide) (by rw [ht]; decide) ?_
    simp only [ht]
    unfold parseIf
    pstep expect_of ht
    pstep expect_of hl
    pstep h1
    pstep expect_of hr
    pstep h2
    pstep P.eat_of hx
    pthen rfl
    pstep h3
    rfl
  | @«for» t l s1 s2 r i c1 v c2 a c3 b c4 o ht hl g1 hs1 g2 hs2 g3 hr _ ih =>
    intro rest ho
    have ev1 := parseForInit_of (rest := c2 ++ s2 :: (c3 ++ r :: (c4 ++ rest))) g1 hs1
    have ev2 := parseOptExpr_of (rest := c3 ++ r :: (c4 ++ rest)) g2 hs2 (by decide) (by decide) (by decide)
    have ev3 := parseOptExpr_of (rest := c4 ++ rest) g3 hr (by decide) (by decide) (by decide)
    refine Ev.succ (Ev.succ ((ev1.and (ev2.and (ev3.and (ih rest ho)))).mono fun n h => ?_))
    obtain ⟨h1, h2, h3, h4⟩ := h
    have : t :: l :: c1 ++ s1 :: c2 ++ s2 :: c3 ++ r :: c4 ++ rest =
      t :: (l :: (c1 ++ s1 :: (c2 ++ s2 :: (c3 ++ r :: (c4 ++ rest))))) := by simp
    rw [this]
    refine parseStatement_key (by rw [ht]; decide) (by rw [ht]; decide) ?_
    simp only [ht]
    unfold parseFor
    pstep expect_of ht
    pstep expect_of hl
    pstep h1
    pstep expect_of hs1
    pstep h2
    pstep expect_of hs2
    pstep h3
    pstep expect_of hr
    pstep h4
    rfl
  | @switch t l r lb rb v c cs c1 d c2 ht hl g hr hlb g1 g2 hrb ih1 ih2 =>
    intro rest _
    have ev1 := g.parse (rest := r :: (lb :: (c1 ++ (c2 ++ rb :: rest)))) (by omega) (.kind hr (by decide))
    have hnc : NotNext "case" (c2 ++ rb :: rest) := by
      refine NotNext.of_append ?_ (by rw [hrb]; decide)
      intro x r e
      rw [g2.head x r e]; decide
    have ev2 := ih1 [] [] (c2 ++ rb :: rest) hnc
    have ev3 : Ev (fun n => (d = none ∧ c2 = []) ∨ ∃ t e b c', d = some b ∧ c2 = t :: e :: c' ∧
        t.kind = "default" ∧ e.kind = ":" ∧ readBody n ctx (c' ++ rb :: rest) = .ok (b, []) (rb :: rest)) := by
      rcases ih2 with h | ⟨t, e, b, c', h1, h2, h3, h4, h5⟩
      · exact Ev.of fun _ => .inl h
      · exact (h5 (rb :: rest)).mono fun n h => .inr ⟨t, e, b, c', h1, h2, h3, h4, h⟩
    refine Ev.succ (Ev.succ ((ev1.and (ev2.and ev3)).mono fun n h => ?_))
    obtain ⟨h1, h2, h3⟩ := h
    have : t :: l :: c ++ r :: lb :: c1 ++ c2 ++ [rb] ++ rest =
      t :: (l :: (c ++ r :: (lb :: (c1 ++ (c2 ++ rb :: rest))))) := by simp
    rw [this]
    refine parseStatement_key (by rw [ht]; decide) (by rw [ht]; decide) ?_
    simp only [ht]
    unfold parseSwitch
    pstep expect_of ht
    pstep (rfl : P.peek (l :: _) = .ok (some l) _)
    simp only [List.head?_cons]
    pelse (show ¬ (l.kind = "word" ∧ l.content = "str") by rw [hl]; exact fun h => absurd h.1 (by decide))
    pstep (rfl : (pure false : P Bool) _ = .ok _ _)
    exact parseSwitch_tail hl hr hlb hrb h1 h2 h3
  | @switchStr t w l r lb rb v c cs c1 d c2 ht hw hw' hl g hr hlb g1 g2 hrb ih1 ih2 =>
    intro rest _
    have ev1 := g.parse (rest := r :: (lb :: (c1 ++ (c2 ++ rb :: rest)))) (by omega) (.kind hr (by decide))
    have hnc : NotNext "case" (c2 ++ rb :: rest) := by
      refine NotNext.of_append ?_ (by rw [hrb]; decide)
      intro x r e
      rw [g2.head x r e]; decide
    have ev2 := ih1 [] [] (c2 ++ rb :: rest) hnc
    have ev3 : Ev (fun n => (d = none ∧ c2 = []) ∨ ∃ t e b c', d = some b ∧ c2 = t :: e :: c' ∧
        t.kind = "default" ∧ e.kind = ":" ∧ readBody n ctx (c' ++ rb :: rest) = .ok (b, []) (rb :: rest)) := by
      rcases ih2 with h | ⟨t, e, b, c', h1, h2, h3, h4, h5⟩
      · exact Ev.of fun _ => .inl h
      · exact (h5 (rb :: rest)).mono fun n h => .inr ⟨t, e, b, c', h1, h2, h3, h4, h⟩
    refine Ev.succ (Ev.succ ((ev1.and (ev2.and ev3)).mono fun n h => ?_))
    obtain ⟨h1, h2, h3⟩ := h
    have : t :: w :: l :: c ++ r :: lb :: c1 ++ c2 ++ [rb] ++ rest =
      t :: (w :: (l :: (c ++ r :: (lb :: (c1 ++ (c2 ++ rb :: rest)))))) := by simp
    rw [this]
    refine parseStatement_key (by rw [ht]; decide) (by rw [ht]; decide) ?_
    simp only [ht]
    unfold parseSwitch
    pstep expect_of ht
    pstep (rfl : P.peek (w :: _) = .ok (some w) _)
    simp only [List.head?_cons]
    pthen (show w.kind = "word" ∧ w.content = "str" from ⟨hw, hw'⟩)
    pstep (rfl : P.get (w :: _) = .ok _ _)
    pstep (rfl : (pure true : P Bool) _ = .ok _ _)
    exact parseSwitch_tail hl hr hlb hrb h1 h2 h3
  | casesNil =>
    intro acc es rest hn
    refine Ev.succ (Ev.of fun n => ?_)
    unfold casesLoop
    pstep P.follows_of_not hn
    pelse Bool.false_ne_true
    simp
    rfl
  | @casesCons x c xs c' g _ ih1 ih2 =>
    intro acc es rest hn
    refine Ev.succ (((ih1 (c' ++ rest)).and (ih2 (acc ++ [x]) es rest hn)).mono fun n h => ?_)
    obtain ⟨h1, h2⟩ := h
    rw [List.append_assoc]
    obtain ⟨t, r, rfl, ht⟩ := g.head
    unfold casesLoop
    pstep P.follows_of ht
    pthen rfl
    pstep h1
    refine Eq.trans ?_ (h2.trans (by simp))
    show casesLoop n ctx (acc ++ [x]) (es ++ []) _ = _
    rw [List.append_nil]
  | @case t e vs c b c' ht g he _ ih =>
    intro rest
    have ev := caseValuesLoop_of g [] e (c' ++ rest) he
    refine Ev.succ ((ev.and (ih rest)).mono fun n h => ?_)
    obtain ⟨h1, h2⟩ := h
    have : t :: c ++ e :: c' ++ rest = t :: (c ++ e :: (c' ++ rest)) := by simp
    rw [this]
    unfold parseCase
    pstep expect_of ht
    pstep h1
    pstep expect_of he
    pstep h2
    rfl
  | dfltNone => exact .inl ⟨rfl, rfl⟩
  | dfltSome ht he _ ih => exact .inr ⟨_, _, _, _, rfl, rfl, ht, he, ih⟩
  | blockBody g ih =>
    intro rest _
    refine Ev.succ ((ih rest).mono fun n h => ?_)
    obtain ⟨t, r, rfl, ht⟩ := g.head
    unfold parseBlock
    pstep P.follows_of ht
    pthen rfl
    exact h
  | @blockStmt s o c g hn ih =>
    intro rest ho
    refine Ev.succ ((ih rest ho).mono fun n h => ?_)
    have hne := g.head.1
    obtain ⟨t, c, rfl⟩ := List.exists_cons_of_ne_nil hne
    unfold parseBlock
    pstep P.follows_of_not (NotNext.cons (hn _ _ rfl))
    pelse Bool.false_ne_true
    pstep h
    rfl
  | @body l r b c hl _ hr ih =>
    intro rest
    refine Ev.succ ((ih [] [] r rest hr).mono fun n h => ?_)
    have : l :: c ++ [r] ++ rest = l :: (c ++ r :: rest) := by simp
    rw [this]
    unfold readBody
    pstep expect_of hl
    pstep h
    pstep expect_of hr
    rfl
  | stmtsNil =>
    intro ss es r rest hr
    refine Ev.succ (Ev.of fun n => ?_)
    rw [List.nil_append, bodyLoop_close hr, List.append_nil]
  | @stmtsCons s o c b c' g g' ih1 ih2 =>
    intro ss es r rest hr
    have hne : ¬ ElseNext (c' ++ r :: rest) := by
      rintro ⟨x, r', e, hx⟩
      have : NotNext "else" (c' ++ r :: rest) :=
        NotNext.of_append (NextNotIn.notNext g'.head (by decide)) (by rw [hr]; decide)
      exact this _ _ e hx
    refine Ev.succ (((ih1 (c' ++ r :: rest) (fun _ => hne)).and (ih2 (ss ++ [s]) es r rest hr)).mono fun n h => ?_)
    obtain ⟨h1, h2⟩ := h
    have hh := g.head
    obtain ⟨t, c, rfl⟩ := List.exists_cons_of_ne_nil hh.1
    have ht : t.kind ≠ "}" := by
      have := hh.2 _ _ rfl
      rintro e
      rw [e] at this
      exact this (by decide)
    rw [List.append_assoc, List.cons_append, bodyLoop_step ht]
    rw [List.cons_append] at h1
    rw [h1]
    show bodyLoop n ctx (ss ++ [s]) (es ++ []) _ = _
    rw [List.append_nil, h2]
    simp

end Che
