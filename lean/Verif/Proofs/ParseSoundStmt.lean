import Verif.Proofs.ParseSound
/-!
# What the statement and module parsers accept is in the grammar
-/
namespace Che
open Spec

variable {α β : Type} {ctx : ParseCtx} {ts ts' : List Token}

theorem _root_.Che.Spec.TypeStart.mono {c rest : List Token} (h : TypeStart ctx c) :
    TypeStart ctx (c ++ rest) := by
  rcases h with ⟨t, r, rfl, h⟩ | ⟨t, r, rfl, h⟩ | ⟨a, b, d, r, rfl, h⟩
  · exact .inl ⟨t, _, rfl, h⟩
  · exact .inr (.inl ⟨t, _, rfl, h⟩)
  · exact .inr (.inr ⟨a, b, d, _, rfl, h⟩)

/-! ## Declarations -/

theorem formLoop_ok : ∀ {n : Nat} {node f : Form} {ts : List Token}, formLoop ctx n node ts = .ok f ts' →
    ∃ c is, ts = c ++ ts' ∧ Indexes ctx is c ∧ f = { node with indexes := node.indexes ++ is } := by
  intro n
  induction n with
  | zero => intro node f ts h; cases h
  | succ n ih =>
    intro node f ts h
    unfold formLoop at h
    pbind h with b ts1 h1
    rcases P.eat_ok h1 with ⟨rfl, l, rfl, hl⟩ | ⟨rfl, rfl, _⟩
    · rw [if_pos rfl] at h
      pbind h with o ts2 h2
      obtain ⟨rfl, rfl⟩ := P.peek_ok h2
      have fin : ∀ {e : Option Expr} {ts3 : List Token},
          (expect ctx "]" >>= fun _ => formLoop ctx n { node with indexes := node.indexes ++ [e] }) ts3
            = .ok f ts' →
          ∃ r c is, ts3 = r :: c ++ ts' ∧ r.kind = "]" ∧ Indexes ctx is c ∧
            f = { node with indexes := node.indexes ++ e :: is } := by
        intro e ts3 h
        pbind h with r ts4 h4
        obtain ⟨rfl, hr⟩ := expect_ok h4
        obtain ⟨c, is, rfl, g, rfl⟩ := ih h
        exact ⟨r, c, is, rfl, hr, g, by simp⟩
      cases ts1 with
      | nil =>
        simp only [List.head?_nil] at h
        pbind h with e ts3 h3
        obtain ⟨rfl, rfl⟩ := P.pure_ok h3
        obtain ⟨r, c, is, e, _⟩ := fin h
        cases e
      | cons t rest =>
        simp only [List.head?_cons] at h
        split at h
        · pbind h with e ts3 h3
          pbind h with o ts4 h4
          obtain ⟨rfl, rfl⟩ := P.pure_ok h4
          obtain ⟨c1, e1, g1⟩ := parseExpr_ok (by omega) h3
          obtain ⟨r, c, is, rfl, hr, g, rfl⟩ := fin h
          rw [e1]
          exact ⟨l :: c1 ++ r :: c, some e :: is, by simp, .size hl g1 hr g, rfl⟩
        · pbind h with o ts4 h4
          obtain ⟨rfl, rfl⟩ := P.pure_ok h4
          obtain ⟨r, c, is, e1, hr, g, rfl⟩ := fin h
          cases e1
          exact ⟨l :: t :: c, none :: is, by simp, .empty hl hr g, rfl⟩
    · rw [if_neg Bool.false_ne_true] at h
      obtain ⟨rfl, rfl⟩ := P.pure_ok h
      exact ⟨[], [], rfl, .nil, by simp⟩

theorem parseForm_ok {n : Nat} {f : Form} (h : parseForm n ctx ts = .ok f ts') :
    ∃ c, ts = c ++ ts' ∧ FormG ctx f c := by
  unfold parseForm at h
  pbind h with t ts1 h1
  obtain ⟨rfl, r, rfl⟩ := P.peekU_ok h1
  pbind h with k ts2 h2
  pbind h with w ts3 h3
  obtain ⟨c1, e1, g1, _⟩ := eatStars_ok h2
  obtain ⟨rfl, hw⟩ := expect_ok h3
  split at h
  · cases h
  rename_i hc
  obtain ⟨c2, is, rfl, g2, rfl⟩ := formLoop_ok h
  rw [← List.cons_append, ← List.append_assoc] at e1
  have hne : c1 ++ w :: c2 ≠ [] := by simp
  obtain ⟨x, c, ex⟩ := List.exists_cons_of_ne_nil hne
  rw [ex, List.cons_append] at e1
  injection e1 with e2 e3
  subst e2 e3
  exact ⟨t :: c, rfl, .mk g1 hw hc g2 ex⟩

theorem _root_.Che.Spec.FormG.ne_nil {f c} (h : FormG ctx f c) : c ≠ [] := by
  cases h; simp

/-- A declared form begins with a star or a word. -/
theorem _root_.Che.Spec.FormG.head {f : Form} {x : Token} {c : List Token} (h : FormG ctx f (x :: c)) :
    x.kind = "*" ∨ x.kind = "word" := by
  cases h with
  | mk g hw h1 h2 e =>
    rename_i c1 w is c2
    cases c1 with
    | nil => cases e; exact .inr hw
    | cons y c1 => cases e; exact .inl (g.2 _ (by simp))

/-- An optional initialiser. -/
theorem init_ok {n : Nat} {v : Option Expr} {b : Bool} {ts1 : List Token} (h1 : P.eat "=" ts = .ok b ts1)
    (h : (if b = true then (parseExpr n ctx 0 >>= fun e => (pure (some e) : P (Option Expr)))
      else pure none) ts1 = .ok v ts') : ∃ c, ts = c ++ ts' ∧ InitG ctx v c := by
  rcases P.eat_ok h1 with ⟨rfl, l, rfl, hl⟩ | ⟨rfl, rfl, _⟩
  · rw [if_pos rfl] at h
    pbind h with e ts2 h2
    obtain ⟨rfl, rfl⟩ := P.pure_ok h
    obtain ⟨c, rfl, g⟩ := parseExpr_ok (by omega) h2
    exact ⟨l :: c, rfl, .some hl g⟩
  · rw [if_neg Bool.false_ne_true] at h
    obtain ⟨rfl, rfl⟩ := P.pure_ok h
    exact ⟨[], rfl, .none⟩

theorem cons_of_append {t : Token} {r c rest : List Token} (hc : c ≠ []) (e : t :: r = c ++ rest) :
    ∃ c', c = t :: c' ∧ r = c' ++ rest := by
  cases c with
  | nil => exact absurd rfl hc
  | cons x c => rw [List.cons_append] at e; injection e with e1 e2; subst e1 e2; exact ⟨c, rfl, rfl⟩

theorem parseVarDecl_ok {n : Nat} {s : Stmt} (h : parseVarDecl n ctx ts = .ok s ts') :
    ∃ c d, ts = c ++ ts' ∧ s = .varDecl d ∧ VarG ctx d c ∧ (TypeStart ctx ts → TypeStart ctx c) := by
  unfold parseVarDecl at h
  pbind h with t ts1 h1
  obtain ⟨rfl, r, rfl⟩ := P.peekU_ok h1
  pbind h with ty ts2 h2
  pbind h with f ts3 h3
  pbind h with b ts4 h4
  have key : ∃ v c3 e, ts3 = c3 ++ e :: ts' ∧ e.kind = ";" ∧ InitG ctx v c3 ∧
      s = .varDecl ⟨t.pos, ty, f, v⟩ := by
    cases b with
    | true =>
      rw [if_pos rfl] at h
      pbind h with x ts5 h5
      pbind h with v ts6 h6
      obtain ⟨rfl, rfl⟩ := P.pure_ok h6
      pbind h with e ts7 h7
      obtain ⟨rfl, rfl⟩ := P.pure_ok h
      obtain ⟨rfl, he⟩ := expect_ok h7
      obtain ⟨c3, e3, g3⟩ := init_ok (v := some x) (ts' := e :: ts7) h4
        (by rw [if_pos rfl, P.bind_eq, h5]; rfl)
      exact ⟨_, c3, e, e3, he, g3, rfl⟩
    | false =>
      rw [if_neg Bool.false_ne_true] at h
      pbind h with v ts6 h6
      obtain ⟨rfl, rfl⟩ := P.pure_ok h6
      pbind h with e ts7 h7
      obtain ⟨rfl, rfl⟩ := P.pure_ok h
      obtain ⟨rfl, he⟩ := expect_ok h7
      obtain ⟨c3, e3, g3⟩ := init_ok (v := none) (ts' := e :: ts7) (n := n) (ctx := ctx) h4
        (by rw [if_neg Bool.false_ne_true]; rfl)
      exact ⟨_, c3, e, e3, he, g3, rfl⟩
  obtain ⟨v, c3, e, rfl, he, g3, rfl⟩ := key
  obtain ⟨c1, e1, g1⟩ := parseTypename_ok h2
  obtain ⟨c2, rfl, g2⟩ := parseForm_ok h3
  have e1' : t :: r = (c1 ++ c2 ++ c3 ++ [e]) ++ ts' := by rw [e1]; simp
  have hne : c1 ++ c2 ++ c3 ++ [e] ≠ [] := by simp
  obtain ⟨c, ec, er⟩ := cons_of_append hne e1'
  refine ⟨t :: c, _, by rw [er]; simp, rfl, .mk g1 g2 g3 he ec, ?_⟩
  intro hs
  rw [e1', ec] at hs
  rw [← ec] at hs ⊢
  have hs' : TypeStart ctx (c1 ++ c2 ++ c3 ++ e :: ts') := by simpa using hs
  have := (typeStart_append (by simp [g1.ne_nil]) (by rw [he]; decide) (by rw [he]; decide)).1 hs'
  exact this.mono

theorem parseReturn_ok {n : Nat} {s : Stmt} (h : parseReturn n ctx ts = .ok s ts') :
    ∃ c, ts = c ++ ts' ∧ StG ctx (.stmt s false) c := by
  unfold parseReturn at h
  pbind h with t ts1 h1
  obtain ⟨rfl, ht⟩ := expect_ok h1
  pbind h with e ts2 h2
  obtain ⟨rfl, r, rfl⟩ := P.peekU_ok h2
  split at h
  · rename_i he
    pbind h with o ts3 h3
    obtain ⟨rfl, rfl⟩ := P.get_ok h3
    obtain ⟨rfl, rfl⟩ := P.pure_ok h
    exact ⟨[t, e], rfl, .ret ht .none he⟩
  · pbind h with v ts3 h3
    pbind h with e' ts4 h4
    obtain ⟨rfl, rfl⟩ := P.pure_ok h
    obtain ⟨c, e1, g⟩ := parseExpr_ok (by omega) h3
    obtain ⟨rfl, he⟩ := expect_ok h4
    rw [e1]
    exact ⟨t :: c ++ [e'], by simp, .ret ht (.some g) he⟩

theorem parseForInit_ok {n : Nat} {i : Option ForInit} (h : parseForInit n ctx ts = .ok i ts') :
    ∃ c, ts = c ++ ts' ∧ ForInitG ctx i c := by
  unfold parseForInit at h
  pbind h with b ts1 h1
  obtain ⟨rfl, hf⟩ := P.follows_ok h1
  cases b with
  | true =>
    rw [if_pos rfl] at h
    obtain ⟨rfl, rfl⟩ := P.pure_ok h
    exact ⟨[], rfl, .none⟩
  | false =>
    rw [if_neg Bool.false_ne_true] at h
    pbind h with t ts2 h2
    obtain ⟨rfl, r, rfl⟩ := P.peekU_ok h2
    split at h
    · rename_i hw
      simp only [Bool.and_eq_true, decide_eq_true_eq] at hw
      pbind h with ty ts3 h3
      pbind h with f ts4 h4
      pbind h with q ts5 h5
      pbind h with v ts6 h6
      obtain ⟨rfl, rfl⟩ := P.pure_ok h
      obtain ⟨c1, e1, g1⟩ := parseTypename_ok h3
      obtain ⟨c2, rfl, g2⟩ := parseForm_ok h4
      obtain ⟨rfl, hq⟩ := expect_ok h5
      obtain ⟨c3, rfl, g3⟩ := parseExpr_ok (by omega) h6
      obtain ⟨c, rfl, rfl⟩ := cons_of_append g1.ne_nil e1
      exact ⟨t :: c ++ c2 ++ q :: c3, by simp, .decl hw g1 g2 hq g3⟩
    · rename_i hw
      simp only [Bool.and_eq_true, decide_eq_true_eq] at hw
      pbind h with v ts3 h3
      obtain ⟨rfl, rfl⟩ := P.pure_ok h
      obtain ⟨c, e1, g⟩ := parseExpr_ok (by omega) h3
      refine ⟨c, e1, .expr g ?_⟩
      rintro w r' rfl
      cases e1
      exact hw

theorem parseOptExpr_ok {n : Nat} {stop : String} {v : Option Expr}
    (h : parseOptExpr n ctx stop ts = .ok v ts') : ∃ c, ts = c ++ ts' ∧ OptG ctx v c := by
  unfold parseOptExpr at h
  pbind h with b ts1 h1
  obtain ⟨rfl, hf⟩ := P.follows_ok h1
  split at h
  · obtain ⟨rfl, rfl⟩ := P.pure_ok h
    exact ⟨[], rfl, .none⟩
  · pbind h with e ts2 h2
    obtain ⟨rfl, rfl⟩ := P.pure_ok h
    obtain ⟨c, e, g⟩ := parseExpr_ok (by omega) h2
    exact ⟨c, e, .some g⟩

theorem caseValuesLoop_ok : ∀ {n : Nat} {vs vs' : List CaseValue} {ts : List Token},
    caseValuesLoop ctx n vs ts = .ok vs' ts' →
    ∃ c new, ts = c ++ ts' ∧ vs' = vs ++ new ∧ ValuesG ctx new c := by
  intro n
  induction n with
  | zero => intro vs vs' ts h; cases h
  | succ n ih =>
    intro vs vs' ts h
    unfold caseValuesLoop at h
    pbind h with b ts1 h1
    obtain ⟨rfl, hf⟩ := P.follows_ok h1
    have fin : ∀ {v : CaseValue} {c ts2 : List Token}, ValueG ctx v c →
        (P.eat "," >>= fun b => if b = true then caseValuesLoop ctx n (vs ++ [v]) else pure (vs ++ [v])) ts2
          = .ok vs' ts' →
        ∃ c' new, c ++ ts2 = c' ++ ts' ∧ vs' = vs ++ new ∧ ValuesG ctx new c' := by
      intro v c ts2 g h
      pbind h with b ts3 h3
      rcases P.eat_ok h3 with ⟨rfl, t, rfl, ht⟩ | ⟨rfl, rfl, _⟩
      · rw [if_pos rfl] at h
        obtain ⟨c', new, rfl, rfl, g'⟩ := ih h
        exact ⟨c ++ t :: c', v :: new, by simp, by simp, .more g ht g'⟩
      · rw [if_neg Bool.false_ne_true] at h
        obtain ⟨rfl, rfl⟩ := P.pure_ok h
        exact ⟨c, [v], rfl, rfl, .one g⟩
    rcases hf with ⟨rfl, t, r, e, hk⟩ | ⟨rfl, hk⟩
    · rw [if_pos rfl] at h
      pbind h with id ts2 h2
      pbind h with v ts3 h3
      obtain ⟨rfl, rfl⟩ := P.pure_ok h3
      obtain ⟨c, rfl, g, _⟩ := readNsId_ok h2
      exact fin (.ident g) h
    · rw [if_neg Bool.false_ne_true] at h
      pbind h with l ts2 h2
      pbind h with v ts3 h3
      obtain ⟨rfl, rfl⟩ := P.pure_ok h3
      obtain ⟨t, rfl, hl⟩ := parseLiteral_ok h2
      rcases hl with ⟨hk, rfl⟩ | ⟨hk, rfl⟩ | ⟨hk, rfl⟩ | ⟨hk', _⟩
      · exact fin (c := [t]) (.string hk) h
      · exact fin (c := [t]) (.num hk) h
      · exact fin (c := [t]) (.char hk) h
      · exact absurd hk' (hk _ _ rfl)

/-! ## Statements -/

/-- An `else` comes next. -/
def ElseNext (ts : List Token) : Prop := ∃ t r, ts = t :: r ∧ t.kind = "else"

/-- Everything the statement parser accepts without an error with budget `n` is
in the grammar. -/
structure StmtS (ctx : ParseCtx) (n : Nat) : Prop where
  stmt : ∀ {ts s ts'}, parseStatement n ctx ts = .ok (s, []) ts' →
    ∃ c o, ts = c ++ ts' ∧ StG ctx (.stmt s o) c ∧ (o = true → ¬ ElseNext ts')
  while_ : ∀ {ts s ts'}, parseWhile n ctx ts = .ok (s, []) ts' →
    ∃ c o, ts = c ++ ts' ∧ StG ctx (.stmt s o) c ∧ (o = true → ¬ ElseNext ts')
  if_ : ∀ {ts s ts'}, parseIf n ctx ts = .ok (s, []) ts' →
    ∃ c o, ts = c ++ ts' ∧ StG ctx (.stmt s o) c ∧ (o = true → ¬ ElseNext ts')
  for_ : ∀ {ts s ts'}, parseFor n ctx ts = .ok (s, []) ts' →
    ∃ c o, ts = c ++ ts' ∧ StG ctx (.stmt s o) c ∧ (o = true → ¬ ElseNext ts')
  switch : ∀ {ts s ts'}, parseSwitch n ctx ts = .ok (s, []) ts' →
    ∃ c, ts = c ++ ts' ∧ StG ctx (.stmt s false) c
  cases_ : ∀ {cs es ts cs' ts'}, casesLoop n ctx cs es ts = .ok (cs', []) ts' →
    es = [] ∧ ∃ c new, ts = c ++ ts' ∧ cs' = cs ++ new ∧ StG ctx (.cases new) c
  case_ : ∀ {ts x ts'}, parseCase n ctx ts = .ok (x, []) ts' →
    ∃ c, ts = c ++ ts' ∧ StG ctx (.case x) c
  block : ∀ {ts b ts'}, parseBlock n ctx ts = .ok (b, []) ts' →
    ∃ c o, ts = c ++ ts' ∧ StG ctx (.block b o) c ∧ (o = true → ¬ ElseNext ts')
  body : ∀ {ts b ts'}, readBody n ctx ts = .ok (b, []) ts' →
    ∃ c, ts = c ++ ts' ∧ StG ctx (.body b) c
  bodyLoop : ∀ {ss es ts b ts'}, bodyLoop n ctx ss es ts = .ok (b, []) ts' →
    es = [] ∧ ∃ c new, ts = c ++ ts' ∧ b = ss ++ new ∧ StG ctx (.stmts new) c

theorem _root_.Che.Spec.StG.stmt_ne_nil {k : SCat} {c : List Token} (h : StG ctx k c) {s o}
    (hk : k = .stmt s o) : c ≠ [] := by
  cases h with
  | varDecl h _ => cases h; simp
  | _ => first | cases hk; done | simp

theorem StmtS.step {n : Nat} (ih : StmtS ctx n) : StmtS ctx (n + 1) where
  stmt := by
    intro ts s ts' h
    unfold parseStatement at h
    pbind h with b ts1 h1
    cases h1
    cases ts with
    | nil => cases h
    | cons t rest =>
    simp only [List.isEmpty_cons, Bool.not_false, Bool.not_true, Bool.false_eq_true, if_false] at h
    pbind h with b ts1 h1
    obtain ⟨rfl, hb⟩ := typeFollows_ok h1
    split at h
    · rename_i hbt
      pbind h with d ts2 h2
      obtain ⟨e, rfl⟩ := P.pure_ok h
      cases e
      obtain ⟨c, d, e, rfl, g, hs⟩ := parseVarDecl_ok h2
      exact ⟨c, false, e, .varDecl g (hs (hb.1 hbt)), by simp⟩
    rename_i hbt
    have hnt : ¬ TypeStart ctx (t :: rest) := fun hs => hbt (hb.2 hs)
    pbind h with t' ts2 h2
    obtain ⟨rfl, r, e⟩ := P.peekU_ok h2
    cases e
    by_cases k1 : t.kind = "break"
    · simp only [k1] at h
      pbind h with a ts3 h3
      cases P.getU_ok h3
      pbind h with e ts4 h4
      obtain ⟨rfl, he⟩ := expect_ok h4
      obtain ⟨e', rfl⟩ := P.pure_ok h
      cases e'
      exact ⟨[t, e], false, rfl, .brk k1 he, by simp⟩
    by_cases k2 : t.kind = "continue"
    · simp only [k2] at h
      pbind h with a ts3 h3
      cases P.getU_ok h3
      pbind h with e ts4 h4
      obtain ⟨rfl, he⟩ := expect_ok h4
      obtain ⟨e', rfl⟩ := P.pure_ok h
      cases e'
      exact ⟨[t, e], false, rfl, .cont k2 he, by simp⟩
    by_cases k3 : t.kind = "for"
    · simp only [k3] at h; exact ih.for_ h
    by_cases k4 : t.kind = "if"
    · simp only [k4] at h; exact ih.if_ h
    by_cases k5 : t.kind = "return"
    · simp only [k5] at h
      pbind h with a ts3 h3
      obtain ⟨e', rfl⟩ := P.pure_ok h
      cases e'
      obtain ⟨c, e, g⟩ := parseReturn_ok h3
      exact ⟨c, false, e, g, by simp⟩
    by_cases k6 : t.kind = "switch"
    · simp only [k6] at h
      obtain ⟨c, e, g⟩ := ih.switch h
      exact ⟨c, false, e, g, by simp⟩
    by_cases k7 : t.kind = "while"
    · simp only [k7] at h; exact ih.while_ h
    simp only at h
    pbind h with v ts3 h3
    pbind h with e ts4 h4
    obtain ⟨e', rfl⟩ := P.pure_ok h
    cases e'
    obtain ⟨c, e1, g⟩ := parseExpr_ok (by omega) h3
    obtain ⟨rfl, he⟩ := expect_ok h4
    rw [e1] at hnt ⊢
    refine ⟨c ++ [e], false, by simp, .expr g ?_ he, by simp⟩
    exact fun hs => hnt hs.mono
  while_ := by
    intro ts s ts' h
    unfold parseWhile at h
    pbind h with t ts1 h1
    pbind h with l ts2 h2
    pbind h with v ts3 h3
    pbind h with r ts4 h4
    pbind h with x ts5 h5
    obtain ⟨b, es⟩ := x
    obtain ⟨e', rfl⟩ := P.pure_ok h
    cases e'
    obtain ⟨rfl, ht⟩ := expect_ok h1
    obtain ⟨rfl, hl⟩ := expect_ok h2
    obtain ⟨c, rfl, g⟩ := parseExpr_ok (by omega) h3
    obtain ⟨rfl, hr⟩ := expect_ok h4
    obtain ⟨c', o, rfl, g', ho⟩ := ih.block h5
    exact ⟨t :: l :: c ++ r :: c', o, by simp, .while ht hl g hr g', ho⟩
  if_ := by
    intro ts s ts' h
    unfold parseIf at h
    pbind h with t ts1 h1
    pbind h with l ts2 h2
    pbind h with v ts3 h3
    pbind h with r ts4 h4
    pbind h with x ts5 h5
    obtain ⟨b, es⟩ := x
    pbind h with q ts6 h6
    obtain ⟨rfl, ht⟩ := expect_ok h1
    obtain ⟨rfl, hl⟩ := expect_ok h2
    obtain ⟨c, rfl, g⟩ := parseExpr_ok (by omega) h3
    obtain ⟨rfl, hr⟩ := expect_ok h4
    rcases P.eat_ok h6 with ⟨rfl, x, rfl, hx⟩ | ⟨rfl, rfl, hx⟩
    · rw [if_pos rfl] at h
      pbind h with y ts7 h7
      obtain ⟨b', es'⟩ := y
      obtain ⟨e', rfl⟩ := P.pure_ok h
      injection e' with e1 e2
      subst e1
      rw [List.append_eq_nil_iff] at e2
      obtain ⟨rfl, rfl⟩ := e2
      obtain ⟨c', o, rfl, g', ho⟩ := ih.block h5
      obtain ⟨c'', o', rfl, g'', ho'⟩ := ih.block h7
      cases o with
      | true => exact absurd ⟨x, _, rfl, hx⟩ (ho rfl)
      | false =>
        exact ⟨t :: l :: c ++ r :: c' ++ x :: c'', o', by simp, .ifElse ht hl g hr g' hx g'', ho'⟩
    · rw [if_neg Bool.false_ne_true] at h
      obtain ⟨e', rfl⟩ := P.pure_ok h
      cases e'
      obtain ⟨c', o, rfl, g', ho⟩ := ih.block h5
      refine ⟨t :: l :: c ++ r :: c', true, by simp, .if ht hl g hr g', ?_⟩
      rintro _ ⟨y, r', e, hy⟩
      exact hx _ _ e hy
  for_ := by
    intro ts s ts' h
    unfold parseFor at h
    pbind h with t ts1 h1
    pbind h with l ts2 h2
    pbind h with i ts3 h3
    pbind h with s1 ts4 h4
    pbind h with v ts5 h5
    pbind h with s2 ts6 h6
    pbind h with a ts7 h7
    pbind h with r ts8 h8
    pbind h with x ts9 h9
    obtain ⟨b, es⟩ := x
    obtain ⟨e', rfl⟩ := P.pure_ok h
    cases e'
    obtain ⟨rfl, ht⟩ := expect_ok h1
    obtain ⟨rfl, hl⟩ := expect_ok h2
    obtain ⟨c1, rfl, g1⟩ := parseForInit_ok h3
    obtain ⟨rfl, hs1⟩ := expect_ok h4
    obtain ⟨c2, rfl, g2⟩ := parseOptExpr_ok h5
    obtain ⟨rfl, hs2⟩ := expect_ok h6
    obtain ⟨c3, rfl, g3⟩ := parseOptExpr_ok h7
    obtain ⟨rfl, hr⟩ := expect_ok h8
    obtain ⟨c4, o, rfl, g4, ho⟩ := ih.block h9
    exact ⟨t :: l :: c1 ++ s1 :: c2 ++ s2 :: c3 ++ r :: c4, o, by simp,
      .for ht hl g1 hs1 g2 hs2 g3 hr g4, ho⟩
  switch := by
    intro ts s ts' h
    unfold parseSwitch at h
    pbind h with t ts1 h1
    obtain ⟨rfl, ht⟩ := expect_ok h1
    pbind h with o ts2 h2
    obtain ⟨rfl, rfl⟩ := P.peek_ok h2
    have fin : ∀ {isStr : Bool} {ts2 : List Token},
        (expect ctx "(" >>= fun _ => parseExpr n ctx 0 >>= fun value => expect ctx ")" >>= fun _ =>
          expect ctx "{" >>= fun _ => casesLoop n ctx [] [] >>= fun x =>
            P.follows "default" >>= fun b =>
              if b = true then
                (expect ctx "default" >>= fun _ => expect ctx ":" >>= fun _ => readBody n ctx >>= fun y =>
                  (pure (some y.1, x.2 ++ y.2) : P (Option Body × List Error)) >>= fun z =>
                    expect ctx "}" >>= fun _ =>
                    (pure (.switchS isStr value x.1 z.1, z.2) : P (Stmt × List Error)))
              else ((pure (none, x.2) : P (Option Body × List Error)) >>= fun z =>
                    expect ctx "}" >>= fun _ =>
                    (pure (.switchS isStr value x.1 z.1, z.2) : P (Stmt × List Error)))) ts2
          = .ok (s, []) ts' →
        ∃ l v c r lb cs c1 d c2 rb, ts2 = l :: c ++ r :: lb :: c1 ++ c2 ++ [rb] ++ ts' ∧
          s = .switchS isStr v cs d ∧ l.kind = "(" ∧ Ex ctx v c ∧ r.kind = ")" ∧ lb.kind = "{" ∧
          StG ctx (.cases cs) c1 ∧ StG ctx (.dflt d) c2 ∧ rb.kind = "}" := by
      intro isStr ts2 h
      pbind h with l ts3 h3
      pbind h with v ts4 h4
      pbind h with r ts5 h5
      pbind h with lb ts6 h6
      pbind h with x ts7 h7
      obtain ⟨cs, es⟩ := x
      obtain ⟨rfl, hl⟩ := expect_ok h3
      obtain ⟨c, rfl, g⟩ := parseExpr_ok (by omega) h4
      obtain ⟨rfl, hr⟩ := expect_ok h5
      obtain ⟨rfl, hlb⟩ := expect_ok h6
      pbind h with b ts8 h8
      obtain ⟨rfl, hf⟩ := P.follows_ok h8
      cases b with
      | true =>
        rw [if_pos rfl] at h
        pbind h with d ts9 h9
        pbind h with e ts10 h10
        pbind h with y ts11 h11
        pbind h with z ts12 h12
        obtain ⟨rfl, rfl⟩ := P.pure_ok h12
        pbind h with rb ts13 h13
        obtain ⟨e', rfl⟩ := P.pure_ok h
        injection e' with e1 e2
        subst e1
        rw [List.append_eq_nil_iff] at e2
        obtain ⟨b, es'⟩ := y
        obtain ⟨rfl, rfl⟩ := e2
        obtain ⟨_, c1, new, rfl, rfl, g1⟩ := ih.cases_ h7
        obtain ⟨rfl, hd⟩ := expect_ok h9
        obtain ⟨rfl, he⟩ := expect_ok h10
        obtain ⟨c2, rfl, g2⟩ := ih.body h11
        obtain ⟨rfl, hrb⟩ := expect_ok h13
        exact ⟨l, v, c, r, lb, cs, c1, _, d :: e :: c2, rb, by simp, rfl, hl, g, hr, hlb, g1,
          .dfltSome hd he g2, hrb⟩
      | false =>
        rw [if_neg Bool.false_ne_true] at h
        pbind h with z ts12 h12
        obtain ⟨rfl, rfl⟩ := P.pure_ok h12
        pbind h with rb ts13 h13
        obtain ⟨e', rfl⟩ := P.pure_ok h
        injection e' with e1 e2
        subst e1
        change es = [] at e2
        subst e2
        obtain ⟨_, c1, new, rfl, rfl, g1⟩ := ih.cases_ h7
        obtain ⟨rfl, hrb⟩ := expect_ok h13
        exact ⟨l, v, c, r, lb, cs, c1, _, [], rb, by simp, rfl, hl, g, hr, hlb, g1,
          .dfltNone, hrb⟩
    cases ts1 with
    | nil =>
      simp only [List.head?_nil] at h
      pbind h with b ts3 h3
      obtain ⟨rfl, rfl⟩ := P.pure_ok h3
      obtain ⟨l, v, c, r, lb, cs, c1, d, c2, rb, e, _⟩ := fin h
      simp at e
    | cons w rest =>
      simp only [List.head?_cons] at h
      split at h
      · rename_i hw
        pbind h with o ts3 h3
        obtain ⟨rfl, rfl⟩ := P.get_ok h3
        pbind h with b ts3 h3
        obtain ⟨rfl, rfl⟩ := P.pure_ok h3
        obtain ⟨l, v, c, r, lb, cs, c1, d, c2, rb, rfl, rfl, hl, g, hr, hlb, g1, g2, hrb⟩ := fin h
        exact ⟨t :: w :: l :: c ++ r :: lb :: c1 ++ c2 ++ [rb], by simp,
          .switchStr ht hw.1 hw.2 hl g hr hlb g1 g2 hrb⟩
      · pbind h with b ts3 h3
        obtain ⟨rfl, rfl⟩ := P.pure_ok h3
        obtain ⟨l, v, c, r, lb, cs, c1, d, c2, rb, e, rfl, hl, g, hr, hlb, g1, g2, hrb⟩ := fin h
        rw [e]
        exact ⟨t :: l :: c ++ r :: lb :: c1 ++ c2 ++ [rb], by simp,
          .switch ht hl g hr hlb g1 g2 hrb⟩
  cases_ := by
    intro cs es ts cs' ts' h
    unfold casesLoop at h
    pbind h with b ts1 h1
    obtain ⟨rfl, hf⟩ := P.follows_ok h1
    split at h
    · pbind h with x ts2 h2
      obtain ⟨x, es2⟩ := x
      obtain ⟨e, c', new, rfl, rfl, g⟩ := ih.cases_ h
      rw [List.append_eq_nil_iff] at e
      obtain ⟨rfl, rfl⟩ := e
      obtain ⟨c, rfl, g2⟩ := ih.case_ h2
      exact ⟨rfl, c ++ c', x :: new, by simp, by simp, .casesCons g2 g⟩
    · obtain ⟨e, rfl⟩ := P.pure_ok h
      cases e
      exact ⟨rfl, [], [], rfl, by simp, .casesNil⟩
  case_ := by
    intro ts x ts' h
    unfold parseCase at h
    pbind h with t ts1 h1
    pbind h with vs ts2 h2
    pbind h with e ts3 h3
    pbind h with y ts4 h4
    obtain ⟨b, es⟩ := y
    obtain ⟨e', rfl⟩ := P.pure_ok h
    cases e'
    obtain ⟨rfl, ht⟩ := expect_ok h1
    obtain ⟨c, new, rfl, rfl, g⟩ := caseValuesLoop_ok h2
    obtain ⟨rfl, he⟩ := expect_ok h3
    obtain ⟨c', rfl, g'⟩ := ih.body h4
    exact ⟨t :: c ++ e :: c', by simp, .case ht g he g'⟩
  block := by
    intro ts b ts' h
    unfold parseBlock at h
    pbind h with q ts1 h1
    obtain ⟨rfl, hf⟩ := P.follows_ok h1
    rcases hf with ⟨rfl, _⟩ | ⟨rfl, hk⟩
    · rw [if_pos rfl] at h
      obtain ⟨c, e, g⟩ := ih.body h
      exact ⟨c, false, e, .blockBody g, by simp⟩
    · rw [if_neg Bool.false_ne_true] at h
      pbind h with x ts2 h2
      obtain ⟨s, es⟩ := x
      obtain ⟨e', rfl⟩ := P.pure_ok h
      cases e'
      obtain ⟨c, o, rfl, g, ho⟩ := ih.stmt h2
      refine ⟨c, o, rfl, .blockStmt g ?_, ho⟩
      rintro t r rfl
      exact hk _ _ rfl
  body := by
    intro ts b ts' h
    unfold readBody at h
    pbind h with l ts1 h1
    pbind h with x ts2 h2
    pbind h with r ts3 h3
    obtain ⟨rfl, rfl⟩ := P.pure_ok h
    obtain ⟨rfl, hl⟩ := expect_ok h1
    obtain ⟨_, c, new, rfl, rfl, g⟩ := ih.bodyLoop h2
    obtain ⟨rfl, hr⟩ := expect_ok h3
    exact ⟨l :: c ++ [r], by simp, .body hl g hr⟩
  bodyLoop := by
    intro ss es ts b ts' h
    cases ts with
    | nil => rw [bodyLoop_nil] at h; cases h
    | cons t rest =>
    by_cases ht : t.kind = "}"
    · rw [bodyLoop_close ht] at h
      cases h
      exact ⟨rfl, [], [], rfl, by simp, .stmtsNil⟩
    · rw [bodyLoop_step ht] at h
      cases hs : parseStatement n ctx (t :: rest) with
      | ok x ts2 =>
        obtain ⟨s, es2⟩ := x
        rw [hs] at h
        obtain ⟨e, c', new, rfl, rfl, g⟩ := ih.bodyLoop h
        rw [List.append_eq_nil_iff] at e
        obtain ⟨rfl, rfl⟩ := e
        obtain ⟨c, o, e1, g2, _⟩ := ih.stmt hs
        exact ⟨rfl, c ++ c', s :: new, by rw [e1]; simp, by simp, .stmtsCons g2 g⟩
      | err e ts2 =>
        rw [hs] at h
        obtain ⟨e, _⟩ := ih.bodyLoop h
        simp at e
      | panic m => rw [hs] at h; cases h
      | diverge => rw [hs] at h; cases h

theorem StmtS.all : ∀ n, StmtS ctx n
  | 0 => by constructor <;> intros <;> cases ‹_ = PR.ok _ _›
  | n + 1 => (StmtS.all n).step

/-! ## Modules -/

theorem enumLoop_ok : ∀ {n : Nat} {es es' : List EnumEntry} {ts : List Token},
    enumLoop ctx n es ts = .ok es' ts' →
    ∃ c new, ts = c ++ ts' ∧ es' = es ++ new ∧ EnumsG ctx new c := by
  intro n
  induction n with
  | zero => intro es es' ts h; cases h
  | succ n ih =>
    intro es es' ts h
    unfold enumLoop at h
    pbind h with w ts1 h1
    obtain ⟨rfl, hw⟩ := expect_ok h1
    pbind h with b ts2 h2
    have fin : ∀ {v : Option Expr} {c ts3 : List Token}, InitG ctx v c → ts1 = c ++ ts3 →
        (P.eat "," >>= fun b =>
          if (!b) = true then (pure (es ++ [⟨w.content, v⟩]) : P (List EnumEntry))
          else P.follows "}" >>= fun b' =>
            if b' = true then (pure (es ++ [⟨w.content, v⟩]) : P (List EnumEntry))
            else enumLoop ctx n (es ++ [⟨w.content, v⟩])) ts3 = .ok es' ts' →
        ∃ c' new, w :: ts1 = c' ++ ts' ∧ es' = es ++ new ∧ EnumsG ctx new c' := by
      rintro v c ts3 g rfl h
      pbind h with b ts4 h4
      rcases P.eat_ok h4 with ⟨rfl, t, rfl, ht⟩ | ⟨rfl, rfl, _⟩
      · rw [if_neg (by decide)] at h
        pbind h with b' ts5 h5
        obtain ⟨rfl, _⟩ := P.follows_ok h5
        split at h
        · obtain ⟨rfl, rfl⟩ := P.pure_ok h
          exact ⟨w :: c ++ [t], _, by simp, rfl, .last hw g ht⟩
        · obtain ⟨c', new, rfl, rfl, g'⟩ := ih h
          exact ⟨w :: c ++ t :: c', _ :: new, by simp, by simp, .more hw g ht g'⟩
      · rw [if_pos (by decide)] at h
        obtain ⟨rfl, rfl⟩ := P.pure_ok h
        exact ⟨w :: c, _, by simp, rfl, .one hw g⟩
    cases b with
    | true =>
      rw [if_pos rfl] at h
      pbind h with x ts5 h5
      pbind h with v ts6 h6
      obtain ⟨rfl, rfl⟩ := P.pure_ok h6
      obtain ⟨c3, e3, g3⟩ := init_ok (v := some x) (ts' := ts5) h2
        (by rw [if_pos rfl, P.bind_eq, h5]; rfl)
      exact fin g3 e3 h
    | false =>
      rw [if_neg Bool.false_ne_true] at h
      pbind h with v ts6 h6
      obtain ⟨rfl, rfl⟩ := P.pure_ok h6
      obtain ⟨c3, e3, g3⟩ := init_ok (v := none) (n := n) (ctx := ctx) h2
        (by rw [if_neg Bool.false_ne_true]; rfl)
      exact fin g3 e3 h

theorem eat_semi {b : Bool} (h : P.eat ";" ts = .ok b ts') : ∃ c, ts = c ++ ts' ∧ SemiG c := by
  rcases P.eat_ok h with ⟨rfl, t, rfl, ht⟩ | ⟨rfl, rfl, _⟩
  · exact ⟨[t], rfl, .yes ht⟩
  · exact ⟨[], rfl, .no⟩

theorem parseEnum_ok {n : Nat} {p : Bool} {pos : Pos} {e : ModElem}
    (h : parseEnum n ctx p ts = .ok e ts') : ∃ c, ts = c ++ ts' ∧ ObjG ctx p pos e c := by
  unfold parseEnum at h
  pbind h with t ts1 h1
  obtain ⟨rfl, r, rfl⟩ := P.peekU_ok h1
  pbind h with t' ts2 h2
  pbind h with l ts3 h3
  pbind h with es ts4 h4
  pbind h with rb ts5 h5
  pbind h with q ts6 h6
  obtain ⟨rfl, rfl⟩ := P.pure_ok h
  obtain ⟨e2, ht⟩ := expect_ok h2
  cases e2
  obtain ⟨rfl, hl⟩ := expect_ok h3
  obtain ⟨c, new, rfl, rfl, g⟩ := enumLoop_ok h4
  obtain ⟨rfl, hr⟩ := expect_ok h5
  obtain ⟨c', rfl, g'⟩ := eat_semi h6
  exact ⟨t :: l :: c ++ rb :: c', by simp, .enum ht hl g hr g'⟩

theorem formsLoop_ok : ∀ {n : Nat} {fs fs' : List Form} {ts : List Token},
    formsLoop ctx n fs ts = .ok fs' ts' →
    ∃ c new, ts = c ++ ts' ∧ fs' = fs ++ new ∧ FormsG ctx new c := by
  intro n
  induction n with
  | zero => intro fs fs' ts h; cases h
  | succ n ih =>
    intro fs fs' ts h
    unfold formsLoop at h
    pbind h with b ts1 h1
    rcases P.eat_ok h1 with ⟨rfl, t, rfl, ht⟩ | ⟨rfl, rfl, _⟩
    · rw [if_pos rfl] at h
      pbind h with f ts2 h2
      obtain ⟨c, rfl, g⟩ := parseForm_ok h2
      obtain ⟨c', new, rfl, rfl, g'⟩ := ih h
      exact ⟨t :: c ++ c', f :: new, by simp, by simp, .cons ht g g'⟩
    · rw [if_neg Bool.false_ne_true] at h
      obtain ⟨rfl, rfl⟩ := P.pure_ok h
      exact ⟨[], [], rfl, by simp, .nil⟩

theorem parseTypeAndForms_ok {n : Nat} {f : TypeAndForms} (h : parseTypeAndForms n ctx ts = .ok f ts') :
    ∃ c e, ts = c ++ e :: ts' ∧ e.kind = ";" ∧ FieldsG ctx f c := by
  unfold parseTypeAndForms at h
  pbind h with b ts1 h1
  obtain ⟨rfl, _⟩ := P.follows_ok h1
  split at h
  · pbind h with t ts2 h2
    cases h
  · pbind h with ty ts2 h2
    pbind h with f ts3 h3
    pbind h with fs ts4 h4
    pbind h with e ts5 h5
    obtain ⟨rfl, rfl⟩ := P.pure_ok h
    obtain ⟨c1, rfl, g1⟩ := parseTypename_ok h2
    obtain ⟨c2, rfl, g2⟩ := parseForm_ok h3
    obtain ⟨c3, new, rfl, rfl, g3⟩ := formsLoop_ok h4
    obtain ⟨rfl, he⟩ := expect_ok h5
    exact ⟨c1 ++ c2 ++ c3, e, by simp, he, .mk g1 g2 g3⟩

theorem unionLoop_ok : ∀ {n : Nat} {fs fs' : List UnionField} {ts : List Token},
    unionLoop ctx n fs ts = .ok fs' ts' →
    ∃ c new, ts = c ++ ts' ∧ fs' = fs ++ new ∧ MembersG ctx new c := by
  intro n
  induction n with
  | zero => intro fs fs' ts h; cases h
  | succ n ih =>
    intro fs fs' ts h
    unfold unionLoop at h
    pbind h with b ts1 h1
    obtain ⟨rfl, _⟩ := P.follows_ok h1
    split at h
    · obtain ⟨rfl, rfl⟩ := P.pure_ok h
      exact ⟨[], [], rfl, by simp, .nil⟩
    · pbind h with ty ts2 h2
      pbind h with f ts3 h3
      pbind h with e ts4 h4
      obtain ⟨c1, rfl, g1⟩ := parseTypename_ok h2
      obtain ⟨c2, rfl, g2⟩ := parseForm_ok h3
      obtain ⟨rfl, he⟩ := expect_ok h4
      obtain ⟨c3, new, rfl, rfl, g3⟩ := ih h
      exact ⟨c1 ++ c2 ++ e :: c3, _ :: new, by simp, by simp, .cons g1 g2 he g3⟩

theorem structLoop_ok : ∀ {n : Nat} {fs fs' : List StructEntry} {ts : List Token},
    structLoop ctx n fs ts = .ok fs' ts' →
    ∃ c new, ts = c ++ ts' ∧ fs' = fs ++ new ∧ StructG ctx new c := by
  intro n
  induction n with
  | zero => intro fs fs' ts h; cases h
  | succ n ih =>
    intro fs fs' ts h
    unfold structLoop at h
    pbind h with o ts1 h1
    obtain ⟨rfl, rfl⟩ := P.peek_ok h1
    cases ts with
    | nil =>
      simp only [List.head?_nil] at h
      obtain ⟨rfl, rfl⟩ := P.pure_ok h
      exact ⟨[], [], rfl, by simp, .nil⟩
    | cons t rest =>
    simp only [List.head?_cons] at h
    by_cases k1 : t.kind = "}"
    · simp only [k1] at h
      obtain ⟨rfl, rfl⟩ := P.pure_ok h
      exact ⟨[], [], rfl, by simp, .nil⟩
    by_cases k2 : t.kind = "union"
    · simp only [k2] at h
      pbind h with u ts2 h2
      unfold parseUnion at h2
      pbind h2 with t' ts3 h3
      pbind h2 with l ts4 h4
      pbind h2 with ms ts5 h5
      pbind h2 with r ts6 h6
      pbind h2 with f ts7 h7
      pbind h2 with e ts8 h8
      obtain ⟨rfl, rfl⟩ := P.pure_ok h2
      obtain ⟨e3, ht⟩ := expect_ok h3
      cases e3
      obtain ⟨rfl, hl⟩ := expect_ok h4
      obtain ⟨c1, new, rfl, rfl, g1⟩ := unionLoop_ok h5
      obtain ⟨rfl, hr⟩ := expect_ok h6
      obtain ⟨c2, rfl, g2⟩ := parseForm_ok h7
      obtain ⟨rfl, he⟩ := expect_ok h8
      obtain ⟨c3, new', rfl, rfl, g3⟩ := ih h
      exact ⟨t :: l :: c1 ++ r :: c2 ++ e :: c3, _ :: new', by simp, by simp,
        .union ht hl g1 hr g2 he g3⟩
    · simp only at h
      pbind h with f ts2 h2
      obtain ⟨c, e, e1, he, g⟩ := parseTypeAndForms_ok h2
      obtain ⟨c', new, rfl, rfl, g'⟩ := ih h
      exact ⟨c ++ e :: c', _ :: new, by rw [e1]; simp, by simp, .plain g he g'⟩

theorem anonParamsLoop_ok : ∀ {n : Nat} {ps ps' : AnonParams} {ts : List Token}, ps.ellipsis = false →
    anonParamsLoop ctx n ps ts = .ok ps' ts' →
    ∃ c new b, ts = c ++ ts' ∧ ps' = ⟨b, ps.forms ++ new⟩ ∧ AnonsG ctx new b c := by
  intro n
  induction n with
  | zero => intro ps ps' ts _ h; cases h
  | succ n ih =>
    intro ps ps' ts hp h
    unfold anonParamsLoop at h
    pbind h with b ts1 h1
    rcases P.eat_ok h1 with ⟨rfl, t, rfl, ht⟩ | ⟨rfl, rfl, _⟩
    · rw [if_pos rfl] at h
      pbind h with b ts2 h2
      rcases P.eat_ok h2 with ⟨rfl, d, rfl, hd⟩ | ⟨rfl, rfl, _⟩
      · rw [if_pos rfl] at h
        obtain ⟨rfl, rfl⟩ := P.pure_ok h
        exact ⟨[t, d], [], true, rfl, by simp, .dots ht hd⟩
      · rw [if_neg Bool.false_ne_true] at h
        pbind h with f ts3 h3
        obtain ⟨c, rfl, g⟩ := parseBareTypeform_ok h3
        obtain ⟨c', new, b, rfl, rfl, g'⟩ := ih (by exact hp) h
        exact ⟨t :: c ++ c', f :: new, b, by simp, by simp, .cons ht g g'⟩
    · rw [if_neg Bool.false_ne_true] at h
      obtain ⟨rfl, rfl⟩ := P.pure_ok h
      refine ⟨[], [], false, rfl, ?_, .nil⟩
      rw [List.append_nil, ← hp]

theorem parseAnonParams_ok {n : Nat} {ps : AnonParams} (h : parseAnonParams n ctx ts = .ok ps ts') :
    ∃ c, ts = c ++ ts' ∧ AnonG ctx (some ps) c := by
  unfold parseAnonParams at h
  pbind h with l ts1 h1
  obtain ⟨rfl, hl⟩ := expect_ok h1
  pbind h with b ts2 h2
  obtain ⟨rfl, hf⟩ := P.follows_ok h2
  cases b with
  | true =>
    rw [if_pos rfl] at h
    pbind h with q ts3 h3
    obtain ⟨rfl, rfl⟩ := P.pure_ok h3
    pbind h with r ts4 h4
    obtain ⟨rfl, rfl⟩ := P.pure_ok h
    obtain ⟨rfl, hr⟩ := expect_ok h4
    exact ⟨[l, r], rfl, .empty hl hr⟩
  | false =>
    rw [if_neg Bool.false_ne_true] at h
    pbind h with f ts3 h3
    pbind h with q ts4 h4
    pbind h with r ts5 h5
    obtain ⟨rfl, rfl⟩ := P.pure_ok h
    obtain ⟨c, rfl, g⟩ := parseBareTypeform_ok h3
    obtain ⟨c', new, b, rfl, rfl, g'⟩ := anonParamsLoop_ok rfl h4
    obtain ⟨rfl, hr⟩ := expect_ok h5
    exact ⟨l :: c ++ c' ++ [r], by simp, .list hl g g' hr⟩

theorem parseTypedefSize_ok {k : Nat} (h : parseTypedefSize ctx ts = .ok k ts') :
    ∃ c, ts = c ++ ts' ∧ SizeG k c := by
  unfold parseTypedefSize at h
  pbind h with b ts1 h1
  rcases P.eat_ok h1 with ⟨rfl, l, rfl, hl⟩ | ⟨rfl, rfl, _⟩
  · rw [if_pos rfl] at h
    pbind h with t ts2 h2
    obtain ⟨rfl, ht⟩ := expect_ok h2
    cases hp : parseUsize t.content with
    | none => simp only [hp] at h; cases h
    | some m =>
      simp only [hp] at h
      pbind h with r ts3 h3
      obtain ⟨rfl, rfl⟩ := P.pure_ok h
      obtain ⟨rfl, hr⟩ := expect_ok h3
      exact ⟨[l, t, r], rfl, .some hl ht hp hr⟩
  · rw [if_neg Bool.false_ne_true] at h
    obtain ⟨rfl, rfl⟩ := P.pure_ok h
    exact ⟨[], rfl, .none⟩

theorem parseTypedef_ok {n : Nat} {p : Bool} {pos : Pos} {e : ModElem}
    (h : parseTypedef n ctx p ts = .ok e ts') : ∃ c, ts = c ++ ts' ∧ ObjG ctx p pos e c := by
  unfold parseTypedef at h
  pbind h with t ts1 h1
  obtain ⟨rfl, ht⟩ := expect_ok h1
  pbind h with b ts2 h2
  obtain ⟨rfl, _⟩ := P.follows_ok h2
  cases b with
  | true =>
    rw [if_pos rfl] at h
    pbind h with l ts3 h3
    pbind h with fs ts4 h4
    pbind h with r ts5 h5
    pbind h with w ts6 h6
    pbind h with e ts7 h7
    obtain ⟨rfl, rfl⟩ := P.pure_ok h
    obtain ⟨rfl, hl⟩ := expect_ok h3
    obtain ⟨c, new, rfl, rfl, g⟩ := structLoop_ok h4
    obtain ⟨rfl, hr⟩ := expect_ok h5
    obtain ⟨rfl, hw⟩ := expect_ok h6
    obtain ⟨rfl, he⟩ := expect_ok h7
    exact ⟨t :: l :: c ++ [r, w, e], by simp, .struct ht hl g hr hw he⟩
  | false =>
    rw [if_neg Bool.false_ne_true] at h
    pbind h with b ts3 h3
    rcases P.eat_ok h3 with ⟨rfl, s, rfl, hs⟩ | ⟨rfl, rfl, _⟩
    · rw [if_pos rfl] at h
      pbind h with a ts4 h4
      pbind h with b ts5 h5
      pbind h with e ts6 h6
      obtain ⟨rfl, rfl⟩ := P.pure_ok h
      obtain ⟨rfl, ha⟩ := expect_ok h4
      obtain ⟨rfl, hb⟩ := expect_ok h5
      obtain ⟨rfl, he⟩ := expect_ok h6
      exact ⟨[t, s, a, b, e], rfl, .alias ht hs ha hb he⟩
    · rw [if_neg Bool.false_ne_true] at h
      pbind h with ty ts4 h4
      pbind h with k ts5 h5
      pbind h with w ts6 h6
      pbind h with b ts7 h7
      obtain ⟨c1, rfl, g1⟩ := parseTypename_ok h4
      obtain ⟨c2, rfl, g2, _⟩ := eatStars_ok h5
      obtain ⟨rfl, hw⟩ := expect_ok h6
      obtain ⟨rfl, _⟩ := P.follows_ok h7
      have fin : ∀ {ps : Option AnonParams} {c3 ts8 : List Token}, AnonG ctx ps c3 → ts6 = c3 ++ ts8 →
          (parseTypedefSize ctx >>= fun size => expect ctx ";" (some "typedef") >>= fun _ =>
            (pure (.typedef ⟨p, w.content, ty, k, size, ps⟩) : P ModElem)) ts8 = .ok e ts' →
          ∃ c, t :: (c1 ++ (c2 ++ w :: ts6)) = c ++ ts' ∧ ObjG ctx p pos e c := by
        rintro ps c3 ts8 g3 rfl h
        pbind h with size ts9 h9
        pbind h with e ts10 h10
        obtain ⟨rfl, rfl⟩ := P.pure_ok h
        obtain ⟨c4, rfl, g4⟩ := parseTypedefSize_ok h9
        obtain ⟨rfl, he⟩ := expect_ok h10
        exact ⟨t :: c1 ++ c2 ++ w :: c3 ++ c4 ++ [e], by simp, .typedef ht g1 g2 hw g3 g4 he⟩
      cases b with
      | true =>
        rw [if_pos rfl] at h
        pbind h with ps ts8 h8
        pbind h with o ts9 h9
        obtain ⟨rfl, rfl⟩ := P.pure_ok h9
        obtain ⟨c3, e3, g3⟩ := parseAnonParams_ok h8
        exact fin g3 e3 h
      | false =>
        rw [if_neg Bool.false_ne_true] at h
        pbind h with o ts9 h9
        obtain ⟨rfl, rfl⟩ := P.pure_ok h9
        exact fin .none rfl h

/-- What may stand after a comma that ends a function parameter. -/
def ParamNext (ctx : ParseCtx) (ts : List Token) : Prop :=
  TypeStart ctx ts ∨ ∃ t r, ts = t :: r ∧ t.kind = "..."

theorem paramFormsLoop_ok : ∀ {n : Nat} {fs fs' : List Form} {ts : List Token},
    paramFormsLoop ctx n fs ts = .ok fs' ts' →
    (∃ c new, ts = c ++ ts' ∧ fs' = fs ++ new ∧ ParamFormsG ctx new c) ∧
      ∀ t r, ts' = t :: r → t.kind = "," → ParamNext ctx r := by
  intro n
  induction n with
  | zero => intro fs fs' ts h; cases h
  | succ n ih =>
    intro fs fs' ts h
    unfold paramFormsLoop at h
    pbind h with b ts1 h1
    obtain ⟨rfl, hf⟩ := P.follows_ok h1
    rcases hf with ⟨rfl, t, r, rfl, ht⟩ | ⟨rfl, hk⟩
    · rw [if_pos rfl] at h
      pbind h with t' ts2 h2
      cases P.getU_ok h2
      pbind h with b1 ts3 h3
      obtain ⟨rfl, hb1⟩ := typeFollows_ok h3
      pbind h with b2 ts4 h4
      obtain ⟨rfl, hb2⟩ := P.follows_ok h4
      split at h
      · rename_i hb
        pbind h with u ts5 h5
        cases h5
        obtain ⟨rfl, rfl⟩ := P.pure_ok h
        refine ⟨⟨[], [], rfl, by simp, .nil⟩, ?_⟩
        rintro t'' r' e _
        cases e
        rw [Bool.or_eq_true] at hb
        rcases hb with hb | hb
        · exact .inl (hb1.1 hb)
        · rcases hb2 with ⟨_, hb2⟩ | ⟨hb2, _⟩
          · exact .inr hb2
          · rw [hb] at hb2; cases hb2
      · rename_i hb
        pbind h with f ts5 h5
        obtain ⟨c, e1, g⟩ := parseForm_ok h5
        obtain ⟨⟨c', new, rfl, rfl, g'⟩, hn⟩ := ih h
        obtain ⟨x, c, rfl⟩ := List.exists_cons_of_ne_nil g.ne_nil
        refine ⟨⟨t :: x :: c ++ c', f :: new, by rw [e1]; simp, by simp, .cons ht g ?_ g'⟩, hn⟩
        intro hw
        apply hb
        rw [Bool.or_eq_true]
        left
        rw [hb1, e1]
        exact .inr (.inl ⟨x, _, rfl, hw⟩)
    · rw [if_neg Bool.false_ne_true] at h
      obtain ⟨rfl, rfl⟩ := P.pure_ok h
      refine ⟨⟨[], [], rfl, by simp, .nil⟩, ?_⟩
      rintro t r rfl ht
      exact absurd ht (hk _ _ rfl)

/-- After a whole type name, only the type name decides. -/
theorem typeStart_type {ty : Typename} {c rest : List Token} (g : TypeG ctx ty c)
    (hd : ∀ t r, rest = t :: r → t.kind ≠ ".") : TypeStart ctx (c ++ rest) ↔ TypeStart ctx c := by
  refine ⟨?_, TypeStart.mono⟩
  have one : ∀ {w : Token}, w.kind = "word" → TypeStart ctx (w :: rest) → TypeStart ctx [w] := by
    intro w hw h
    rcases h with ⟨t, r, e, h⟩ | ⟨t, r, e, h⟩ | ⟨a, b, d, r, e, _, hb, _⟩
    · cases e; exact .inl ⟨_, _, rfl, h⟩
    · cases e; exact .inr (.inl ⟨_, _, rfl, h⟩)
    · cases e; exact absurd hb (hd _ _ rfl)
  intro h
  cases g with
  | const hc _ => exact .inl ⟨_, _, rfl, hc⟩
  | plain g =>
    cases g with
    | plain hw => exact one hw h
    | qualified hw hi hd' hb =>
      rcases h with ⟨t, r, e, h⟩ | ⟨t, r, e, h⟩ | ⟨a, b, d, r, e, h⟩
      · cases e; exact .inl ⟨_, _, rfl, h⟩
      · cases e; exact .inr (.inl ⟨_, _, rfl, h⟩)
      · cases e; exact .inr (.inr ⟨_, _, _, _, rfl, h⟩)

theorem parseFuncParam_ok {n : Nat} {p : TypeAndForms} (h : parseFuncParam n ctx ts = .ok p ts')
    (hs : TypeStart ctx ts) : (∃ c, ts = c ++ ts' ∧ ParamG ctx p c) ∧
      ∀ t r, ts' = t :: r → t.kind = "," → ParamNext ctx r := by
  unfold parseFuncParam at h
  pbind h with ty ts1 h1
  pbind h with f ts2 h2
  pbind h with fs ts3 h3
  obtain ⟨rfl, rfl⟩ := P.pure_ok h
  obtain ⟨c1, rfl, g1⟩ := parseTypename_ok h1
  obtain ⟨c2, rfl, g2⟩ := parseForm_ok h2
  obtain ⟨⟨c3, new, rfl, rfl, g3⟩, hn⟩ := paramFormsLoop_ok h3
  refine ⟨⟨c1 ++ c2 ++ c3, by simp, .mk g1 g2 g3 ?_⟩, hn⟩
  rw [List.append_assoc]
  refine TypeStart.mono ((typeStart_type g1 ?_).1 hs)
  obtain ⟨x, c, rfl⟩ := List.exists_cons_of_ne_nil g2.ne_nil
  rintro t r e
  cases e
  rcases g2.head with h | h <;> rw [h] <;> decide

theorem paramsLoop_ok : ∀ {n : Nat} {ps ps' : List TypeAndForms} {ts ts1 : List Token} {b : Bool},
    paramsLoop ctx n ps ts = .ok ps' ts1 → P.eat "..." ts1 = .ok b ts' →
    ∃ c new, ts = c ++ ts' ∧ ps' = ps ++ new ∧ ParamsG ctx new b c ∧ (ParamNext ctx ts → c ≠ []) := by
  intro n
  induction n with
  | zero => intro ps ps' ts ts1 b h; cases h
  | succ n ih =>
    intro ps ps' ts ts1 b h he
    unfold paramsLoop at h
    pbind h with q ts2 h2
    obtain ⟨rfl, hq⟩ := typeFollows_ok h2
    cases q with
    | true =>
      rw [if_pos rfl] at h
      pbind h with p ts3 h3
      obtain ⟨⟨c, rfl, g⟩, hn⟩ := parseFuncParam_ok h3 (hq.1 rfl)
      have hc : c ≠ [] := by
        cases g with
        | mk g _ _ _ => simp [g.ne_nil]
      pbind h with q' ts4 h4
      rcases P.eat_ok h4 with ⟨rfl, t, rfl, ht⟩ | ⟨rfl, rfl, _⟩
      · rw [if_neg (by decide)] at h
        obtain ⟨c', new, rfl, rfl, g', hc'⟩ := ih h he
        obtain ⟨x, c', rfl⟩ := List.exists_cons_of_ne_nil (hc' (hn _ _ rfl ht))
        exact ⟨c ++ t :: x :: c', p :: new, by simp, by simp, .more g ht g', by simp⟩
      · rw [if_pos (by decide)] at h
        obtain ⟨rfl, rfl⟩ := P.pure_ok h
        rcases P.eat_ok he with ⟨rfl, d, rfl, hd⟩ | ⟨rfl, rfl, _⟩
        · exact ⟨c ++ [d], [p], by simp, rfl, .oneDots g hd, by simp⟩
        · exact ⟨c, [p], rfl, rfl, .one g, fun _ => hc⟩
    | false =>
      rw [if_neg Bool.false_ne_true] at h
      obtain ⟨rfl, rfl⟩ := P.pure_ok h
      have hnt : ¬ TypeStart ctx ts := fun hs => absurd (hq.2 hs) Bool.false_ne_true
      rcases P.eat_ok he with ⟨rfl, d, rfl, hd⟩ | ⟨rfl, rfl, hd⟩
      · exact ⟨[d], [], by simp, by simp, .dots hd, by simp⟩
      · refine ⟨[], [], rfl, by simp, .none, ?_⟩
        rintro (h | ⟨t, r, e, h⟩)
        · exact absurd h hnt
        · exact absurd h (hd _ _ e)

theorem parseModuleObject_ok {n : Nat} {e : ModElem} (h : parseModuleObject n ctx ts = .ok (e, []) ts') :
    ∃ c, ts = c ++ ts' ∧ ElemG ctx e c := by
  unfold parseModuleObject at h
  pbind h with t ts1 h1
  obtain ⟨rfl, r, rfl⟩ := P.peekU_ok h1
  pbind h with p ts2 h2
  have hp : ∃ c1, t :: r = c1 ++ ts2 ∧ PubG p c1 := by
    rcases P.eat_ok h2 with ⟨rfl, x, e, hx⟩ | ⟨rfl, rfl, _⟩
    · exact ⟨[x], e, .yes hx⟩
    · exact ⟨[], rfl, .no⟩
  obtain ⟨c1, e1, g1⟩ := hp
  have fin : ∀ {c2 : List Token}, c2 ≠ [] → ts2 = c2 ++ ts' → ObjG ctx p t.pos e c2 →
      ∃ c, t :: r = c ++ ts' ∧ ElemG ctx e c := by
    rintro c2 hne rfl g
    rw [← List.append_assoc] at e1
    obtain ⟨c, ec, er⟩ := cons_of_append (by simp [hne]) e1
    exact ⟨t :: c, by rw [er]; rfl, .obj g1 g ec⟩
  pbind h with b ts3 h3
  obtain ⟨rfl, _⟩ := P.follows_ok h3
  split at h
  · pbind h with x ts4 h4
    obtain ⟨e', rfl⟩ := P.pure_ok h
    cases e'
    obtain ⟨c2, e2, g2⟩ := parseEnum_ok (pos := t.pos) h4
    refine fin ?_ e2 g2
    cases g2 <;> simp
  pbind h with b ts4 h4
  obtain ⟨rfl, _⟩ := P.follows_ok h4
  split at h
  · pbind h with x ts5 h5
    obtain ⟨e', rfl⟩ := P.pure_ok h
    cases e'
    obtain ⟨c2, e2, g2⟩ := parseTypedef_ok (pos := t.pos) h5
    refine fin ?_ e2 g2
    cases g2 <;> simp
  pbind h with ty ts5 h5
  pbind h with f ts6 h6
  pbind h with x ts7 h7
  obtain ⟨rfl, r', rfl⟩ := P.peekU_ok h7
  obtain ⟨c2, rfl, g2⟩ := parseTypename_ok h5
  obtain ⟨c3, rfl, g3⟩ := parseForm_ok h6
  split at h
  · unfold parseFuncDecl at h
    pbind h with l ts8 h8
    pbind h with ps ts9 h9
    pbind h with v ts10 h10
    pbind h with rp ts11 h11
    pbind h with y ts12 h12
    obtain ⟨b, es⟩ := y
    obtain ⟨e', rfl⟩ := P.pure_ok h
    cases e'
    obtain ⟨e8, hl⟩ := expect_ok h8
    cases e8
    obtain ⟨c4, new, rfl, rfl, g4, _⟩ := paramsLoop_ok h9 h10
    obtain ⟨rfl, hr⟩ := expect_ok h11
    obtain ⟨c5, o, rfl, g5, _⟩ := (StmtS.all n).block h12
    exact fin (c2 := c2 ++ c3 ++ x :: c4 ++ rp :: c5) (by simp) (by simp) (.func g2 g3 hl g4 hr g5)
  · pbind h with q ts8 h8
    obtain ⟨e8, hq⟩ := expect_ok h8
    cases e8
    split at h
    · cases h
    rename_i hpub
    pbind h with v ts9 h9
    pbind h with s ts10 h10
    obtain ⟨e', rfl⟩ := P.pure_ok h
    cases e'
    obtain ⟨c4, rfl, g4⟩ := parseExpr_ok (by omega) h9
    obtain ⟨rfl, hs⟩ := expect_ok h10
    exact fin (c2 := c2 ++ c3 ++ x :: c4 ++ [s]) (by simp) (by simp)
      (.var (by simpa using hpub) g2 g3 hq g4 hs)

theorem splitAtSpace_some {s a b : List Char} (h : splitAtSpace s = some (a, b)) :
    s = a ++ b ∧ ' ' ∉ a ∧ ∃ v, b = ' ' :: v := by
  induction s generalizing a with
  | nil => cases h
  | cons c cs ih =>
    unfold splitAtSpace at h
    split at h
    · rename_i hc
      cases h
      exact ⟨rfl, by simp, cs, by rw [hc]⟩
    · rename_i hc
      cases hs : splitAtSpace cs with
      | none => rw [hs] at h; cases h
      | some x =>
        obtain ⟨a', b'⟩ := x
        rw [hs] at h
        cases h
        obtain ⟨rfl, hn, hv⟩ := ih hs
        refine ⟨rfl, ?_, hv⟩
        simp only [List.mem_cons, not_or]
        exact ⟨fun e => hc e.symm, hn⟩

theorem parseCompatMacro_ok {e : ModElem} (h : parseCompatMacro ctx ts = .ok e ts') :
    ∃ c, ts = c ++ ts' ∧ ElemG ctx e c := by
  unfold parseCompatMacro at h
  pbind h with t ts1 h1
  obtain ⟨rfl, ht⟩ := expect_ok h1
  cases hs : splitAtSpace t.content.toList with
  | none => simp only [hs] at h; cases h
  | some x =>
    obtain ⟨nm, val⟩ := x
    simp only [hs] at h
    obtain ⟨e1, hn, v, rfl⟩ := splitAtSpace_some hs
    cases nm with
    | nil => cases h
    | cons ch nm =>
      by_cases hc : ch.utf8Size = 1
      · have hd : dropBytes 1 (ch :: nm) = some nm := by
          simp [dropBytes, dropBytes.go, hc]
        simp only [hd] at h
        obtain ⟨rfl, rfl⟩ := P.pure_ok h
        simp only [List.mem_cons, not_or] at hn
        exact ⟨[t], rfl, .define ht e1 (fun e => hn.1 e.symm) hc hn.2⟩
      · have hd : dropBytes 1 (ch :: nm) = none := by
          have := Char.utf8Size_pos ch
          have : ¬ ch.utf8Size ≤ 1 := by omega
          simp [dropBytes, dropBytes.go, this]
        simp only [hd] at h
        cases h

theorem finishModule_ok {objs : List ModElem} {errs : List Error} {m : Module}
    (h : finishModule objs errs = .ok m) :
    errs = [] ∧ m = { elements := objs, exports := getExports objs } := by
  unfold finishModule at h
  split at h
  · cases h
  · rename_i hl
    cases h
    exact ⟨by cases errs <;> simp_all, rfl⟩

theorem moduleLoop_ok : ∀ {n : Nat} {objs : List ModElem} {errs : List Error} {ts : List Token} {m : Module},
    moduleLoop ctx n objs errs ts = .ok m →
    errs = [] ∧ ∃ new, ModG ctx new ts ∧ m = { elements := objs ++ new, exports := getExports (objs ++ new) } := by
  intro n
  induction n with
  | zero => intro objs errs ts m h; cases h
  | succ n ih =>
    intro objs errs ts m h
    cases ts with
    | nil =>
      obtain ⟨rfl, rfl⟩ := finishModule_ok h
      exact ⟨rfl, [], .nil, by simp⟩
    | cons t rest =>
    unfold moduleLoop at h
    by_cases k1 : t.kind = "import"
    · simp only [k1] at h
      obtain ⟨rfl, new, g, rfl⟩ := ih h
      exact ⟨rfl, new, .skip k1 g, rfl⟩
    by_cases k2 : t.kind = "macro"
    · simp only [k2] at h
      cases hm : parseCompatMacro ctx (t :: rest) with
      | ok e ts1 =>
        simp only [hm] at h
        obtain ⟨rfl, new, g, rfl⟩ := ih h
        obtain ⟨c, e1, g1⟩ := parseCompatMacro_ok hm
        rw [e1]
        exact ⟨rfl, e :: new, .cons g1 g, by simp⟩
      | err e ts1 =>
        simp only [hm] at h
        obtain ⟨e, _⟩ := finishModule_ok h
        simp at e
      | panic s => simp only [hm] at h; cases h
      | diverge => simp only [hm] at h; cases h
    · simp only at h
      cases hm : parseModuleObject n ctx (t :: rest) with
      | ok x ts1 =>
        obtain ⟨e, es⟩ := x
        simp only [hm] at h
        obtain ⟨e1, new, g, rfl⟩ := ih h
        rw [List.append_eq_nil_iff] at e1
        obtain ⟨rfl, rfl⟩ := e1
        obtain ⟨c, e1, g1⟩ := parseModuleObject_ok hm
        rw [e1]
        exact ⟨rfl, e :: new, .cons g1 g, by simp⟩
      | err e ts1 =>
        simp only [hm] at h
        obtain ⟨e, _⟩ := finishModule_ok h
        simp at e
      | panic s => simp only [hm] at h; cases h
      | diverge => simp only [hm] at h; cases h

/-- A parsed module is in the grammar. -/
theorem parseModule_ok {n : Nat} {m : Module} (h : parseModule n ctx ts = .ok m) :
    ModG ctx m.elements ts ∧ m.exports = getExports m.elements := by
  obtain ⟨_, new, g, rfl⟩ := moduleLoop_ok h
  exact ⟨by simpa using g, rfl⟩

end Che
