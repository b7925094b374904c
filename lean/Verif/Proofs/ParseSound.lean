import Verif.Spec.Grammar
import Verif.Proofs.ParseStmt
/-!
# What the expression parser accepts is in the grammar
-/
namespace Che
open Spec

variable {α β : Type} {ts ts' : List Token}

/-! ## Reading successful calls -/

theorem P.bind_ok {m : P α} {f : α → P β} {b : β} (h : (m >>= f) ts = .ok b ts') :
    ∃ a ts1, m ts = .ok a ts1 ∧ f a ts1 = .ok b ts' := by
  rw [P.bind_eq] at h
  cases hm : m ts with
  | ok a ts1 => rw [hm] at h; exact ⟨a, ts1, rfl, h⟩
  | err e ts1 => rw [hm] at h; cases h
  | panic s => rw [hm] at h; cases h
  | diverge => rw [hm] at h; cases h

/-- Take a successful sequence apart. -/
macro "pbind " h:ident " with " a:ident t:ident h1:ident : tactic =>
  `(tactic| (replace $h:ident := P.bind_ok $h; obtain ⟨$a:ident, $t:ident, $h1:ident, $h:ident⟩ := $h:ident))

theorem P.pure_ok {a b : α} (h : (pure a : P α) ts = .ok b ts') : a = b ∧ ts = ts' := by
  cases h; exact ⟨rfl, rfl⟩

theorem expect_ok {ctx : ParseCtx} {k : String} {c : Option String} {t : Token}
    (h : expect ctx k c ts = .ok t ts') : ts = t :: ts' ∧ t.kind = k := by
  cases ts with
  | nil => cases h
  | cons x rest =>
    unfold expect at h
    by_cases hk : x.kind = k
    · simp only [hk, ne_eq, not_true_eq_false, if_false] at h
      cases h; exact ⟨rfl, hk⟩
    · simp only [hk, ne_eq, not_false_eq_true, if_true] at h
      cases hs : tokenToString x <;> rw [hs] at h <;> cases h

theorem P.eat_ok {k : String} {b : Bool} (h : P.eat k ts = .ok b ts') :
    (b = true ∧ ∃ t, ts = t :: ts' ∧ t.kind = k) ∨
    (b = false ∧ ts = ts' ∧ ∀ t r, ts = t :: r → t.kind ≠ k) := by
  cases ts with
  | nil => cases h; exact .inr ⟨rfl, rfl, by simp⟩
  | cons x rest =>
    unfold P.eat at h
    by_cases hk : x.kind = k
    · simp [hk] at h; exact .inl ⟨h.1, x, by rw [h.2], hk⟩
    · simp [hk] at h
      refine .inr ⟨h.1, h.2, ?_⟩
      intro t r e; cases e; exact hk

theorem P.follows_ok {k : String} {b : Bool} (h : P.follows k ts = .ok b ts') :
    ts = ts' ∧ ((b = true ∧ ∃ t r, ts = t :: r ∧ t.kind = k) ∨
      (b = false ∧ ∀ t r, ts = t :: r → t.kind ≠ k)) := by
  cases ts with
  | nil => cases h; exact ⟨rfl, .inr ⟨rfl, by simp⟩⟩
  | cons x rest =>
    unfold P.follows at h
    by_cases hk : x.kind = k
    · simp [hk] at h; exact ⟨h.2, .inl ⟨h.1, x, rest, rfl, hk⟩⟩
    · have hb : (x.kind == k) = false := by simpa using hk
      simp only [hb] at h
      cases h
      exact ⟨rfl, .inr ⟨rfl, by intro t r e; cases e; exact hk⟩⟩

theorem P.peek_ok {o : Option Token} (h : P.peek ts = .ok o ts') : o = ts.head? ∧ ts = ts' := by
  cases h; exact ⟨rfl, rfl⟩

theorem P.peekU_ok {s : String} {t : Token} (h : P.peekU s ts = .ok t ts') :
    ts = ts' ∧ ∃ r, ts = t :: r := by
  cases ts with
  | nil => cases h
  | cons x r => cases h; exact ⟨rfl, r, rfl⟩

theorem P.getU_ok {s : String} {t : Token} (h : P.getU s ts = .ok t ts') : ts = t :: ts' := by
  cases ts with
  | nil => cases h
  | cons x r => cases h; rfl

theorem P.get_ok {o : Option Token} {t : Token} {r : List Token} (h : P.get (t :: r) = .ok o ts') :
    o = some t ∧ r = ts' := by
  cases h; exact ⟨rfl, rfl⟩

theorem P.err_ok {m : String} {p : Pos} {a : α} (h : (P.err m p : P α) ts = .ok a ts') : False := by
  cases h

theorem P.panic_ok {m : String} {a : α} (h : (P.panic m : P α) ts = .ok a ts') : False := by cases h

theorem P.diverge_ok {a : α} (h : (P.diverge : P α) ts = .ok a ts') : False := by cases h

/-! ## Names and types -/

/-- The tokens go on with a dot and a word. -/
def DotWord (ts : List Token) : Prop := ∃ d b r, ts = d :: b :: r ∧ d.kind = "." ∧ b.kind = "word"

theorem readNsId_ok {ctx : ParseCtx} {n : NsName} (h : readNsId ctx ts = .ok n ts') :
    ∃ c, ts = c ++ ts' ∧ NsId ctx n c ∧ (NsWord ctx c → ¬ DotWord ts') := by
  unfold readNsId at h
  pbind h with a ts1 h1
  obtain ⟨rfl, hk⟩ := expect_ok h1
  split at h
  · rename_i dot b rest hi
    by_cases hd : dot.kind = "." ∧ b.kind = "word"
    · simp only [hd, and_self, if_true] at h
      cases h
      refine ⟨[a, dot, b], rfl, .qualified hk hi hd.1 hd.2, ?_⟩
      rintro ⟨w, e, _⟩; cases e
    · rw [if_neg hd] at h
      cases h
      refine ⟨[a], rfl, .plain hk, fun _ => ?_⟩
      rintro ⟨d, b', r, e, h1, h2⟩
      cases e; exact hd ⟨h1, h2⟩
  · rename_i hn
    cases h
    refine ⟨[a], rfl, .plain hk, ?_⟩
    rintro ⟨w, e, _, hi⟩ ⟨d, b', r, e', _, _⟩
    cases e
    exact hn _ _ _ hi e'

theorem parseTypename_ok {ctx : ParseCtx} {t : Typename} (h : parseTypename ctx ts = .ok t ts') :
    ∃ c, ts = c ++ ts' ∧ TypeG ctx t c := by
  unfold parseTypename at h
  pbind h with b ts1 h1
  pbind h with n ts2 h2
  obtain ⟨rfl, rfl⟩ := P.pure_ok h
  obtain ⟨c, rfl, hn, _⟩ := readNsId_ok h2
  rcases P.eat_ok h1 with ⟨rfl, t, rfl, hk⟩ | ⟨rfl, e, _⟩
  · exact ⟨t :: c, rfl, .const hk hn⟩
  · exact ⟨c, e, .plain hn⟩

theorem eatStars_ok {n : Nat} (h : eatStars ts = .ok n ts') :
    ∃ c, ts = c ++ ts' ∧ Stars n c ∧ ∀ t r, ts' = t :: r → t.kind ≠ "*" := by
  have : ∀ ts k, eatStars.go ts k = .ok n ts' →
      ∃ c, ts = c ++ ts' ∧ (c.length + k = n ∧ ∀ t ∈ c, t.kind = "*") ∧
        ∀ t r, ts' = t :: r → t.kind ≠ "*" := by
    intro ts
    induction ts with
    | nil => intro k h; cases h; exact ⟨[], rfl, ⟨by simp, by simp⟩, by simp⟩
    | cons t ts ih =>
      intro k h
      unfold eatStars.go at h
      split at h
      · rename_i hk
        obtain ⟨c, rfl, ⟨hl, hc⟩, hr⟩ := ih _ h
        refine ⟨t :: c, rfl, ⟨by simp only [List.length_cons]; omega, ?_⟩, hr⟩
        simpa [hk] using hc
      · rename_i hk
        cases h
        refine ⟨[], rfl, ⟨by simp, by simp⟩, ?_⟩
        intro t' r e; cases e; exact hk
  obtain ⟨c, e, ⟨h1, h2⟩, h3⟩ := this ts 0 h
  exact ⟨c, e, ⟨by simpa using h1, h2⟩, h3⟩

theorem parseBareTypeform_ok {ctx : ParseCtx} {t : BareTypeform}
    (h : parseBareTypeform ctx ts = .ok t ts') : ∃ c, ts = c ++ ts' ∧ BareG ctx t c := by
  unfold parseBareTypeform at h
  pbind h with ty ts1 h1
  pbind h with n ts2 h2
  obtain ⟨rfl, rfl⟩ := P.pure_ok h
  obtain ⟨c, rfl, hc⟩ := parseTypename_ok h1
  obtain ⟨c', rfl, hc', _⟩ := eatStars_ok h2
  exact ⟨c ++ c', by simp, .mk hc hc'⟩

/-- The two descriptions of "a type begins here" agree. -/
theorem typeStart_iff {ctx : ParseCtx} : typeFollowsL ctx ts = true ↔ TypeStart ctx ts := by
  unfold TypeStart
  cases ts with
  | nil => simp [typeFollowsL]
  | cons t rest =>
    unfold typeFollowsL
    by_cases hc : t.kind = "const"
    · simp [hc]
    by_cases hw : t.kind = "word"
    · simp only [hw, ne_eq, not_true_eq_false, if_false, if_neg (show ¬ ("word" = "const") by decide),
        Bool.or_eq_true]
      constructor
      · rintro (h | h)
        · split at h
          · rename_i b c r
            simp only [Bool.and_eq_true, beq_iff_eq] at h
            exact .inr (.inr ⟨t, b, c, r, rfl, hw, h.1.1, h.1.2, h.2⟩)
          · cases h
        · exact .inr (.inl ⟨t, rest, rfl, hw, h⟩)
      · rintro (⟨t', r, e, h⟩ | ⟨t', r, e, _, h⟩ | ⟨a, b, c, r, e, _, hb, hcw, h⟩)
        · cases e; rw [hw] at h; exact absurd h (by decide)
        · cases e; exact .inr h
        · cases e; left; simp [hb, hcw, h]
    · simp only [hc, hw, if_false, ne_eq, not_false_eq_true, if_true, Bool.false_eq_true, false_iff,
        not_or, not_exists, not_and]
      refine ⟨?_, ?_, ?_⟩
      · intro t' r e; cases e; exact hc
      · intro t' r e; cases e; intro h; exact absurd h hw
      · intro a b c r e; cases e; intro h; exact absurd h hw

theorem typeFollows_ok {ctx : ParseCtx} {b : Bool} (h : typeFollows ctx ts = .ok b ts') :
    ts = ts' ∧ (b = true ↔ TypeStart ctx ts) := by
  cases h; exact ⟨rfl, typeStart_iff⟩

/-- A token that is neither a dot nor a word ends the look ahead. -/
theorem typeStart_append {ctx : ParseCtx} {c : List Token} {r : Token} {rest : List Token} (hc : c ≠ [])
    (hd : r.kind ≠ ".") (hw : r.kind ≠ "word") :
    TypeStart ctx (c ++ r :: rest) ↔ TypeStart ctx c := by
  unfold TypeStart
  match c, hc with
  | [a], _ =>
    constructor
    · rintro (⟨t, s, e, h⟩ | ⟨t, s, e, h⟩ | ⟨x, y, z, s, e, _, hb, _⟩)
      · cases e; exact .inl ⟨_, _, rfl, h⟩
      · cases e; exact .inr (.inl ⟨_, _, rfl, h⟩)
      · cases e; exact absurd hb hd
    · rintro (⟨t, s, e, h⟩ | ⟨t, s, e, h⟩ | ⟨x, y, z, s, e, _, hb, _⟩)
      · cases e; exact .inl ⟨_, _, rfl, h⟩
      · cases e; exact .inr (.inl ⟨_, _, rfl, h⟩)
      · cases e
  | [a, b], _ =>
    constructor
    · rintro (⟨t, s, e, h⟩ | ⟨t, s, e, h⟩ | ⟨x, y, z, s, e, _, _, hz, _⟩)
      · cases e; exact .inl ⟨_, _, rfl, h⟩
      · cases e; exact .inr (.inl ⟨_, _, rfl, h⟩)
      · cases e; exact absurd hz hw
    · rintro (⟨t, s, e, h⟩ | ⟨t, s, e, h⟩ | ⟨x, y, z, s, e, _, hb, _⟩)
      · cases e; exact .inl ⟨_, _, rfl, h⟩
      · cases e; exact .inr (.inl ⟨_, _, rfl, h⟩)
      · cases e
  | a :: b :: d :: l, _ =>
    constructor
    · rintro (⟨t, s, e, h⟩ | ⟨t, s, e, h⟩ | ⟨x, y, z, s, e, h⟩)
      · cases e; exact .inl ⟨_, _, rfl, h⟩
      · cases e; exact .inr (.inl ⟨_, _, rfl, h⟩)
      · cases e; exact .inr (.inr ⟨_, _, _, _, rfl, h⟩)
    · rintro (⟨t, s, e, h⟩ | ⟨t, s, e, h⟩ | ⟨x, y, z, s, e, h⟩)
      · cases e; exact .inl ⟨_, _, rfl, h⟩
      · cases e; exact .inr (.inl ⟨_, _, rfl, h⟩)
      · cases e; exact .inr (.inr ⟨_, _, _, _, rfl, h⟩)

theorem _root_.Che.Spec.NsId.ne_nil {ctx : ParseCtx} {n c} (h : NsId ctx n c) : c ≠ [] := by
  cases h <;> simp

theorem _root_.Che.Spec.TypeG.ne_nil {ctx : ParseCtx} {t c} (h : TypeG ctx t c) : c ≠ [] := by
  cases h with
  | plain h => exact h.ne_nil
  | const _ _ => simp

theorem _root_.Che.Spec.BareG.ne_nil {ctx : ParseCtx} {t c} (h : BareG ctx t c) : c ≠ [] := by
  cases h with
  | mk h _ => simp [h.ne_nil]

/-- The categories with at least one token. -/
def Cat.solid : Cat → Prop
  | .ex _ _ => True
  | .entry _ => True
  | _ => False

theorem _root_.Che.Spec.ExG.ne_nil' {ctx : ParseCtx} {k c} (h : ExG ctx k c) : Cat.solid k → c ≠ [] := by
  induction h with
  | up _ _ ih => exact fun _ => ih trivial
  | name h => exact fun _ => h.ne_nil
  | base _ _ ih => exact fun _ => ih trivial
  | entryPlain _ ih => exact fun _ => ih trivial
  | _ => intro h; first | exact h.elim | simp

theorem _root_.Che.Spec.ExG.ne_nil {ctx : ParseCtx} {s e c} (h : ExG ctx (.ex s e) c) : c ≠ [] :=
  h.ne_nil' trivial

/-! ## Expressions -/

theorem parseLiteral_ok {l : Literal} (h : parseLiteral ts = .ok l ts') :
    ∃ t, ts = t :: ts' ∧ (t.kind = "string" ∧ l = .string t.content ∨
      t.kind = "num" ∧ l = .number t.content ∨ t.kind = "char" ∧ l = .char t.content ∨
      t.kind = "word" ∧ t.content = "NULL" ∧ l = .null) := by
  unfold parseLiteral at h
  pbind h with t ts1 h1
  obtain ⟨rfl, r, rfl⟩ := P.peekU_ok h1
  split at h
  · rename_i hk
    pbind h with o ts1 h1
    obtain ⟨_, rfl⟩ := P.get_ok h1
    obtain ⟨rfl, rfl⟩ := P.pure_ok h
    exact ⟨t, rfl, .inl ⟨hk, rfl⟩⟩
  split at h
  · rename_i hk
    pbind h with o ts1 h1
    obtain ⟨_, rfl⟩ := P.get_ok h1
    obtain ⟨rfl, rfl⟩ := P.pure_ok h
    exact ⟨t, rfl, .inr (.inl ⟨hk, rfl⟩)⟩
  split at h
  · rename_i hk
    pbind h with o ts1 h1
    obtain ⟨_, rfl⟩ := P.get_ok h1
    obtain ⟨rfl, rfl⟩ := P.pure_ok h
    exact ⟨t, rfl, .inr (.inr (.inl ⟨hk, rfl⟩))⟩
  split at h
  · rename_i hk
    pbind h with o ts1 h1
    obtain ⟨_, rfl⟩ := P.get_ok h1
    obtain ⟨rfl, rfl⟩ := P.pure_ok h
    exact ⟨t, rfl, .inr (.inr (.inr ⟨hk.1, hk.2, rfl⟩))⟩
  · cases h

theorem closeParen_ok {ctx : ParseCtx} {m : P Expr} {e : Expr} (h : closeParen ctx m ts = .ok e ts') :
    ∃ r, m ts = .ok e (r :: ts') ∧ r.kind = ")" := by
  unfold closeParen at h
  cases hm : m ts with
  | ok a ts1 =>
    rw [hm] at h
    pbind h with t ts2 h1
    obtain ⟨rfl, hk⟩ := expect_ok h1
    obtain ⟨rfl, rfl⟩ := P.pure_ok h
    exact ⟨t, rfl, hk⟩
  | err e1 ts1 =>
    rw [hm] at h
    pbind h with t ts2 h1
    cases h
  | panic s => rw [hm] at h; cases h
  | diverge => rw [hm] at h; cases h

/-- The operator table is the declared one. -/
theorem operatorStrength_iff {k : String} {s : Nat} (hs : s < 13) :
    isOpTok k = true ∧ operatorStrength k = some s ↔ binLevel k = some s := by
  constructor
  · rintro ⟨ho, h⟩
    simp only [isOpTok, List.contains_eq_mem, decide_eq_true_eq, List.mem_cons, List.not_mem_nil,
      or_false] at ho
    rcases ho with h1 | h1 | h1 | h1 | h1 | h1 | h1 | h1 | h1 | h1 | h1 | h1 | h1 | h1 | h1 | h1 |
      h1 | h1 | h1 | h1 | h1 | h1 | h1 | h1 | h1 | h1 | h1 | h1 | h1 | h1 | h1 | h1 | h1 | h1 <;>
      subst h1 <;>
      first
        | exact absurd h (by decide)
        | (have h' := h.symm.trans (by decide : operatorStrength _ = some 14)
           injection h' with h'; omega)
        | exact (by decide : binLevel _ = operatorStrength _).trans h
  · intro h
    unfold binLevel at h
    split at h
    · rename_i hm
      simp only [List.mem_cons, List.not_mem_nil, or_false] at hm
      cases h
      rcases hm with h1 | h1 | h1 | h1 | h1 | h1 | h1 | h1 | h1 | h1 | h1 <;> subst h1 <;> decide
    repeat' split at h
    all_goals first | cases h; done | skip
    all_goals rename_i hm
    all_goals (try simp only [List.mem_cons, List.not_mem_nil, or_false] at hm)
    all_goals cases h
    all_goals first
      | (subst hm; decide)
      | (rcases hm with hm | hm <;> subst hm <;> decide)
      | (rcases hm with hm | hm | hm <;> subst hm <;> decide)
      | (rcases hm with hm | hm | hm | hm <;> subst hm <;> decide)

/-- Everything the expression parser accepts with budget `n` is in the grammar. -/
structure ExprS (ctx : ParseCtx) (n : Nat) : Prop where
  expr : ∀ {s ts e ts'}, s ≤ 14 → parseExpr n ctx s ts = .ok e ts' →
    ∃ c, ts = c ++ ts' ∧ ExG ctx (.ex s e) c
  seq : ∀ {s ts e ts'}, s < 13 → parseSeq n ctx s ts = .ok e ts' →
    ∃ c, ts = c ++ ts' ∧ ExG ctx (.ex s e) c
  seqLoop : ∀ {s r c0 ts e ts'}, s < 13 → ExG ctx (.ex s r) c0 → seqLoop n ctx s r ts = .ok e ts' →
    ∃ c, ts = c ++ ts' ∧ ExG ctx (.ex s e) (c0 ++ c)
  pre : ∀ {ts e ts'}, parsePrefix n ctx ts = .ok e ts' → ∃ c, ts = c ++ ts' ∧ ExG ctx (.ex 13 e) c
  base : ∀ {ts e ts'}, parseBase n ctx ts = .ok e ts' → ∃ c, ts = c ++ ts' ∧ ExG ctx (.ex 14 e) c
  baseLoop : ∀ {r c0 ts e ts'}, ExG ctx (.ex 14 r) c0 → (NsWord ctx c0 → ¬ DotWord ts) →
    baseLoop n ctx r ts = .ok e ts' → ∃ c, ts = c ++ ts' ∧ ExG ctx (.ex 14 e) (c0 ++ c)
  atom : ∀ {ts e ts'}, parseAtom n ctx ts = .ok e ts' →
    ∃ c, ts = c ++ ts' ∧ ExG ctx (.ex 14 e) c ∧ (NsWord ctx c → ¬ DotWord ts')
  compLit : ∀ {ts e ts'}, parseCompLit n ctx ts = .ok e ts' →
    ∃ l c, ts = l :: c ++ ts' ∧ l.kind = "{" ∧ ExG ctx (.ex 14 e) (l :: c)
  compLitLoop : ∀ {es ts es' ts'}, compLitLoop n ctx es ts = .ok es' ts' →
    ∃ c new, ts = c ++ ts' ∧ es' = es ++ new ∧ ExG ctx (.entries new) c
  entry : ∀ {ts e ts'}, parseEntry n ctx ts = .ok e ts' → ∃ c, ts = c ++ ts' ∧ ExG ctx (.entry e) c
  sizeof : ∀ {ts e ts'}, parseSizeof n ctx ts = .ok e ts' → ∃ c, ts = c ++ ts' ∧ ExG ctx (.ex 13 e) c
  call : ∀ {f c0 ts e ts'}, ExG ctx (.ex 14 f) c0 → parseCall n ctx f ts = .ok e ts' →
    ∃ c, ts = c ++ ts' ∧ c ≠ [] ∧ ExG ctx (.ex 14 e) (c0 ++ c)
  args : ∀ {as ts as' ts'}, argsLoop n ctx as ts = .ok as' ts' →
    ∃ c new, ts = c ++ ts' ∧ as' = as ++ new ∧ ExG ctx (.args new) c

theorem nsWord_append {ctx : ParseCtx} {c0 c : List Token} (h0 : c0 ≠ []) (h : c ≠ []) :
    ¬ NsWord ctx (c0 ++ c) := by
  rintro ⟨w, e, _⟩
  have := congrArg List.length e
  have h1 := List.length_pos_iff.2 h0
  have h2 := List.length_pos_iff.2 h
  simp only [List.length_append, List.length_cons, List.length_nil] at this
  omega

theorem ExprS.step {ctx : ParseCtx} {n : Nat} (ih : ExprS ctx n) : ExprS ctx (n + 1) where
  expr := by
    intro s ts e ts' hs h
    unfold parseExpr at h
    split at h
    · exact ih.seq (by assumption) h
    split at h
    · subst s; exact ih.pre h
    split at h
    · subst s; exact ih.base h
    · omega
  seq := by
    intro s ts e ts' hs h
    unfold parseSeq at h
    pbind h with r ts1 h1
    obtain ⟨c1, rfl, g1⟩ := ih.expr (by omega) h1
    obtain ⟨c2, rfl, g2⟩ := ih.seqLoop hs (.up hs g1) h
    exact ⟨c1 ++ c2, by simp, g2⟩
  seqLoop := by
    intro s r c0 ts e ts' hs g h
    unfold Che.seqLoop at h
    pbind h with o ts1 h1
    obtain ⟨rfl, rfl⟩ := P.peek_ok h1
    have stop : ∀ {ts'' : List Token}, (pure r : P Expr) ts'' = .ok e ts' →
        ∃ c, ts'' = c ++ ts' ∧ ExG ctx (.ex s e) (c0 ++ c) := by
      intro ts'' h
      obtain ⟨rfl, rfl⟩ := P.pure_ok h
      exact ⟨[], rfl, by simpa using g⟩
    cases ts with
    | nil => exact stop h
    | cons t rest =>
      simp only [List.head?_cons] at h
      split at h
      · exact stop h
      rename_i ho
      cases hk : operatorStrength t.kind with
      | none => simp only [hk] at h; exact (P.panic_ok h).elim
      | some k =>
        simp only [hk] at h
        split at h
        · exact stop h
        rename_i hks
        pbind h with tok ts1 h1
        cases P.getU_ok h1
        pbind h with r2 ts2 h2
        obtain ⟨c1, rfl, g1⟩ := ih.expr (by omega) h2
        have hb : binLevel t.kind = some s :=
          (operatorStrength_iff hs).1 ⟨by simpa using ho, by rw [hk]; simp at hks; rw [hks]⟩
        obtain ⟨c2, rfl, g2⟩ := ih.seqLoop hs (.bin hs g hb g1) h
        exact ⟨t :: c1 ++ c2, by simp, by simpa using g2⟩
  pre := by
    intro ts e ts' h
    unfold parsePrefix at h
    pbind h with t rest h1
    cases P.getU_ok h1
    split at h
    · rename_i hp
      pbind h with r ts1 h1
      obtain ⟨rfl, rfl⟩ := P.pure_ok h
      obtain ⟨c, rfl, g⟩ := ih.pre h1
      refine ⟨t :: c, rfl, .unary ?_ g⟩
      simpa [isPrefixOp, prefixOps] using hp
    have fin : ∀ {ts'' : List Token}, ts'' = rest → ¬ CastStart ctx (t :: rest) →
        (if t.kind = "sizeof" then (P.unget t >>= fun _ => parseSizeof n ctx)
         else (P.unget t >>= fun _ => parseBase n ctx)) ts'' = .ok e ts' →
        ∃ c, t :: rest = c ++ ts' ∧ ExG ctx (.ex 13 e) c := by
      intro ts'' e0 hc h'
      subst e0
      clear h
      split at h'
      · exact ih.sizeof h'
      · replace h := h'
        obtain ⟨c, e, g⟩ := ih.base h
        refine ⟨c, e, .base g ?_⟩
        rintro ⟨p, w, r, rfl, h1, h2⟩
        exact hc ⟨p, w, r ++ ts', e, h1, h2⟩
    by_cases hp : t.kind = "("
    · simp only [hp, if_true] at h
      pbind h with w ts2 h2
      obtain ⟨rfl, r, rfl⟩ := P.peekU_ok h2
      pbind h with b ts3 h1
      obtain ⟨hb, rfl⟩ := P.pure_ok h1
      split at h
      · rename_i hc
        rw [hc] at hb
        simp only [Bool.and_eq_true, beq_iff_eq] at hb
        pbind h with tf ts3 h3
        pbind h with r1 ts4 h4
        pbind h with op ts5 h5
        obtain ⟨rfl, rfl⟩ := P.pure_ok h
        obtain ⟨c1, e1, g1⟩ := parseBareTypeform_ok h3
        obtain ⟨rfl, hr⟩ := expect_ok h4
        obtain ⟨c2, rfl, g2⟩ := ih.pre h5
        cases c1 with
        | nil => exact absurd rfl g1.ne_nil
        | cons x c1 =>
          rw [List.cons_append] at e1
          injection e1 with e2 e3
          subst e2 e3
          exact ⟨t :: w :: c1 ++ r1 :: c2, by simp, .cast hp hb g1 hr g2⟩
      · rename_i hc
        refine fin rfl ?_ (by rw [hp]; exact h)
        rintro ⟨p, w', r', e, _, hw⟩
        cases e
        rw [← hb] at hc
        simp [hw.1, hw.2] at hc
    · simp only [hp, if_false] at h
      pbind h with b ts3 h1
      obtain ⟨rfl, rfl⟩ := P.pure_ok h1
      rw [if_neg Bool.false_ne_true] at h
      refine fin rfl ?_ h
      rintro ⟨p, w', r', e, hp', _⟩
      cases e
      exact hp hp'
  base := by
    intro ts e ts' h
    unfold parseBase at h
    pbind h with r ts1 h1
    obtain ⟨c, rfl, g, hn⟩ := ih.atom h1
    obtain ⟨c2, rfl, g2⟩ := ih.baseLoop g hn h
    exact ⟨c ++ c2, by simp, g2⟩
  baseLoop := by
    intro r c0 ts e ts' g hn h
    unfold Che.baseLoop at h
    pbind h with o ts1 h1
    obtain ⟨rfl, rfl⟩ := P.peek_ok h1
    have stop : ∀ {ts'' : List Token}, (pure r : P Expr) ts'' = .ok e ts' →
        ∃ c, ts'' = c ++ ts' ∧ ExG ctx (.ex 14 e) (c0 ++ c) := by
      intro ts'' h
      obtain ⟨rfl, rfl⟩ := P.pure_ok h
      exact ⟨[], rfl, by simpa using g⟩
    have more : ∀ {r' : Expr} {c1 ts2 : List Token}, ExG ctx (.ex 14 r') (c0 ++ c1) → c1 ≠ [] →
        Che.baseLoop n ctx r' ts2 = .ok e ts' →
        ∃ c, c1 ++ ts2 = c ++ ts' ∧ ExG ctx (.ex 14 e) (c0 ++ c) := by
      intro r' c1 ts2 g' hc h
      obtain ⟨c2, rfl, g2⟩ := ih.baseLoop g' (fun hw => absurd hw (nsWord_append g.ne_nil hc)) h
      exact ⟨c1 ++ c2, by simp, by simpa using g2⟩
    cases ts with
    | nil => exact stop h
    | cons t rest =>
      simp only [List.head?_cons] at h
      split at h
      · pbind h with r' ts2 h2
        obtain ⟨c1, e1, hc, g1⟩ := ih.call g h2
        rw [e1]
        exact more g1 hc h
      split at h
      · pbind h with l ts2 h2
        obtain ⟨e2, hl⟩ := expect_ok h2
        cases e2
        pbind h with i ts3 h3
        pbind h with r' ts4 h4
        obtain ⟨c1, rfl, g1⟩ := ih.expr (by omega) h3
        obtain ⟨rfl, hr⟩ := expect_ok h4
        have := more (c1 := t :: c1 ++ [r']) (by simpa using ExG.index g hl g1 hr) (by simp) h
        simpa using this
      split at h
      · rename_i hp
        pbind h with op ts2 h2
        cases P.getU_ok h2
        exact more (c1 := [t]) (.post g (by simpa [isPostfixOp] using hp)) (by simp) h
      split at h
      · rename_i hp
        pbind h with op ts2 h2
        cases P.getU_ok h2
        pbind h with w ts3 h3
        obtain ⟨rfl, hw⟩ := expect_ok h3
        refine more (c1 := [t, w]) (.field g ?_ hw) (by simp) h
        rcases hp with hp | hp
        · exact .inl hp
        · exact .inr ⟨hp, fun h => hn h ⟨t, w, ts3, rfl, hp, hw⟩⟩
      · exact stop h
  atom := by
    intro ts e ts' h
    unfold parseAtom at h
    pbind h with b ts1 h1
    cases h1
    cases ts with
    | nil => cases h
    | cons t rest =>
      simp only [List.isEmpty_cons, Bool.not_false, Bool.not_true, Bool.false_eq_true, if_false] at h
      pbind h with b ts1 h1
      cases h1
      split at h
      · pbind h with id ts1 h1
        obtain ⟨rfl, rfl⟩ := P.pure_ok h
        obtain ⟨c, e, g, hn⟩ := readNsId_ok h1
        exact ⟨c, e, .name g, hn⟩
      rename_i hns
      pbind h with t' ts1 h1
      cases P.getU_ok h1
      clear h1
      by_cases h1 : t.kind = "word"
      · simp only [h1] at h
        obtain ⟨rfl, rfl⟩ := P.pure_ok h
        refine ⟨[t], rfl, .name (.plain h1), ?_⟩
        rintro ⟨w, e, hw, hi⟩
        cases e
        simp [hw, hi] at hns
      have nw : ∀ (t : Token) c, t.kind ≠ "word" → (NsWord ctx (t :: c) → ¬ DotWord ts') := by
        rintro t c hk ⟨w, e, hw, _⟩
        cases e; exact absurd hw hk
      have lit : (P.unget t >>= fun _ => parseLiteral >>= fun l => (pure (.lit l) : P Expr)) rest =
          .ok e ts' → ∃ c, t :: rest = c ++ ts' ∧ ExG ctx (.ex 14 e) c ∧ (NsWord ctx c → ¬ DotWord ts') := by
        intro h
        pbind h with u ts1 h2
        cases h2
        pbind h with l ts1 h2
        obtain ⟨rfl, rfl⟩ := P.pure_ok h
        obtain ⟨t', e, hl⟩ := parseLiteral_ok h2
        cases e
        rcases hl with ⟨hk, rfl⟩ | ⟨hk, rfl⟩ | ⟨hk, rfl⟩ | ⟨hk, _⟩
        · exact ⟨[t], rfl, .string hk, nw _ _ h1⟩
        · exact ⟨[t], rfl, .num hk, nw _ _ h1⟩
        · exact ⟨[t], rfl, .char hk, nw _ _ h1⟩
        · exact absurd hk h1
      by_cases h2 : t.kind = "num"
      · simp only [h2] at h; exact lit h
      by_cases h3 : t.kind = "string"
      · simp only [h3] at h; exact lit h
      by_cases h4 : t.kind = "char"
      · simp only [h4] at h; exact lit h
      by_cases h5 : t.kind = "("
      · simp only [h5] at h
        obtain ⟨r, h6, hr⟩ := closeParen_ok h
        obtain ⟨c, rfl, g⟩ := ih.expr (by omega) h6
        exact ⟨t :: c ++ [r], by simp, .paren h5 g hr, nw _ _ h1⟩
      by_cases h6 : t.kind = "{"
      · simp only [h6] at h
        pbind h with u ts1 h7
        cases h7
        obtain ⟨l, c, e, hl, g⟩ := ih.compLit h
        exact ⟨l :: c, e, g, nw _ _ (by rw [hl]; decide)⟩
      simp only at h
      cases h
  compLit := by
    intro ts e ts' h
    unfold parseCompLit at h
    pbind h with l ts1 h1
    pbind h with es ts2 h2
    pbind h with r ts3 h3
    obtain ⟨rfl, rfl⟩ := P.pure_ok h
    obtain ⟨rfl, hl⟩ := expect_ok h1
    obtain ⟨c, new, rfl, e, g⟩ := ih.compLitLoop h2
    obtain ⟨rfl, hr⟩ := expect_ok h3
    rw [List.nil_append] at e
    subst e
    exact ⟨l, c ++ [r], by simp, hl, .compLit hl g hr⟩
  compLitLoop := by
    intro es ts es' ts' h
    unfold Che.compLitLoop at h
    pbind h with t ts1 h1
    obtain ⟨rfl, r, rfl⟩ := P.peekU_ok h1
    split at h
    · obtain ⟨rfl, rfl⟩ := P.pure_ok h
      exact ⟨[], [], rfl, by simp, .entriesNil⟩
    pbind h with e ts2 h2
    obtain ⟨c, e1, g⟩ := ih.entry h2
    rw [e1]
    pbind h with t2 ts3 h3
    obtain ⟨rfl, r2, rfl⟩ := P.peekU_ok h3
    split at h
    · rename_i hk
      pbind h with o ts4 h4
      obtain ⟨_, rfl⟩ := P.get_ok h4
      obtain ⟨c2, new, rfl, rfl, g2⟩ := ih.compLitLoop h
      exact ⟨c ++ t2 :: c2, e :: new, by simp, by simp, .entriesCons g hk g2⟩
    · obtain ⟨rfl, rfl⟩ := P.pure_ok h
      exact ⟨c, [e], rfl, rfl, .entriesLast g⟩
  entry := by
    intro ts e ts' h
    unfold parseEntry at h
    pbind h with t ts1 h1
    obtain ⟨rfl, r, rfl⟩ := P.peekU_ok h1
    split at h
    · pbind h with d ts2 h2
      pbind h with w ts3 h3
      pbind h with q ts4 h4
      pbind h with v ts5 h5
      obtain ⟨rfl, rfl⟩ := P.pure_ok h
      obtain ⟨e2, hd⟩ := expect_ok h2
      obtain ⟨rfl, hw⟩ := expect_ok h3
      obtain ⟨rfl, hq⟩ := expect_ok h4
      obtain ⟨c, rfl, g⟩ := ih.expr (by omega) h5
      exact ⟨d :: w :: q :: c, e2, .entryField hd hw hq g⟩
    pbind h with b ts2 h2
    obtain ⟨rfl, hf⟩ := P.follows_ok h2
    rcases hf with ⟨rfl, t', r', e2, hk⟩ | ⟨rfl, _⟩
    · rw [if_pos rfl] at h
      cases e2
      pbind h with o ts3 h3
      obtain ⟨_, rfl⟩ := P.get_ok h3
      pbind h with k ts4 h4
      pbind h with rb ts5 h5
      pbind h with q ts6 h6
      pbind h with v ts7 h7
      obtain ⟨rfl, rfl⟩ := P.pure_ok h
      obtain ⟨c1, rfl, g1⟩ := ih.expr (by omega) h4
      obtain ⟨rfl, hr⟩ := expect_ok h5
      obtain ⟨rfl, hq⟩ := expect_ok h6
      obtain ⟨c2, rfl, g2⟩ := ih.expr (by omega) h7
      exact ⟨t :: c1 ++ rb :: q :: c2, by simp, .entryIndex hk g1 hr hq g2⟩
    · rw [if_neg Bool.false_ne_true] at h
      pbind h with v ts3 h3
      obtain ⟨rfl, rfl⟩ := P.pure_ok h
      obtain ⟨c, e, g⟩ := ih.expr (by omega) h3
      exact ⟨c, e, .entryPlain g⟩
  sizeof := by
    intro ts e ts' h
    unfold parseSizeof at h
    pbind h with t ts1 h1
    pbind h with l ts2 h2
    obtain ⟨rfl, ht⟩ := expect_ok h1
    obtain ⟨rfl, hl⟩ := expect_ok h2
    pbind h with b ts3 h3
    obtain ⟨rfl, hb⟩ := typeFollows_ok h3
    cases b with
    | true =>
      rw [if_pos rfl] at h
      pbind h with tf ts4 h4
      pbind h with x ts5 h5
      obtain ⟨rfl, rfl⟩ := P.pure_ok h5
      pbind h with r ts6 h6
      obtain ⟨rfl, rfl⟩ := P.pure_ok h
      obtain ⟨c, rfl, g⟩ := parseBareTypeform_ok h4
      obtain ⟨rfl, hr⟩ := expect_ok h6
      refine ⟨t :: l :: c ++ [r], by simp, .sizeofType ht hl g ?_ hr⟩
      exact (typeStart_append g.ne_nil (by rw [hr]; decide) (by rw [hr]; decide)).1 (hb.1 rfl)
    | false =>
      rw [if_neg Bool.false_ne_true] at h
      pbind h with v ts4 h4
      pbind h with x ts5 h5
      obtain ⟨rfl, rfl⟩ := P.pure_ok h5
      pbind h with r ts6 h6
      obtain ⟨rfl, rfl⟩ := P.pure_ok h
      obtain ⟨c, rfl, g⟩ := ih.expr (by omega) h4
      obtain ⟨rfl, hr⟩ := expect_ok h6
      refine ⟨t :: l :: c ++ [r], by simp, .sizeofExpr ht hl g ?_ hr⟩
      intro hs
      exact absurd (hb.2 ((typeStart_append g.ne_nil (by rw [hr]; decide) (by rw [hr]; decide)).2 hs))
        Bool.false_ne_true
  call := by
    intro f c0 ts e ts' g h
    unfold parseCall at h
    pbind h with l ts1 h1
    pbind h with o ts2 h2
    obtain ⟨rfl, hl⟩ := expect_ok h1
    obtain ⟨rfl, rfl⟩ := P.peek_ok h2
    have fin : ∀ {as : List Expr} {ts3 : List Token},
        (expect ctx ")" >>= fun _ => (pure (.call l.pos f as) : P Expr)) ts3 = .ok e ts' →
        ∃ r, ts3 = r :: ts' ∧ r.kind = ")" ∧ e = .call l.pos f as := by
      intro as ts3 h
      pbind h with r ts4 h4
      obtain ⟨rfl, rfl⟩ := P.pure_ok h
      obtain ⟨rfl, hr⟩ := expect_ok h4
      exact ⟨r, rfl, hr, rfl⟩
    cases ts1 with
    | nil =>
      simp only [List.head?_nil] at h
      pbind h with as ts3 h3
      obtain ⟨rfl, rfl⟩ := P.pure_ok h3
      obtain ⟨r, e1, _⟩ := fin h
      cases e1
    | cons t rest =>
      simp only [List.head?_cons] at h
      split at h
      · pbind h with a ts5 h5
        pbind h with as ts6 h6
        obtain ⟨r, rfl, hr, rfl⟩ := fin h
        obtain ⟨c1, e1, g1⟩ := ih.expr (by omega) h5
        obtain ⟨c2, new, rfl, rfl, g2⟩ := ih.args h6
        rw [e1]
        exact ⟨l :: c1 ++ c2 ++ [r], by simp, by simp, by simpa using ExG.call g hl g1 g2 hr⟩
      · pbind h with as ts6 h6
        obtain ⟨rfl, rfl⟩ := P.pure_ok h6
        obtain ⟨r, e1, hr, rfl⟩ := fin h
        cases e1
        exact ⟨[l, t], rfl, by simp, .call0 g hl hr⟩
  args := by
    intro as ts as' ts' h
    unfold argsLoop at h
    pbind h with b ts1 h1
    rcases P.eat_ok h1 with ⟨rfl, t, rfl, hk⟩ | ⟨rfl, rfl, _⟩
    · rw [if_pos rfl] at h
      pbind h with a ts2 h2
      obtain ⟨c1, rfl, g1⟩ := ih.expr (by omega) h2
      obtain ⟨c2, new, rfl, rfl, g2⟩ := ih.args h
      exact ⟨t :: c1 ++ c2, a :: new, by simp, by simp, .argsCons hk g1 g2⟩
    · rw [if_neg Bool.false_ne_true] at h
      obtain ⟨rfl, rfl⟩ := P.pure_ok h
      exact ⟨[], [], rfl, by simp, .argsNil⟩

theorem ExprS.all (ctx : ParseCtx) : ∀ n, ExprS ctx n
  | 0 => by constructor <;> intros <;> first | cases ‹_ = PR.ok _ _› | skip
  | n + 1 => (ExprS.all ctx n).step

theorem parseExpr_ok {ctx : ParseCtx} {n s : Nat} {e : Expr} (hs : s ≤ 14)
    (h : parseExpr n ctx s ts = .ok e ts') : ∃ c, ts = c ++ ts' ∧ ExG ctx (.ex s e) c :=
  (ExprS.all ctx n).expr hs h

end Che
