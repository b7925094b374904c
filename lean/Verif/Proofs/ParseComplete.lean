import Verif.Proofs.ParseSoundStmt
/-!
# The expression parser accepts the grammar

For every expression of the grammar, the parser returns its tree when the budget
is large enough.
-/
namespace Che
open Spec

variable {α β : Type} {ctx : ParseCtx} {ts ts' : List Token}

/-! ## Large budgets -/

/-- For every large enough budget. -/
def Ev (p : Nat → Prop) : Prop := ∃ N, ∀ n, N ≤ n → p n

theorem Ev.of {p : Nat → Prop} (h : ∀ n, p n) : Ev p := ⟨0, fun n _ => h n⟩

theorem Ev.mono {p q : Nat → Prop} (h : Ev p) (f : ∀ n, p n → q n) : Ev q := by
  obtain ⟨N, h⟩ := h; exact ⟨N, fun n hn => f n (h n hn)⟩

theorem Ev.and {p q : Nat → Prop} (h : Ev p) (h' : Ev q) : Ev (fun n => p n ∧ q n) := by
  obtain ⟨N, h⟩ := h; obtain ⟨N', h'⟩ := h'
  exact ⟨max N N', fun n hn => ⟨h n (by omega), h' n (by omega)⟩⟩

theorem Ev.succ {p : Nat → Prop} (h : Ev (fun n => p (n + 1))) : Ev p := by
  obtain ⟨N, h⟩ := h
  refine ⟨N + 1, fun n hn => ?_⟩
  obtain ⟨k, rfl⟩ : ∃ k, n = k + 1 := ⟨n - 1, by omega⟩
  exact h k (by omega)

theorem Ev.get {p : Nat → Prop} (h : Ev p) (M : Nat) : ∃ n, M ≤ n ∧ p n := by
  obtain ⟨N, h⟩ := h; exact ⟨max N M, by omega, h _ (by omega)⟩

/-- With a large enough budget the first computation becomes the second with a
budget that is still as large as one wants. -/
def Leads (f g : Nat → α) : Prop := ∀ M, ∃ N, ∀ n, N ≤ n → ∃ m, M ≤ m ∧ f n = g m

theorem Leads.trans {f g h : Nat → α} (h1 : Leads f g) (h2 : Leads g h) : Leads f h := by
  intro M
  obtain ⟨N, hN⟩ := h2 M
  obtain ⟨N', hN'⟩ := h1 N
  refine ⟨N', fun n hn => ?_⟩
  obtain ⟨m, hm, e⟩ := hN' n hn
  obtain ⟨m', hm', e'⟩ := hN m hm
  exact ⟨m', hm', e.trans e'⟩

theorem Leads.step {f g : Nat → α} (h : Ev (fun n => f (n + 1) = g n)) : Leads f g := by
  intro M
  obtain ⟨N, h⟩ := h
  refine ⟨max N M + 1, fun n hn => ?_⟩
  obtain ⟨k, rfl⟩ : ∃ k, n = k + 1 := ⟨n - 1, by omega⟩
  exact ⟨k, by omega, h k (by omega)⟩

theorem Leads.ev {f g : Nat → α} {x : α} (h : Leads f g) (h' : Ev (fun n => g n = x)) :
    Ev (fun n => f n = x) := by
  obtain ⟨M, h'⟩ := h'
  obtain ⟨N, h⟩ := h M
  refine ⟨N, fun n hn => ?_⟩
  obtain ⟨m, hm, e⟩ := h n hn
  exact e.trans (h' m hm)

/-! ## Running the parser forward -/

theorem P.bind_of {m : P α} {f : α → P β} {a : α} {ts1 : List Token} (h : m ts = .ok a ts1) :
    (m >>= f) ts = f a ts1 := by
  rw [P.bind_eq, h]

/-- One step of a sequence whose first part is known. -/
macro "pstep " h:term : tactic => `(tactic| refine (P.bind_of $h).trans ?_)

theorem P.ite_of {c : Prop} [Decidable c] {a b : P α} (h : c) :
    (if c then a else b : P α) ts = a ts := by rw [if_pos h]

theorem P.ite_of_not {c : Prop} [Decidable c] {a b : P α} (h : ¬ c) :
    (if c then a else b : P α) ts = b ts := by rw [if_neg h]

/-- Take the first branch. -/
macro "pthen " h:term : tactic => `(tactic| refine (P.ite_of $h).trans ?_)
/-- Take the second branch. -/
macro "pelse " h:term : tactic => `(tactic| refine (P.ite_of_not $h).trans ?_)

theorem expect_of {k : String} {c : Option String} {t : Token} {r : List Token} (h : t.kind = k) :
    expect ctx k c (t :: r) = .ok t r := by
  unfold expect
  simp [h]

theorem P.eat_of {k : String} {t : Token} {r : List Token} (h : t.kind = k) :
    P.eat k (t :: r) = .ok true r := by
  simp [P.eat, h]

/-- The next token, if there is one, has another kind. -/
def NotNext (k : String) (ts : List Token) : Prop := ∀ t r, ts = t :: r → t.kind ≠ k

theorem NotNext.cons {k : String} {t : Token} {r : List Token} (h : t.kind ≠ k) : NotNext k (t :: r) := by
  rintro _ _ ⟨⟩; exact h

theorem P.eat_of_not {k : String} (h : NotNext k ts) : P.eat k ts = .ok false ts := by
  cases ts with
  | nil => rfl
  | cons t r => simp [P.eat, h t r rfl]

theorem P.follows_of {k : String} {t : Token} {r : List Token} (h : t.kind = k) :
    P.follows k (t :: r) = .ok true (t :: r) := by
  simp [P.follows, h]

theorem P.follows_of_not {k : String} (h : NotNext k ts) : P.follows k ts = .ok false ts := by
  cases ts with
  | nil => rfl
  | cons t r => simp [P.follows, h t r rfl]

/-! ## Names and types -/

theorem readNsId_of {n : NsName} {c rest : List Token} (h : NsId ctx n c)
    (hn : NsWord ctx c → ¬ DotWord rest) : readNsId ctx (c ++ rest) = .ok n rest := by
  unfold readNsId
  cases h with
  | plain hw =>
    pstep expect_of hw
    rename_i w
    show (match ctx.isImportedNs w.content, rest with
      | true, dot :: b :: rest => _
      | _, _ => _) = _
    split
    · rename_i d b rest' hi
      refine (if_neg ?_).trans rfl
      rintro ⟨h1, h2⟩
      exact hn ⟨w, rfl, hw, hi⟩ ⟨d, b, rest', rfl, h1, h2⟩
    · rfl
  | qualified hw hi hd hb =>
    pstep expect_of hw
    rename_i w d b
    show (match ctx.isImportedNs w.content, d :: b :: rest with
      | true, dot :: b :: rest => _
      | _, _ => _) = _
    simp only [hi, hd, hb, and_self, if_true]

theorem _root_.Che.Spec.NsId.head {n c} (h : NsId ctx n c) : ∃ w r, c = w :: r ∧ w.kind = "word" := by
  cases h with
  | plain hw => exact ⟨_, _, rfl, hw⟩
  | qualified hw _ _ _ => exact ⟨_, _, rfl, hw⟩

theorem _root_.Che.Spec.TypeG.head {t c} (h : TypeG ctx t c) :
    ∃ w r, c = w :: r ∧ (w.kind = "word" ∨ w.kind = "const") := by
  cases h with
  | plain h => obtain ⟨w, r, e, h⟩ := h.head; exact ⟨w, r, e, .inl h⟩
  | const h _ => exact ⟨_, _, rfl, .inr h⟩

theorem parseTypename_of {t : Typename} {c rest : List Token} (h : TypeG ctx t c) (hn : NotNext "." rest) :
    parseTypename ctx (c ++ rest) = .ok t rest := by
  have hd : ¬ DotWord rest := by
    rintro ⟨d, b, r, e, h1, _⟩; exact hn _ _ e h1
  unfold parseTypename
  cases h with
  | plain h =>
    obtain ⟨w, r, rfl, hw⟩ := h.head
    pstep P.eat_of_not (NotNext.cons (by rw [hw]; decide))
    pstep readNsId_of h (fun _ => hd)
    rfl
  | const hc h =>
    pstep P.eat_of hc
    pstep readNsId_of h (fun _ => hd)
    rfl

theorem eatStars_of {n : Nat} {c rest : List Token} (h : Stars n c) (hn : NotNext "*" rest) :
    eatStars (c ++ rest) = .ok n rest := by
  have : ∀ c k, (∀ t ∈ c, t.kind = "*") → eatStars.go (c ++ rest) k = .ok (c.length + k) rest := by
    intro c
    induction c with
    | nil =>
      intro k _
      cases rest with
      | nil => simp [eatStars.go]
      | cons t r => simp [eatStars.go, hn t r rfl]
    | cons t c ih =>
      intro k hc
      have ht := hc t (by simp)
      simp only [List.cons_append, eatStars.go, ht, if_true]
      rw [ih _ (fun x hx => hc x (by simp [hx]))]
      simp only [List.length_cons]
      congr 1
      omega
  unfold eatStars
  rw [this c 0 h.2, h.1]
  rfl

theorem _root_.Che.NotNext.append_left {k : String} {c rest : List Token} (h : NotNext k c) (hr : NotNext k rest) :
    NotNext k (c ++ rest) := by
  cases c with
  | nil => exact hr
  | cons t c => exact NotNext.cons (h _ _ rfl)

theorem parseBareTypeform_of {t : BareTypeform} {c rest : List Token} (h : BareG ctx t c)
    (hn : NotNext "." rest) (hs : NotNext "*" rest) : parseBareTypeform ctx (c ++ rest) = .ok t rest := by
  unfold parseBareTypeform
  cases h with
  | mk g1 g2 =>
    rename_i c1 c2
    rw [List.append_assoc]
    have hd : NotNext "." (c2 ++ rest) := by
      refine NotNext.append_left ?_ hn
      rintro x r rfl
      rw [g2.2 x (by simp)]; decide
    pstep parseTypename_of g1 hd
    pstep eatStars_of g2 hs
    rfl

/-! ## Heads of expressions -/

/-- How a postfix expression may begin. -/
def atomHeads : List String := ["word", "num", "string", "char", "(", "{"]

/-- How an expression may begin. -/
def exprHeads : List String := atomHeads ++ "sizeof" :: prefixOps

/-- What the head lemma says. -/
def HeadOf : Cat → List Token → Prop
  | .ex s _, c => ∃ t r, c = t :: r ∧ t.kind ∈ exprHeads ∧
      (s = 14 → t.kind ∈ atomHeads ∧ (t.kind = "(" → r ≠ []))
  | .args _, c => ∀ t r, c = t :: r → t.kind = ","
  | .entries _, c => ∀ t r, c = t :: r → t.kind ∈ "." :: "[" :: exprHeads
  | .entry _, c => ∃ t r, c = t :: r ∧ t.kind ∈ "." :: "[" :: exprHeads

theorem _root_.Che.Spec.ExG.head' {k : Cat} {c : List Token} (h : ExG ctx k c) : HeadOf k c := by
  induction h with
  | up hs _ ih =>
    obtain ⟨t, r, e, h, _⟩ := ih
    exact ⟨t, r, e, h, by omega⟩
  | bin hs _ _ _ ih _ =>
    obtain ⟨t, r, rfl, h, _⟩ := ih
    exact ⟨t, _, rfl, h, by omega⟩
  | unary h _ _ =>
    refine ⟨_, _, rfl, ?_, by omega⟩
    simp only [exprHeads, List.mem_append, List.mem_cons]
    exact .inr (.inr h)
  | cast h _ _ _ _ _ => exact ⟨_, _, rfl, by rw [h]; decide, by omega⟩
  | sizeofType h _ _ _ _ => exact ⟨_, _, rfl, by rw [h]; decide, by omega⟩
  | sizeofExpr h _ _ _ _ _ => exact ⟨_, _, rfl, by rw [h]; decide, by omega⟩
  | base _ _ ih =>
    obtain ⟨t, r, e, h, _⟩ := ih
    exact ⟨t, r, e, h, by omega⟩
  | name h =>
    obtain ⟨w, r, rfl, hw⟩ := h.head
    exact ⟨w, r, rfl, by rw [hw]; decide, fun _ => ⟨by rw [hw]; decide, by rw [hw]; exact fun h => absurd h (by decide)⟩⟩
  | num h => exact ⟨_, _, rfl, by rw [h]; decide, fun _ => ⟨by rw [h]; decide, by rw [h]; exact fun h => absurd h (by decide)⟩⟩
  | string h => exact ⟨_, _, rfl, by rw [h]; decide, fun _ => ⟨by rw [h]; decide, by rw [h]; exact fun h => absurd h (by decide)⟩⟩
  | char h => exact ⟨_, _, rfl, by rw [h]; decide, fun _ => ⟨by rw [h]; decide, by rw [h]; exact fun h => absurd h (by decide)⟩⟩
  | paren h _ _ _ => exact ⟨_, _, rfl, by rw [h]; decide, fun _ => ⟨by rw [h]; decide, fun _ => by simp⟩⟩
  | compLit h _ _ _ => exact ⟨_, _, rfl, by rw [h]; decide, fun _ => ⟨by rw [h]; decide, fun _ => by simp⟩⟩
  | call0 _ _ _ ih =>
    obtain ⟨t, r, rfl, h, h'⟩ := ih
    exact ⟨t, _, rfl, h, fun _ => ⟨(h' rfl).1, fun _ => by simp⟩⟩
  | call _ _ _ _ _ ih _ _ =>
    obtain ⟨t, r, rfl, h, h'⟩ := ih
    exact ⟨t, _, rfl, h, fun _ => ⟨(h' rfl).1, fun _ => by simp⟩⟩
  | index _ _ _ _ ih _ =>
    obtain ⟨t, r, rfl, h, h'⟩ := ih
    exact ⟨t, _, rfl, h, fun _ => ⟨(h' rfl).1, fun _ => by simp⟩⟩
  | post _ _ ih =>
    obtain ⟨t, r, rfl, h, h'⟩ := ih
    exact ⟨t, _, rfl, h, fun _ => ⟨(h' rfl).1, fun _ => by simp⟩⟩
  | field _ _ _ ih =>
    obtain ⟨t, r, rfl, h, h'⟩ := ih
    exact ⟨t, _, rfl, h, fun _ => ⟨(h' rfl).1, fun _ => by simp⟩⟩
  | argsNil => rintro t r ⟨⟩
  | argsCons h _ _ _ _ => rintro t r ⟨⟩; exact h
  | entriesNil => rintro t r ⟨⟩
  | entriesLast _ ih =>
    obtain ⟨t, r, rfl, h⟩ := ih
    rintro _ _ ⟨⟩; exact h
  | entriesCons _ _ _ ih _ =>
    obtain ⟨t, r, rfl, h⟩ := ih
    rintro _ _ ⟨⟩; exact h
  | entryField h _ _ _ _ => exact ⟨_, _, rfl, by rw [h]; decide⟩
  | entryIndex h _ _ _ _ _ _ => exact ⟨_, _, rfl, by rw [h]; decide⟩
  | entryPlain _ ih =>
    obtain ⟨t, r, rfl, h, _⟩ := ih
    exact ⟨t, r, rfl, by simp [h]⟩

theorem _root_.Che.Spec.ExG.head {s e c} (h : ExG ctx (.ex s e) c) :
    ∃ t r, c = t :: r ∧ t.kind ∈ exprHeads := by
  obtain ⟨t, r, e, h, _⟩ := h.head'
  exact ⟨t, r, e, h⟩

/-- The beginning of an expression is none of the other kinds. -/
theorem not_head {k : String} {t : Token} (h : t.kind ∈ exprHeads) (hk : k ∉ exprHeads) : t.kind ≠ k := by
  rintro rfl; exact hk h

/-! ## What may follow -/

/-- Tokens that continue a postfix expression. -/
def postToks : List String := ["(", "[", "++", "--", "->", "."]

/-- Nothing here continues an expression of strength `s`. -/
def Follow (s : Nat) (ts : List Token) : Prop :=
  ∀ t r, ts = t :: r → t.kind ∉ postToks ∧
    (isOpTok t.kind = true → ∃ k, k < s ∧ operatorStrength t.kind = some k)

theorem Follow.mono {s s' : Nat} (h : Follow s ts) (hs : s ≤ s') : Follow s' ts := by
  intro t r e
  obtain ⟨h1, h2⟩ := h t r e
  refine ⟨h1, fun h => ?_⟩
  obtain ⟨k, hk, e⟩ := h2 h
  exact ⟨k, by omega, e⟩

theorem Follow.of {s : Nat} {t : Token} {r : List Token} (h1 : t.kind ∉ postToks)
    (h2 : isOpTok t.kind = false) : Follow s (t :: r) := by
  rintro _ _ ⟨⟩
  exact ⟨h1, by simp [h2]⟩

theorem Follow.kind {s : Nat} {t : Token} {r : List Token} {k : String} (h : t.kind = k)
    (hk : k ∉ postToks ∧ isOpTok k = false) : Follow s (t :: r) := by
  subst h; exact .of hk.1 hk.2

theorem Follow.op {s : Nat} {t : Token} {r : List Token} (hs : s < 13) (h : binLevel t.kind = some s) :
    Follow (s + 1) (t :: r) := by
  rintro _ _ ⟨⟩
  obtain ⟨h1, h2⟩ := (operatorStrength_iff hs).2 h
  refine ⟨?_, fun _ => ⟨s, by omega, h2⟩⟩
  intro hm
  simp only [postToks, List.mem_cons, List.not_mem_nil, or_false] at hm
  rcases hm with e | e | e | e | e | e <;> rw [e] at h <;> exact absurd h (by simp [binLevel])

theorem Follow.notDot {s : Nat} (h : Follow s ts) : ¬ DotWord ts := by
  rintro ⟨d, b, r, e, h1, _⟩
  exact (h _ _ e).1 (by rw [h1]; decide)

/-! ## Expressions -/

theorem seqLoop_stop {s : Nat} {e : Expr} (h : Follow s ts) : Ev (fun n => seqLoop n ctx s e ts = .ok e ts) := by
  refine Ev.succ (Ev.of fun n => ?_)
  unfold seqLoop
  pstep (rfl : P.peek ts = .ok ts.head? ts)
  cases ts with
  | nil => rfl
  | cons t r =>
    obtain ⟨_, h2⟩ := h t r rfl
    simp only [List.head?_cons]
    by_cases ho : isOpTok t.kind = true
    · obtain ⟨k, hk, e⟩ := h2 ho
      simp only [ho, e, Bool.not_true, Bool.false_eq_true, if_false]
      rw [if_pos (by simp; omega)]
      rfl
    · simp only [ho, Bool.not_false, if_true]
      rfl

theorem baseLoop_stop {s : Nat} {e : Expr} (h : Follow s ts) : Ev (fun n => baseLoop n ctx e ts = .ok e ts) := by
  refine Ev.succ (Ev.of fun n => ?_)
  unfold baseLoop
  pstep (rfl : P.peek ts = .ok ts.head? ts)
  cases ts with
  | nil => rfl
  | cons t r =>
    obtain ⟨h1, _⟩ := h t r rfl
    simp only [postToks, List.mem_cons, List.not_mem_nil, or_false, not_or] at h1
    obtain ⟨a, b, c, d, e1, f⟩ := h1
    simp [isPostfixOp, a, b, c, d, e1, f]
    rfl

/-- The completeness claim for each category. -/
def Complete (ctx : ParseCtx) : Cat → List Token → Prop
  | .ex s e, c =>
    (s < 13 → ∀ rest, Follow (s + 1) rest →
      Leads (fun n => parseSeq n ctx s (c ++ rest)) (fun n => seqLoop n ctx s e rest)) ∧
    (s = 13 → ∀ rest, Follow 13 rest → Ev (fun n => parsePrefix n ctx (c ++ rest) = .ok e rest)) ∧
    (s = 14 → ∀ rest, (NsWord ctx c → ¬ DotWord rest) →
      Leads (fun n => parseBase n ctx (c ++ rest)) (fun n => baseLoop n ctx e rest))
  | .args es, c => ∀ acc r rest, r.kind = ")" →
    Ev (fun n => argsLoop n ctx acc (c ++ r :: rest) = .ok (acc ++ es) (r :: rest))
  | .entries es, c => ∀ acc r rest, r.kind = "}" →
    Ev (fun n => compLitLoop n ctx acc (c ++ r :: rest) = .ok (acc ++ es) (r :: rest))
  | .entry e, c => ∀ rest, Follow 0 rest → Ev (fun n => parseEntry n ctx (c ++ rest) = .ok e rest)

theorem Complete.expr {s : Nat} {e : Expr} {c rest : List Token} (h : Complete ctx (.ex s e) c) (hs : s ≤ 14)
    (hf : Follow s rest) : Ev (fun n => parseExpr n ctx s (c ++ rest) = .ok e rest) := by
  obtain ⟨h1, h2, h3⟩ := h
  refine Ev.succ ?_
  rcases Nat.lt_or_ge s 13 with h | h
  · refine ((h1 h rest (hf.mono (by omega))).ev (seqLoop_stop hf)).mono fun n hn => ?_
    unfold parseExpr
    rw [if_pos h, hn]
  · obtain rfl | rfl : s = 13 ∨ s = 14 := by omega
    · refine (h2 rfl rest hf).mono fun n hn => ?_
      unfold parseExpr
      exact hn
    · refine ((h3 rfl rest (fun _ => hf.notDot)).ev (baseLoop_stop hf)).mono fun n hn => ?_
      unfold parseExpr
      exact hn

theorem NotNext.of_append {k : String} {c : List Token} {r : Token} {rest : List Token}
    (h : NotNext k c) (hr : r.kind ≠ k) : NotNext k (c ++ r :: rest) :=
  h.append_left (NotNext.cons hr)

/-- After an argument comes a comma or the closing parenthesis. -/
theorem follow_args {es : List Expr} {c : List Token} {r : Token} {rest : List Token} {s : Nat}
    (h : ExG ctx (.args es) c) (hr : r.kind = ")") : Follow s (c ++ r :: rest) := by
  cases c with
  | nil => exact .kind hr (by decide)
  | cons t c => exact .kind (h.head' t c rfl) (by decide)

theorem parsePrefix_skip {n : Nat} {t : Token} {rest : List Token} {x : PR Expr}
    (h1 : t.kind ∉ prefixOps) (h2 : ¬ CastStart ctx (t :: rest)) (h3 : t.kind = "(" → rest ≠ [])
    (h : (if t.kind = "sizeof" then parseSizeof n ctx else parseBase n ctx) (t :: rest) = x) :
    parsePrefix (n + 1) ctx (t :: rest) = x := by
  unfold parsePrefix
  pstep (rfl : P.getU _ (t :: rest) = .ok t rest)
  pelse (show ¬ isPrefixOp t.kind = true by simpa [isPrefixOp, prefixOps] using h1)
  have tail : ∀ b : Bool, b = false →
      (if b = true then do
          let typeform ← parseBareTypeform ctx
          let _ ← expect ctx ")" (some "typecast")
          let operand ← parsePrefix n ctx
          pure (.cast typeform operand)
        else if t.kind = "sizeof" then (P.unget t >>= fun _ => parseSizeof n ctx)
        else (P.unget t >>= fun _ => parseBase n ctx)) rest = x := by
    rintro b rfl
    rw [if_neg Bool.false_ne_true]
    by_cases hs : t.kind = "sizeof"
    · simp only [hs, if_true] at h ⊢
      exact h
    · simp only [hs, if_false] at h ⊢
      exact h
  by_cases hp : t.kind = "("
  · cases rest with
    | nil => exact absurd rfl (h3 hp)
    | cons w rest =>
      pthen hp
      pstep (rfl : P.peekU _ (w :: rest) = .ok w (w :: rest))
      refine tail (w.kind == "word" && isType w.content ctx.thismod.typedefs) ?_
      rw [Bool.eq_false_iff]
      intro hc
      simp only [Bool.and_eq_true, beq_iff_eq] at hc
      exact h2 ⟨t, w, rest, rfl, hp, hc⟩
  · pelse hp
    exact tail false rfl

theorem parseAtom_other {n : Nat} {t : Token} {rest : List Token} {x : PR Expr} (h1 : t.kind ≠ "word")
    (h : (match t.kind with
      | "word" => pure (.name { pos := t.pos, ns := "", name := t.content })
      | "num" | "string" | "char" => do
        P.unget t
        let l ← parseLiteral
        pure (.lit l)
      | "(" => closeParen ctx (parseExpr n ctx 0)
      | "{" => do
        P.unget t
        parseCompLit n ctx
      | _ => P.err ("id: unexpected token " ++ t.display) t.pos : P Expr) rest = x) :
    parseAtom (n + 1) ctx (t :: rest) = x := by
  unfold parseAtom
  pstep (rfl : P.more (t :: rest) = .ok true (t :: rest))
  pelse (by simp)
  pstep (show nsFollows ctx (t :: rest) = .ok false (t :: rest) by simp [nsFollows, h1])
  pelse Bool.false_ne_true
  pstep (rfl : P.getU _ (t :: rest) = .ok t rest)
  exact h

theorem parseAtom_lit {n : Nat} {t : Token} {rest : List Token} {l : Literal}
    (h1 : t.kind ∈ ["num", "string", "char"]) (h : parseLiteral (t :: rest) = .ok l rest) :
    parseAtom (n + 1) ctx (t :: rest) = .ok (.lit l) rest := by
  have fin : (P.unget t >>= fun _ => parseLiteral >>= fun l => (pure (.lit l) : P Expr)) rest =
      .ok (.lit l) rest := by
    pstep (rfl : P.unget t rest = .ok () _)
    pstep h
    rfl
  simp only [List.mem_cons, List.not_mem_nil, or_false] at h1
  refine parseAtom_other (by rcases h1 with e | e | e <;> rw [e] <;> decide) ?_
  rcases h1 with e | e | e <;> simp only [e] <;> exact fin

theorem _root_.Che.Spec.ExG.complete {k : Cat} {c : List Token} (h : ExG ctx k c) : Complete ctx k c := by
  induction h with
  | @up s e c hs _ ih =>
    refine ⟨fun _ rest hf => ?_, by omega, by omega⟩
    refine Leads.step ((ih.expr (by omega) hf).mono fun n hn => ?_)
    unfold parseSeq
    pstep hn
    rfl
  | @bin s a b t c1 c2 hs _ hb _ ih1 ih2 =>
    refine ⟨fun _ rest hf => ?_, by omega, by omega⟩
    have l1 := ih1.1 hs (t :: c2 ++ rest) (.op hs hb)
    have : c1 ++ t :: c2 ++ rest = c1 ++ (t :: c2 ++ rest) := by simp
    rw [this]
    refine l1.trans (Leads.step ((ih2.expr (by omega) hf).mono fun n hn => ?_))
    obtain ⟨ho, hk⟩ := (operatorStrength_iff hs).2 hb
    show seqLoop (n + 1) ctx s a (t :: (c2 ++ rest)) = _
    rw [seqLoop]
    pstep (rfl : P.peek (t :: (c2 ++ rest)) = .ok (some t) (t :: (c2 ++ rest)))
    simp only [List.head?_cons, ho, hk, Bool.not_true, Bool.false_eq_true, if_false, ne_eq, not_true_eq_false]
    pstep (rfl : P.getU _ (t :: (c2 ++ rest)) = .ok t (c2 ++ rest))
    pstep hn
    rfl
  | @unary t e c ht _ ih =>
    refine ⟨by omega, fun _ rest hf => ?_, by omega⟩
    refine Ev.succ ((ih.2.1 rfl rest hf).mono fun n hn => ?_)
    unfold parsePrefix
    pstep (rfl : P.getU _ (t :: c ++ rest) = .ok t (c ++ rest))
    pthen (show isPrefixOp t.kind = true by simpa [isPrefixOp, prefixOps] using ht)
    pstep hn
    rfl
  | @cast l r w tf e c1 c2 hl hw g hr _ ih =>
    refine ⟨by omega, fun _ rest hf => ?_, by omega⟩
    refine Ev.succ ((ih.2.1 rfl rest hf).mono fun n hn => ?_)
    have : l :: w :: c1 ++ r :: c2 ++ rest = l :: (w :: (c1 ++ r :: (c2 ++ rest))) := by simp
    rw [this]
    unfold parsePrefix
    pstep (rfl : P.getU _ (l :: _) = .ok l (w :: (c1 ++ r :: (c2 ++ rest))))
    pelse (show ¬ isPrefixOp l.kind = true by rw [hl]; decide)
    pthen hl
    pstep (rfl : P.peekU _ (w :: _) = .ok w _)
    pstep (rfl : (pure (w.kind == "word" && isType w.content ctx.thismod.typedefs) : P Bool) _ = .ok _ _)
    pthen (by simp [hw.1, hw.2])
    pstep parseBareTypeform_of (c := w :: c1) (rest := r :: (c2 ++ rest)) g
      (NotNext.cons (by rw [hr]; decide)) (NotNext.cons (by rw [hr]; decide))
    pstep expect_of hr
    pstep hn
    rfl
  | @sizeofType t l r tf c ht hl g hs hr =>
    refine ⟨by omega, fun _ rest hf => ?_, by omega⟩
    refine Ev.succ (Ev.succ (Ev.of fun n => ?_))
    have : t :: l :: c ++ [r] ++ rest = t :: (l :: (c ++ r :: rest)) := by simp
    rw [this]
    refine parsePrefix_skip (by rw [ht]; decide) ?_ (by rw [ht]; exact fun h => absurd h (by decide)) ?_
    · rintro ⟨p, w, r', e, hp, _⟩; cases e; rw [ht] at hp; exact absurd hp (by decide)
    pthen ht
    unfold parseSizeof
    pstep expect_of ht
    pstep expect_of hl
    pstep (rfl : typeFollows ctx (c ++ r :: rest) = .ok (typeFollowsL ctx (c ++ r :: rest)) (c ++ r :: rest))
    pthen (typeStart_iff.2 hs.mono)
    pstep parseBareTypeform_of g (NotNext.cons (by rw [hr]; decide)) (NotNext.cons (by rw [hr]; decide))
    pstep (rfl : (pure (Expr.sizeofType tf) : P Expr) _ = .ok _ _)
    pstep expect_of hr
    rfl
  | @sizeofExpr t l r e c ht hl g hs hr ih =>
    refine ⟨by omega, fun _ rest hf => ?_, by omega⟩
    have ev := ih.expr (rest := r :: rest) (by omega) (.kind hr (by decide))
    refine Ev.succ (Ev.succ (ev.mono fun n hn => ?_))
    have : t :: l :: c ++ [r] ++ rest = t :: (l :: (c ++ r :: rest)) := by simp
    rw [this]
    refine parsePrefix_skip (by rw [ht]; decide) ?_ (by rw [ht]; exact fun h => absurd h (by decide)) ?_
    · rintro ⟨p, w, r', e, hp, _⟩; cases e; rw [ht] at hp; exact absurd hp (by decide)
    pthen ht
    unfold parseSizeof
    pstep expect_of ht
    pstep expect_of hl
    pstep (rfl : typeFollows ctx (c ++ r :: rest) = .ok (typeFollowsL ctx (c ++ r :: rest)) (c ++ r :: rest))
    pelse (fun h => hs ((typeStart_append g.ne_nil (by rw [hr]; decide) (by rw [hr]; decide)).1
      (typeStart_iff.1 h)))
    pstep hn
    pstep (rfl : (pure (Expr.sizeofExpr e) : P Expr) _ = .ok _ _)
    pstep expect_of hr
    rfl
  | @base e c g hc ih =>
    refine ⟨by omega, fun _ rest hf => ?_, by omega⟩
    have ev := (ih.2.2 rfl rest (fun _ => hf.notDot)).ev (baseLoop_stop hf)
    refine Ev.succ (ev.mono fun n hn => ?_)
    obtain ⟨t, r, rfl, h1, h2⟩ := g.head'
    obtain ⟨h2, h3⟩ := h2 rfl
    refine parsePrefix_skip ?_ ?_ ?_ ?_
    · simp only [atomHeads, List.mem_cons, List.not_mem_nil, or_false] at h2
      rcases h2 with e | e | e | e | e | e <;> rw [e] <;> decide
    · rintro ⟨p, w, r', e, hp, hw⟩
      injection e with e1 e2
      subst e1
      obtain ⟨w', r, rfl⟩ := List.exists_cons_of_ne_nil (h3 hp)
      cases e2
      exact hc ⟨t, w, r, rfl, hp, hw⟩
    · intro hp; simp [h3 hp]
    · pelse (show t.kind ≠ "sizeof" by rintro e; rw [e] at h2; exact absurd h2 (by decide))
      exact hn
  | @name nm c h =>
    refine ⟨by omega, by omega, fun _ rest hn => Leads.step (Ev.succ (Ev.of fun n => ?_))⟩
    unfold parseBase
    refine P.bind_of ?_
    unfold parseAtom
    obtain ⟨w, r, e, hw⟩ := h.head
    have hm : P.more (c ++ rest) = .ok true (c ++ rest) := by rw [e]; rfl
    pstep hm
    pelse (by decide)
    have hf : nsFollows ctx (c ++ rest) = .ok (ctx.isImportedNs w.content) (c ++ rest) := by
      rw [e]; simp [nsFollows, hw]
    pstep hf
    cases hi : ctx.isImportedNs w.content with
    | true =>
      pthen rfl
      pstep readNsId_of h hn
      rfl
    | false =>
      pelse Bool.false_ne_true
      cases h with
      | plain h =>
        cases e
        pstep (rfl : P.getU _ ([w] ++ rest) = .ok w rest)
        simp only [hw]
        rfl
      | qualified _ h => cases e; rw [hi] at h; cases h
  | @num t h =>
    refine ⟨by omega, by omega, fun _ rest hn => Leads.step (Ev.succ (Ev.of fun n => ?_))⟩
    unfold parseBase
    refine P.bind_of (parseAtom_lit (by rw [h]; decide) ?_)
    unfold parseLiteral
    pstep (rfl : P.peekU _ (t :: rest) = .ok t (t :: rest))
    simp [h]
    rfl
  | @string t h =>
    refine ⟨by omega, by omega, fun _ rest hn => Leads.step (Ev.succ (Ev.of fun n => ?_))⟩
    unfold parseBase
    refine P.bind_of (parseAtom_lit (by rw [h]; decide) ?_)
    unfold parseLiteral
    pstep (rfl : P.peekU _ (t :: rest) = .ok t (t :: rest))
    simp [h]
    rfl
  | @char t h =>
    refine ⟨by omega, by omega, fun _ rest hn => Leads.step (Ev.succ (Ev.of fun n => ?_))⟩
    unfold parseBase
    refine P.bind_of (parseAtom_lit (by rw [h]; decide) ?_)
    unfold parseLiteral
    pstep (rfl : P.peekU _ (t :: rest) = .ok t (t :: rest))
    simp [h]
    rfl
  | @paren l r e c hl _ hr ih =>
    refine ⟨by omega, by omega, fun _ rest hn => ?_⟩
    have ev := ih.expr (rest := r :: rest) (by omega) (.kind hr (by decide))
    refine Leads.step (Ev.succ (ev.mono fun n hn => ?_))
    unfold parseBase
    have : l :: c ++ [r] ++ rest = l :: (c ++ r :: rest) := by simp
    rw [this]
    refine P.bind_of (parseAtom_other (by rw [hl]; decide) ?_)
    simp only [hl]
    unfold closeParen
    rw [hn]
    show (expect ctx ")" (some "parenthesized expression") >>= fun _ => (pure e : P Expr)) _ = _
    pstep expect_of hr
    rfl
  | @compLit l r es c hl _ hr ih =>
    refine ⟨by omega, by omega, fun _ rest hn => ?_⟩
    refine Leads.step (Ev.succ (Ev.succ ((ih [] r rest hr).mono fun n hn => ?_)))
    unfold parseBase
    have : l :: c ++ [r] ++ rest = l :: (c ++ r :: rest) := by simp
    rw [this]
    refine P.bind_of (parseAtom_other (by rw [hl]; decide) ?_)
    simp only [hl]
    pstep (rfl : P.unget l _ = .ok () _)
    unfold parseCompLit
    pstep expect_of hl
    pstep hn
    pstep expect_of hr
    rfl
  | @call0 f c l r _ hl hr ih =>
    refine ⟨by omega, by omega, fun _ rest hn => ?_⟩
    have l1 := ih.2.2 rfl (l :: r :: rest) (fun _ => by
      rintro ⟨d, b, r, e, h, _⟩; injection e with e1 _; subst e1; rw [hl] at h; exact absurd h (by decide))
    have : c ++ [l, r] ++ rest = c ++ (l :: r :: rest) := by simp
    rw [this]
    refine l1.trans (Leads.step (Ev.succ (Ev.of fun n => ?_)))
    show baseLoop (n + 2) ctx f (l :: r :: rest) = _
    rw [baseLoop]
    pstep (rfl : P.peek (l :: r :: rest) = .ok (some l) _)
    simp only [List.head?_cons, hl, if_true]
    refine P.bind_of ?_
    unfold parseCall
    pstep expect_of hl
    pstep (rfl : P.peek (r :: rest) = .ok (some r) _)
    simp only [List.head?_cons, hr, ne_eq, not_true_eq_false, if_false]
    pstep (rfl : (pure [] : P (List Expr)) _ = .ok _ _)
    pstep expect_of hr
    rfl
  | @call f c a as c1 c2 l r _ hl ga g hr ih1 ih2 ih3 =>
    refine ⟨by omega, by omega, fun _ rest hn => ?_⟩
    have l1 := ih1.2.2 rfl (l :: (c1 ++ (c2 ++ r :: rest))) (fun _ => by
      rintro ⟨d, b, r, e, h, _⟩; injection e with e1 _; subst e1; rw [hl] at h; exact absurd h (by decide))
    have : c ++ l :: c1 ++ c2 ++ [r] ++ rest = c ++ (l :: (c1 ++ (c2 ++ r :: rest))) := by simp
    rw [this]
    have ev1 := ih2.expr (by omega) (follow_args (rest := rest) g hr)
    have ev2 := ih3 [a] r rest hr
    refine l1.trans (Leads.step (Ev.succ ((ev1.and ev2).mono fun n hn => ?_)))
    obtain ⟨hn1, hn2⟩ := hn
    show baseLoop (n + 2) ctx f (l :: (c1 ++ (c2 ++ r :: rest))) = _
    rw [baseLoop]
    pstep (rfl : P.peek (l :: _) = .ok (some l) _)
    simp only [List.head?_cons, hl, if_true]
    refine P.bind_of ?_
    unfold parseCall
    pstep expect_of hl
    obtain ⟨t, c1, rfl, ht⟩ := ga.head
    pstep (rfl : P.peek (t :: c1 ++ _) = .ok (some t) _)
    simp only [List.cons_append, List.head?_cons]
    pthen (not_head ht (by decide))
    pstep hn1
    pstep hn2
    pstep expect_of hr
    rfl
  | @index a c i c1 l r _ hl _ hr ih1 ih2 =>
    refine ⟨by omega, by omega, fun _ rest hn => ?_⟩
    have l1 := ih1.2.2 rfl (l :: (c1 ++ r :: rest)) (fun _ => by
      rintro ⟨d, b, r, e, h, _⟩; injection e with e1 _; subst e1; rw [hl] at h; exact absurd h (by decide))
    have : c ++ l :: c1 ++ [r] ++ rest = c ++ (l :: (c1 ++ r :: rest)) := by simp
    rw [this]
    have ev := ih2.expr (rest := r :: rest) (by omega) (.kind hr (by decide))
    refine l1.trans (Leads.step (ev.mono fun n hn => ?_))
    show baseLoop (n + 1) ctx a (l :: (c1 ++ r :: rest)) = _
    rw [baseLoop]
    pstep (rfl : P.peek (l :: _) = .ok (some l) _)
    simp only [List.head?_cons]
    pelse (show ¬ l.kind = "(" by rw [hl]; decide)
    pthen hl
    pstep expect_of hl
    pstep hn
    pstep expect_of hr
    rfl
  | @post a c t _ ht ih =>
    refine ⟨by omega, by omega, fun _ rest hn => ?_⟩
    have l1 := ih.2.2 rfl (t :: rest) (fun _ => by
      rintro ⟨d, b, r, e, h, _⟩; cases e; rcases ht with ht | ht <;> rw [ht] at h <;> exact absurd h (by decide))
    have : c ++ [t] ++ rest = c ++ (t :: rest) := by simp
    rw [this]
    refine l1.trans (Leads.step (Ev.of fun n => ?_))
    show baseLoop (n + 1) ctx a (t :: rest) = _
    rw [baseLoop]
    pstep (rfl : P.peek (t :: _) = .ok (some t) _)
    simp only [List.head?_cons]
    pelse (show ¬ t.kind = "(" by rcases ht with ht | ht <;> rw [ht] <;> decide)
    pelse (show ¬ t.kind = "[" by rcases ht with ht | ht <;> rw [ht] <;> decide)
    pthen (show isPostfixOp t.kind = true by rcases ht with ht | ht <;> rw [ht] <;> decide)
    pstep (rfl : P.getU _ (t :: rest) = .ok t rest)
    rfl
  | @field a c t w _ ht hw ih =>
    refine ⟨by omega, by omega, fun _ rest hn => ?_⟩
    have l1 := ih.2.2 rfl (t :: w :: rest) (fun h => by
      rintro ⟨d, b, r, e, h', _⟩
      cases e
      rcases ht with ht | ht
      · rw [ht] at h'; exact absurd h' (by decide)
      · exact ht.2 h)
    have : c ++ [t, w] ++ rest = c ++ (t :: w :: rest) := by simp
    rw [this]
    replace ht : t.kind = "->" ∨ t.kind = "." := ht.imp_right And.left
    refine l1.trans (Leads.step (Ev.of fun n => ?_))
    show baseLoop (n + 1) ctx a (t :: w :: rest) = _
    rw [baseLoop]
    pstep (rfl : P.peek (t :: _) = .ok (some t) _)
    simp only [List.head?_cons]
    pelse (show ¬ t.kind = "(" by rcases ht with ht | ht <;> rw [ht] <;> decide)
    pelse (show ¬ t.kind = "[" by rcases ht with ht | ht <;> rw [ht] <;> decide)
    pelse (show ¬ isPostfixOp t.kind = true by rcases ht with ht | ht <;> rw [ht] <;> decide)
    pthen ht
    pstep (rfl : P.getU _ (t :: w :: rest) = .ok t (w :: rest))
    pstep expect_of hw
    rfl
  | argsNil =>
    intro acc r rest hr
    refine Ev.succ (Ev.of fun n => ?_)
    unfold argsLoop
    pstep P.eat_of_not (NotNext.cons (show r.kind ≠ "," by rw [hr]; decide))
    pelse Bool.false_ne_true
    simp
    rfl
  | @argsCons t a as c1 c2 ht _ g ih1 ih2 =>
    intro acc r rest hr
    have ev1 := ih1.expr (by omega) (follow_args (rest := rest) g hr)
    have ev2 := ih2 (acc ++ [a]) r rest hr
    refine Ev.succ ((ev1.and ev2).mono fun n hn => ?_)
    obtain ⟨hn1, hn2⟩ := hn
    have : t :: c1 ++ c2 ++ r :: rest = t :: (c1 ++ (c2 ++ r :: rest)) := by simp
    rw [this]
    unfold argsLoop
    pstep P.eat_of ht
    pthen rfl
    pstep hn1
    rw [hn2]
    simp
  | entriesNil =>
    intro acc r rest hr
    refine Ev.succ (Ev.of fun n => ?_)
    unfold compLitLoop
    pstep (rfl : P.peekU _ (r :: rest) = .ok r _)
    pthen hr
    simp
    rfl
  | @entriesLast e c g ih =>
    intro acc r rest hr
    refine Ev.succ ((ih (r :: rest) (.kind hr (by decide))).mono fun n hn => ?_)
    obtain ⟨t, c, rfl, ht⟩ := g.head'
    unfold compLitLoop
    pstep (rfl : P.peekU _ (t :: c ++ r :: rest) = .ok t _)
    pelse (show ¬ t.kind = "}" by rintro e; rw [e] at ht; exact absurd ht (by decide))
    pstep hn
    pstep (rfl : P.peekU _ (r :: rest) = .ok r _)
    pelse (show ¬ r.kind = "," by rw [hr]; decide)
    rfl
  | @entriesCons e es c1 c2 t g ht _ ih1 ih2 =>
    intro acc r rest hr
    have ev1 := ih1 (t :: (c2 ++ r :: rest)) (.kind ht (by decide))
    have ev2 := ih2 (acc ++ [e]) r rest hr
    refine Ev.succ ((ev1.and ev2).mono fun n hn => ?_)
    obtain ⟨hn1, hn2⟩ := hn
    have : c1 ++ t :: c2 ++ r :: rest = c1 ++ (t :: (c2 ++ r :: rest)) := by simp
    rw [this]
    obtain ⟨x, c1, rfl, hx⟩ := g.head'
    unfold compLitLoop
    pstep (rfl : P.peekU _ (x :: c1 ++ _) = .ok x _)
    pelse (show ¬ x.kind = "}" by rintro e; rw [e] at hx; exact absurd hx (by decide))
    pstep hn1
    pstep (rfl : P.peekU _ (t :: (c2 ++ r :: rest)) = .ok t _)
    pthen ht
    pstep (rfl : P.get (t :: (c2 ++ r :: rest)) = .ok _ _)
    show compLitLoop n ctx (acc ++ [e]) (c2 ++ r :: rest) = _
    rw [hn2]
    simp
  | @entryField d w q v c hd hw hq _ ih =>
    intro rest hf
    refine Ev.succ ((ih.expr (by omega) hf).mono fun n hn => ?_)
    unfold parseEntry
    pstep (rfl : P.peekU _ (d :: w :: q :: c ++ rest) = .ok d _)
    pthen hd
    pstep expect_of hd
    pstep expect_of hw
    pstep expect_of hq
    pstep hn
    rfl
  | @entryIndex l r q k v c1 c2 hl _ hr hq _ ih1 ih2 =>
    intro rest hf
    have ev1 := ih1.expr (rest := r :: q :: (c2 ++ rest)) (by omega) (.kind hr (by decide))
    refine Ev.succ ((ev1.and (ih2.expr (by omega) hf)).mono fun n hn => ?_)
    obtain ⟨hn1, hn2⟩ := hn
    have : l :: c1 ++ r :: q :: c2 ++ rest = l :: (c1 ++ r :: q :: (c2 ++ rest)) := by simp
    rw [this]
    unfold parseEntry
    pstep (rfl : P.peekU _ (l :: _) = .ok l _)
    pelse (show ¬ l.kind = "." by rw [hl]; decide)
    pstep P.follows_of hl
    pthen rfl
    pstep (rfl : P.get (l :: _) = .ok _ _)
    pstep hn1
    pstep expect_of hr
    pstep expect_of hq
    pstep hn2
    rfl
  | @entryPlain v c g ih =>
    intro rest hf
    refine Ev.succ ((ih.expr (by omega) hf).mono fun n hn => ?_)
    obtain ⟨t, c, rfl, ht⟩ := g.head
    unfold parseEntry
    pstep (rfl : P.peekU _ (t :: c ++ rest) = .ok t _)
    pelse (not_head ht (by decide))
    pstep P.follows_of_not (NotNext.cons (not_head ht (by decide)))
    pelse Bool.false_ne_true
    pstep hn
    rfl

/-- The parser accepts every expression of the grammar, given a large enough budget. -/
theorem _root_.Che.Spec.ExG.parse {s : Nat} {e : Expr} {c rest : List Token} (g : ExG ctx (.ex s e) c)
    (hs : s ≤ 14) (hf : Follow s rest) : Ev (fun n => parseExpr n ctx s (c ++ rest) = .ok e rest) :=
  g.complete.expr hs hf

end Che
