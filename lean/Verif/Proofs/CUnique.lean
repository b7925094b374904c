import Verif.Spec.CGrammar
/-!
# The grammar of C expressions is unambiguous

A sequence of tokens is an expression in at most one way, and so is the longest
beginning of a sequence.
-/
namespace Che.Spec
open Che

variable {ty : String → Bool}

/-! ## Inversion -/

/-- Operators and operands after the first operand of a strength. -/
inductive Tail (ty : String → Bool) (s : Nat) : CExpr → List CTok → CExpr → Prop
  | nil {e} : Tail ty s e [] e
  | cons {op e b c rest e'} : cLevel op = some s → CEx ty (.ex (s + 1) b) c →
      Tail ty s (.binaryOp op e b) rest e' → Tail ty s e (.punct op :: (c ++ rest)) e'

/-- Postfix operators after a primary expression. -/
inductive PTail (ty : String → Bool) : CExpr → List CTok → CExpr → Prop
  | nil {e} : PTail ty e [] e
  | call0 {e rest e'} : PTail ty (.call e []) rest e' → PTail ty e (.punct "(" :: .punct ")" :: rest) e'
  | call {e a as c1 c2 rest e'} : CEx ty (.ex 2 a) c1 → CEx ty (.args as) c2 →
      PTail ty (.call e (a :: as)) rest e' →
      PTail ty e (.punct "(" :: (c1 ++ (c2 ++ .punct ")" :: rest))) e'
  | index {e i c1 rest e'} : CEx ty (.ex 2 i) c1 → PTail ty (.arrIndex e i) rest e' →
      PTail ty e (.punct "[" :: (c1 ++ .punct "]" :: rest)) e'
  | post {op e rest e'} : op ∈ ["++", "--"] → PTail ty (.postfixOp op e) rest e' →
      PTail ty e (.punct op :: rest) e'
  | field {op e w rest e'} : op ∈ [".", "->"] → w ∉ cKeywords → PTail ty (.fieldAccess op e w) rest e' →
      PTail ty e (.punct op :: .word w :: rest) e'

/-- Primary expressions. -/
inductive Prim (ty : String → Bool) : CExpr → List CTok → Prop
  | ident {w} : CValueWord ty w → Prim ty (.ident w) [.word w]
  | num {s} : Prim ty (.lit (.number s)) [.num s]
  | chr {s} : Prim ty (.lit (.char s)) [.chr s]
  | strs {l ls} : Prim ty (.lit (.string (String.join (l :: ls)))) (.str l :: ls.map .str)
  | paren {e c} : CEx ty (.ex 2 e) c → Prim ty e (.punct "(" :: (c ++ [.punct ")"]))

theorem Tail.append {s e c e1 op b c2} (h : Tail ty s e c e1) (hop : cLevel op = some s)
    (hb : CEx ty (.ex (s + 1) b) c2) : Tail ty s e (c ++ .punct op :: c2) (.binaryOp op e1 b) := by
  induction h with
  | nil => simpa using Tail.cons hop hb Tail.nil
  | cons h1 h2 h3 ih => simpa using Tail.cons h1 h2 ih

theorem cLevel_range {op s} (h : cLevel op = some s) : 3 ≤ s ∧ s ≤ 12 := by
  unfold cLevel at h
  split at h <;> try split at h <;> try split at h <;> try split at h <;> try split at h <;>
    try split at h <;> try split at h <;> try split at h <;> try split at h <;> try split at h
  all_goals simp at h
  all_goals omega

theorem PTail.append {e c e1 c2 e2} (h : PTail ty e c e1) (h2 : PTail ty e1 c2 e2) :
    PTail ty e (c ++ c2) e2 := by
  induction h with
  | nil => simpa using h2
  | call0 _ ih => simpa using PTail.call0 (ih h2)
  | call h1 h3 _ ih => simpa using PTail.call h1 h3 (ih h2)
  | index h1 _ ih => simpa using PTail.index h1 (ih h2)
  | post h1 _ ih => simpa using PTail.post h1 (ih h2)
  | field h1 h3 _ ih => simpa using PTail.field h1 h3 (ih h2)

/-- The shape of an expression of some strength. -/
def Shape (ty : String → Bool) (s : Nat) (e : CExpr) (c : List CTok) : Prop :=
  if s = 2 then CEx ty (.ex 3 e) c ∨ ∃ op a b c1 c2, op ∈ cAssignOps ∧ CEx ty (.ex 14 a) c1 ∧
    CEx ty (.ex 2 b) c2 ∧ e = .binaryOp op a b ∧ c = c1 ++ .punct op :: c2
  else if s ≤ 12 then ∃ e0 c0 rest, CEx ty (.ex (s + 1) e0) c0 ∧ Tail ty s e0 rest e ∧ c = c0 ++ rest
  else if s = 13 then CEx ty (.ex 14 e) c ∨ ∃ t e1 c1 c2, CType ty t c1 ∧ CEx ty (.ex 13 e1) c2 ∧
    e = .cast t e1 ∧ c = .punct "(" :: (c1 ++ .punct ")" :: c2)
  else if s = 14 then CEx ty (.ex 15 e) c ∨
    (∃ op e1 c1, op ∈ cUnaryOps ∧ CEx ty (.ex 13 e1) c1 ∧ e = .prefixOp op e1 ∧ c = .punct op :: c1) ∨
    (∃ op e1 c1, op ∈ ["++", "--"] ∧ CEx ty (.ex 14 e1) c1 ∧ e = .prefixOp op e1 ∧ c = .punct op :: c1) ∨
    (∃ e1 c1, CEx ty (.ex 14 e1) c1 ∧ e = .sizeofExpr e1 ∧ c = .word "sizeof" :: c1) ∨
    (∃ t c1, CType ty t c1 ∧ e = .sizeofType t ∧ c = .word "sizeof" :: .punct "(" :: (c1 ++ [.punct ")"]))
  else ∃ e0 c0 rest, Prim ty e0 c0 ∧ PTail ty e0 rest e ∧ c = c0 ++ rest

theorem CEx.shape {s e c} (h : CEx ty (.ex s e) c) : 2 ≤ s ∧ s ≤ 15 ∧ Shape ty s e c := by
  generalize hcat : CCat.ex s e = cat at h
  induction h generalizing s e with
  | @up s' e' c' h1 h2 h3 ih =>
    cases hcat
    refine ⟨h1, by omega, ?_⟩
    unfold Shape
    by_cases hs : s' = 2
    · subst hs; exact Or.inl h3
    by_cases hs' : s' ≤ 12
    · rw [if_neg hs, if_pos hs']; exact ⟨_, _, [], h3, Tail.nil, by simp⟩
    by_cases h13 : s' = 13
    · subst h13; exact Or.inl h3
    have : s' = 14 := by omega
    subst this; exact Or.inl h3
  | assign h1 h2 h3 =>
    cases hcat
    exact ⟨by omega, by omega, Or.inr ⟨_, _, _, _, _, h1, h2, h3, rfl, rfl⟩⟩
  | bin h1 h2 h3 ih1 ih2 =>
    cases hcat
    have hr := cLevel_range h1
    obtain ⟨_, _, hsh⟩ := ih1 rfl
    refine ⟨by omega, by omega, ?_⟩
    unfold Shape at hsh ⊢
    rw [if_neg (by omega), if_pos (by omega)] at hsh ⊢
    obtain ⟨e0, c0, rest, h4, h5, rfl⟩ := hsh
    exact ⟨e0, c0, _, h4, h5.append h1 h3, by simp⟩
  | cast h1 h2 =>
    cases hcat
    exact ⟨by omega, by omega, Or.inr ⟨_, _, _, _, h1, h2, rfl, rfl⟩⟩
  | unary h1 h2 =>
    cases hcat
    exact ⟨by omega, by omega, Or.inr (Or.inl ⟨_, _, _, h1, h2, rfl, rfl⟩)⟩
  | incr h1 h2 =>
    cases hcat
    exact ⟨by omega, by omega, Or.inr (Or.inr (Or.inl ⟨_, _, _, h1, h2, rfl, rfl⟩))⟩
  | sizeofExpr h1 =>
    cases hcat
    exact ⟨by omega, by omega, Or.inr (Or.inr (Or.inr (Or.inl ⟨_, _, h1, rfl, rfl⟩)))⟩
  | sizeofType h1 =>
    cases hcat
    exact ⟨by omega, by omega, Or.inr (Or.inr (Or.inr (Or.inr ⟨_, _, h1, rfl, rfl⟩)))⟩
  | ident h1 => cases hcat; exact ⟨by omega, by omega, _, _, [], Prim.ident h1, PTail.nil, by simp⟩
  | num => cases hcat; exact ⟨by omega, by omega, _, _, [], Prim.num, PTail.nil, by simp⟩
  | chr => cases hcat; exact ⟨by omega, by omega, _, _, [], Prim.chr, PTail.nil, by simp⟩
  | strs => cases hcat; exact ⟨by omega, by omega, _, _, [], Prim.strs, PTail.nil, by simp⟩
  | paren h1 => cases hcat; exact ⟨by omega, by omega, _, _, [], Prim.paren h1, PTail.nil, by simp⟩
  | call0 h1 ih =>
    cases hcat
    obtain ⟨_, _, e0, c0, rest, h4, h5, rfl⟩ := ih rfl
    exact ⟨by omega, by omega, e0, c0, _, h4, h5.append (PTail.call0 PTail.nil), by simp⟩
  | call h1 h2 h3 ih =>
    cases hcat
    obtain ⟨_, _, e0, c0, rest, h4, h5, rfl⟩ := ih rfl
    exact ⟨by omega, by omega, e0, c0, _, h4, h5.append (PTail.call h2 h3 PTail.nil), by simp⟩
  | index h1 h2 ih =>
    cases hcat
    obtain ⟨_, _, e0, c0, rest, h4, h5, rfl⟩ := ih rfl
    exact ⟨by omega, by omega, e0, c0, _, h4, h5.append (PTail.index h2 PTail.nil), by simp⟩
  | post h1 h2 ih =>
    cases hcat
    obtain ⟨_, _, e0, c0, rest, h4, h5, rfl⟩ := ih rfl
    exact ⟨by omega, by omega, e0, c0, _, h4, h5.append (PTail.post h1 PTail.nil), by simp⟩
  | field h1 h2 h3 ih =>
    cases hcat
    obtain ⟨_, _, e0, c0, rest, h4, h5, rfl⟩ := ih rfl
    exact ⟨by omega, by omega, e0, c0, _, h4, h5.append (PTail.field h1 h3 PTail.nil), by simp⟩
  | _ => cases hcat

theorem CEx.up_to {s e c} (h : CEx ty (.ex s e) c) : ∀ {k}, 2 ≤ k → k ≤ s → CEx ty (.ex k e) c := by
  intro k hk hks
  have hs := h.shape.2.1
  obtain ⟨d, rfl⟩ := Nat.exists_eq_add_of_le hks
  clear hks
  induction d with
  | zero => exact h
  | succ d ih => exact ih (.up (by omega) (by omega) h) (by omega)

/-! ## First tokens -/

/-- The tokens begin with a type. -/
def TypeBegin (ty : String → Bool) : List CTok → Prop
  | .word w :: _ => w = "const" ∨ CTypeWord ty w
  | _ => False

/-- A token that begins an expression. -/
def Begins (ty : String → Bool) : CTok → Prop
  | .word w => ¬ (w = "const" ∨ CTypeWord ty w)
  | .punct p => p ∈ ["(", "&", "*", "+", "-", "~", "!", "++", "--"]
  | _ => True

theorem CEx.begins {cat c} (h : CEx ty cat c) :
    match cat with
    | .ex s _ => (∃ t r, c = t :: r ∧ Begins ty t) ∧
        (14 ≤ s → ∀ r, c = .punct "(" :: r → ¬ TypeBegin ty r)
    | _ => True := by
  have app : ∀ {c c2 : List CTok}, (∃ t r, c = t :: r ∧ Begins ty t) →
      (∃ t r, c ++ c2 = t :: r ∧ Begins ty t) := by
    rintro _ _ ⟨t, r, rfl, h⟩; exact ⟨t, _, rfl, h⟩
  have app2 : ∀ {c c2 : List CTok}, (∃ t r, c = t :: r ∧ Begins ty t) → c2 ≠ [] →
      (∀ r, c = .punct "(" :: r → r ≠ [] ∧ ¬ TypeBegin ty r) →
      ∀ r, c ++ c2 = .punct "(" :: r → ¬ TypeBegin ty r := by
    rintro _ c2 ⟨t, r, rfl, h⟩ hc2 h2 r' hr'
    simp only [List.cons_append, List.cons.injEq] at hr'
    obtain ⟨rfl, rfl⟩ := hr'
    obtain ⟨h3, h4⟩ := h2 r rfl
    cases r with
    | nil => exact absurd rfl h3
    | cons x xs => cases x <;> simpa [TypeBegin] using h4
  have long : ∀ {e c}, CEx ty (.ex 15 e) c → ∀ r, c = .punct "(" :: r → r ≠ [] := by
    rintro e c h r rfl rfl
    obtain ⟨_, _, e0, c0, rest, h1, h2, h3⟩ := h.shape
    cases h1 <;> simp at h3
  induction h with
  | up h1 h2 h3 ih => exact ⟨ih.1, fun h => ih.2 (by omega)⟩
  | assign h1 h2 h3 ih1 ih2 => exact ⟨app ih1.1, fun h => by omega⟩
  | bin h1 h2 h3 ih1 ih2 => exact ⟨app ih1.1, fun h => by have := cLevel_range h1; omega⟩
  | cast h1 h2 => exact ⟨⟨_, _, rfl, by simp [Begins]⟩, fun h => by omega⟩
  | @unary op e c h1 h2 ih =>
    refine ⟨⟨_, _, rfl, ?_⟩, ?_⟩
    · simp only [cUnaryOps] at h1; simp only [Begins]; clear ih h2; revert h1; simp; grind
    · rintro - r hr
      simp only [List.cons.injEq, CTok.punct.injEq] at hr
      rw [hr.1] at h1; simp [cUnaryOps] at h1
  | @incr op e c h1 h2 ih =>
    refine ⟨⟨_, _, rfl, ?_⟩, ?_⟩
    · simp only [Begins]; clear ih h2; revert h1; simp; grind
    · rintro - r hr
      simp only [List.cons.injEq, CTok.punct.injEq] at hr
      rw [hr.1] at h1; simp at h1
  | sizeofExpr h1 => exact ⟨⟨_, _, rfl, by simp [Begins, CTypeWord]⟩, by simp⟩
  | sizeofType h1 => exact ⟨⟨_, _, rfl, by simp [Begins, CTypeWord]⟩, by simp⟩
  | @ident w h1 =>
    refine ⟨⟨_, _, rfl, ?_⟩, by simp⟩
    rintro (rfl | h)
    · exact h1.2 (by simp [cKeywords])
    · have := h1.1; rw [h.1] at this; cases this
  | num => exact ⟨⟨_, _, rfl, trivial⟩, by simp⟩
  | chr => exact ⟨⟨_, _, rfl, trivial⟩, by simp⟩
  | strs => exact ⟨⟨_, _, rfl, trivial⟩, by simp⟩
  | paren h1 ih =>
    refine ⟨⟨_, _, rfl, by simp [Begins]⟩, ?_⟩
    rintro - r hr
    obtain ⟨t, r', rfl, ht⟩ := ih.1
    simp only [List.cons_append, List.cons.injEq, true_and] at hr
    subst hr
    cases t <;> simp_all [TypeBegin, Begins]
  | call0 h1 ih =>
    exact ⟨app ih.1, fun _ => app2 ih.1 (by simp) (fun r hr => ⟨long h1 r hr, ih.2 (by omega) r hr⟩)⟩
  | call h1 h2 h3 ih =>
    exact ⟨app ih.1, fun _ => app2 ih.1 (by simp) (fun r hr => ⟨long h1 r hr, ih.2 (by omega) r hr⟩)⟩
  | index h1 h2 ih =>
    exact ⟨app ih.1, fun _ => app2 ih.1 (by simp) (fun r hr => ⟨long h1 r hr, ih.2 (by omega) r hr⟩)⟩
  | post h1 h2 ih =>
    exact ⟨app ih.1, fun _ => app2 ih.1 (by simp) (fun r hr => ⟨long h2 r hr, ih.2 (by omega) r hr⟩)⟩
  | field h1 h2 h3 ih =>
    exact ⟨app ih.1, fun _ => app2 ih.1 (by simp) (fun r hr => ⟨long h2 r hr, ih.2 (by omega) r hr⟩)⟩
  | _ => trivial

/-! ## What may follow -/

/-- A token that continues an expression of some strength. -/
def Continues (s : Nat) : CTok → Prop
  | .punct p => (∃ l, cLevel p = some l ∧ s ≤ l) ∨ (p ∈ cAssignOps ∧ s = 2) ∨
      p ∈ ["(", "[", ".", "->", "++", "--"]
  | .str _ => True
  | _ => False

/-- The tokens do not continue an expression of some strength. -/
def Stop (s : Nat) (r : List CTok) : Prop := ∀ t r', r = t :: r' → ¬ Continues s t

theorem Stop.mono {s s' r} (h : Stop s r) (h2 : 2 ≤ s) (hs : s ≤ s') : Stop s' r := by
  intro t r' hr hc
  refine h t r' hr ?_
  cases t <;> simp only [Continues] at hc ⊢
  rcases hc with ⟨l, h1, h3⟩ | ⟨h1, h3⟩ | h
  · exact Or.inl ⟨l, h1, by omega⟩
  · exact Or.inr (Or.inl ⟨h1, by omega⟩)
  · exact Or.inr (Or.inr h)

theorem Stop.same {s s' r} (h : Stop s r) (hs' : 13 ≤ s') : Stop s' r := by
  intro t r' hr hc
  refine h t r' hr ?_
  cases t <;> simp only [Continues] at hc ⊢
  rcases hc with ⟨l, h1, h3⟩ | ⟨h1, h3⟩ | h
  · have := cLevel_range h1; omega
  · omega
  · exact Or.inr (Or.inr h)

theorem stop_punct {s p r} (h1 : cLevel p = none) (h2 : p ∉ cAssignOps)
    (h3 : p ∉ ["(", "[", ".", "->", "++", "--"]) : Stop s (.punct p :: r) := by
  rintro t r' hr hc
  simp only [List.cons.injEq] at hr
  obtain ⟨rfl, rfl⟩ := hr
  rcases hc with ⟨l, h, _⟩ | ⟨h, _⟩ | h
  · rw [h1] at h; cases h
  · exact h2 h
  · exact h3 h

theorem stop_close {s r} : Stop s (.punct ")" :: r) :=
  stop_punct (by decide) (by decide) (by decide)
theorem stop_bracket {s r} : Stop s (.punct "]" :: r) :=
  stop_punct (by decide) (by decide) (by decide)
theorem stop_comma {s r} : Stop s (.punct "," :: r) :=
  stop_punct (by decide) (by decide) (by decide)
theorem stop_brace {s r} : Stop s (.punct "}" :: r) :=
  stop_punct (by decide) (by decide) (by decide)
theorem stop_semi {s r} : Stop s (.punct ";" :: r) :=
  stop_punct (by decide) (by decide) (by decide)
theorem stop_nil {s} : Stop s [] := by intro t r h; cases h

theorem level_not_post {op l} (h : cLevel op = some l) : op ∉ ["(", "[", ".", "->", "++", "--"] := by
  intro hm
  simp only [List.mem_cons, List.not_mem_nil, or_false] at hm
  rcases hm with rfl | rfl | rfl | rfl | rfl | rfl <;> exact absurd h (by simp [cLevel])

theorem level_not_assign {op l} (h : cLevel op = some l) : op ∉ cAssignOps := by
  intro hm
  simp only [cAssignOps, List.mem_cons, List.not_mem_nil, or_false] at hm
  rcases hm with rfl | rfl | rfl | rfl | rfl | rfl | rfl | rfl | rfl | rfl | rfl <;>
    exact absurd h (by simp [cLevel])

theorem assign_not_post {op} (h : op ∈ cAssignOps) : op ∉ ["(", "[", ".", "->", "++", "--"] := by
  simp only [cAssignOps, List.mem_cons, List.not_mem_nil, or_false] at h
  rcases h with rfl | rfl | rfl | rfl | rfl | rfl | rfl | rfl | rfl | rfl | rfl <;> decide

/-! ## Types -/

theorem stars_det : ∀ {n n' : Nat} {p r r'}, p ≠ "*" →
    starToks n ++ .punct p :: r = starToks n' ++ .punct p :: r' → n = n'
  | 0, 0, _, _, _, _, _ => rfl
  | 0, n' + 1, p, _, _, hp, h => by
    simp [starToks, List.replicate_succ] at h; exact absurd h.1 hp
  | n + 1, 0, p, _, _, hp, h => by
    simp [starToks, List.replicate_succ] at h; exact absurd h.1.symm hp
  | n + 1, n' + 1, p, r, r', hp, h => by
    simp only [starToks, List.replicate_succ, List.cons_append, List.cons.injEq, true_and] at h
    rw [stars_det hp h]

theorem type_det {t t' c c' r r'} (h : CType ty t c) (h' : CType ty t' c')
    (he : c ++ .punct ")" :: r = c' ++ .punct ")" :: r') : t = t' ∧ c = c' := by
  cases h with
  | plain h1 =>
    cases h' with
    | plain h2 =>
      simp only [List.cons_append, List.cons.injEq, CTok.word.injEq] at he
      obtain ⟨rfl, he⟩ := he
      rw [stars_det (by decide) he]; exact ⟨rfl, rfl⟩
    | const h2 =>
      simp only [List.cons_append, List.cons.injEq, CTok.word.injEq] at he
      exact absurd he.1 h1.2.1
  | const h1 =>
    cases h' with
    | plain h2 =>
      simp only [List.cons_append, List.cons.injEq, CTok.word.injEq] at he
      exact absurd he.1.symm h2.2.1
    | const h2 =>
      simp only [List.cons_append, List.cons.injEq, CTok.word.injEq, true_and] at he
      obtain ⟨rfl, he⟩ := he
      rw [stars_det (by decide) he]; exact ⟨rfl, rfl⟩

theorem type_begin {t c} (h : CType ty t c) (r : List CTok) : TypeBegin ty (c ++ r) := by
  cases h with
  | plain h => exact Or.inr h
  | const h => exact Or.inl rfl

/-! ## The longest expression is unique -/

/-- Two expressions of the strength at the beginning of the same tokens are the
same, if neither can be continued. -/
def Det (ty : String → Bool) (s n : Nat) : Prop :=
  ∀ e c, CEx ty (.ex s e) c → c.length ≤ n → ∀ e' c' r r', CEx ty (.ex s e') c' →
    c ++ r = c' ++ r' → Stop s r → Stop s r' → e = e' ∧ c = c'

theorem args_shape {as c} (h : CEx ty (.args as) c) :
    (as = [] ∧ c = []) ∨ ∃ a as' c1 c2, as = a :: as' ∧ c = .punct "," :: (c1 ++ c2) ∧
      CEx ty (.ex 2 a) c1 ∧ CEx ty (.args as') c2 := by
  cases h with
  | argsNil => exact Or.inl ⟨rfl, rfl⟩
  | argsCons h1 h2 => exact Or.inr ⟨_, _, _, _, rfl, rfl, h1, h2⟩

/-- The arguments that remain begin with a comma, or end the list. -/
theorem args_stop {as c r} (h : CEx ty (.args as) c) : Stop 2 (c ++ .punct ")" :: r) := by
  rcases args_shape h with ⟨-, rfl⟩ | ⟨_, _, _, _, -, rfl, _⟩
  · exact stop_close
  · exact stop_comma

theorem args_det {n : Nat} (hd : Det ty 2 n) : ∀ {as c}, CEx ty (.args as) c → c.length ≤ n →
    ∀ {as' c' r r'}, CEx ty (.args as') c' → c ++ .punct ")" :: r = c' ++ .punct ")" :: r' →
    as = as' ∧ c = c' := by
  intro as
  induction as with
  | nil =>
    intro c h hn as' c' r r' h' he
    rcases args_shape h with ⟨-, rfl⟩ | ⟨_, _, _, _, h1, _⟩
    · rcases args_shape h' with ⟨rfl, rfl⟩ | ⟨_, _, _, _, h1, rfl, _⟩
      · exact ⟨rfl, rfl⟩
      · simp at he
    · cases h1
  | cons a as ih =>
    intro c h hn as' c' r r' h' he
    rcases args_shape h with ⟨h1, -⟩ | ⟨a1, as1, c1, c2, h1, rfl, h2, h3⟩
    · cases h1
    · cases h1
      rcases args_shape h' with ⟨rfl, rfl⟩ | ⟨a', as'', c1', c2', rfl, rfl, h2', h3'⟩
      · simp at he
      · simp only [List.cons_append, List.cons.injEq, true_and, List.append_assoc] at he
        simp only [List.length_cons, List.length_append] at hn
        obtain ⟨rfl, rfl⟩ := hd _ _ h2 (by omega) _ _ _ _ h2' he (args_stop h3) (args_stop h3')
        obtain ⟨rfl, rfl⟩ := ih h3 (by omega) h3' (List.append_cancel_left he)
        exact ⟨rfl, rfl⟩

theorem ptail_det {n : Nat} (hd : ∀ m < n, Det ty 2 m) {e c e1} (h : PTail ty e c e1) :
    c.length ≤ n → ∀ {c' e1' r r'}, PTail ty e c' e1' → c ++ r = c' ++ r' → Stop 15 r → Stop 15 r' →
    e1 = e1' ∧ c = c' := by
  induction h with
  | nil =>
    intro hn c' e1' r r' h' he hr hr'
    cases h' with
    | nil => exact ⟨rfl, rfl⟩
    | call0 h => exact absurd (Or.inr (Or.inr (by simp))) (hr (.punct "(") _ (by simpa using he))
    | call h => exact absurd (Or.inr (Or.inr (by simp))) (hr (.punct "(") _ (by simpa using he))
    | index h => exact absurd (Or.inr (Or.inr (by simp))) (hr (.punct "[") _ (by simpa using he))
    | @post op _ _ _ h =>
      refine absurd (Or.inr (Or.inr ?_)) (hr (.punct op) _ (by simpa using he))
      simp only [List.mem_cons, List.not_mem_nil, or_false] at h ⊢; rcases h with rfl | rfl <;> simp
    | @field op _ _ _ _ h =>
      refine absurd (Or.inr (Or.inr ?_)) (hr (.punct op) _ (by simpa using he))
      simp only [List.mem_cons, List.not_mem_nil, or_false] at h ⊢; rcases h with rfl | rfl <;> simp
  | @call0 e rest e' h ih =>
    intro hn c' e1' r r' h' he hr hr'
    simp only [List.length_cons] at hn
    cases h' with
    | nil => exact absurd (Or.inr (Or.inr (by simp))) (hr' (.punct "(") _ (by simpa using he.symm))
    | call0 h2 =>
      simp only [List.cons_append, List.cons.injEq, true_and] at he
      obtain ⟨rfl, rfl⟩ := ih (by omega) h2 he hr hr'
      exact ⟨rfl, rfl⟩
    | call h2 =>
      simp only [List.cons_append, List.cons.injEq, true_and] at he
      obtain ⟨⟨t, rr, rfl, hb⟩, -⟩ := h2.begins
      simp only [List.cons_append, List.cons.injEq] at he
      rw [← he.1] at hb; simp [Begins] at hb
    | index h => simp at he
    | post h =>
      simp only [List.cons_append, List.cons.injEq, CTok.punct.injEq] at he
      rw [← he.1] at h; simp at h
    | field h =>
      simp only [List.cons_append, List.cons.injEq, CTok.punct.injEq] at he
      rw [← he.1] at h; simp at h
  | @call e a as c1 c2 rest e' h1 h2 h ih =>
    intro hn c' e1' r r' h' he hr hr'
    simp only [List.length_cons, List.length_append] at hn
    cases h' with
    | nil => exact absurd (Or.inr (Or.inr (by simp))) (hr' (.punct "(") _ (by simpa using he.symm))
    | call0 h2 =>
      simp only [List.cons_append, List.cons.injEq, true_and] at he
      obtain ⟨⟨t, rr, rfl, hb⟩, -⟩ := h1.begins
      simp only [List.cons_append, List.cons.injEq] at he
      rw [he.1] at hb; simp [Begins] at hb
    | call h1' h2' h3' =>
      simp only [List.cons_append, List.cons.injEq, true_and, List.append_assoc] at he
      obtain ⟨rfl, rfl⟩ := hd (n - 1) (by omega) _ _ h1 (by omega) _ _ _ _ h1' he (args_stop h2) (args_stop h2')
      have he := List.append_cancel_left he
      obtain ⟨rfl, rfl⟩ := args_det (hd (n - 1) (by omega)) h2 (by omega) h2' he
      have he := List.append_cancel_left he
      simp only [List.cons.injEq, true_and] at he
      obtain ⟨rfl, rfl⟩ := ih (by omega) h3' he hr hr'
      exact ⟨rfl, rfl⟩
    | index h => simp at he
    | post h =>
      simp only [List.cons_append, List.cons.injEq, CTok.punct.injEq] at he
      rw [← he.1] at h; simp at h
    | field h =>
      simp only [List.cons_append, List.cons.injEq, CTok.punct.injEq] at he
      rw [← he.1] at h; simp at h
  | @index e i c1 rest e' h1 h ih =>
    intro hn c' e1' r r' h' he hr hr'
    simp only [List.length_cons, List.length_append] at hn
    cases h' with
    | nil => exact absurd (Or.inr (Or.inr (by simp))) (hr' (.punct "[") _ (by simpa using he.symm))
    | call0 h2 => simp at he
    | call h1' => simp at he
    | index h1' h2' =>
      simp only [List.cons_append, List.cons.injEq, true_and, List.append_assoc] at he
      obtain ⟨rfl, rfl⟩ := hd (n - 1) (by omega) _ _ h1 (by omega) _ _ _ _ h1' he stop_bracket stop_bracket
      have he := List.append_cancel_left he
      simp only [List.cons.injEq, true_and] at he
      obtain ⟨rfl, rfl⟩ := ih (by omega) h2' he hr hr'
      exact ⟨rfl, rfl⟩
    | post h =>
      simp only [List.cons_append, List.cons.injEq, CTok.punct.injEq] at he
      rw [← he.1] at h; simp at h
    | field h =>
      simp only [List.cons_append, List.cons.injEq, CTok.punct.injEq] at he
      rw [← he.1] at h; simp at h
  | @post op e rest e' hop h ih =>
    intro hn c' e1' r r' h' he hr hr'
    simp only [List.length_cons] at hn
    cases h' with
    | nil =>
      refine absurd (Or.inr (Or.inr ?_)) (hr' (.punct op) _ (by simpa using he.symm))
      simp only [List.mem_cons, List.not_mem_nil, or_false] at hop ⊢; rcases hop with rfl | rfl <;> simp
    | call0 h2 =>
      simp only [List.cons_append, List.cons.injEq, CTok.punct.injEq] at he
      rw [he.1] at hop; simp at hop
    | call h1' =>
      simp only [List.cons_append, List.cons.injEq, CTok.punct.injEq] at he
      rw [he.1] at hop; simp at hop
    | index h1' =>
      simp only [List.cons_append, List.cons.injEq, CTok.punct.injEq] at he
      rw [he.1] at hop; simp at hop
    | post h1 h2 =>
      simp only [List.cons_append, List.cons.injEq, CTok.punct.injEq] at he
      obtain ⟨rfl, he⟩ := he
      obtain ⟨rfl, rfl⟩ := ih (by omega) h2 he hr hr'
      exact ⟨rfl, rfl⟩
    | field h =>
      simp only [List.cons_append, List.cons.injEq, CTok.punct.injEq] at he
      rw [he.1] at hop
      simp only [List.mem_cons, List.not_mem_nil, or_false] at hop h
      rcases hop with rfl | rfl <;> simp at h
  | @field op e w rest e' hop hw h ih =>
    intro hn c' e1' r r' h' he hr hr'
    simp only [List.length_cons] at hn
    cases h' with
    | nil =>
      refine absurd (Or.inr (Or.inr ?_)) (hr' (.punct op) _ (by simpa using he.symm))
      simp only [List.mem_cons, List.not_mem_nil, or_false] at hop ⊢; rcases hop with rfl | rfl <;> simp
    | call0 h2 =>
      simp only [List.cons_append, List.cons.injEq, CTok.punct.injEq] at he
      rw [he.1] at hop; simp at hop
    | call h1' =>
      simp only [List.cons_append, List.cons.injEq, CTok.punct.injEq] at he
      rw [he.1] at hop; simp at hop
    | index h1' =>
      simp only [List.cons_append, List.cons.injEq, CTok.punct.injEq] at he
      rw [he.1] at hop; simp at hop
    | post h1 h2 =>
      simp only [List.cons_append, List.cons.injEq, CTok.punct.injEq] at he
      rw [he.1] at hop
      simp only [List.mem_cons, List.not_mem_nil, or_false] at hop h1
      rcases hop with rfl | rfl <;> simp at h1
    | field h1 h2 h3 =>
      simp only [List.cons_append, List.cons.injEq, CTok.punct.injEq, CTok.word.injEq] at he
      obtain ⟨rfl, rfl, he⟩ := he
      obtain ⟨rfl, rfl⟩ := ih (by omega) h3 he hr hr'
      exact ⟨rfl, rfl⟩

/-- A primary expression followed by postfix operators: nothing in what follows it
can be taken for more of it. -/
theorem ptail_no_str {e rest e1 r} (h : PTail ty e rest e1) (hr : Stop 15 r) :
    ∀ s x, rest ++ r ≠ .str s :: x := by
  intro s x he
  cases h with
  | nil => exact hr (.str s) x (by simpa using he) trivial
  | _ => simp at he

theorem prim_det {n : Nat} (hd : ∀ m < n, Det ty 2 m) {e c e' c' r r'} (h : Prim ty e c)
    (hn : c.length ≤ n) (h' : Prim ty e' c') (he : c ++ r = c' ++ r')
    (hr : ∀ s x, r ≠ .str s :: x) (hr' : ∀ s x, r' ≠ .str s :: x) : e = e' ∧ c = c' := by
  cases h with
  | ident h1 =>
    cases h' <;> simp only [List.cons_append, List.cons.injEq, CTok.word.injEq, reduceCtorEq, false_and] at he
    rw [he.1]; exact ⟨rfl, rfl⟩
  | num =>
    cases h' <;> simp only [List.cons_append, List.cons.injEq, CTok.num.injEq, reduceCtorEq, false_and] at he
    rw [he.1]; exact ⟨rfl, rfl⟩
  | chr =>
    cases h' <;> simp only [List.cons_append, List.cons.injEq, CTok.chr.injEq, reduceCtorEq, false_and] at he
    rw [he.1]; exact ⟨rfl, rfl⟩
  | @strs l ls =>
    cases h' with
    | @strs l' ls' =>
      simp only [List.cons_append, List.cons.injEq, CTok.str.injEq] at he
      have : ∀ (ls ls' : List String) (r r' : List CTok), ls.map CTok.str ++ r = ls'.map CTok.str ++ r' →
          (∀ s x, r ≠ .str s :: x) → (∀ s x, r' ≠ .str s :: x) → ls = ls' := by
        intro ls
        induction ls with
        | nil =>
          intro ls' r r' he hr hr'
          cases ls' with
          | nil => rfl
          | cons l ls => exact absurd (by simpa using he) (hr l (ls.map CTok.str ++ r'))
        | cons l ls ih =>
          intro ls' r r' he hr hr'
          cases ls' with
          | nil => exact absurd (by simpa using he.symm) (hr' l (ls.map CTok.str ++ r))
          | cons l' ls' =>
            simp only [List.map_cons, List.cons_append, List.cons.injEq, CTok.str.injEq] at he
            rw [he.1, ih ls' r r' he.2 hr hr']
      obtain ⟨rfl, he⟩ := he
      rw [this ls ls' r r' he hr hr']; exact ⟨rfl, rfl⟩
    | _ => simp at he
  | paren h1 =>
    cases h' with
    | paren h2 =>
      simp only [List.cons_append, List.cons.injEq, true_and, List.append_assoc, List.nil_append] at he
      simp only [List.length_cons, List.length_append] at hn
      obtain ⟨rfl, rfl⟩ := hd (n - 1) (by omega) _ _ h1 (by omega) _ _ _ _ h2 he stop_close stop_close
      exact ⟨rfl, rfl⟩
    | _ => simp at he

theorem det15 {n : Nat} (hd : ∀ m < n, Det ty 2 m) : Det ty 15 n := by
  intro e c h hn e' c' r r' h' he hr hr'
  obtain ⟨-, -, e0, c0, rest, h1, h2, rfl⟩ := h.shape
  obtain ⟨-, -, e0', c0', rest', h1', h2', rfl⟩ := h'.shape
  simp only [List.append_assoc] at he
  simp only [List.length_append] at hn
  obtain ⟨rfl, rfl⟩ := prim_det hd h1 (by omega) h1' he (ptail_no_str h2 hr) (ptail_no_str h2' hr')
  obtain ⟨rfl, rfl⟩ := ptail_det hd h2 (by omega) h2' (List.append_cancel_left he) hr hr'
  exact ⟨rfl, rfl⟩

/-- The first token of a postfix expression. -/
theorem begin15 {e t r} (h : CEx ty (.ex 15 e) (t :: r)) :
    t = .punct "(" ∨ (∃ w, t = .word w ∧ w ≠ "sizeof") ∨ (∃ s, t = .num s) ∨ (∃ s, t = .chr s) ∨
      ∃ s, t = .str s := by
  obtain ⟨-, -, e0, c0, rest, h1, h2, h3⟩ := h.shape
  cases h1 <;> simp only [List.cons_append, List.cons.injEq] at h3 <;> obtain ⟨rfl, -⟩ := h3
  case ident h1 => exact Or.inr (Or.inl ⟨_, rfl, fun h => h1.2 (by rw [h]; simp [cKeywords])⟩)
  all_goals simp

theorem det14 {n : Nat} (hd : ∀ m < n, ∀ s, Det ty s m) (h15 : Det ty 15 n) : Det ty 14 n := by
  intro e c h hn e' c' r r' h' he hr hr'
  have un : ∀ {op}, op ∈ cUnaryOps → op ≠ "(" ∧ op ∉ ["++", "--"] := by
    intro op h
    simp only [cUnaryOps, List.mem_cons, List.not_mem_nil, or_false] at h
    rcases h with rfl | rfl | rfl | rfl | rfl | rfl <;> decide
  have inc : ∀ {op}, op ∈ ["++", "--"] → op ≠ "(" := by
    intro op h; rintro rfl; simp at h
  have post : ∀ {e1 c1 p r1 r2}, CEx ty (.ex 15 e1) c1 → c1 ++ r1 = .punct p :: r2 → p ≠ "(" → False := by
    intro e1 c1 p r1 r2 h he hp
    obtain ⟨⟨t, rr, rfl, -⟩, -⟩ := h.begins
    simp only [List.cons_append, List.cons.injEq] at he
    obtain ⟨rfl, -⟩ := he
    rcases begin15 h with h | ⟨w, h, -⟩ | ⟨s, h⟩ | ⟨s, h⟩ | ⟨s, h⟩ <;> simp at h
    exact hp h
  have postS : ∀ {e1 c1 r1 r2}, CEx ty (.ex 15 e1) c1 → c1 ++ r1 = .word "sizeof" :: r2 → False := by
    intro e1 c1 r1 r2 h he
    obtain ⟨⟨t, rr, rfl, -⟩, -⟩ := h.begins
    simp only [List.cons_append, List.cons.injEq] at he
    obtain ⟨rfl, -⟩ := he
    rcases begin15 h with h | ⟨w, h, hw⟩ | ⟨s, h⟩ | ⟨s, h⟩ | ⟨s, h⟩ <;> simp at h
    exact hw h.symm
  have tyS : ∀ {e1 c1 r1 t c2 r2}, CEx ty (.ex 14 e1) c1 → CType ty t c2 →
      c1 ++ r1 = .punct "(" :: (c2 ++ .punct ")" :: r2) → False := by
    intro e1 c1 r1 t c2 r2 h ht he
    obtain ⟨⟨x, rr, rfl, -⟩, hnt⟩ := h.begins
    simp only [List.cons_append, List.cons.injEq] at he
    obtain ⟨rfl, he⟩ := he
    refine hnt (by omega) rr rfl ?_
    cases rr with
    | nil =>
      obtain ⟨-, -, hsh⟩ := h.shape
      rcases hsh with h | ⟨op, _, _, h1, _, _, h⟩ | ⟨op, _, _, h1, _, _, h⟩ | ⟨_, _, _, _, h⟩ | ⟨_, _, _, _, h⟩
      · obtain ⟨-, -, e0, c0, rest, h1, h2, h3⟩ := h.shape
        cases h1 <;> simp at h3
      · simp only [List.cons.injEq, CTok.punct.injEq] at h
        exact absurd h.1.symm (un h1).1
      · simp only [List.cons.injEq, CTok.punct.injEq] at h
        exact absurd h.1.symm (inc h1)
      · simp at h
      · simp at h
    | cons y ys =>
      have := type_begin ht (.punct ")" :: r2)
      rw [← he] at this
      cases y <;> simpa [TypeBegin] using this
  obtain ⟨-, -, hs⟩ := h.shape
  obtain ⟨-, -, hs'⟩ := h'.shape
  rcases hs with h1 | ⟨op, e1, c1, hop, h1, rfl, rfl⟩ | ⟨op, e1, c1, hop, h1, rfl, rfl⟩ |
    ⟨e1, c1, h1, rfl, rfl⟩ | ⟨t, c1, h1, rfl, rfl⟩
  · rcases hs' with h2 | ⟨op', e2, c2, hop', h2, rfl, rfl⟩ | ⟨op', e2, c2, hop', h2, rfl, rfl⟩ |
      ⟨e2, c2, h2, rfl, rfl⟩ | ⟨t', c2, h2, rfl, rfl⟩
    · exact h15 _ _ h1 hn _ _ _ _ h2 he (hr.same (by omega)) (hr'.same (by omega))
    · exact (post h1 he (un hop').1).elim
    · exact (post h1 he (inc hop')).elim
    · exact (postS h1 he).elim
    · exact (postS h1 he).elim
  · simp only [List.length_cons] at hn
    rcases hs' with h2 | ⟨op', e2, c2, hop', h2, rfl, rfl⟩ | ⟨op', e2, c2, hop', h2, rfl, rfl⟩ |
      ⟨e2, c2, h2, rfl, rfl⟩ | ⟨t', c2, h2, rfl, rfl⟩
    · exact (post h2 he.symm (un hop).1).elim
    · simp only [List.cons_append, List.cons.injEq, CTok.punct.injEq] at he
      obtain ⟨rfl, he⟩ := he
      obtain ⟨rfl, rfl⟩ := hd (n - 1) (by omega) 13 _ _ h1 (by omega) _ _ _ _ h2 he
        (hr.same (by omega)) (hr'.same (by omega))
      exact ⟨rfl, rfl⟩
    · simp only [List.cons_append, List.cons.injEq, CTok.punct.injEq] at he
      obtain ⟨rfl, he⟩ := he
      exact absurd hop' (un hop).2
    · simp at he
    · simp at he
  · simp only [List.length_cons] at hn
    rcases hs' with h2 | ⟨op', e2, c2, hop', h2, rfl, rfl⟩ | ⟨op', e2, c2, hop', h2, rfl, rfl⟩ |
      ⟨e2, c2, h2, rfl, rfl⟩ | ⟨t', c2, h2, rfl, rfl⟩
    · exact (post h2 he.symm (inc hop)).elim
    · simp only [List.cons_append, List.cons.injEq, CTok.punct.injEq] at he
      obtain ⟨rfl, he⟩ := he
      exact absurd hop (un hop').2
    · simp only [List.cons_append, List.cons.injEq, CTok.punct.injEq] at he
      obtain ⟨rfl, he⟩ := he
      obtain ⟨rfl, rfl⟩ := hd (n - 1) (by omega) 14 _ _ h1 (by omega) _ _ _ _ h2 he hr hr'
      exact ⟨rfl, rfl⟩
    · simp at he
    · simp at he
  · simp only [List.length_cons] at hn
    rcases hs' with h2 | ⟨op', e2, c2, hop', h2, rfl, rfl⟩ | ⟨op', e2, c2, hop', h2, rfl, rfl⟩ |
      ⟨e2, c2, h2, rfl, rfl⟩ | ⟨t', c2, h2, rfl, rfl⟩
    · exact (postS h2 he.symm).elim
    · simp at he
    · simp at he
    · simp only [List.cons_append, List.cons.injEq, true_and] at he
      obtain ⟨rfl, rfl⟩ := hd (n - 1) (by omega) 14 _ _ h1 (by omega) _ _ _ _ h2 he hr hr'
      exact ⟨rfl, rfl⟩
    · simp only [List.cons_append, List.cons.injEq, true_and, List.append_assoc, List.nil_append] at he
      exact (tyS h1 h2 he).elim
  · rcases hs' with h2 | ⟨op', e2, c2, hop', h2, rfl, rfl⟩ | ⟨op', e2, c2, hop', h2, rfl, rfl⟩ |
      ⟨e2, c2, h2, rfl, rfl⟩ | ⟨t', c2, h2, rfl, rfl⟩
    · exact (postS h2 he.symm).elim
    · simp at he
    · simp at he
    · simp only [List.cons_append, List.cons.injEq, true_and, List.append_assoc, List.nil_append] at he
      exact (tyS h2 h1 he.symm).elim
    · simp only [List.cons_append, List.cons.injEq, true_and, List.append_assoc, List.nil_append] at he
      obtain ⟨rfl, rfl⟩ := type_det h1 h2 he
      exact ⟨rfl, rfl⟩

theorem det13 {n : Nat} (hd : ∀ m < n, ∀ s, Det ty s m) (h14 : Det ty 14 n) : Det ty 13 n := by
  intro e c h hn e' c' r r' h' he hr hr'
  have tyS : ∀ {e1 c1 r1 t c2 r2}, CEx ty (.ex 14 e1) c1 → CType ty t c2 →
      c1 ++ r1 = .punct "(" :: (c2 ++ .punct ")" :: r2) → False := by
    intro e1 c1 r1 t c2 r2 h ht he
    obtain ⟨⟨x, rr, rfl, -⟩, hnt⟩ := h.begins
    simp only [List.cons_append, List.cons.injEq] at he
    obtain ⟨rfl, he⟩ := he
    refine hnt (by omega) rr rfl ?_
    cases rr with
    | nil =>
      obtain ⟨-, -, hsh⟩ := h.shape
      rcases hsh with h | ⟨op, _, _, h1, _, _, h⟩ | ⟨op, _, _, h1, _, _, h⟩ | ⟨_, _, _, _, h⟩ | ⟨_, _, _, _, h⟩
      · obtain ⟨-, -, e0, c0, rest, h1, h2, h3⟩ := h.shape
        cases h1 <;> simp at h3
      · simp only [List.cons.injEq, CTok.punct.injEq] at h
        rw [← h.1] at h1; simp [cUnaryOps] at h1
      · simp only [List.cons.injEq, CTok.punct.injEq] at h
        rw [← h.1] at h1; simp at h1
      · simp at h
      · simp at h
    | cons y ys =>
      have := type_begin ht (.punct ")" :: r2)
      rw [← he] at this
      cases y <;> simpa [TypeBegin] using this
  obtain ⟨-, -, hs⟩ := h.shape
  obtain ⟨-, -, hs'⟩ := h'.shape
  rcases hs with h1 | ⟨t, e1, c1, c2, h1, h2, rfl, rfl⟩
  · rcases hs' with h1' | ⟨t', e1', c1', c2', h1', h2', rfl, rfl⟩
    · exact h14 _ _ h1 hn _ _ _ _ h1' he (hr.same (by omega)) (hr'.same (by omega))
    · simp only [List.cons_append, List.append_assoc] at he
      exact (tyS h1 h1' he).elim
  · rcases hs' with h3 | ⟨t', e1', c1', c2', h1', h2', rfl, rfl⟩
    · simp only [List.cons_append, List.append_assoc] at he
      exact (tyS h3 h1 he.symm).elim
    · simp only [List.cons_append, List.cons.injEq, true_and, List.append_assoc] at he
      simp only [List.length_cons, List.length_append] at hn
      obtain ⟨rfl, rfl⟩ := type_det h1 h1' he
      have he := List.append_cancel_left he
      simp only [List.cons.injEq, true_and] at he
      obtain ⟨rfl, rfl⟩ := hd (n - 1) (by omega) 13 _ _ h2 (by omega) _ _ _ _ h2' he hr hr'
      exact ⟨rfl, rfl⟩

theorem tail_stop {s e rest e1 r} (h : Tail ty s e rest e1) (hs : 2 ≤ s) (hr : Stop s r) :
    Stop (s + 1) (rest ++ r) := by
  cases h with
  | nil => exact hr.mono hs (by omega)
  | cons h1 h2 h3 =>
    rintro t r' ht hc
    simp only [List.cons_append, List.cons.injEq] at ht
    obtain ⟨rfl, -⟩ := ht
    rcases hc with ⟨l, hl, hle⟩ | ⟨hl, -⟩ | hl
    · rw [h1] at hl; cases hl; omega
    · exact level_not_assign h1 hl
    · exact level_not_post h1 hl

theorem tail_det {s n : Nat} (hs : 2 ≤ s) (hd : Det ty (s + 1) n) {e c e1} (h : Tail ty s e c e1) :
    c.length ≤ n → ∀ {c' e1' r r'}, Tail ty s e c' e1' → c ++ r = c' ++ r' → Stop s r → Stop s r' →
    e1 = e1' ∧ c = c' := by
  induction h with
  | nil =>
    intro hn c' e1' r r' h' he hr hr'
    cases h' with
    | nil => exact ⟨rfl, rfl⟩
    | @cons op _ _ _ _ _ h1 h2 h3 =>
      exact absurd (Or.inl ⟨s, h1, by omega⟩) (hr (.punct op) _ (by simpa using he))
  | @cons op e b c rest e' h1 h2 h3 ih =>
    intro hn c' e1' r r' h' he hr hr'
    simp only [List.length_cons, List.length_append] at hn
    cases h' with
    | nil => exact absurd (Or.inl ⟨s, h1, by omega⟩) (hr' (.punct op) _ (by simpa using he.symm))
    | cons h1' h2' h3' =>
      simp only [List.cons_append, List.cons.injEq, CTok.punct.injEq, List.append_assoc] at he
      obtain ⟨rfl, he⟩ := he
      obtain ⟨rfl, rfl⟩ := hd _ _ h2 (by omega) _ _ _ _ h2' he (tail_stop h3 hs hr) (tail_stop h3' hs hr')
      obtain ⟨rfl, rfl⟩ := ih (by omega) h3' (List.append_cancel_left he) hr hr'
      exact ⟨rfl, rfl⟩

theorem detBin {s n : Nat} (h3 : 3 ≤ s) (h12 : s ≤ 12) (hd : Det ty (s + 1) n) : Det ty s n := by
  intro e c h hn e' c' r r' h' he hr hr'
  obtain ⟨-, -, hs⟩ := h.shape
  obtain ⟨-, -, hs'⟩ := h'.shape
  unfold Shape at hs hs'
  rw [if_neg (by omega), if_pos h12] at hs hs'
  obtain ⟨e0, c0, rest, h1, h2, rfl⟩ := hs
  obtain ⟨e0', c0', rest', h1', h2', rfl⟩ := hs'
  simp only [List.append_assoc] at he
  simp only [List.length_append] at hn
  obtain ⟨rfl, rfl⟩ := hd _ _ h1 (by omega) _ _ _ _ h1' he (tail_stop h2 (by omega) hr)
    (tail_stop h2' (by omega) hr')
  obtain ⟨rfl, rfl⟩ := tail_det (by omega) hd h2 (by omega) h2' (List.append_cancel_left he) hr hr'
  exact ⟨rfl, rfl⟩

theorem stop_assign {op r s} (h : op ∈ cAssignOps) (hs : 3 ≤ s) : Stop s (.punct op :: r) := by
  rintro t r' ht hc
  simp only [List.cons.injEq] at ht
  obtain ⟨rfl, -⟩ := ht
  rcases hc with ⟨l, hl, hle⟩ | ⟨hl, h2⟩ | hl
  · exact level_not_assign hl h
  · omega
  · exact assign_not_post h hl

theorem det2 {n : Nat} (hd : ∀ m < n, ∀ s, Det ty s m) (h3 : Det ty 3 n) : Det ty 2 n := by
  intro e c h hn e' c' r r' h' he hr hr'
  obtain ⟨-, -, hs⟩ := h.shape
  obtain ⟨-, -, hs'⟩ := h'.shape
  rcases hs with h1 | ⟨op, a, b, c1, c2, hop, h1, h2, rfl, rfl⟩
  · rcases hs' with h1' | ⟨op', a', b', c1', c2', hop', h1', h2', rfl, rfl⟩
    · exact h3 _ _ h1 hn _ _ _ _ h1' he (hr.mono (by omega) (by omega)) (hr'.mono (by omega) (by omega))
    · simp only [List.append_assoc, List.cons_append] at he
      obtain ⟨rfl, rfl⟩ := h3 _ _ h1 hn _ _ _ _ (h1'.up_to (by omega) (by omega)) he
        (hr.mono (by omega) (by omega)) (stop_assign hop' (by omega))
      exact absurd (Or.inr (Or.inl ⟨hop', rfl⟩)) (hr (.punct op') _ (List.append_cancel_left he))
  · simp only [List.length_append, List.length_cons] at hn
    rcases hs' with h1' | ⟨op', a', b', c1', c2', hop', h1', h2', rfl, rfl⟩
    · simp only [List.append_assoc, List.cons_append] at he
      obtain ⟨rfl, rfl⟩ := h3 _ _ (h1.up_to (by omega) (by omega)) (by omega) _ _ _ _ h1' he
        (stop_assign hop (by omega)) (hr'.mono (by omega) (by omega))
      exact absurd (Or.inr (Or.inl ⟨hop, rfl⟩)) (hr' (.punct op) _ (List.append_cancel_left he.symm))
    · simp only [List.append_assoc, List.cons_append] at he
      obtain ⟨rfl, rfl⟩ := h3 _ _ (h1.up_to (by omega) (by omega)) (by omega) _ _ _ _
        (h1'.up_to (by omega) (by omega)) he (stop_assign hop (by omega)) (stop_assign hop' (by omega))
      have he2 := List.append_cancel_left he
      simp only [List.cons.injEq, CTok.punct.injEq] at he2
      obtain ⟨rfl, he3⟩ := he2
      obtain ⟨rfl, rfl⟩ := hd (n - 1) (by omega) 2 _ _ h2 (by omega) _ _ _ _ h2' he3 hr hr'
      exact ⟨rfl, rfl⟩

theorem det : ∀ n s, Det ty s n := by
  intro n
  induction n using Nat.strongRecOn with
  | ind n hd =>
    have h15 : Det ty 15 n := det15 fun m hm => hd m hm 2
    have h14 : Det ty 14 n := det14 hd h15
    have h13 : Det ty 13 n := det13 hd h14
    have hb : ∀ k s, s + k = 13 → 3 ≤ s → Det ty s n := by
      intro k
      induction k with
      | zero => intro s h1 h2; have : s = 13 := by omega
                subst this; exact h13
      | succ k ih => intro s h1 h2; exact detBin h2 (by omega) (ih (s + 1) (by omega) (by omega))
    have h2 := det2 hd (hb 10 3 rfl (by omega))
    intro s e c h
    have := h.shape.1
    have := h.shape.2.1
    by_cases e2 : s = 2
    · subst e2; exact h2 e c h
    by_cases e14 : s = 14
    · subst e14; exact h14 e c h
    by_cases e15 : s = 15
    · subst e15; exact h15 e c h
    exact hb (13 - s) s (by omega) (by omega) e c h

/-- The grammar of expressions is unambiguous. -/
theorem expr_unique {s e e' c} (h : CEx ty (.ex s e) c) (h' : CEx ty (.ex s e') c) : e = e' :=
  (det c.length s e c h (Nat.le_refl _) e' c [] [] h' (by simp) stop_nil stop_nil).1

/-- What follows an expression is determined. -/
theorem expr_prefix {s e e' c c' r r'} (h : CEx ty (.ex s e) c) (h' : CEx ty (.ex s e') c')
    (he : c ++ r = c' ++ r') (hr : Stop s r) (hr' : Stop s r') : e = e' ∧ c = c' ∧ r = r' := by
  obtain ⟨h1, h2⟩ := det c.length s e c h (Nat.le_refl _) e' c' r r' h' he hr hr'
  subst h2
  exact ⟨h1, rfl, List.append_cancel_left he⟩

end Che.Spec
