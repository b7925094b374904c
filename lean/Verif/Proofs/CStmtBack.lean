import Verif.Proofs.CStmtToks
import Verif.Proofs.CStmtCut
/-!
# Printed statements can be read in one way only
-/
namespace Che.Proofs.CStmtBack
open Che Che.Spec Che.FormatC Che.Proofs.CPrintToks Che.Proofs.CStmtToks Che.Proofs.CStmtCut

variable {ty : String → Bool}

/-! ## First tokens -/

/-- A token that starts an expression. -/
def EHead (ty : String → Bool) : CTok → Prop
  | .word w => w = "sizeof" ∨ CValueWord ty w
  | .punct p => p ∈ ["(", "&", "*", "+", "-", "~", "!", "++", "--"]
  | _ => True

/-- The tokens start with one that starts an expression. -/
def Opens (ty : String → Bool) (c : List CTok) : Prop := ∃ t r, c = t :: r ∧ EHead ty t

theorem Opens.append {c d} (h : Opens ty c) : Opens ty (c ++ d) := by
  obtain ⟨t, r, rfl, h⟩ := h
  exact ⟨t, r ++ d, rfl, h⟩

theorem ex_opens {k c} (h : CEx ty k c) : match k with
    | .ex _ _ => Opens ty c
    | _ => True := by
  induction h with
  | up _ _ _ ih => exact ih
  | assign _ _ _ ih _ => exact ih.append
  | bin _ _ _ ih _ => exact ih.append
  | cast _ _ _ => exact ⟨_, _, rfl, by simp [EHead]⟩
  | unary ho _ _ =>
    refine ⟨_, _, rfl, ?_⟩
    have k : ∀ op ∈ cUnaryOps, op ∈ ["(", "&", "*", "+", "-", "~", "!", "++", "--"] := by decide
    exact k _ ho
  | incr ho _ _ =>
    refine ⟨_, _, rfl, ?_⟩
    have k : ∀ op ∈ ["++", "--"], op ∈ ["(", "&", "*", "+", "-", "~", "!", "++", "--"] := by decide
    exact k _ ho
  | sizeofExpr _ _ => exact ⟨_, _, rfl, .inl rfl⟩
  | sizeofType _ => exact ⟨_, _, rfl, .inl rfl⟩
  | ident h => exact ⟨_, _, rfl, .inr h⟩
  | num => exact ⟨_, _, rfl, trivial⟩
  | chr => exact ⟨_, _, rfl, trivial⟩
  | strs => exact ⟨_, _, rfl, trivial⟩
  | paren _ _ => exact ⟨_, _, rfl, by simp [EHead]⟩
  | call0 _ ih => exact ih.append
  | call _ _ _ ih _ _ => exact ih.append
  | index _ _ ih _ => exact ih.append
  | post _ _ ih => exact ih.append
  | field _ _ _ ih => exact ih.append
  | _ => trivial

theorem opens_wrap {b c} (h : Opens ty c) : Opens ty (wrapT b c) := by
  cases b
  · exact h
  · exact ⟨_, _, rfl, by simp [EHead]⟩

theorem lit_opens {l} (h : PlainLit ty l) : Opens ty (litToks l) := by
  cases l with
  | char v => exact ⟨_, _, rfl, trivial⟩
  | number v => exact ⟨_, _, rfl, trivial⟩
  | null => exact ⟨_, _, rfl, .inr h⟩
  | string v =>
    simp only [litToks, RStr.split]
    cases hs : RStr.splitL '\n' v.toList with
    | nil => exact absurd hs (splitL_ne _ _)
    | cons l ls => exact ⟨_, _, rfl, trivial⟩

/-- The tokens of a printed expression start like an expression, unless it starts
with a list. -/
theorem toks_opens : ∀ {e}, Plain ty e → opensList e = false → Opens ty (toksE e)
  | .lit l, h, _ => lit_opens h
  | .ident s, h, _ => ⟨_, _, rfl, .inr h.2⟩
  | .compLit _, _, h => by cases h
  | .binaryOp op a b, h, ho => (opens_wrap (toks_opens h.2.1 ho)).append
  | .fieldAccess op t f, h, ho => (opens_wrap (toks_opens h.2.1 ho)).append
  | .prefixOp op e, h, _ => by
    have k : ∀ op ∈ ["!", "--", "++", "*", "~", "&", "-"], op ∈ ["(", "&", "*", "+", "-", "~", "!", "++", "--"] := by
      decide
    exact ⟨.punct op, _, rfl, k op h.1⟩
  | .postfixOp op e, h, ho => (toks_opens h.2.1 ho).append
  | .cast t e, _, _ => ⟨_, _, rfl, by simp [EHead]⟩
  | .call f args, h, ho => by rw [toksE_call]; exact (toks_opens h.1 ho).append
  | .sizeofType t, _, _ => ⟨_, _, rfl, .inl rfl⟩
  | .sizeofExpr e, _, _ => ⟨_, _, rfl, .inl rfl⟩
  | .arrIndex a i, h, ho => (toks_opens h.1 ho).append

/-- The tokens of a printed expression are some. -/
theorem toks_ne : ∀ {e}, Plain ty e → toksE e ≠ []
  | .compLit [], _ => by simp [toksE]
  | .compLit (_ :: _), _ => by simp [toksE]
  | .binaryOp op a b, h => by simp [toksE]
  | .fieldAccess op a b, h => by simp [toksE]
  | .prefixOp op a, h => by simp [toksE]
  | .postfixOp op a, h => by simp [toksE]
  | .cast op a, h => by simp [toksE]
  | .call op a, h => by simp [toksE_call]
  | .sizeofType a, h => by simp [toksE]
  | .sizeofExpr a, h => by simp [toksE]
  | .arrIndex op a, h => by simp [toksE]
  | .ident a, h => by simp [toksE]
  | .lit l, h => by
    obtain ⟨t, r, h, _⟩ := lit_opens h
    simp [toksE, h]

/-- Closed tokens do not start with a closing bracket, a comma and so on. -/
theorem closed_head {t c} (h : Cl Ender (t :: c)) : ¬ Ender t := by
  intro ht
  have := h.2 [] t c rfl ht
  simp [nest] at this

theorem toks_head {e} (h : Plain ty e) : ∃ t r, toksE e = t :: r ∧ ¬ Ender t := by
  cases he : toksE e with
  | nil => exact absurd he (toks_ne h)
  | cons t r =>
    have := cl_toks h
    rw [he] at this
    exact ⟨t, r, rfl, closed_head this⟩

/-! ## The readings of the expressions of a printed statement -/

/-- A reading of a printed expression. -/
def Rd (ty : String → Bool) (e e' : CExpr) : Prop := Plain ty e ∧ CExpression ty e' (toksE e)

/-- A reading of a printed initialiser. -/
def RdI (ty : String → Bool) (e e' : CExpr) : Prop := Plain ty e ∧ CInitializer ty e' (toksE e)

/-- An expression in parentheses or before a semicolon. -/
theorem expr_cut {e e' c R R' t t'} (hp : Plain ty e) (h : CExpression ty e' c) (ht : Ender t) (ht' : Ender t')
    (he : toksE e ++ t :: R = c ++ t' :: R') : Rd ty e e' ∧ t = t' ∧ R = R' ∧ c = toksE e := by
  obtain ⟨h1, h2, h3⟩ := cut (cl_toks hp) (cl_ex h) ht ht' he
  refine ⟨?_, h2, h3, h1.symm⟩
  rw [Rd, h1]
  exact ⟨hp, h⟩

theorem init_cut {e e' c R R' t t'} (hp : Plain ty e) (h : CInitializer ty e' c) (ht : Ender t) (ht' : Ender t')
    (he : toksE e ++ t :: R = c ++ t' :: R') : RdI ty e e' ∧ t = t' ∧ R = R' ∧ c = toksE e := by
  obtain ⟨h1, h2, h3⟩ := cut (cl_toks hp) (cl_ex h) ht ht' he
  refine ⟨?_, h2, h3, h1.symm⟩
  rw [RdI, h1]
  exact ⟨hp, h⟩

theorem ender_par : Ender (.punct ")") := by simp [Ender, Closer]
theorem ender_brk : Ender (.punct "]") := by simp [Ender, Closer]
theorem ender_brc : Ender (.punct "}") := by simp [Ender, Closer]
theorem ender_comma : Ender (.punct ",") := by simp [Ender, Closer]
theorem ender_semi : Ender (.punct ";") := by simp [Ender, Closer]
theorem ender_colon : Ender (.punct ":") := by simp [Ender, Closer]

theorem ehead_ender {t} (h : EHead ty t) : ¬ Ender t := by
  cases t <;> simp only [Ender, Closer, List.mem_cons, List.not_mem_nil, or_false, reduceCtorEq, CTok.punct.injEq,
    not_false_eq_true, or_self]
  intro k
  have : ∀ p ∈ ["(", "&", "*", "+", "-", "~", "!", "++", "--"], ¬ ((p = ")" ∨ p = "]" ∨ p = "}") ∨ p = "," ∨ p = ";" ∨ p = ":") := by
    decide
  exact this _ h k

/-- An optional expression. -/
theorem opt_cut {e e' c R R' t t'} (hp : PlainOpt ty e) (h : COptEx ty e' c) (ht : Ender t) (ht' : Ender t')
    (he : optToks e ++ t :: R = c ++ t' :: R') :
    OptAlike (Rd ty) e e' ∧ t = t' ∧ R = R' ∧ c = optToks e := by
  cases e with
  | none =>
    cases h with
    | none => injection he with h1 h2; exact ⟨.none, h1, h2, rfl⟩
    | some h =>
      exfalso
      obtain ⟨u, r, rfl, hu⟩ : Opens ty c := ex_opens h
      injection he with h1 _
      subst h1
      exact ehead_ender hu ht
  | some e =>
    cases h with
    | none =>
      exfalso
      obtain ⟨u, r, hu, hn⟩ := toks_head (e := e) hp
      rw [optToks, hu] at he
      injection he with h1 _
      subst h1
      exact hn ht'
    | some h =>
      obtain ⟨h1, h2⟩ := expr_cut hp h ht ht' he
      exact ⟨.some h1, h2⟩

/-! ## Declarations -/

theorem stars_cut : ∀ {n n' : Nat} {w w' : String} {c c' : List CTok},
    starToks n ++ .word w :: c = starToks n' ++ .word w' :: c' → n = n' ∧ w = w' ∧ c = c'
  | 0, 0, _, _, _, _, h => by injection h with h1 h2; injection h1 with h1; exact ⟨rfl, h1, h2⟩
  | 0, n + 1, _, _, _, _, h => by injection h with h _; cases h
  | n + 1, 0, _, _, _, _, h => by injection h with h _; cases h
  | n + 1, n' + 1, _, _, _, _, h => by
    injection h with _ h
    obtain ⟨h1, h2⟩ := stars_cut h
    exact ⟨by rw [h1], h2⟩

/-- The tokens do not start with a bracket. -/
def NoBrk (c : List CTok) : Prop := ∀ r, c ≠ .punct "[" :: r

theorem bounds_cut : ∀ {is is' c R R'}, (∀ i ∈ is, PlainOpt ty i) → CBounds ty is' c → NoBrk R → NoBrk R' →
    boundToks is ++ R = c ++ R' → ListAlike (OptAlike (Rd ty)) is is' ∧ R = R' ∧ c = boundToks is
  | [], is', c, R, R', _, h, hR, _, he => by
    cases h with
    | nil => exact ⟨.nil, he, rfl⟩
    | none _ => exact absurd he (hR _)
    | some _ _ => exact absurd he (hR _)
  | none :: is, is', c, R, R', hp, h, hR, hR', he => by
    cases h with
    | nil => exact absurd he.symm (hR' _)
    | none h =>
      injection he with _ he
      injection he with _ he
      obtain ⟨h1, h2, h3⟩ := bounds_cut (fun i hi => hp i (by simp [hi])) h hR hR' he
      exact ⟨.cons .none h1, h2, by rw [h3]; rfl⟩
    | @some i is' c1 c2 hi h =>
      exfalso
      injection he with _ he
      obtain ⟨u, r, rfl, hu⟩ : Opens ty c1 := ex_opens hi
      injection he with h1 _
      subst h1
      exact ehead_ender hu ender_brk
  | some e :: is, is', c, R, R', hp, h, hR, hR', he => by
    have hpe : Plain ty e := hp (some e) (by simp)
    cases h with
    | nil => exact absurd he.symm (hR' _)
    | none h =>
      exfalso
      injection he with _ he
      obtain ⟨u, r, hu, hn⟩ := toks_head hpe
      rw [hu] at he
      injection he with h1 _
      subst h1
      exact hn ender_brk
    | @some i is' c1 c2 hi h =>
      injection he with _ he
      have he : toksE e ++ .punct "]" :: (boundToks is ++ R) = c1 ++ .punct "]" :: (c2 ++ R') := by simpa using he
      obtain ⟨h1, _, h3, h4⟩ := expr_cut hpe hi ender_brk ender_brk he
      obtain ⟨k1, k2, k3⟩ := bounds_cut (fun i hi => hp i (by simp [hi])) h hR hR' h3
      exact ⟨.cons (.some h1) k1, k2, by rw [h4, k3]; rfl⟩

theorem form_cut {f f' c R R'} (hp : PlainForm ty f) (h : CDeclarator ty f' c) (hR : NoBrk R) (hR' : NoBrk R')
    (he : formToks f ++ R = c ++ R') : FormAlike (Rd ty) f f' ∧ R = R' ∧ c = formToks f := by
  cases h with
  | @mk n w is c hw hb =>
    obtain ⟨⟨m, hm⟩, _, hi⟩ := hp
    have hl : f.stars.toList.length = m := by rw [hm]; simp
    have he : starToks m ++ .word f.name :: (boundToks f.indexes ++ R) = starToks n ++ .word w :: (c ++ R') := by
      simpa [formToks, hl] using he
    obtain ⟨h1, h2, h3⟩ := stars_cut he
    obtain ⟨k1, k2, k3⟩ := bounds_cut hi hb hR hR' h3
    refine ⟨⟨by rw [hm, h1], h2, k1⟩, k2, ?_⟩
    rw [formToks, hl, h1, h2, k3]

theorem noBrk_punct {p : String} {r} (h : p ≠ "[") : NoBrk (.punct p :: r) := by
  intro r' h'
  injection h' with h' _
  injection h' with h'
  exact h h'

/-- A declarator with its initial value ends before a comma or a semicolon. -/
theorem decl_cut {d d' c R R' p p'} (hf : PlainForm ty d.1) (hv : PlainOpt ty d.2) (h : CInitDecl ty d' c)
    (hp : p ∈ [",", ";"]) (hp' : p' ∈ [",", ";"])
    (he : declToks d ++ .punct p :: R = c ++ .punct p' :: R') :
    DeclAlike (Rd ty) (RdI ty) d d' ∧ p = p' ∧ R = R' ∧ c = declToks d := by
  have hb : ∀ p : String, p ∈ [",", ";"] → p ≠ "[" ∧ p ≠ "=" ∧ Ender (.punct p) := by
    intro p h
    simp only [List.mem_cons, List.not_mem_nil, or_false] at h
    obtain rfl | rfl := h
    · exact ⟨by decide, by decide, ender_comma⟩
    · exact ⟨by decide, by decide, ender_semi⟩
  obtain ⟨b1, b2, b3⟩ := hb p hp
  obtain ⟨b1', b2', b3'⟩ := hb p' hp'
  obtain ⟨f, v⟩ := d
  cases v with
  | none =>
    cases h with
    | plain hd =>
      obtain ⟨h1, h2, h3⟩ := form_cut hf hd (noBrk_punct b1) (noBrk_punct b1') he
      injection h2 with h2 h4
      injection h2 with h2
      exact ⟨⟨h1, .none⟩, h2, h4, h3⟩
    | @init f' c v c2 hd hv' =>
      exfalso
      have he : formToks f ++ .punct p :: R = c ++ (.punct "=" :: (c2 ++ .punct p' :: R')) := by simpa [declToks] using he
      obtain ⟨_, h2, _⟩ := form_cut hf hd (noBrk_punct b1) (noBrk_punct (by decide)) he
      injection h2 with h2 _
      injection h2 with h2
      exact b2 h2
  | some v =>
    have he : formToks f ++ .punct "=" :: (toksE v ++ .punct p :: R) = c ++ .punct p' :: R' := by
      simpa [declToks] using he
    cases h with
    | plain hd =>
      exfalso
      obtain ⟨_, h2, _⟩ := form_cut hf hd (noBrk_punct (by decide)) (noBrk_punct b1') he
      injection h2 with h2 _
      injection h2 with h2
      exact b2' h2.symm
    | @init f' c v' c2 hd hv' =>
      have he : formToks f ++ .punct "=" :: (toksE v ++ .punct p :: R) = c ++ (.punct "=" :: (c2 ++ .punct p' :: R')) := by
        simpa using he
      obtain ⟨h1, h2, h3⟩ := form_cut hf hd (noBrk_punct (by decide)) (noBrk_punct (by decide)) he
      injection h2 with _ h2
      obtain ⟨k1, k2, k3, k4⟩ := init_cut hv hv' b3 b3' h2
      injection k2 with k2
      exact ⟨⟨h1, .some k1⟩, k2, k3, by rw [h3, k4]; rfl⟩

theorem decls_cut : ∀ {ds d ds' c R R'}, (∀ e ∈ d :: ds, PlainForm ty e.1 ∧ PlainOpt ty e.2) → CInitDecls ty ds' c →
    declToks d ++ (declsToks ds ++ .punct ";" :: R) = c ++ .punct ";" :: R' →
    ListAlike (DeclAlike (Rd ty) (RdI ty)) (d :: ds) ds' ∧ R = R' ∧ c = declToks d ++ declsToks ds
  | [], d, ds', c, R, R', hp, h, he => by
    have hd := hp d (by simp)
    cases h with
    | one h =>
      obtain ⟨h1, _, h3, h4⟩ := decl_cut hd.1 hd.2 h (by simp) (by simp) he
      exact ⟨.cons h1 .nil, h3, by rw [h4]; simp [declsToks]⟩
    | cons h _ =>
      exfalso
      have := decl_cut (R := R) (R' := _) hd.1 hd.2 h (p := ";") (by simp) (p' := ",") (by simp)
        (by simpa [declsToks] using he)
      exact absurd this.2.1 (by decide)
  | e :: ds, d, ds', c, R, R', hp, h, he => by
    have hd := hp d (by simp)
    have he : declToks d ++ .punct "," :: (declToks e ++ (declsToks ds ++ .punct ";" :: R)) = c ++ .punct ";" :: R' := by
      simpa [declsToks] using he
    cases h with
    | one h =>
      exfalso
      have := decl_cut hd.1 hd.2 h (by simp) (by simp) he
      exact absurd this.2.1 (by decide)
    | @cons d' c ds2 c2 h h2 =>
      have he : declToks d ++ .punct "," :: (declToks e ++ (declsToks ds ++ .punct ";" :: R)) =
          c ++ .punct "," :: (c2 ++ .punct ";" :: R') := by simpa using he
      obtain ⟨h1, _, h3, h4⟩ := decl_cut hd.1 hd.2 h (by simp) (by simp) he
      obtain ⟨k1, k2, k3⟩ := decls_cut (fun e he => hp e (by simp only [List.mem_cons] at he ⊢; exact .inr he)) h2 h3
      exact ⟨.cons h1 k1, k2, by rw [h4, k3]; simp [declsToks]⟩

/-- Type names. -/
theorem spec_cut {t t' c R R'} (hp : PlainTypename ty t) (h : CTypeSpec ty t' c) (he : specToks t ++ R = c ++ R') :
    t = t' ∧ R = R' ∧ c = specToks t := by
  obtain ⟨b, w⟩ := t
  cases b with
  | false =>
    cases h with
    | plain _ =>
      injection he with h1 h2
      injection h1 with h1
      subst h1
      exact ⟨rfl, h2, rfl⟩
    | const _ =>
      injection he with h1 h2
      injection h1 with h1
      exact absurd h1 hp.2.2.1
  | true =>
    cases h with
    | plain h =>
      injection he with h1 h2
      injection h1 with h1
      subst h1
      exact absurd rfl h.2.1
    | const _ =>
      injection he with h1 h2
      injection h2 with h2 h3
      injection h2 with h2
      subst h2
      exact ⟨rfl, h3, rfl⟩

/-- The tokens start with a type name. -/
def THead (ty : String → Bool) (t : CTok) : Prop := ∃ w, t = .word w ∧ (w = "const" ∨ CTypeWord ty w)

theorem spec_head {t c} (h : CTypeSpec ty t c) : ∃ u r, c = u :: r ∧ THead ty u := by
  cases h with
  | plain h => exact ⟨_, _, rfl, _, rfl, .inr h⟩
  | const h => exact ⟨_, _, rfl, _, rfl, .inl rfl⟩

theorem specToks_head {t} (h : PlainTypename ty t) : ∃ u r, specToks t = u :: r ∧ THead ty u := by
  obtain ⟨b, w⟩ := t
  cases b
  · exact ⟨_, _, rfl, _, rfl, .inr h.2⟩
  · exact ⟨_, _, rfl, _, rfl, .inl rfl⟩

theorem ehead_thead {t} (h : EHead ty t) : ¬ THead ty t := by
  rintro ⟨w, rfl, hw⟩
  obtain rfl | h := h
  · obtain hw | hw := hw
    · exact absurd hw (by decide)
    · exact hw.2.2 rfl
  · obtain rfl | hw := hw
    · exact h.2 (by decide)
    · have h1 := h.1
      rw [hw.1] at h1
      cases h1

/-- The first part of a `for`. -/
theorem first_cut {i i' c R R'} (hp : PlainInit ty i) (h : CForFirst ty i' c)
    (he : firstToks i ++ .punct ";" :: R = c ++ .punct ";" :: R') :
    InitAlike (Rd ty) (RdI ty) i i' ∧ R = R' ∧ c = firstToks i := by
  have hsemi : ¬ THead ty (.punct ";") := by rintro ⟨w, h, _⟩; cases h
  cases i with
  | none =>
    cases h with
    | none => injection he with _ h2; exact ⟨.none, h2, rfl⟩
    | expr h =>
      exfalso
      obtain ⟨u, r, rfl, hu⟩ : Opens ty c := ex_opens h
      injection he with h1 _
      subst h1
      exact ehead_ender hu ender_semi
    | decl h _ _ =>
      exfalso
      obtain ⟨u, r, rfl, hu⟩ := spec_head h
      injection he with h1 _
      subst h1
      exact hsemi hu
  | some i =>
    cases i with
    | expr e =>
      obtain ⟨u, r, hr, hu⟩ := toks_opens hp.1 hp.2
      cases h with
      | none =>
        exfalso
        rw [firstToks, hr] at he
        injection he with h1 _
        subst h1
        exact ehead_ender hu ender_semi
      | expr h =>
        obtain ⟨h1, _, h3, h4⟩ := expr_cut hp.1 h ender_semi ender_semi he
        exact ⟨.expr h1, h3, h4⟩
      | decl h _ _ =>
        exfalso
        obtain ⟨v, r', rfl, hv⟩ := spec_head h
        rw [firstToks, hr] at he
        injection he with h1 _
        subst h1
        exact ehead_thead hu hv
    | decl d =>
      obtain ⟨ht, hf, hv⟩ := hp
      obtain ⟨u, r, hr, hu⟩ := specToks_head ht
      cases h with
      | none =>
        exfalso
        rw [firstToks, hr] at he
        injection he with h1 _
        subst h1
        exact hsemi hu
      | expr h =>
        exfalso
        obtain ⟨v, r', rfl, hv⟩ : Opens ty c := ex_opens h
        rw [firstToks, hr] at he
        injection he with h1 _
        subst h1
        exact ehead_thead hv hu
      | @decl t f v c1 c2 c3 h1 h2 h3 =>
        have he : specToks d.typename ++ (formToks d.form ++ .punct "=" :: (toksE d.value ++ .punct ";" :: R)) =
            c1 ++ (c2 ++ .punct "=" :: (c3 ++ .punct ";" :: R')) := by simpa [firstToks] using he
        obtain ⟨j1, j2, j3⟩ := spec_cut ht h1 he
        obtain ⟨k1, k2, k3⟩ := form_cut hf h2 (noBrk_punct (by decide)) (noBrk_punct (by decide)) j2
        injection k2 with _ k2
        obtain ⟨l1, _, l3, l4⟩ := init_cut hv h3 ender_semi ender_semi k2
        obtain ⟨t', f', v'⟩ := d
        subst j1
        exact ⟨.decl k1 l1, l3, by rw [j3, k3, l4]; rfl⟩

/-! ## Statements -/

/-- The tokens do not start with `else`. -/
def NoElse (c : List CTok) : Prop := ∀ r, c ≠ .word "else" :: r

/-- The tokens start like a statement. -/
def SHead (ty : String → Bool) (c : List CTok) : Prop :=
  ∃ t r, c = t :: r ∧ t ≠ .word "else" ∧ t ≠ .punct "}" ∧ ¬ THead ty t

theorem opens_shead {c} (h : Opens ty c) : SHead ty c := by
  obtain ⟨t, r, rfl, h⟩ := h
  refine ⟨t, r, rfl, ?_, ?_, ehead_thead h⟩
  · rintro rfl
    obtain h | h := h
    · exact absurd h (by decide)
    · exact h.2 (by decide)
  · rintro rfl
    exact ehead_ender h ender_brc

theorem punct_shead {p : String} {r} (h : p ≠ "}") : SHead ty (.punct p :: r) :=
  ⟨_, _, rfl, by simp, by simpa using h, by rintro ⟨w, h, _⟩; cases h⟩

theorem word_shead (hty : TypeNames ty) {w : String} {r}
    (h : w ∈ ["break", "case", "continue", "default", "do", "for", "goto", "if", "return", "switch", "while"]) :
    SHead ty (.word w :: r) := by
  have k : ∀ w ∈ ["break", "case", "continue", "default", "do", "for", "goto", "if", "return", "switch", "while"],
      w ≠ "else" ∧ w ≠ "const" ∧
      w ∈ ["break", "case", "continue", "default", "do", "else", "for", "goto", "if", "return", "switch", "while"] := by
    decide
  obtain ⟨k1, k2, k3⟩ := k w h
  refine ⟨_, _, rfl, by simpa using k1, by simp, ?_⟩
  rintro ⟨v, hv, h⟩
  injection hv with hv
  subst hv
  obtain h | h := h
  · exact k2 h
  · have h1 := h.1
    rw [hty w k3] at h1
    cases h1

theorem stmt_head (hty : TypeNames ty) {k c} (h : CSt ty (.stmt k) c) : SHead ty c := by
  cases h with
  | empty => exact punct_shead (by decide)
  | expr h =>
    have h : Opens ty _ := ex_opens h
    exact opens_shead h.append
  | block _ => exact punct_shead (by decide)
  | ifOnly _ _ => exact word_shead hty (by decide)
  | ifElse _ _ _ => exact word_shead hty (by decide)
  | switch _ _ => exact word_shead hty (by decide)
  | «while» _ _ => exact word_shead hty (by decide)
  | «for» _ _ _ _ => exact word_shead hty (by decide)
  | brk => exact word_shead hty (by decide)
  | cont => exact word_shead hty (by decide)
  | ret _ => exact word_shead hty (by decide)
  | case _ _ => exact word_shead hty (by decide)
  | dflt _ => exact word_shead hty (by decide)

theorem SHead.append {c d} (h : SHead ty c) : SHead ty (c ++ d) := by
  obtain ⟨t, r, rfl, h⟩ := h
  exact ⟨t, r ++ d, rfl, h⟩

theorem SHead.noElse {c} (h : SHead ty c) : NoElse c := by
  obtain ⟨t, r, rfl, h, _⟩ := h
  intro r' h'
  injection h' with h' _
  exact h h'

theorem items_noElse (hty : TypeNames ty) {ks c R} (h : CSt ty (.items ks) c) : NoElse (c ++ .punct "}" :: R) := by
  cases h with
  | nil => intro r h; injection h with h _; cases h
  | stmt h _ => exact ((stmt_head hty h).append.append).noElse
  | decl h _ _ =>
    intro r he
    obtain ⟨u, s, rfl, w, rfl, hu⟩ := spec_head h
    injection he with he _
    injection he with he
    subst he
    obtain hu | hu := hu
    · exact absurd hu (by decide)
    · have h1 := hu.1
      rw [hty "else" (by decide)] at h1
      cases h1

/-- The tokens are those of statements that can be read only as `K`. -/
def Seq (ty : String → Bool) (T : List CTok) (K : List KStmt) : Prop :=
  ∀ ⦃ks c R R'⦄, CSt ty (.items ks) c → T ++ .punct "}" :: R = c ++ .punct "}" :: R' →
    Alikes (Rd ty) (RdI ty) K ks ∧ R = R' ∧ c = T

/-- The tokens of a statement that can be read only as `k`. -/
structure One (ty : String → Bool) (T : List CTok) (k : KStmt) : Prop where
  head : SHead ty T
  read : ∀ ⦃k' c R R'⦄, CSt ty (.stmt k') c → NoElse R → NoElse R' → T ++ R = c ++ R' →
    Alike (Rd ty) (RdI ty) k k' ∧ R = R' ∧ c = T

/-- Statements at the front of a list. -/
structure Front (ty : String → Bool) (T : List CTok) (K : List KStmt) : Prop where
  noElse : ∀ R, NoElse R → NoElse (T ++ R)
  read : ∀ ⦃ks c R R'⦄, CSt ty (.items ks) c → NoElse R → T ++ R = c ++ .punct "}" :: R' →
    ∃ k1 k2 d, ks = k1 ++ k2 ∧ Alikes (Rd ty) (RdI ty) K k1 ∧ c = T ++ d ∧ CSt ty (.items k2) d

theorem alikes_append {R I a a' b b'} (h : Alikes R I a a') (h2 : Alikes R I b b') : Alikes R I (a ++ b) (a' ++ b') := by
  match h with
  | .nil => exact h2
  | .cons h1 h => exact .cons h1 (alikes_append h h2)

theorem Front.nil : Front ty [] [] :=
  ⟨fun _ h => h, fun ks c _ _ h _ _ => ⟨[], ks, c, rfl, .nil, rfl, h⟩⟩

theorem Front.append {T K T2 K2} (h : Front ty T K) (h2 : Front ty T2 K2) : Front ty (T ++ T2) (K ++ K2) := by
  refine ⟨fun R hR => by rw [List.append_assoc]; exact h.noElse _ (h2.noElse R hR), ?_⟩
  intro ks c R R' hk hR he
  rw [List.append_assoc] at he
  obtain ⟨k1, k2, d, rfl, ha, rfl, hd⟩ := h.read hk (h2.noElse R hR) he
  have he : T2 ++ R = d ++ .punct "}" :: R' := by
    rw [List.append_assoc] at he
    exact List.append_cancel_left he
  obtain ⟨k3, k4, d2, rfl, hb, rfl, hd2⟩ := h2.read hd hR he
  exact ⟨k1 ++ k3, k4, d2, by simp, alikes_append ha hb, by simp, hd2⟩

theorem Front.seq (hty : TypeNames ty) {T K} (h : Front ty T K) : Seq ty T K := by
  intro ks c R R' hk he
  obtain ⟨k1, k2, d, rfl, ha, rfl, hd⟩ := h.read hk (by intro r h; injection h with h _; cases h) he
  have he : .punct "}" :: R = d ++ .punct "}" :: R' := by
    rw [List.append_assoc] at he
    exact List.append_cancel_left he
  cases hd with
  | nil =>
    injection he with _ he
    simpa using ⟨ha, he⟩
  | stmt hs _ =>
    exfalso
    obtain ⟨t, r, rfl, _, h2, _⟩ := stmt_head hty hs
    injection he with he _
    exact h2 he.symm
  | decl hs _ _ =>
    exfalso
    obtain ⟨t, r, rfl, w, rfl, _⟩ := spec_head hs
    injection he with he _
    cases he

theorem One.front (hty : TypeNames ty) {T k} (h : One ty T k) : Front ty T [k] := by
  refine ⟨fun R _ => h.head.append.noElse, ?_⟩
  intro ks c R R' hk hR he
  obtain ⟨t, r, hT, h1, h2, h3⟩ := h.head
  cases hk with
  | nil =>
    exfalso
    rw [hT] at he
    injection he with he _
    exact h2 he
  | @stmt k' c ss c2 hs hss =>
    rw [List.append_assoc] at he
    obtain ⟨ha, _, rfl⟩ := h.read hs hR (items_noElse hty hss) he
    exact ⟨[_], _, _, rfl, .cons ha .nil, rfl, hss⟩
  | decl hs _ _ =>
    exfalso
    obtain ⟨u, r', rfl, hu⟩ := spec_head hs
    rw [hT] at he
    injection he with he _
    subst he
    exact h3 hu

/-- No expression starts like this. -/
theorem not_expr {e c t r R} (h : CExpression ty e c) (he : t :: r = (c ++ [.punct ";"]) ++ R) (ht : ¬ EHead ty t) : False := by
  obtain ⟨u, s, rfl, hu⟩ : Opens ty c := ex_opens h
  injection he with he _
  subst he
  exact ht hu

theorem keyword_ehead {w : String} (h : w ∈ cKeywords) (h2 : w ≠ "sizeof") : ¬ EHead ty (.word w) := by
  rintro (h3 | h3)
  · exact h2 h3
  · exact h3.2 h

theorem brace_ehead : ¬ EHead ty (.punct "{") := by simp [EHead]
theorem semi_ehead : ¬ EHead ty (.punct ";") := by simp [EHead]

/-- A block, whatever follows. -/
theorem block_cut {T K k' c R R'} (h : Seq ty T K) (hk : CSt ty (.stmt k') c)
    (he : .punct "{" :: (T ++ .punct "}" :: R) = c ++ R') :
    Alike (Rd ty) (RdI ty) (.block K) k' ∧ R = R' ∧ c = .punct "{" :: (T ++ [.punct "}"]) := by
  cases hk with
  | block hi =>
    injection he with _ he
    obtain ⟨h1, h2, h3⟩ := h hi (by simpa using he)
    exact ⟨.block h1, h2, by rw [h3]⟩
  | expr h => exact (not_expr h he brace_ehead).elim
  | _ => simp at he

theorem block_one {T K} (h : Seq ty T K) : One ty (.punct "{" :: (T ++ [.punct "}"])) (.block K) := by
  refine ⟨punct_shead (by decide), ?_⟩
  intro k' c R R' hk _ _ he
  exact block_cut h hk (by simpa using he)

theorem empty_one : One ty [.punct ";"] .empty := by
  refine ⟨punct_shead (by decide), ?_⟩
  intro k' c R R' hk _ _ he
  cases hk with
  | empty => injection he with _ he; exact ⟨.empty, he, rfl⟩
  | expr h => exact (not_expr h he semi_ehead).elim
  | _ => simp at he

theorem brk_one (hty : TypeNames ty) : One ty [.word "break", .punct ";"] .brk := by
  refine ⟨word_shead hty (by decide), ?_⟩
  intro k' c R R' hk _ _ he
  cases hk with
  | brk => injection he with _ he; injection he with _ he; exact ⟨.brk, he, rfl⟩
  | expr h => exact (not_expr h he (keyword_ehead (by decide) (by decide))).elim
  | _ => simp at he

theorem cont_one (hty : TypeNames ty) : One ty [.word "continue", .punct ";"] .cont := by
  refine ⟨word_shead hty (by decide), ?_⟩
  intro k' c R R' hk _ _ he
  cases hk with
  | cont => injection he with _ he; injection he with _ he; exact ⟨.cont, he, rfl⟩
  | expr h => exact (not_expr h he (keyword_ehead (by decide) (by decide))).elim
  | _ => simp at he

theorem ret_one (hty : TypeNames ty) {e} (hp : PlainOpt ty e) :
    One ty (.word "return" :: (optToks e ++ [.punct ";"])) (.ret e) := by
  refine ⟨word_shead hty (by decide), ?_⟩
  intro k' c R R' hk _ _ he
  cases hk with
  | ret h =>
    injection he with _ he
    obtain ⟨h1, _, h3, h4⟩ := opt_cut (R := R) (R' := R') hp h ender_semi ender_semi (by simpa using he)
    exact ⟨.ret h1, h3, by rw [h4]⟩
  | expr h => exact (not_expr h he (keyword_ehead (by decide) (by decide))).elim
  | _ => simp at he

theorem expr_one {e} (hp : Plain ty e) (ho : opensList e = false) : One ty (toksE e ++ [.punct ";"]) (.expr e) := by
  have hop := toks_opens hp ho
  refine ⟨opens_shead hop.append, ?_⟩
  intro k' c R R' hk _ _ he
  obtain ⟨t, r, hT, ht⟩ := hop
  cases hk with
  | expr h =>
    obtain ⟨h1, _, h3, h4⟩ := expr_cut (R := R) (R' := R') hp h ender_semi ender_semi (by simpa using he)
    exact ⟨.expr h1, h3, by rw [h4]⟩
  | empty =>
    exfalso
    rw [hT] at he
    injection he with he _
    subst he
    exact semi_ehead ht
  | block _ =>
    exfalso
    rw [hT] at he
    injection he with he _
    subst he
    exact brace_ehead ht
  | _ =>
    exfalso
    rw [hT] at he
    injection he with he _
    subst he
    exact keyword_ehead (by decide) (by decide) ht

theorem while_one (hty : TypeNames ty) {e T K} (hp : Plain ty e) (h : Seq ty T K) :
    One ty (.word "while" :: .punct "(" :: (toksE e ++ .punct ")" :: .punct "{" :: (T ++ [.punct "}"])))
      (.whileS e (.block K)) := by
  refine ⟨word_shead hty (by decide), ?_⟩
  intro k' c R R' hk _ _ he
  cases hk with
  | @«while» e' c s c2 h1 h2 =>
    injection he with _ he
    injection he with _ he
    have he : toksE e ++ .punct ")" :: (.punct "{" :: (T ++ .punct "}" :: R)) = c ++ .punct ")" :: (c2 ++ R') := by
      simpa using he
    obtain ⟨j1, _, j3, j4⟩ := expr_cut hp h1 ender_par ender_par he
    obtain ⟨l1, l2, l3⟩ := block_cut h h2 j3
    exact ⟨.whileS j1 l1, l2, by rw [j4, l3]⟩
  | expr h => exact (not_expr h he (keyword_ehead (by decide) (by decide))).elim
  | _ => simp at he

theorem for_one (hty : TypeNames ty) {i e a T K} (hi : PlainInit ty i) (hp : PlainOpt ty e) (ha : PlainOpt ty a)
    (h : Seq ty T K) :
    One ty (.word "for" :: .punct "(" :: (firstToks i ++ .punct ";" :: (optToks e ++ .punct ";" :: (optToks a ++
      .punct ")" :: .punct "{" :: (T ++ [.punct "}"]))))) (.forS i e a (.block K)) := by
  refine ⟨word_shead hty (by decide), ?_⟩
  intro k' c R R' hk _ _ he
  cases hk with
  | @«for» i' e' a' s c1 c2 c3 c4 h1 h2 h3 h4 =>
    injection he with _ he
    injection he with _ he
    have he : firstToks i ++ .punct ";" :: (optToks e ++ .punct ";" :: (optToks a ++
        .punct ")" :: (.punct "{" :: (T ++ .punct "}" :: R)))) =
        c1 ++ .punct ";" :: (c2 ++ .punct ";" :: (c3 ++ .punct ")" :: (c4 ++ R'))) := by
      simpa using he
    obtain ⟨j1, j2, j3⟩ := first_cut hi h1 he
    obtain ⟨k1, _, k2, k3⟩ := opt_cut hp h2 ender_semi ender_semi j2
    obtain ⟨l1, _, l2, l3⟩ := opt_cut ha h3 ender_par ender_par k2
    obtain ⟨m1, m2, m3⟩ := block_cut h h4 l2
    exact ⟨.forS j1 k1 l1 m1, m2, by rw [j3, k3, l3, m3]⟩
  | expr h => exact (not_expr h he (keyword_ehead (by decide) (by decide))).elim
  | _ => simp at he

theorem if_one (hty : TypeNames ty) {e T K} (hp : Plain ty e) (h : Seq ty T K) :
    One ty (.word "if" :: .punct "(" :: (toksE e ++ .punct ")" :: .punct "{" :: (T ++ [.punct "}"])))
      (.ifS e (.block K) none) := by
  refine ⟨word_shead hty (by decide), ?_⟩
  intro k' c R R' hk hR _ he
  cases hk with
  | @ifOnly e' c s c2 h1 h2 =>
    injection he with _ he
    injection he with _ he
    have he : toksE e ++ .punct ")" :: (.punct "{" :: (T ++ .punct "}" :: R)) = c ++ .punct ")" :: (c2 ++ R') := by
      simpa using he
    obtain ⟨j1, _, j3, j4⟩ := expr_cut hp h1 ender_par ender_par he
    obtain ⟨l1, l2, l3⟩ := block_cut h h2 j3
    exact ⟨.ifS j1 l1, l2, by rw [j4, l3]⟩
  | @ifElse e' c s1 c1 s2 c2 h1 h2 h3 =>
    exfalso
    injection he with _ he
    injection he with _ he
    have he : toksE e ++ .punct ")" :: (.punct "{" :: (T ++ .punct "}" :: R)) =
        c ++ .punct ")" :: (c1 ++ (.word "else" :: (c2 ++ R'))) := by
      simpa using he
    obtain ⟨j1, _, j3, j4⟩ := expr_cut hp h1 ender_par ender_par he
    obtain ⟨l1, l2, l3⟩ := block_cut h h2 j3
    exact hR _ l2
  | expr h => exact (not_expr h he (keyword_ehead (by decide) (by decide))).elim
  | _ => simp at he

theorem ifElse_one (hty : TypeNames ty) {e T K T2 K2} (hp : Plain ty e) (h : Seq ty T K) (h' : Seq ty T2 K2) :
    One ty (.word "if" :: .punct "(" :: (toksE e ++ .punct ")" :: .punct "{" :: (T ++ .punct "}" ::
      .word "else" :: .punct "{" :: (T2 ++ [.punct "}"]))))
      (.ifS e (.block K) (some (.block K2))) := by
  refine ⟨word_shead hty (by decide), ?_⟩
  intro k' c R R' hk hR hR' he
  cases hk with
  | @ifOnly e' c s c2 h1 h2 =>
    exfalso
    injection he with _ he
    injection he with _ he
    have he : toksE e ++ .punct ")" :: (.punct "{" :: (T ++ .punct "}" :: (.word "else" :: .punct "{" ::
        (T2 ++ .punct "}" :: R)))) = c ++ .punct ")" :: (c2 ++ R') := by
      simpa using he
    obtain ⟨j1, _, j3, j4⟩ := expr_cut hp h1 ender_par ender_par he
    obtain ⟨l1, l2, l3⟩ := block_cut h h2 j3
    exact hR' _ l2.symm
  | @ifElse e' c s1 c1 s2 c2 h1 h2 h3 =>
    injection he with _ he
    injection he with _ he
    have he : toksE e ++ .punct ")" :: (.punct "{" :: (T ++ .punct "}" :: (.word "else" :: .punct "{" ::
        (T2 ++ .punct "}" :: R)))) = c ++ .punct ")" :: (c1 ++ (.word "else" :: (c2 ++ R'))) := by
      simpa using he
    obtain ⟨j1, _, j3, j4⟩ := expr_cut hp h1 ender_par ender_par he
    obtain ⟨l1, l2, l3⟩ := block_cut h h2 j3
    injection l2 with _ l2
    obtain ⟨m1, m2, m3⟩ := block_cut h' h3 l2
    exact ⟨.ifElse j1 l1 m1, m2, by rw [j4, l3, m3]; simp⟩
  | expr h => exact (not_expr h he (keyword_ehead (by decide) (by decide))).elim
  | _ => simp at he

theorem switch_one (hty : TypeNames ty) {e T K} (hp : Plain ty e) (h : Seq ty T K) :
    One ty (.word "switch" :: .punct "(" :: (toksE e ++ .punct ")" :: .punct "{" :: (T ++ [.punct "}"])))
      (.switchS e K) := by
  refine ⟨word_shead hty (by decide), ?_⟩
  intro k' c R R' hk _ _ he
  cases hk with
  | @switch e' c ss c2 h1 h2 =>
    injection he with _ he
    injection he with _ he
    have he : toksE e ++ .punct ")" :: (.punct "{" :: (T ++ .punct "}" :: R)) =
        c ++ .punct ")" :: (.punct "{" :: (c2 ++ .punct "}" :: R')) := by
      simpa using he
    obtain ⟨j1, _, j3, j4⟩ := expr_cut hp h1 ender_par ender_par he
    injection j3 with _ j3
    obtain ⟨l1, l2, l3⟩ := h h2 j3
    exact ⟨.switchS j1 l1, l2, by rw [j4, l3]⟩
  | expr h => exact (not_expr h he (keyword_ehead (by decide) (by decide))).elim
  | _ => simp at he

theorem case_one (hty : TypeNames ty) {l T k} (hp : PlainLabel ty l) (h : One ty T k) :
    One ty (.word "case" :: (toksE (labelExpr l) ++ .punct ":" :: T)) (.case l k) := by
  refine ⟨word_shead hty (by decide), ?_⟩
  intro k' c R R' hk hR hR' he
  cases hk with
  | @case l' c s c2 h1 h2 =>
    injection he with _ he
    have he : toksE (labelExpr l) ++ .punct ":" :: (T ++ R) = c ++ .punct ":" :: (c2 ++ R') := by simpa using he
    obtain ⟨j1, _, j3, j4⟩ := expr_cut hp (h1.up (by omega) (by omega)) ender_colon ender_colon he
    obtain ⟨m1, m2, m3⟩ := h.read h2 hR hR' j3
    exact ⟨.case j1 m1, m2, by rw [j4, m3]⟩
  | expr h => exact (not_expr h he (keyword_ehead (by decide) (by decide))).elim
  | _ => simp at he

theorem dflt_one (hty : TypeNames ty) {T k} (h : One ty T k) :
    One ty (.word "default" :: .punct ":" :: T) (.dflt k) := by
  refine ⟨word_shead hty (by decide), ?_⟩
  intro k' c R R' hk hR hR' he
  cases hk with
  | dflt h2 =>
    injection he with _ he
    injection he with _ he
    obtain ⟨m1, m2, m3⟩ := h.read h2 hR hR' he
    exact ⟨.dflt m1, m2, by rw [m3]⟩
  | expr h => exact (not_expr h he (keyword_ehead (by decide) (by decide))).elim
  | _ => simp at he

theorem labels_one (hty : TypeNames ty) {T k} (h : One ty T k) : ∀ {ls}, (∀ l ∈ ls, PlainLabel ty l) →
    One ty (labelToks ls ++ T) (labels ls k)
  | [], _ => h
  | l :: ls, hl => by
    have := case_one hty (hl l (by simp)) (labels_one hty h (ls := ls) fun l h => hl l (by simp [h]))
    simpa [labelToks, labels] using this

/-- A declaration. -/
theorem decl_front (hty : TypeNames ty) {t d ds} (ht : PlainTypename ty t)
    (hp : ∀ e ∈ d :: ds, PlainForm ty e.1 ∧ PlainOpt ty e.2) :
    Front ty (specToks t ++ (allDecls (d :: ds) ++ [.punct ";"])) [.decl t (d :: ds)] := by
  obtain ⟨u, r, hu, w, rfl, hw⟩ := specToks_head ht
  refine ⟨?_, ?_⟩
  · intro R _ r' he
    rw [hu] at he
    injection he with he _
    injection he with he
    subst he
    obtain hw | hw := hw
    · exact absurd hw (by decide)
    · have h1 := hw.1
      rw [hty "else" (by decide)] at h1
      cases h1
  · intro ks c R R' hk hR he
    cases hk with
    | nil =>
      exfalso
      rw [hu] at he
      injection he with he _
      cases he
    | stmt hs _ =>
      exfalso
      obtain ⟨v, r', rfl, _, _, h3⟩ := stmt_head hty hs
      rw [hu] at he
      injection he with he _
      subst he
      exact h3 ⟨w, rfl, hw⟩
    | @decl t' c1 ds' c2 ss c3 h1 h2 h3 =>
      have he : specToks t ++ (declToks d ++ (declsToks ds ++ .punct ";" :: R)) =
          c1 ++ (c2 ++ .punct ";" :: (c3 ++ .punct "}" :: R')) := by simpa [allDecls] using he
      obtain ⟨j1, j2, j3⟩ := spec_cut ht h1 he
      obtain ⟨k1, k2, k3⟩ := decls_cut hp h2 j2
      subst j1
      exact ⟨[_], ss, c3, rfl, .cons (.decl k1) .nil, by rw [j3, k3]; simp [allDecls], h3⟩

mutual
theorem frontS (hty : TypeNames ty) : ∀ {s}, PlainS ty s → Front ty (toksS s) (lower s)
  | .block ss, h => (block_one ((frontSs hty (ss := ss) h).seq hty)).front hty
  | .brk, _ => (brk_one hty).front hty
  | .cont, _ => (cont_one hty).front hty
  | .varDecl t fs vs, h => by
    obtain ⟨h1, h2, h3⟩ := h
    rw [toksS, lower]
    cases hz : fs.zip vs with
    | nil => exact absurd hz h2
    | cons d ds =>
      rw [hz] at h3
      exact decl_front hty h1 h3
  | .ifS c b none, h => (if_one hty h.1 ((frontSs hty h.2.1).seq hty)).front hty
  | .ifS c b (some b2), h =>
    (ifElse_one hty h.1 ((frontSs hty h.2.1).seq hty) ((frontSs hty (ss := b2) h.2.2).seq hty)).front hty
  | .forS i c a b, h => (for_one hty h.1 h.2.1 h.2.2.1 ((frontSs hty h.2.2.2).seq hty)).front hty
  | .whileS c b, h => (while_one hty h.1 ((frontSs hty h.2).seq hty)).front hty
  | .ret none, _ => ((ret_one hty (e := none) trivial).front hty).append ((empty_one).front hty)
  | .ret (some e), h => (ret_one hty (e := some e) h).front hty
  | .switchS v cs d, h =>
    (switch_one hty h.1 (((frontCs hty h.2.1).append (frontD hty h.2.2)).seq hty)).front hty
  | .expr e, h => (expr_one h.1 h.2).front hty
theorem frontSs (hty : TypeNames ty) : ∀ {ss}, PlainSs ty ss → Front ty (toksSs ss) (lowers ss)
  | [], _ => .nil
  | s :: ss, h => (frontS hty h.1).append (frontSs hty h.2)
theorem frontCs (hty : TypeNames ty) : ∀ {cs}, PlainCs ty cs → Front ty (toksCs cs) (lowerCases cs)
  | [], _ => .nil
  | .mk ls b :: cs, h => by
    have h1 := ((frontBody hty h.2.1).append ((brk_one hty).front hty)).seq hty
    have h2 := (labels_one hty (block_one h1) h.1).front hty
    have := h2.append (frontCs hty h.2.2)
    simpa [toksCs, lowerCases] using this
theorem frontD (hty : TypeNames ty) : ∀ {d}, PlainB ty d → Front ty (dfltToks d) (lowerDflt d)
  | none, _ => .nil
  | some b, h => (dflt_one hty (block_one ((frontBody hty (ss := b) h).seq hty))).front hty
theorem frontBody (hty : TypeNames ty) : ∀ {ss}, PlainSs ty ss → Front ty (bodyToks ss) (lowerBody ss)
  | [], _ => .nil
  | s :: ss, h => by
    have := ((frontS hty h.1).append ((empty_one).front hty)).append (frontBody hty h.2)
    simpa [bodyToks, lowerBody] using this
end

/-- The tokens of a printed block can be read as the block only. -/
theorem body_back (hty : TypeNames ty) {ss k} (h : PlainSs ty ss)
    (hk : CSt ty (.stmt k) (.punct "{" :: (toksSs ss ++ [.punct "}"]))) :
    Alike (Rd ty) (RdI ty) (.block (lowers ss)) k :=
  (block_cut (R := []) (R' := []) ((frontSs hty h).seq hty) hk (by simp)).1

end Che.Proofs.CStmtBack
