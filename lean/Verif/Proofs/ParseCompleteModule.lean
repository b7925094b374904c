import Verif.Proofs.ParseCompleteStmt
import Mathlib.Tactic.Tauto
/-!
# The module parser accepts the grammar
-/
namespace Che
open Spec

variable {α β : Type} {ctx : ParseCtx} {ts ts' : List Token}

/-! ## Enums -/

theorem _root_.Che.Spec.EnumsG.head {es c} (h : EnumsG ctx es c) : ∃ w r, c = w :: r ∧ w.kind = "word" := by
  cases h with
  | one h _ => exact ⟨_, _, rfl, h⟩
  | last h _ _ => exact ⟨_, _, rfl, h⟩
  | more h _ _ _ => exact ⟨_, _, rfl, h⟩

theorem enumLoop_of {es : List EnumEntry} {c : List Token} (h : EnumsG ctx es c) :
    ∀ (acc : List EnumEntry) (r : Token) (rest : List Token), r.kind = "}" →
    Ev (fun n => enumLoop ctx n acc (c ++ r :: rest) = .ok (acc ++ es) (r :: rest)) := by
  have first : ∀ {w : Token} {v : Option Expr} {c : List Token} {x : Token} {rest : List Token}
      (acc : List EnumEntry), w.kind = "word" → InitG ctx v c → x.kind = "," ∨ x.kind = "}" →
      Ev (fun n => enumLoop ctx (n + 1) acc (w :: (c ++ x :: rest)) =
        (P.eat "," >>= fun b => if (!b) = true then pure (acc ++ [⟨w.content, v⟩])
          else P.follows "}" >>= fun b => if b = true then pure (acc ++ [⟨w.content, v⟩])
            else enumLoop ctx n (acc ++ [⟨w.content, v⟩])) (x :: rest)) := by
    intro w v c x rest acc hw g hx
    have hf : Follow 0 (x :: rest) := by
      rcases hx with h | h <;> exact .kind h (by decide)
    have hn : NotNext "=" (x :: rest) := by
      rcases hx with h | h <;> exact .kind h (by decide)
    refine (init_of g hf hn).mono fun n h => ?_
    obtain ⟨b, ts1, h2, ht, hf⟩ := h
    rw [enumLoop]
    pstep expect_of hw
    pstep h2
    cases b with
    | true =>
      obtain ⟨e, rfl, hx⟩ := ht rfl
      pthen rfl
      pstep hx
      pstep (rfl : (pure (some e) : P (Option Expr)) _ = .ok _ _)
      rfl
    | false =>
      obtain ⟨rfl, rfl⟩ := hf rfl
      pelse Bool.false_ne_true
      pstep (rfl : (pure none : P (Option Expr)) _ = .ok _ _)
      rfl
  induction h with
  | @one w v c hw g =>
    intro acc r rest hr
    refine Ev.succ ((first (x := r) (rest := rest) acc hw g (.inr hr)).mono fun n h => ?_)
    refine h.trans ?_
    pstep P.eat_of_not (NotNext.kind hr (by decide))
    rfl
  | @last w t v c hw g ht =>
    intro acc r rest hr
    refine Ev.succ ((first (x := t) (rest := r :: rest) acc hw g (.inl ht)).mono fun n h => ?_)
    have e : w :: c ++ [t] ++ r :: rest = w :: (c ++ t :: r :: rest) := by simp
    rw [e]
    refine h.trans ?_
    pstep P.eat_of ht
    pelse (by decide)
    pstep P.follows_of hr
    rfl
  | @more w t v c es c' hw g ht g' ih =>
    intro acc r rest hr
    refine Ev.succ (((first (x := t) (rest := c' ++ r :: rest) acc hw g (.inl ht)).and
      (ih (acc ++ [⟨w.content, v⟩]) r rest hr)).mono fun n h => ?_)
    obtain ⟨h1, h2⟩ := h
    have e : w :: c ++ t :: c' ++ r :: rest = w :: (c ++ t :: (c' ++ r :: rest)) := by simp
    rw [e]
    refine h1.trans ?_
    pstep P.eat_of ht
    pelse (by decide)
    obtain ⟨x, c', rfl, hx⟩ := g'.head
    pstep P.follows_of_not (NotNext.kind hx (by decide))
    pelse Bool.false_ne_true
    refine h2.trans ?_
    simp

/-! ## Structs -/

theorem formsLoop_of {fs : List Form} {c : List Token} (h : FormsG ctx fs c) :
    ∀ (acc : List Form) (e : Token) (rest : List Token), e.kind = ";" →
    Ev (fun n => formsLoop ctx n acc (c ++ e :: rest) = .ok (acc ++ fs) (e :: rest)) := by
  induction h with
  | nil =>
    intro acc e rest he
    refine Ev.succ (Ev.of fun n => ?_)
    unfold formsLoop
    pstep P.eat_of_not (NotNext.kind he (by decide))
    pelse Bool.false_ne_true
    rw [List.append_nil]
    rfl
  | @cons t f c fs c' ht g g' ih =>
    intro acc e rest he
    have hn : NotNext "[" (c' ++ e :: rest) := by
      cases g' with
      | nil => exact .kind he (by decide)
      | cons h _ _ => exact .kind h (by decide)
    refine Ev.succ (((parseForm_of g hn).and (ih (acc ++ [f]) e rest he)).mono fun n h => ?_)
    obtain ⟨h1, h2⟩ := h
    have e : t :: c ++ c' ++ e :: rest = t :: (c ++ (c' ++ e :: rest)) := by simp
    rw [e]
    unfold formsLoop
    pstep P.eat_of ht
    pthen rfl
    pstep h1
    refine h2.trans ?_
    simp

theorem parseTypeAndForms_of {f : TypeAndForms} {c rest : List Token} {e : Token} (h : FieldsG ctx f c)
    (he : e.kind = ";") :
    Ev (fun n => parseTypeAndForms n ctx (c ++ e :: rest) = .ok f rest) := by
  cases h with
  | @mk ty c1 f c2 fs c3 g1 g2 g3 =>
    have hn : NotNext "[" (c3 ++ e :: rest) := by
      cases g3 with
      | nil => exact .kind he (by decide)
      | cons h _ _ => exact .kind h (by decide)
    refine ((parseForm_of g2 hn).and (formsLoop_of g3 [f] e rest he)).mono fun n h => ?_
    obtain ⟨h1, h2⟩ := h
    have e' : c1 ++ c2 ++ c3 ++ e :: rest = c1 ++ (c2 ++ (c3 ++ e :: rest)) := by simp
    rw [e']
    have hs : NotNext "struct" (c1 ++ (c2 ++ (c3 ++ e :: rest))) := by
      obtain ⟨w, r, rfl, hw⟩ := g1.head
      rcases hw with hw | hw <;> exact .kind hw (by decide)
    unfold parseTypeAndForms
    pstep P.follows_of_not hs
    pelse Bool.false_ne_true
    pstep parseTypename_of g1 (NotNext.form g2 (by decide) (by decide))
    pstep h1
    pstep h2
    pstep expect_of he
    rfl

theorem unionLoop_of {fs : List UnionField} {c : List Token} (h : MembersG ctx fs c) :
    ∀ (acc : List UnionField) (r : Token) (rest : List Token), r.kind = "}" →
    Ev (fun n => unionLoop ctx n acc (c ++ r :: rest) = .ok (acc ++ fs) (r :: rest)) := by
  induction h with
  | nil =>
    intro acc r rest hr
    refine Ev.succ (Ev.of fun n => ?_)
    unfold unionLoop
    pstep P.follows_of hr
    pthen rfl
    rw [List.append_nil]
    rfl
  | @cons ty c1 f c2 fs c3 e g1 g2 he _ ih =>
    intro acc r rest hr
    refine Ev.succ (((parseForm_of (rest := e :: (c3 ++ r :: rest)) g2 (.kind he (by decide))).and
      (ih (acc ++ [⟨ty, f⟩]) r rest hr)).mono fun n h => ?_)
    obtain ⟨h1, h2⟩ := h
    have e' : c1 ++ c2 ++ e :: c3 ++ r :: rest = c1 ++ (c2 ++ e :: (c3 ++ r :: rest)) := by simp
    rw [e']
    have hs : NotNext "}" (c1 ++ (c2 ++ e :: (c3 ++ r :: rest))) := by
      obtain ⟨w, r, rfl, hw⟩ := g1.head
      rcases hw with hw | hw <;> exact .kind hw (by decide)
    unfold unionLoop
    pstep P.follows_of_not hs
    pelse Bool.false_ne_true
    pstep parseTypename_of g1 (NotNext.form g2 (by decide) (by decide))
    pstep h1
    pstep expect_of he
    refine h2.trans ?_
    simp

theorem structLoop_of {es : List StructEntry} {c : List Token} (h : StructG ctx es c) :
    ∀ (acc : List StructEntry) (r : Token) (rest : List Token), r.kind = "}" →
    Ev (fun n => structLoop ctx n acc (c ++ r :: rest) = .ok (acc ++ es) (r :: rest)) := by
  induction h with
  | nil =>
    intro acc r rest hr
    refine Ev.succ (Ev.of fun n => ?_)
    unfold structLoop
    pstep (rfl : P.peek (r :: rest) = .ok (some r) _)
    simp only [List.head?_cons, hr]
    rw [List.append_nil]
    rfl
  | @plain f c es c' e g he _ ih =>
    intro acc r rest hr
    refine Ev.succ (((parseTypeAndForms_of (rest := c' ++ r :: rest) g he).and
      (ih (acc ++ [.plain f]) r rest hr)).mono fun n h => ?_)
    obtain ⟨h1, h2⟩ := h
    have e' : c ++ e :: c' ++ r :: rest = c ++ e :: (c' ++ r :: rest) := by simp
    rw [e']
    cases g with
    | @mk ty c1 f c2 fs c3 g1 g2 g3 =>
      obtain ⟨w, c1, rfl, hw⟩ := g1.head
      unfold structLoop
      pstep (rfl : P.peek (w :: c1 ++ c2 ++ c3 ++ e :: (c' ++ r :: rest)) = .ok (some w) _)
      have fin : (parseTypeAndForms n ctx >>= fun f => structLoop ctx n (acc ++ [.plain f]))
          (w :: c1 ++ c2 ++ c3 ++ e :: (c' ++ r :: rest)) = .ok (acc ++ .plain ⟨ty, f :: fs⟩ :: es) (r :: rest) := by
        pstep h1
        refine h2.trans ?_
        simp
      rcases hw with hw | hw <;> simp only [List.cons_append, List.head?_cons, hw] <;> exact fin
  | @union t l r' e fs c1 f c2 es c3 ht hl g1 hr' g2 he _ ih =>
    intro acc r rest hr
    have ev1 := unionLoop_of g1 [] r' (c2 ++ e :: (c3 ++ r :: rest)) hr'
    have ev2 := parseForm_of (rest := e :: (c3 ++ r :: rest)) g2 (.kind he (by decide))
    refine Ev.succ ((ev1.and (ev2.and (ih (acc ++ [.union ⟨f, fs⟩]) r rest hr))).mono fun n h => ?_)
    obtain ⟨h1, h2, h3⟩ := h
    have e' : t :: l :: c1 ++ r' :: c2 ++ e :: c3 ++ r :: rest =
      t :: l :: (c1 ++ r' :: (c2 ++ e :: (c3 ++ r :: rest))) := by simp
    rw [e']
    unfold structLoop
    pstep (rfl : P.peek (t :: _) = .ok (some t) _)
    simp only [List.head?_cons, ht]
    have hu : parseUnion n ctx (t :: l :: (c1 ++ r' :: (c2 ++ e :: (c3 ++ r :: rest)))) =
        .ok ⟨f, fs⟩ (c3 ++ r :: rest) := by
      unfold parseUnion
      pstep expect_of ht
      pstep expect_of hl
      pstep h1
      pstep expect_of hr'
      pstep h2
      pstep expect_of he
      rfl
    pstep hu
    refine h3.trans ?_
    simp

/-! ## Typedefs -/

theorem anonParamsLoop_of {fs : List BareTypeform} {b : Bool} {c : List Token} (h : AnonsG ctx fs b c) :
    ∀ (acc : List BareTypeform) (r : Token) (rest : List Token), r.kind = ")" →
    Ev (fun n => anonParamsLoop ctx n ⟨false, acc⟩ (c ++ r :: rest) = .ok ⟨b, acc ++ fs⟩ (r :: rest)) := by
  induction h with
  | nil =>
    intro acc r rest hr
    refine Ev.succ (Ev.of fun n => ?_)
    unfold anonParamsLoop
    pstep P.eat_of_not (NotNext.kind hr (by decide))
    pelse Bool.false_ne_true
    rw [List.append_nil]
    rfl
  | dots ht hd =>
    intro acc r rest hr
    refine Ev.succ (Ev.of fun n => ?_)
    unfold anonParamsLoop
    pstep P.eat_of ht
    pthen rfl
    pstep P.eat_of hd
    pthen rfl
    rw [List.append_nil]
    rfl
  | @cons t f c fs b c' ht g g' ih =>
    intro acc r rest hr
    refine Ev.succ ((ih (acc ++ [f]) r rest hr).mono fun n h => ?_)
    have e' : t :: c ++ c' ++ r :: rest = t :: (c ++ (c' ++ r :: rest)) := by simp
    rw [e']
    have hn : ∀ k, k ≠ "," → k ≠ ")" → NotNext k (c' ++ r :: rest) := by
      intro k h1 h2
      cases g' with
      | nil => exact .kind hr h2.symm
      | dots hk _ => exact .kind hk h1.symm
      | cons hk _ _ => exact .kind hk h1.symm
    have hd : NotNext "..." (c ++ (c' ++ r :: rest)) := by
      cases g with
      | mk g1 g2 =>
        obtain ⟨w, r, rfl, hw⟩ := g1.head
        rcases hw with hw | hw <;> exact .kind hw (by decide)
    unfold anonParamsLoop
    pstep P.eat_of ht
    pthen rfl
    pstep P.eat_of_not hd
    pelse Bool.false_ne_true
    pstep parseBareTypeform_of g (hn _ (by decide) (by decide)) (hn _ (by decide) (by decide))
    refine h.trans ?_
    simp

theorem anon_of {ps : Option AnonParams} {c rest : List Token} (h : AnonG ctx ps c) (hn : NotNext "(" rest) :
    Ev (fun n => (P.follows "(" >>= fun b =>
      if b = true then (do
        let ps ← parseAnonParams n ctx
        pure (some ps))
      else pure none) (c ++ rest) = .ok ps rest) := by
  cases h with
  | none =>
    refine Ev.of fun n => ?_
    pstep P.follows_of_not hn
    rfl
  | @empty l r hl hr =>
    refine Ev.of fun n => ?_
    pstep P.follows_of hl
    pthen rfl
    have : parseAnonParams n ctx (l :: r :: rest) = .ok ⟨false, []⟩ rest := by
      unfold parseAnonParams
      pstep expect_of hl
      pstep P.follows_of hr
      pthen rfl
      pstep (rfl : (pure _ : P AnonParams) _ = .ok _ _)
      pstep expect_of hr
      rfl
    pstep this
    rfl
  | @list l r f c fs b c' hl g g' hr =>
    refine (anonParamsLoop_of g' [f] r rest hr).mono fun n h => ?_
    have e' : l :: c ++ c' ++ [r] ++ rest = l :: (c ++ (c' ++ r :: rest)) := by simp
    rw [e']
    have hn : ∀ k, k ≠ "," → k ≠ ")" → NotNext k (c' ++ r :: rest) := by
      intro k h1 h2
      cases g' with
      | nil => exact .kind hr h2.symm
      | dots hk _ => exact .kind hk h1.symm
      | cons hk _ _ => exact .kind hk h1.symm
    have hd : NotNext ")" (c ++ (c' ++ r :: rest)) := by
      cases g with
      | mk g1 g2 =>
        obtain ⟨w, r, rfl, hw⟩ := g1.head
        rcases hw with hw | hw <;> exact .kind hw (by decide)
    pstep P.follows_of hl
    pthen rfl
    have : parseAnonParams n ctx (l :: (c ++ (c' ++ r :: rest))) = .ok ⟨b, f :: fs⟩ rest := by
      unfold parseAnonParams
      pstep expect_of hl
      pstep P.follows_of_not hd
      pelse Bool.false_ne_true
      pstep parseBareTypeform_of g (hn _ (by decide) (by decide)) (hn _ (by decide) (by decide))
      pstep h
      pstep expect_of hr
      rfl
    pstep this
    rfl

theorem parseTypedefSize_of {k : Nat} {c rest : List Token} (h : SizeG k c) (hn : NotNext "[" rest) :
    parseTypedefSize ctx (c ++ rest) = .ok k rest := by
  unfold parseTypedefSize
  cases h with
  | none =>
    pstep P.eat_of_not hn
    rfl
  | some hl ht hp hr =>
    pstep P.eat_of hl
    pthen rfl
    pstep expect_of ht
    simp only [hp]
    pstep expect_of hr
    rfl

/-! ## Functions -/

/-- What stands after the last form of a function parameter. -/
def ParamEnd (ctx : ParseCtx) (ts : List Token) : Prop :=
  ∃ t r, ts = t :: r ∧ (t.kind = ")" ∨ t.kind = "..." ∨ t.kind = "," ∧ ParamNext ctx r)

theorem ParamEnd.notNext {k : String} (h : ParamEnd ctx ts) (h1 : k ≠ ")") (h2 : k ≠ "...") (h3 : k ≠ ",") :
    NotNext k ts := by
  obtain ⟨t, r, rfl, h | h | ⟨h, _⟩⟩ := h
  · exact .kind h h1.symm
  · exact .kind h h2.symm
  · exact .kind h h3.symm

theorem form_notType {f : Form} {x : Token} {c rest : List Token} (g : FormG ctx f (x :: c))
    (hx : ¬ TypeWord ctx x) (hn : NotNext "." rest) : ¬ TypeStart ctx (x :: c ++ rest) := by
  rintro (⟨t, r, e, h⟩ | ⟨t, r, e, h⟩ | ⟨a, b, d, r, e, ha, hb, _⟩)
  · cases e
    rcases g.head with e | e <;> rw [e] at h <;> exact absurd h (by decide)
  · cases e
    exact hx h
  · injection e with e1 e2
    subst e1
    cases g with
    | @mk t n c c1 w is c2 g1 hw hc g2 e =>
      cases c1 with
      | cons s c1 =>
        injection e with e1 e3
        have := g1.2 s (by simp)
        rw [e1, ha] at this
        exact absurd this (by decide)
      | nil =>
        injection e with e1 e3
        subst e3
        have : NotNext "." (c2 ++ rest) := by
          cases g2 with
          | nil => exact hn
          | empty h _ _ => exact .kind h (by decide)
          | size h _ _ _ => exact .kind h (by decide)
        exact this _ _ e2 hb

theorem paramFormsLoop_of {fs : List Form} {c : List Token} (h : ParamFormsG ctx fs c) :
    ∀ (acc : List Form) (rest : List Token), ParamEnd ctx rest →
    Ev (fun n => paramFormsLoop ctx n acc (c ++ rest) = .ok (acc ++ fs) rest) := by
  induction h with
  | nil =>
    intro acc rest hp
    refine Ev.succ (Ev.of fun n => ?_)
    rw [List.append_nil, List.nil_append]
    unfold paramFormsLoop
    obtain ⟨t, r, rfl, h | h | ⟨h, hq⟩⟩ := hp
    · pstep P.follows_of_not (NotNext.kind h (by decide))
      rfl
    · pstep P.follows_of_not (NotNext.kind h (by decide))
      rfl
    · pstep P.follows_of h
      pthen rfl
      pstep (rfl : P.getU _ (t :: r) = .ok t r)
      pstep (rfl : typeFollows ctx r = .ok (typeFollowsL ctx r) r)
      have : ∃ b, P.follows "..." r = .ok b r ∧ (typeFollowsL ctx r || b) = true := by
        rcases hq with hq | ⟨x, r', rfl, hx⟩
        · have hor : ∀ b, (typeFollowsL ctx r || b) = true := by
            intro b; rw [typeStart_iff.2 hq]; rfl
          cases r with
          | nil => exact ⟨false, rfl, hor _⟩
          | cons x r =>
            by_cases hx : x.kind = "..."
            · exact ⟨true, P.follows_of hx, hor _⟩
            · exact ⟨false, P.follows_of_not (NotNext.cons hx), hor _⟩
        · exact ⟨true, P.follows_of hx, by simp⟩
      obtain ⟨b, hb, hor⟩ := this
      pstep hb
      pthen hor
      rfl
  | @cons t f x c fs c' ht g hx g' ih =>
    intro acc rest hp
    have hd : ∀ k, k ≠ ")" → k ≠ "..." → k ≠ "," → NotNext k (c' ++ rest) := by
      intro k h1 h2 h3
      cases g' with
      | nil => exact hp.notNext h1 h2 h3
      | cons h _ _ _ => exact .kind h h3.symm
    refine Ev.succ (((parseForm_of g (hd "[" (by decide) (by decide) (by decide))).and
      (ih (acc ++ [f]) rest hp)).mono fun n h => ?_)
    obtain ⟨h1, h2⟩ := h
    have e' : t :: x :: c ++ c' ++ rest = t :: (x :: c ++ (c' ++ rest)) := by simp
    rw [e']
    unfold paramFormsLoop
    pstep P.follows_of ht
    pthen rfl
    pstep (rfl : P.getU _ (t :: _) = .ok t _)
    pstep (rfl : typeFollows ctx (x :: c ++ (c' ++ rest)) = .ok (typeFollowsL ctx (x :: c ++ (c' ++ rest))) _)
    have hnt : typeFollowsL ctx (x :: c ++ (c' ++ rest)) = false := by
      rw [Bool.eq_false_iff]
      intro h
      exact form_notType g hx (hd "." (by decide) (by decide) (by decide)) (typeStart_iff.1 h)
    pstep P.follows_of_not (NotNext.form g (by decide) (by decide))
    pelse (by rw [hnt]; decide)
    pstep h1
    refine h2.trans ?_
    simp

theorem parseFuncParam_of {p : TypeAndForms} {c rest : List Token} (h : ParamG ctx p c)
    (hp : ParamEnd ctx rest) : Ev (fun n => parseFuncParam n ctx (c ++ rest) = .ok p rest) := by
  cases h with
  | @mk ty c1 f c2 fs c3 g1 g2 g3 _ =>
    have hd : NotNext "[" (c3 ++ rest) := by
      cases g3 with
      | nil => exact hp.notNext (by decide) (by decide) (by decide)
      | cons h _ _ _ => exact .kind h (by decide)
    refine ((parseForm_of g2 hd).and (paramFormsLoop_of g3 [f] rest hp)).mono fun n h => ?_
    obtain ⟨h1, h2⟩ := h
    have e' : c1 ++ c2 ++ c3 ++ rest = c1 ++ (c2 ++ (c3 ++ rest)) := by simp
    rw [e']
    unfold parseFuncParam
    pstep parseTypename_of g1 (NotNext.form g2 (by decide) (by decide))
    pstep h1
    pstep h2
    rfl

theorem _root_.Che.Spec.ParamG.start {p c} (h : ParamG ctx p c) : TypeStart ctx c := by
  cases h; assumption

theorem _root_.Che.Spec.ParamsG.next {ps b x c rest} (h : ParamsG ctx ps b (x :: c)) :
    ParamNext ctx (x :: c ++ rest) := by
  generalize e : x :: c = c0 at h
  cases h with
  | none => cases e
  | dots h => exact .inr ⟨_, _, rfl, h⟩
  | one h => exact .inl h.start.mono
  | oneDots h _ => exact .inl h.start.mono.mono
  | more h _ _ => exact .inl h.start.mono.mono

theorem notType_kind {t : Token} {r : List Token} {k : String} (h : t.kind = k) (h1 : k ≠ "word")
    (h2 : k ≠ "const") : typeFollowsL ctx (t :: r) = false := by
  rw [Bool.eq_false_iff]
  intro h'
  rcases typeStart_iff.1 h' with ⟨t, r, e, h⟩ | ⟨t, r, e, h, _⟩ | ⟨a, b, d, r, e, h, _⟩ <;> cases e
  · exact h2 (by rw [← h]; symm; assumption)
  · exact h1 (by rw [← h]; symm; assumption)
  · exact h1 (by rw [← h]; symm; assumption)

theorem paramsLoop_of {ps : List TypeAndForms} {b : Bool} {c : List Token} (h : ParamsG ctx ps b c) :
    ∀ (acc : List TypeAndForms) (r : Token) (rest : List Token), r.kind = ")" →
    Ev (fun n => ∃ ts1, paramsLoop ctx n acc (c ++ r :: rest) = .ok (acc ++ ps) ts1 ∧
      P.eat "..." ts1 = .ok b (r :: rest)) := by
  induction h with
  | none =>
    intro acc r rest hr
    refine Ev.succ (Ev.of fun n => ⟨r :: rest, ?_, P.eat_of_not (NotNext.kind hr (by decide))⟩)
    unfold paramsLoop
    pstep (rfl : typeFollows ctx (r :: rest) = .ok (typeFollowsL ctx (r :: rest)) _)
    pelse (by rw [notType_kind hr (by decide) (by decide)]; decide)
    rw [List.append_nil]
    rfl
  | @dots t ht =>
    intro acc r rest hr
    refine Ev.succ (Ev.of fun n => ⟨t :: r :: rest, ?_, P.eat_of ht⟩)
    unfold paramsLoop
    pstep (rfl : typeFollows ctx (t :: r :: rest) = .ok (typeFollowsL ctx (t :: r :: rest)) _)
    pelse (by rw [notType_kind ht (by decide) (by decide)]; decide)
    rw [List.append_nil]
    rfl
  | @one p c g =>
    intro acc r rest hr
    refine Ev.succ ((parseFuncParam_of (rest := r :: rest) g ⟨r, rest, rfl, .inl hr⟩).mono fun n h =>
      ⟨r :: rest, ?_, P.eat_of_not (NotNext.kind hr (by decide))⟩)
    unfold paramsLoop
    pstep (rfl : typeFollows ctx (c ++ r :: rest) = .ok (typeFollowsL ctx (c ++ r :: rest)) _)
    pthen (typeStart_iff.2 g.start.mono)
    pstep h
    pstep P.eat_of_not (NotNext.kind hr (by decide))
    rfl
  | @oneDots p c t g ht =>
    intro acc r rest hr
    refine Ev.succ ((parseFuncParam_of (rest := t :: r :: rest) g ⟨t, _, rfl, .inr (.inl ht)⟩).mono fun n h =>
      ⟨t :: r :: rest, ?_, P.eat_of ht⟩)
    have e' : c ++ [t] ++ r :: rest = c ++ t :: r :: rest := by simp
    rw [e']
    unfold paramsLoop
    pstep (rfl : typeFollows ctx (c ++ t :: r :: rest) = .ok (typeFollowsL ctx (c ++ t :: r :: rest)) _)
    pthen (typeStart_iff.2 g.start.mono)
    pstep h
    pstep P.eat_of_not (NotNext.kind ht (by decide))
    rfl
  | @more p c ps b x c' t g ht g' ih =>
    intro acc r rest hr
    have hp : ParamEnd ctx (t :: (x :: c' ++ r :: rest)) := ⟨t, _, rfl, .inr (.inr ⟨ht, g'.next⟩)⟩
    refine Ev.succ (((parseFuncParam_of g hp).and (ih (acc ++ [p]) r rest hr)).mono fun n h => ?_)
    obtain ⟨h1, ts1, h2, h3⟩ := h
    refine ⟨ts1, ?_, h3⟩
    have e' : c ++ t :: x :: c' ++ r :: rest = c ++ t :: (x :: c' ++ r :: rest) := by simp
    rw [e']
    unfold paramsLoop
    pstep (rfl : typeFollows ctx (c ++ t :: (x :: c' ++ r :: rest)) = .ok (typeFollowsL ctx _) _)
    pthen (typeStart_iff.2 g.start.mono)
    pstep h1
    pstep P.eat_of ht
    pelse (by decide)
    refine h2.trans ?_
    simp

/-! ## Module elements -/

theorem parseObj_of {p : Bool} {pos : Pos} {e : ModElem} {c1 c2 rest : List Token} {t : Token} {c : List Token}
    (hp : PubG p c1) (h : ObjG ctx p t.pos e c2) (ec : c1 ++ c2 = t :: c)
    (h1 : NotNext ";" rest) (h2 : ¬ ElseNext rest) :
    Ev (fun n => parseModuleObject n ctx (t :: c ++ rest) = .ok (e, []) rest) := by
  have start : ∀ {x : Token} {c' : List Token} {n : Nat} {r : PR (ModElem × List Error)}, c2 = x :: c' →
      x.kind ≠ "pub" →
      (P.follows "enum" >>= fun b => if b = true then (parseEnum n ctx p >>= fun e => pure (e, []))
        else P.follows "typedef" >>= fun b =>
        if b = true then (parseTypedef n ctx p >>= fun e => pure (e, []))
        else do
          let typename ← parseTypename ctx
          let form ← parseForm n ctx
          let next ← P.peekU "parser.rs:165"
          if next.kind = "(" then parseFuncDecl n ctx p typename form t.pos
          else
            let _ ← expect ctx "=" (some "module variable")
            if p then P.err "module variables can't be exported" t.pos
            else
              let value ← parseExpr n ctx 0
              let _ ← expect ctx ";" (some "module variable declaration")
              pure (.modVar { typename := typename, form := form, value := some value, pos := t.pos }, []))
        (c2 ++ rest) = r → parseModuleObject n ctx (t :: c ++ rest) = r := by
    intro x c' n r hc hx hr
    unfold parseModuleObject
    pstep (rfl : P.peekU _ (t :: c ++ rest) = .ok t _)
    have e' : t :: c ++ rest = c1 ++ (c2 ++ rest) := by rw [← ec]; simp
    rw [e']
    cases hp with
    | no =>
      have : P.eat "pub" ([] ++ (c2 ++ rest)) = .ok false (c2 ++ rest) := by
        rw [hc]
        exact P.eat_of_not (NotNext.cons hx)
      pstep this
      exact hr
    | yes hk =>
      pstep P.eat_of hk
      exact hr
  have typed : ∀ {ty : Typename} {ca cb : List Token} {f : Form}, TypeG ctx ty ca → FormG ctx f cb →
      ∀ {rest' : List Token}, NotNext "[" rest' → c2 ++ rest = ca ++ (cb ++ rest') → c2 ≠ [] →
      Ev (fun n => ∀ {r : PR (ModElem × List Error)}, (do
          let next ← P.peekU "parser.rs:165"
          if next.kind = "(" then parseFuncDecl n ctx p ty f t.pos
          else
            let _ ← expect ctx "=" (some "module variable")
            if p then P.err "module variables can't be exported" t.pos
            else
              let value ← parseExpr n ctx 0
              let _ ← expect ctx ";" (some "module variable declaration")
              pure (.modVar { typename := ty, form := f, value := some value, pos := t.pos }, []))
          rest' = r → parseModuleObject n ctx (t :: c ++ rest) = r) := by
    intro ty ca cb f g1 g2 rest' hn e hne
    refine (parseForm_of g2 hn).mono fun n hf r hr => ?_
    obtain ⟨w, ca, rfl, hw⟩ := g1.head
    obtain ⟨x, c2', e2⟩ := List.exists_cons_of_ne_nil hne
    have hxw : x = w := by
      rw [e2] at e
      injection e
    subst hxw
    have hk : ∀ k, k ≠ "word" → k ≠ "const" → x.kind ≠ k := by
      intro k k1 k2 e
      rcases hw with hw | hw <;> rw [hw] at e
      · exact k1 e.symm
      · exact k2 e.symm
    refine start e2 (hk _ (by decide) (by decide)) ?_
    rw [e]
    pstep P.follows_of_not (NotNext.cons (hk _ (by decide) (by decide)))
    pelse Bool.false_ne_true
    pstep P.follows_of_not (NotNext.cons (hk _ (by decide) (by decide)))
    pelse Bool.false_ne_true
    pstep parseTypename_of g1 (NotNext.form g2 (by decide) (by decide))
    pstep hf
    exact hr
  cases h with
  | @enum x l r es c' c'' hx hl g hr g' =>
    refine (enumLoop_of g [] r (c'' ++ rest) hr).mono fun n h => ?_
    refine start rfl (by rw [hx]; decide) ?_
    have e' : x :: l :: c' ++ r :: c'' ++ rest = x :: l :: (c' ++ r :: (c'' ++ rest)) := by simp
    rw [e']
    pstep P.follows_of hx
    pthen rfl
    have : parseEnum n ctx p (x :: l :: (c' ++ r :: (c'' ++ rest))) = .ok (.enum ⟨p, es, x.pos⟩) rest := by
      unfold parseEnum
      pstep (rfl : P.peekU _ (x :: _) = .ok x _)
      pstep expect_of hx
      pstep expect_of hl
      pstep h
      pstep expect_of hr
      cases g' with
      | no =>
        pstep P.eat_of_not h1
        rfl
      | yes hs =>
        pstep P.eat_of hs
        rfl
    pstep this
    rfl
  | @struct x l r w s es c' hx hl g hr hw hs =>
    refine (structLoop_of g [] r (w :: s :: rest) hr).mono fun n h => ?_
    refine start rfl (by rw [hx]; decide) ?_
    have e' : x :: l :: c' ++ [r, w, s] ++ rest = x :: l :: (c' ++ r :: w :: s :: rest) := by simp
    rw [e']
    pstep P.follows_of_not (NotNext.kind hx (by decide))
    pelse Bool.false_ne_true
    pstep P.follows_of hx
    pthen rfl
    have : parseTypedef n ctx p (x :: l :: (c' ++ r :: w :: s :: rest)) =
        .ok (.structTypedef ⟨p, es, w.content⟩) rest := by
      unfold parseTypedef
      pstep expect_of hx
      pstep P.follows_of hl
      pthen rfl
      pstep expect_of hl
      pstep h
      pstep expect_of hr
      pstep expect_of hw
      pstep expect_of hs
      rfl
    pstep this
    rfl
  | @«alias» x s a b q hx hs ha hb hq =>
    refine Ev.of fun n => ?_
    refine start rfl (by rw [hx]; decide) ?_
    pstep P.follows_of_not (NotNext.kind hx (by decide))
    pelse Bool.false_ne_true
    pstep P.follows_of hx
    pthen rfl
    have : parseTypedef n ctx p (x :: s :: a :: b :: q :: rest) =
        .ok (.structAlias ⟨p, a.content, b.content⟩) rest := by
      unfold parseTypedef
      pstep expect_of hx
      pstep P.follows_of_not (NotNext.kind hs (by decide))
      pelse Bool.false_ne_true
      pstep P.eat_of hs
      pthen rfl
      pstep expect_of ha
      pstep expect_of hb
      pstep expect_of hq
      rfl
    pstep this
    rfl
  | @typedef x w q ty ca stars cb ps cc k cd hx g1 g2 hw g3 g4 hq =>
    have hnp : NotNext "(" (cd ++ q :: rest) := by
      cases g4 with
      | none => exact .kind hq (by decide)
      | some h _ _ _ => exact .kind h (by decide)
    refine (anon_of g3 hnp).mono fun n h => ?_
    refine start rfl (by rw [hx]; decide) ?_
    have e' : x :: ca ++ cb ++ w :: cc ++ cd ++ [q] ++ rest = x :: (ca ++ (cb ++ w :: (cc ++ (cd ++ q :: rest)))) := by
      simp
    rw [e']
    pstep P.follows_of_not (NotNext.kind hx (by decide))
    pelse Bool.false_ne_true
    pstep P.follows_of hx
    pthen rfl
    have hty : ∀ k, k ≠ "word" → k ≠ "const" → NotNext k (ca ++ (cb ++ w :: (cc ++ (cd ++ q :: rest)))) := by
      intro k k1 k2
      obtain ⟨y, r, rfl, hy⟩ := g1.head
      rcases hy with hy | hy
      · exact .kind hy k1.symm
      · exact .kind hy k2.symm
    have hdot : NotNext "." (cb ++ w :: (cc ++ (cd ++ q :: rest))) := by
      refine NotNext.of_append ?_ (by rw [hw]; decide)
      rintro s r rfl
      rw [g2.2 s (by simp)]; decide
    have : parseTypedef n ctx p (x :: (ca ++ (cb ++ w :: (cc ++ (cd ++ q :: rest))))) =
        .ok (.typedef ⟨p, w.content, ty, stars, k, ps⟩) rest := by
      unfold parseTypedef
      pstep expect_of hx
      pstep P.follows_of_not (hty _ (by decide) (by decide))
      pelse Bool.false_ne_true
      pstep P.eat_of_not (hty _ (by decide) (by decide))
      pelse Bool.false_ne_true
      pstep parseTypename_of g1 hdot
      pstep eatStars_of g2 (NotNext.kind hw (by decide))
      pstep expect_of hw
      refine Eq.trans ?_ ((P.bind_of (f := fun ps => parseTypedefSize ctx >>= fun size =>
        expect ctx ";" (some "typedef") >>= fun _ => pure (ModElem.typedef ⟨p, w.content, ty, stars, size, ps⟩)) h).trans ?_)
      · rw [P.bind_eq, P.bind_eq, P.bind_eq]
        cases P.follows "(" (cc ++ (cd ++ q :: rest)) with
        | ok b ts1 =>
          cases b
          · rfl
          · simp only [if_true]
            rw [P.bind_eq, P.bind_eq (parseAnonParams n ctx) (fun ps => pure (some ps))]
            cases parseAnonParams n ctx ts1 <;> rfl
        | err e ts => rfl
        | panic m => rfl
        | diverge => rfl
      · pstep parseTypedefSize_of g4 (NotNext.kind hq (by decide))
        pstep expect_of hq
        rfl
    pstep this
    rfl
  | @var ty ca f cb v cc q s hp' g1 g2 hq g3 hs =>
    have ev1 := typed g1 g2 (rest' := q :: (cc ++ s :: rest)) (NotNext.kind hq (by decide)) (by simp)
      (by simp)
    have ev2 := g3.parse (rest := s :: rest) (by omega) (.kind hs (by decide))
    refine (ev1.and ev2).mono fun n h => ?_
    obtain ⟨h1, h2⟩ := h
    refine h1 ?_
    pstep (rfl : P.peekU _ (q :: _) = .ok q _)
    pelse (by rw [hq]; decide)
    pstep expect_of hq
    pelse (by rw [hp']; decide)
    pstep h2
    pstep expect_of hs
    rfl
  | @func ty ca f cb ps b cc body o cd l r g1 g2 hl g3 hr g4 =>
    have ev1 := typed g1 g2 (rest' := l :: (cc ++ r :: (cd ++ rest))) (NotNext.kind hl (by decide)) (by simp)
      (by simp)
    have ev2 := paramsLoop_of g3 [] r (cd ++ rest) hr
    have ev3 := g4.complete rest (fun _ => h2)
    refine (ev1.and (ev2.and ev3)).mono fun n h => ?_
    obtain ⟨h1, ⟨ts1, h2, h3⟩, h4⟩ := h
    refine h1 ?_
    pstep (rfl : P.peekU _ (l :: _) = .ok l _)
    pthen hl
    unfold parseFuncDecl
    pstep expect_of hl
    pstep h2
    pstep h3
    pstep expect_of hr
    pstep h4
    rfl

theorem splitAtSpace_of {a v : List Char} (h : ' ' ∉ a) : splitAtSpace (a ++ ' ' :: v) = some (a, ' ' :: v) := by
  induction a with
  | nil => simp [splitAtSpace]
  | cons c a ih =>
    simp only [List.mem_cons, not_or] at h
    rw [List.cons_append, splitAtSpace, if_neg (fun e => h.1 e.symm), ih h.2]
    rfl

/-- Heads of module elements. -/
def elemHeads : List String := ["word", "const", "pub", "enum", "typedef", "macro", "import"]

theorem _root_.Che.Spec.ObjG.head {p pos e c} (h : ObjG ctx p pos e c) :
    ∃ t r, c = t :: r ∧ t.kind ∈ ["word", "const", "enum", "typedef"] := by
  have ty : ∀ {t : Typename} {c : List Token} (r : List Token), TypeG ctx t c →
      ∃ x r', c ++ r = x :: r' ∧ x.kind ∈ ["word", "const", "enum", "typedef"] := by
    intro t c r g
    obtain ⟨w, c, rfl, hw⟩ := g.head
    exact ⟨w, _, rfl, by rcases hw with h | h <;> simp [h]⟩
  cases h with
  | enum h _ _ _ _ => exact ⟨_, _, rfl, by simp [h]⟩
  | struct h _ _ _ _ _ => exact ⟨_, _, rfl, by simp [h]⟩
  | «alias» h _ _ _ _ => exact ⟨_, _, rfl, by simp [h]⟩
  | typedef h _ _ _ _ _ _ => exact ⟨_, _, rfl, by simp [h]⟩
  | var _ g _ _ _ _ => simp only [List.append_assoc]; exact ty _ g
  | func g _ _ _ _ _ => simp only [List.append_assoc]; exact ty _ g

theorem _root_.Che.Spec.ElemG.head {e c} (h : ElemG ctx e c) :
    ∃ t r, c = t :: r ∧ (t.kind ∈ ["word", "const", "enum", "typedef", "pub"] ∨ t.kind = "macro") := by
  cases h with
  | @obj p c1 t c e c2 hp g ec =>
    refine ⟨t, c, rfl, .inl ?_⟩
    cases hp with
    | no =>
      obtain ⟨x, r, rfl, hx⟩ := g.head
      cases ec
      simp only [List.mem_cons] at hx ⊢
      tauto
    | yes h => cases ec; simp [h]
  | define h _ _ _ _ => exact ⟨_, _, rfl, .inr h⟩

theorem _root_.Che.Spec.ModG.head {es c} (h : ModG ctx es c) : ∀ t r, c = t :: r → t.kind ∈ elemHeads := by
  cases h with
  | nil => rintro _ _ ⟨⟩
  | skip h _ => rintro _ _ ⟨⟩; simp [h, elemHeads]
  | cons h _ =>
    obtain ⟨t, r, rfl, ht⟩ := h.head
    rintro _ _ ⟨⟩
    simp only [List.mem_cons, elemHeads] at ht ⊢
    tauto

theorem moduleLoop_of {es : List ModElem} {c : List Token} (h : ModG ctx es c) :
    ∀ acc, Ev (fun n => moduleLoop ctx n acc [] c = finishModule (acc ++ es) []) := by
  induction h with
  | nil =>
    intro acc
    refine Ev.succ (Ev.of fun n => ?_)
    rw [List.append_nil]
    rfl
  | @skip t es c ht _ ih =>
    intro acc
    refine Ev.succ ((ih acc).mono fun n h => ?_)
    rw [moduleLoop]
    simp only [ht]
    exact h
  | @cons e c es c' g g' ih =>
    intro acc
    cases g with
    | @define t ch name value ht hc h1 h2 h3 =>
      refine Ev.succ ((ih (acc ++ [.macro ⟨String.ofList name, String.ofList (' ' :: value), t.pos⟩])).mono fun n h => ?_)
      show moduleLoop ctx (n + 1) acc [] (t :: c') = _
      rw [moduleLoop]
      simp only [ht]
      have : parseCompatMacro ctx (t :: c') =
          .ok (.macro ⟨String.ofList name, String.ofList (' ' :: value), t.pos⟩) c' := by
        unfold parseCompatMacro
        pstep expect_of ht
        have hs : splitAtSpace t.content.toList = some (ch :: name, ' ' :: value) := by
          rw [hc]
          refine splitAtSpace_of ?_
          simp only [List.mem_cons, not_or]
          exact ⟨fun e => h1 e.symm, h3⟩
        have hd : dropBytes 1 (ch :: name) = some name := by
          simp [dropBytes, dropBytes.go, h2]
        simp only [hs, hd]
        rfl
      rw [this]
      refine h.trans ?_
      simp
    | @obj p c1 t c e c2 hp g ec =>
      have hh := g'.head
      have ev := parseObj_of (pos := t.pos) (rest := c') hp g ec
        (by rintro x r rfl e; have := hh x r rfl; rw [e] at this; exact absurd this (by decide))
        (by rintro ⟨x, r, rfl, e⟩; have := hh x r rfl; rw [e] at this; exact absurd this (by decide))
      refine Ev.succ ((ev.and (ih (acc ++ [e]))).mono fun n h => ?_)
      obtain ⟨h1, h2⟩ := h
      have hk : t.kind ∈ ["word", "const", "enum", "typedef", "pub"] := by
        cases hp with
        | no =>
          obtain ⟨x, r, rfl, hx⟩ := g.head
          cases ec
          simp only [List.mem_cons] at hx ⊢
          tauto
        | yes h => cases ec; simp [h]
      rw [List.cons_append, moduleLoop]
      rw [List.cons_append] at h1
      have fin : (match parseModuleObject n ctx (t :: (c ++ c')) with
          | .ok (r, es) ts' => moduleLoop ctx n (acc ++ [r]) ([] ++ es) ts'
          | .err e _ => finishModule acc ([] ++ [e])
          | .panic m => .panic m
          | .diverge => .diverge) = finishModule (acc ++ e :: es) [] := by
        rw [h1]
        refine h2.trans ?_
        simp
      simp only [List.mem_cons, List.not_mem_nil, or_false] at hk
      rcases hk with hk | hk | hk | hk | hk <;> simp only [hk] <;> exact fin

/-- Every module of the grammar is parsed, by every big enough budget. -/
theorem _root_.Che.Spec.ModG.parse {es : List ModElem} {c : List Token} (h : ModG ctx es c) :
    Ev (fun n => parseModule n ctx c = .ok { elements := es, exports := getExports es }) :=
  (moduleLoop_of h []).mono fun _ h => h

end Che
