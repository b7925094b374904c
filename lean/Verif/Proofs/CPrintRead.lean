import Verif.Proofs.CPrintToks
/-!
# The printed text of an expression is read as its tokens
-/
namespace Che.Proofs.CPrintRead
open Che Che.Spec Che.FormatC Che.Proofs.CLexing Che.Proofs.CPrintToks

theorem level_lt {op s} (h : cLevel op = some s) : 3 ≤ s ∧ s ≤ 12 := by
  have k : ∀ op ∈ levelOps, (match cLevel op with | some s => decide (3 ≤ s ∧ s ≤ 12) | none => true) = true := by
    decide +kernel
  have := k op (level_mem h)
  rw [h] at this
  exact of_decide_eq_true this

theorem plain_strength {op} (h : (∃ s, cLevel op = some s) ∨ op ∈ cAssignOps) :
    2 ≤ strength op ∧ strength op ≤ 12 := by
  obtain ⟨s, h⟩ | h := h
  · rw [strength_level h]; have := level_lt h; omega
  · rw [strength_assign op h]; omega

theorem strength_prefix : strength "prefix" = 13 := by decide +kernel

theorem wrapPrefix_eq {ty e} (h : Plain ty e) : wrapPrefix e = isBinary e := by
  cases e <;> try rfl
  have := plain_strength h.1
  simp only [wrapPrefix, isBinary, strength_prefix, decide_eq_true_eq]
  omega

theorem wrapTarget_eq {ty op e} (ho : op ∈ [".", "->"]) (h : Plain ty e) :
    wrapTarget op e = isOperation e := by
  have k : ∀ op ∈ [".", "->"], strength op = 14 := by decide +kernel
  cases e <;> try rfl
  · have := plain_strength h.1
    simp only [wrapTarget, isOp, isOperation, k op ho, decide_eq_true_eq]
    omega
  all_goals simp [wrapTarget, isOp, isOperation, k op ho, strength_prefix]

/-- The text of `e` before any text is read as its tokens. -/
def Ok (e : CExpr) : Prop :=
  ∀ ⦃s ts x⦄, After e (s ++ x) → CReads s ts x → CReads ((fmtExpr e).toList ++ s) (toksE e ++ ts) x

theorem reads_wrap {e} (h : Ok e) (b : Bool) {s ts x} (ha : b = false → After e (s ++ x))
    (hr : CReads s ts x) : CReads ((paren b (fmtExpr e)).toList ++ s) (wrapT b (toksE e) ++ ts) x := by
  rw [paren_toList]
  cases b with
  | false => exact h (ha rfl) hr
  | true =>
    have := lpar (h (s := ')' :: s) (after_sep (by simp [EndCh])) (rpar hr))
    simpa [wrapT] using this

theorem starts_ne {e s} (h : Starts e s) : s ≠ [] := by
  obtain ⟨c, y, rfl, _⟩ := h; simp

theorem join_cons (sep a : String) (as : List String) :
    RStr.join sep (a :: as) = a ++ String.join (as.map (sep ++ ·)) := by
  induction as generalizing a with
  | nil => simp [RStr.join]
  | cons b bs ih =>
    rw [RStr.join, ih b, List.map_cons, String.join_cons]
    · simp [String.append_assoc]
    · simp

theorem level_punct : ∀ op ∈ levelOps, op ∈ cPunctuators := by decide
theorem assign_punct : ∀ op ∈ cAssignOps, op ∈ cPunctuators := by decide

theorem field_num : ∀ {t}, isOperation t = false → isNumber t = false → endsNum t = false
  | .lit (.number _), _, h => by cases h
  | .lit (.char _), _, _ => rfl
  | .lit (.string _), _, _ => rfl
  | .lit .null, _, _ => rfl
  | .compLit _, _, _ => rfl
  | .ident _, _, _ => rfl
  | .binaryOp _ _ _, h, _ => by cases h
  | .prefixOp _ _, h, _ => by cases h
  | .postfixOp _ _, h, _ => by cases h
  | .fieldAccess _ _ _, _, _ => rfl
  | .cast _ _, _, _ => rfl
  | .call _ _, _, _ => rfl
  | .sizeofType _, _, _ => rfl
  | .sizeofExpr _, _, _ => rfl
  | .arrIndex _ _, _, _ => rfl

/-- The next character ends anything. -/
def SepNext (x : List Char) : Prop := ∃ c y, x = c :: y ∧ EndCh c

theorem after_of_sep {e x} (h : SepNext x) : After e x := by
  obtain ⟨c, y, rfl, h⟩ := h
  exact after_sep h

/-- The text is empty or starts with a character that ends anything. -/
def SepStart (x : List Char) : Prop := x = [] ∨ SepNext x

theorem SepStart.append {x y z} (h : SepStart x) (hy : SepNext (y ++ z)) : SepNext (x ++ y ++ z) := by
  obtain rfl | ⟨c, w, rfl, h⟩ := h
  · simpa using hy
  · exact ⟨c, w ++ y ++ z, rfl, h⟩

theorem sepArgs (es : List CExpr) : SepStart (String.join ((fmtArgs es).map (", " ++ ·))).toList := by
  cases es with
  | nil => exact .inl rfl
  | cons e es =>
    refine .inr ⟨',', _, by simp [fmtArgs, String.toList_append]; rfl, by simp [EndCh]⟩

theorem sepCons (es : List CEntry) : SepStart (String.join ((fmtEntries es).map (",\n" ++ ·))).toList := by
  cases es with
  | nil => exact .inl rfl
  | cons e es =>
    refine .inr ⟨',', _, by simp [fmtEntries, String.toList_append]; rfl, by simp [EndCh]⟩

mutual
theorem reads {ty} : ∀ {e}, Plain ty e → Ok e
  | .lit l, h => by
    intro s ts x ha hr
    exact reads_lit h ha.1 ha.2 hr
  | .ident w, h => by
    intro s ts x ha hr
    exact word h.1 ha.1 hr
  | .compLit es, h => by
    intro s ts x ha hr
    cases es with
    | nil =>
      have := lbrc (number (w := "0") (s := '}' :: s) (d := '0') (ds := []) rfl (by decide) trivial
        (afterNum_sep (by simp [EndCh])) (rbrc hr))
      simpa [fmtExpr, toksE] using this
    | cons e es =>
      have h2 := readsEntries h.2 (s := '\n' :: '}' :: s) ⟨'\n', _, rfl, by simp [EndCh]⟩ (nl (rbrc hr))
      have h1 := readsEntry h.1 ((sepCons es).append ⟨'\n', '}' :: (s ++ x), by simp, by simp [EndCh]⟩) h2
      have := lbrc (nl h1)
      rw [fmtExpr, toksE]
      simp only [fmtEntries, join_cons, String.toList_append]
      simpa [List.append_assoc] using this
  | .binaryOp op a b, h => by
    intro s ts x ha hr
    have hb := reads_wrap (reads h.2.2) (wrapOperand op b) (fun _ => ⟨ha.1, ha.2⟩) hr
    have hp : op ∈ cPunctuators := by
      obtain ⟨s, h1⟩ | h1 := h.1
      · exact level_punct op (level_mem h1)
      · exact assign_punct op h1
    have h1 := sp (opSpace hp hb)
    have h2 := reads_wrap (reads h.2.1) (wrapOperand op a) (fun _ => after_sep (by simp [EndCh])) h1
    rw [fmtExpr, toksE]
    simpa [String.toList_append, List.append_assoc] using h2
  | .fieldAccess op t f, h => by
    intro s ts x ha hr
    obtain ⟨ho, ht, hn, hf, hk⟩ := h
    have h1 := word hf ha.1 hr
    have h2 : CReads (op.toList ++ (f.toList ++ s)) (.punct op :: .word f :: ts) x := by
      obtain ⟨c, cs, hc, hl, _⟩ := hf
      have k1 : op ∈ cPunctuators := by
        simp only [List.mem_cons, List.not_mem_nil, or_false] at ho
        obtain rfl | rfl := ho <;> decide
      have k2 : ∀ op ∈ [".", "->"], ∀ c ∈ extChars op.toList, cLetter c = false := by decide +kernel
      refine punctTok k1 ?_ ?_ h1
      · intro d y hy
        rw [hc] at hy
        injection hy with hy _
        subst hy
        refine ⟨fun hd => ?_, fun _ => ?_⟩
        · rw [k2 op ho c hd] at hl; cases hl
        · cases hd : cDigit c with
          | false => rfl
          | true => rw [digit_not_letter hd] at hl; cases hl
      · intro hc
        obtain ⟨y, hy⟩ := comment_head hc
        simp only [List.mem_cons, List.not_mem_nil, or_false] at ho
        obtain rfl | rfl := ho <;> (injection hy with hy _; exact absurd hy (by decide))
    have h3 := reads_wrap (reads ht) (wrapTarget op t) (s := op.toList ++ (f.toList ++ s)) (by
      intro hw
      rw [wrapTarget_eq ho ht] at hw
      refine ⟨?_, fun he => ?_⟩
      · simp only [List.mem_cons, List.not_mem_nil, or_false] at ho
        obtain rfl | rfl := ho <;> (intro c y hy; injection hy with hy _; subst hy; decide)
      · exfalso
        rw [field_num hw hn] at he; cases he) h2
    rw [fmtExpr, toksE]
    simpa [String.toList_append, List.append_assoc] using h3
  | .prefixOp op e, h => by
    intro s ts x ha hr
    have h1 := reads_wrap (reads h.2.1) (wrapPrefix e) (fun _ => ⟨ha.1, ha.2⟩) hr
    have h2 := prefix_tok (op := op) (e := e) h.1 (by
      rw [wrapPrefix_eq h.2.1]
      cases hb : isBinary e with
      | false => exact .inl ⟨(starts h.2.1).append _, h.2.2 hb⟩
      | true => exact .inr ⟨(fmtExpr e).toList ++ ')' :: s, by simp [paren_toList]⟩) h1
    rw [fmtExpr, toksE]
    simpa [String.toList_append, List.append_assoc] using h2
  | .postfixOp op e, h => by
    intro s ts x ha hr
    obtain ⟨ho, he, hn⟩ := h
    have h1 : CReads (op.toList ++ s) (.punct op :: ts) x := by
      simp only [List.mem_cons, List.not_mem_nil, or_false] at ho
      have k : ∀ op ∈ ["++", "--"], op ∈ cPunctuators ∧ extChars op.toList = [] := by decide +kernel
      obtain ⟨k1, k2⟩ := k op (by simpa using ho)
      refine punctTok k1 (fun c y _ => ⟨by simp [k2], ?_⟩) ?_ hr
      · obtain rfl | rfl := ho <;> (intro h; exact absurd h (by decide))
      · intro hc
        obtain ⟨y, hy⟩ := comment_head hc
        obtain rfl | rfl := ho <;> (injection hy with hy _; exact absurd hy (by decide))
    have h2 := reads he (s := op.toList ++ s) ⟨by
      simp only [List.mem_cons, List.not_mem_nil, or_false] at ho
      obtain rfl | rfl := ho <;> (intro c y hy; injection hy with hy _; subst hy; decide), by
      rw [hn]; intro h; cases h⟩ h1
    rw [fmtExpr, toksE]
    simpa [String.toList_append, List.append_assoc] using h2
  | .cast t e, h => by
    intro s ts x ha hr
    have h1 := reads h.2 (s := ')' :: s) (after_sep (by simp [EndCh])) (rpar hr)
    have h2 := lpar (reads_type h.1.1 ⟨_, rfl⟩ (rpar (lpar h1)))
    rw [fmtExpr, toksE]
    simpa [String.toList_append, List.append_assoc] using h2
  | .call f args, h => by
    intro s ts x ha hr
    have h1 : CReads ((RStr.join ", " (fmtArgs args)).toList ++ ')' :: s)
        (argToks args ++ .punct ")" :: ts) x := by
      cases args with
      | nil => exact rpar hr
      | cons a as =>
        have h2 := readsArgs h.2.2 (s := ')' :: s) ⟨')', _, rfl, by simp [EndCh]⟩ (rpar hr)
        have h3 := reads h.2.1 (after_of_sep (((sepArgs as)).append ⟨')', s ++ x, by simp, by simp [EndCh]⟩)) h2
        simp only [fmtArgs, join_cons]
        simpa [argToks, String.toList_append, List.append_assoc] using h3
    have h2 := reads h.1 (s := '(' :: ((RStr.join ", " (fmtArgs args)).toList ++ ')' :: s))
      (after_sep (by simp [EndCh])) (lpar h1)
    rw [fmtExpr, toksE_call]
    simpa [String.toList_append, List.append_assoc] using h2
  | .sizeofType t, h => by
    intro s ts x ha hr
    have h2 := word (s := '(' :: ((fmtBareTypeform t).toList ++ ')' :: s)) sizeof_ident
      (afterWord_sep (by simp [EndCh])) (lpar (reads_type h.1 ⟨_, rfl⟩ (rpar hr)))
    rw [fmtExpr, toksE]
    simpa [String.toList_append, List.append_assoc] using h2
  | .sizeofExpr e, h => by
    intro s ts x ha hr
    have h1 := reads (e := e) h (s := ')' :: s) (after_sep (by simp [EndCh])) (rpar hr)
    have h2 := word (s := '(' :: ((fmtExpr e).toList ++ ')' :: s)) sizeof_ident
      (afterWord_sep (by simp [EndCh])) (lpar h1)
    rw [fmtExpr, toksE]
    simpa [String.toList_append, List.append_assoc] using h2
  | .arrIndex a i, h => by
    intro s ts x ha hr
    have h1 := reads h.2 (s := ']' :: s) (after_sep (by simp [EndCh])) (rbrk hr)
    have h2 := reads h.1 (s := '[' :: ((fmtExpr i).toList ++ ']' :: s)) (after_sep (by simp [EndCh])) (lbrk h1)
    rw [fmtExpr, toksE]
    simpa [String.toList_append, List.append_assoc] using h2
theorem readsArgs {ty} : ∀ {es}, PlainArgs ty es → ∀ {s ts x},
    SepNext (s ++ x) → CReads s ts x →
    CReads ((String.join ((fmtArgs es).map (", " ++ ·))).toList ++ s) (toksArgs es ++ ts) x
  | [], _, _, _, _, _, hr => by simpa [fmtArgs, toksArgs] using hr
  | e :: es, h, s, ts, x, hx, hr => by
    have h1 := readsArgs h.2 hx hr
    have h2 := comma (sp (reads h.1 (after_of_sep ((sepArgs es).append hx)) h1))
    simpa [fmtArgs, toksArgs, String.toList_append, List.append_assoc] using h2
theorem readsEntries {ty} : ∀ {es}, PlainEntries ty es → ∀ {s ts x},
    SepNext (s ++ x) → CReads s ts x →
    CReads ((String.join ((fmtEntries es).map (",\n" ++ ·))).toList ++ s) (toksEntries es ++ ts) x
  | [], _, _, _, _, _, hr => by simpa [fmtEntries, toksEntries] using hr
  | e :: es, h, s, ts, x, hx, hr => by
    have h1 := readsEntries h.2 hx hr
    have h2 := comma (nl (readsEntry h.1 ((sepCons es).append hx) h1))
    simpa [fmtEntries, toksEntries, String.toList_append, List.append_assoc] using h2
theorem readsEntry {ty} : ∀ {e}, PlainEntry ty e → ∀ {s ts x},
    SepNext (s ++ x) → CReads s ts x →
    CReads ((fmtEntry e).toList ++ s) (toksEntry e ++ ts) x
  | .mk b none v, h, s, ts, x, hx, hr => by
    have h1 := tb (reads h.2 (after_of_sep hx) hr)
    simpa [fmtEntry, toksEntry, String.toList_append] using h1
  | .mk true (some k) v, h, s, ts, x, hx, hr => by
    have h1 := reads h.2 (after_of_sep hx) hr
    have hk : Plain ty k := h.1
    have h2 := tb (lbrk (reads hk (s := ']' :: ' ' :: ("=".toList ++ ' ' :: ((fmtExpr v).toList ++ s)))
      (after_sep (by simp [EndCh])) (rbrk (sp (opSpace (p := "=") (by decide) h1)))))
    simpa [fmtEntry, toksEntry, String.toList_append, List.append_assoc] using h2
  | .mk false (some k) v, h, s, ts, x, hx, hr => by
    obtain ⟨w, rfl, hw, hkw⟩ : ∃ w : String, k = .ident w ∧ CWord w.toList ∧ w ∉ cKeywords := h.1
    have h1 := reads h.2 (after_of_sep hx) hr
    have h2 := word (s := ' ' :: ("=".toList ++ ' ' :: ((fmtExpr v).toList ++ s))) hw
      (afterWord_sep (by simp [EndCh])) (sp (opSpace (p := "=") (by decide) h1))
    have h3 := tb (punctTok (p := ".") (by decide) (by
      intro c y hy
      obtain ⟨d, ds, hd, hl, _⟩ := hw
      rw [hd] at hy
      injection hy with hy _
      subst hy
      have k2 : ∀ c ∈ extChars ".".toList, cLetter c = false := by decide +kernel
      refine ⟨fun hd => ?_, fun _ => ?_⟩
      · rw [k2 d hd] at hl; cases hl
      · cases hd : cDigit d with
        | false => rfl
        | true => rw [digit_not_letter hd] at hl; cases hl) (by
      intro hc
      obtain ⟨y, hy⟩ := comment_head hc
      injection hy with hy _
      exact absurd hy (by decide)) h2)
    simpa [fmtEntry, fmtExpr, toksEntry, toksE, String.toList_append, List.append_assoc] using h3
end

end Che.Proofs.CPrintRead
