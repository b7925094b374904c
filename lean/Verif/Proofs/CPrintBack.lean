import Verif.Proofs.CPrintExact
/-!
# Only faithful expressions are read back: the induction
-/
namespace Che.Proofs.CPrintBack
open Che Che.Spec Che.FormatC Che.Proofs.CPrintToks Che.Proofs.CPrintRead Che.Proofs.CPrintDerive
open Che.Proofs.CPrintExact

variable {ty : String → Bool}

/-! ## Printed tokens are balanced -/

theorem bal_wrap {b c} (h : Bal c) : Bal (wrapT b c) := by
  cases b with
  | false => exact h
  | true => exact h.paren

theorem bal_typeToks (t) : Bal (typeToks t) := by
  unfold typeToks
  refine Bal.append ?_ (.tok (word_nopar _) (bal_stars _))
  split
  · exact bal_tok (word_nopar _)
  · exact bal_nil

theorem bal_lit (l) : Bal (litToks l) := by
  cases l with
  | char _ => exact bal_tok ⟨by simp, by simp⟩
  | number _ => exact bal_tok ⟨by simp, by simp⟩
  | null => exact bal_tok (word_nopar _)
  | string v =>
    simp only [litToks]
    split
    · exact bal_nil
    · refine .tok (str_nopar _) ?_
      rw [moreLines_map]
      exact bal_strs _

mutual
theorem bal_toks : ∀ {e}, Plain ty e → Bal (toksE e)
  | .lit l, _ => bal_lit l
  | .ident w, _ => bal_tok (word_nopar _)
  | .compLit [], _ => by
    rw [toksE]
    exact .tok ⟨by decide, by decide⟩ (.tok ⟨by simp, by simp⟩ (bal_tok ⟨by decide, by decide⟩))
  | .compLit (e :: es), h => by
    rw [toksE]
    refine .tok ⟨by decide, by decide⟩ ?_
    exact ((bal_entry h.1).append (bal_entries h.2)).append (bal_tok ⟨by decide, by decide⟩)
  | .binaryOp op a b, h =>
    (bal_wrap (bal_toks h.2.1)).append (.tok (op_nopar h.1) (bal_wrap (bal_toks h.2.2)))
  | .fieldAccess op t f, h => by
    have ho := h.1
    refine (bal_wrap (bal_toks h.2.1)).append (.tok ?_ (bal_tok (word_nopar _)))
    simp only [List.mem_cons, List.not_mem_nil, or_false] at ho
    obtain rfl | rfl := ho <;> exact ⟨by decide, by decide⟩
  | .prefixOp op e, h => by
    have ho := h.1
    refine .tok ?_ (bal_wrap (bal_toks h.2.1))
    simp only [List.mem_cons, List.not_mem_nil, or_false] at ho
    obtain rfl | rfl | rfl | rfl | rfl | rfl | rfl := ho <;> exact ⟨by decide, by decide⟩
  | .postfixOp op e, h => by
    have ho := h.1
    refine (bal_toks h.2.1).append (bal_tok ?_)
    simp only [List.mem_cons, List.not_mem_nil, or_false] at ho
    obtain rfl | rfl := ho <;> exact ⟨by decide, by decide⟩
  | .cast t e, h => by
    have := (bal_typeToks t).paren.append (bal_toks h.2).paren
    simpa [toksE] using this
  | .call f [], h => by
    rw [toksE_call]
    exact (bal_toks h.1).append (Bal.paren bal_nil)
  | .call f (a :: as), h => by
    rw [toksE_call]
    exact (bal_toks h.1).append (Bal.paren ((bal_toks h.2.1).append (bal_args h.2.2)))
  | .sizeofType t, _ => .tok (word_nopar _) (bal_typeToks t).paren
  | .sizeofExpr e, h => .tok (word_nopar _) (bal_toks (e := e) h).paren
  | .arrIndex a i, h =>
    (bal_toks h.1).append (.tok ⟨by decide, by decide⟩
      ((bal_toks h.2).append (bal_tok ⟨by decide, by decide⟩)))
theorem bal_args : ∀ {es}, PlainArgs ty es → Bal (toksArgs es)
  | [], _ => bal_nil
  | _ :: _, h => .tok ⟨by decide, by decide⟩ ((bal_toks h.1).append (bal_args h.2))
theorem bal_entries : ∀ {es}, PlainEntries ty es → Bal (toksEntries es)
  | [], _ => bal_nil
  | _ :: _, h => .tok ⟨by decide, by decide⟩ ((bal_entry h.1).append (bal_entries h.2))
theorem bal_entry : ∀ {e}, PlainEntry ty e → Bal (toksEntry e)
  | .mk b none v, h => bal_toks (e := v) h.2
  | .mk true (some k) v, h => by
    have hk : Plain ty k := h.1
    have := (Bal.tok (t := .punct "[") ⟨by decide, by decide⟩ ((bal_toks hk).append
      (.tok (t := .punct "]") ⟨by decide, by decide⟩ (bal_tok (t := .punct "=") ⟨by decide, by decide⟩)))).append
        (bal_toks h.2)
    simpa [toksEntry] using this
  | .mk false (some k) v, h => by
    obtain ⟨w, rfl, _⟩ : ∃ w : String, k = .ident w ∧ CWord w.toList ∧ w ∉ cKeywords := h.1
    have := (Bal.tok (t := .punct ".") ⟨by decide, by decide⟩ ((bal_tok (word_nopar w)).append
      (bal_tok (t := .punct "=") ⟨by decide, by decide⟩))).append (bal_toks h.2)
    simpa [toksEntry, toksE] using this
end

theorem wrap_ne {b c} (h : c ≠ []) : wrapT b c ≠ [] := by
  cases b with
  | false => exact h
  | true => simp [wrapT]

theorem lit_ne (l) : litToks l ≠ [] := by
  cases l with
  | string v =>
    simp only [litToks, RStr.split]
    cases h : RStr.splitL '\n' v.toList with
    | nil => exact absurd h (splitL_ne _ _)
    | cons a b => simp
  | _ => simp [litToks]

theorem toks_ne : ∀ {e}, toksE e ≠ []
  | .lit l => lit_ne l
  | .ident _ => by simp [toksE]
  | .compLit [] => by simp [toksE]
  | .compLit (_ :: _) => by simp [toksE]
  | .binaryOp _ _ _ => by simp [toksE]
  | .fieldAccess _ _ _ => by simp [toksE]
  | .prefixOp _ _ => by simp [toksE]
  | .postfixOp _ _ => by simp [toksE]
  | .cast _ _ => by simp [toksE]
  | .call _ _ => by simp [toksE_call]
  | .sizeofType _ => by simp [toksE]
  | .sizeofExpr _ => by simp [toksE]
  | .arrIndex _ _ => by simp [toksE]

theorem lit_not_paren {l X} : litToks l ≠ .punct "(" :: X := by
  cases l with
  | string v =>
    simp only [litToks, RStr.split]
    cases h : RStr.splitL '\n' v.toList with
    | nil => exact absurd h (splitL_ne _ _)
    | cons a b => simp
  | _ => simp [litToks]

/-- A printed expression is not one group in parentheses. -/
theorem toks_not_paren {e X} (hp : Plain ty e) (hX : Bal X)
    (h : toksE e = .punct "(" :: (X ++ [.punct ")"])) : False := by
  have key : ∀ {p q : List CTok}, CTok.punct "(" :: (X ++ [.punct ")"]) = p ++ q → p ≠ [] → q ≠ [] →
      dep p = 0 → False := by
    intro p q h hp hq hd
    have := proper hX h hp hq
    omega
  cases e with
  | lit l => exact lit_not_paren h
  | ident w => simp [toksE] at h
  | compLit es => cases es <;> simp [toksE] at h
  | binaryOp op a b =>
    exact key h.symm (wrap_ne toks_ne) (by simp) (bal_wrap (bal_toks hp.2.1)).1
  | fieldAccess op t f =>
    exact key h.symm (wrap_ne toks_ne) (by simp) (bal_wrap (bal_toks hp.2.1)).1
  | prefixOp op e =>
    rw [toksE] at h
    injection h with h _
    injection h with h
    subst h
    exact absurd hp.1 (by decide)
  | postfixOp op e => exact key h.symm toks_ne (by simp) (bal_toks hp.2.1).1
  | cast t e =>
    have h2 : CTok.punct "(" :: (X ++ [.punct ")"]) =
        (.punct "(" :: (typeToks t ++ [.punct ")"])) ++ (.punct "(" :: (toksE e ++ [.punct ")"])) := by
      rw [← h]; simp [toksE]
    exact key h2 (by simp) (by simp) (bal_typeToks t).paren.1
  | call f args =>
    rw [toksE_call] at h
    exact key h.symm toks_ne (by simp) (bal_toks hp.1).1
  | sizeofType t => rw [toksE] at h; injection h with h _; cases h
  | sizeofExpr e => rw [toksE] at h; injection h with h _; cases h
  | arrIndex a i => exact key h.symm toks_ne (by simp) (bal_toks hp.1).1

/-- The own rule was used last. -/
theorem own {e s} (hp : Plain ty e) (h : CEx ty (.ex s (canon e)) (toksE e)) :
    Own ty s (canon e) (toksE e) := by
  obtain ⟨X, h1, h2⟩ | h := inv h
  · exact (toks_not_paren hp (bal_of h2) h1).elim
  · exact h

/-- Two ways to cut a list after an expression and before more arguments. -/
theorem cut_args {c1 c2 d1 d2 : List CTok} (h : c1 ++ c2 = d1 ++ d2) (hc : cnt c1 = cnt d1)
    (hd : (c2 = [] ∧ d2 = []) ∨ ∃ c2' d2', c2 = .punct "," :: c2' ∧ d2 = .punct "," :: d2') :
    c1 = d1 ∧ c2 = d2 := by
  obtain ⟨rfl, rfl⟩ | ⟨c2', d2', rfl, rfl⟩ := hd
  · exact ⟨by simpa using h, rfl⟩
  · obtain ⟨h1, h2⟩ := cut h hc rfl rfl
    exact ⟨h1, by rw [h2]⟩

theorem args_both {as c2} (h : CEx ty (.args (canonArgs as)) c2) :
    (c2 = [] ∧ toksArgs as = []) ∨ ∃ c2' d2', c2 = .punct "," :: c2' ∧ toksArgs as = .punct "," :: d2' := by
  cases as with
  | nil =>
    obtain ⟨_, h1⟩ | ⟨a, as, c1, c2, h1, _⟩ := args_shape h
    · exact .inl ⟨h1, rfl⟩
    · simp [canonArgs] at h1
  | cons a as =>
    obtain ⟨h1, _⟩ | ⟨a, as, c1, c2, h1, h2, _⟩ := args_shape h
    · simp [canonArgs] at h1
    · exact .inr ⟨_, _, h2, by rw [toksArgs]⟩

theorem wrapOperand_assign {op e} (ho : op ∈ cAssignOps) (hp : Plain ty e) : wrapOperand op e = false := by
  have k : ∀ op ∈ cAssignOps, op ≠ "&" ∧ op ≠ ">>" ∧ op ≠ "<<" := by decide
  obtain ⟨k1, k2, k3⟩ := k op ho
  cases e <;> try rfl
  · have := plain_strength hp.1
    simp [wrapOperand, isOp, strength_assign op ho, k1, k2, k3]
    omega
  all_goals simp [wrapOperand, isOp, strength_assign op ho, k1, k2, k3, strength_prefix]

/-- A wrapped right operand. -/
theorem wrapOperand_true {op l b} (hl : cLevel op = some l) (hp : Plain ty b)
    (h : wrapOperand op b = true) :
    sameLevel op b = false ∨ op = "&" ∨ op = ">>" ∨ op = "<<" := by
  cases b with
  | binaryOp k a b =>
    simp only [wrapOperand, isOp, Bool.or_eq_true, decide_eq_true_eq, beq_iff_eq] at h
    obtain ((h | h) | h) | h := h
    · left
      simp only [sameLevel, beq_eq_false_iff_ne, ne_eq]
      intro he
      rw [hl] at he
      rw [strength_level hl, strength_level he] at h
      omega
    · exact .inr (.inl h)
    · exact .inr (.inr (.inl h))
    · exact .inr (.inr (.inr h))
  | _ => exact .inl rfl

mutual
theorem back : ∀ {e}, Plain ty e → ∀ {s}, CEx ty (.ex s (canon e)) (toksE e) →
    Faithful e = true ∧ s ≤ lvl e
  | .lit _, _, s, h => ⟨rfl, h.shape.2.1⟩
  | .ident _, _, s, h => ⟨rfl, h.shape.2.1⟩
  | .compLit es, hp, s, h => by
    have h2 := own hp h
    cases es <;> (simp only [canon] at h2; exact h2.elim)
  | .binaryOp op a b, hp, s, h => by
    have h2 := own hp h
    simp only [canon, Own] at h2
    obtain ⟨c1, c2, h1, h2⟩ := h2
    rw [toksE] at h1
    have hw : ∀ {e b s}, Plain ty e → (∀ {s}, CEx ty (.ex s (canon e)) (toksE e) → Faithful e = true ∧ s ≤ lvl e) →
        CEx ty (.ex s (canon e)) (wrapT b (toksE e)) →
        Faithful e = true ∧ (b = false → s ≤ lvl e) := by
      intro e b s hp ih h
      cases b with
      | false => exact ⟨(ih h).1, fun _ => (ih h).2⟩
      | true => exact ⟨(ih (unparen (bal_toks hp) h)).1, fun h => by cases h⟩
    obtain ⟨h3, h4, h5, h6⟩ | ⟨l, h3, h4, h5, h6⟩ := h2
    · obtain ⟨rfl, rfl⟩ := cut h1.symm (by rw [cnt_eq hp.2.1 h5, cnt_wrap]) (op_counts hp.1) (op_counts hp.1)
      obtain ⟨fa, la⟩ := hw hp.2.1 (back hp.2.1) h5
      obtain ⟨fb, _⟩ := hw hp.2.2 (back hp.2.2) h6
      refine ⟨?_, by simp only [lvl, strength_assign op h3]; exact h4⟩
      simp only [Faithful, fa, fb, if_pos h3, Bool.and_self, Bool.true_and]
      exact unary_lvl hp.2.1 (la (wrapOperand_assign h3 hp.2.1))
    · obtain ⟨rfl, rfl⟩ := cut h1.symm (by rw [cnt_eq hp.2.1 h5, cnt_wrap]) (op_counts hp.1) (op_counts hp.1)
      obtain ⟨fa, la⟩ := hw hp.2.1 (back hp.2.1) h5
      obtain ⟨fb, lb⟩ := hw hp.2.2 (back hp.2.2) h6
      refine ⟨?_, by simp only [lvl, strength_level h3]; exact h4⟩
      simp only [Faithful, fa, fb, if_neg (level_not_assign h3), Bool.and_self, Bool.true_and]
      cases hwb : wrapOperand op b with
      | true =>
        obtain h7 | rfl | rfl | rfl := wrapOperand_true h3 hp.2.2 hwb <;> simp [*]
      | false =>
        have lb := lb hwb
        suffices sameLevel op b = false by simp [this]
        cases b <;> try rfl
        simp only [sameLevel, beq_eq_false_iff_ne, ne_eq]
        intro he
        rw [h3] at he
        simp only [lvl, strength_level he] at lb
        omega
  | .fieldAccess op t f, hp, s, h => by
    have h2 := own hp h
    simp only [canon, Own] at h2
    obtain ⟨c1, h1, h3⟩ := h2
    rw [toksE] at h1
    have h1 := (List.append_inj' h1 rfl).1
    subst h1
    refine ⟨?_, h.shape.2.1⟩
    simp only [Faithful, Bool.and_eq_true, Bool.or_eq_true]
    rw [wrapTarget_eq hp.1 hp.2.1] at h3
    cases ho : isOperation t with
    | true =>
      rw [ho] at h3
      exact ⟨(back hp.2.1 (unparen (bal_toks hp.2.1) h3)).1, .inr rfl⟩
    | false =>
      rw [ho] at h3
      obtain ⟨f1, l1⟩ := back hp.2.1 h3
      exact ⟨f1, .inl (postfix_lvl hp.2.1 l1)⟩
  | .prefixOp op e, hp, s, h => by
    have h2 := own hp h
    simp only [canon, Own] at h2
    obtain ⟨h0, c1, h1, h3⟩ := h2
    rw [toksE] at h1
    injection h1 with _ h1
    subst h1
    rw [wrapPrefix_eq hp.2.1] at h3
    refine ⟨?_, h0⟩
    simp only [Faithful, Bool.and_eq_true, Bool.or_eq_true, bne_iff_ne, ne_eq]
    cases hb : isBinary e with
    | true =>
      rw [hb] at h3
      refine ⟨?_, .inr rfl⟩
      obtain ⟨_, h3⟩ | ⟨_, h3⟩ := h3
      · exact (back hp.2.1 (unparen (bal_toks hp.2.1) h3)).1
      · exact (back hp.2.1 (unparen (bal_toks hp.2.1) h3)).1
    | false =>
      rw [hb] at h3
      obtain ⟨ho, h3⟩ | ⟨ho, h3⟩ := h3
      · refine ⟨(back hp.2.1 h3).1, .inl (.inl ⟨?_, ?_⟩)⟩
        · rintro rfl; exact absurd ho (by decide)
        · rintro rfl; exact absurd ho (by decide)
      · obtain ⟨f1, l1⟩ := back hp.2.1 h3
        exact ⟨f1, .inl (.inr (unary_lvl hp.2.1 l1))⟩
  | .postfixOp op e, hp, s, h => by
    have h2 := own hp h
    simp only [canon, Own] at h2
    obtain ⟨c1, h1, h3⟩ := h2
    rw [toksE] at h1
    have h1 := (List.append_inj' h1 rfl).1
    subst h1
    obtain ⟨f1, l1⟩ := back hp.2.1 h3
    exact ⟨by simp [Faithful, f1, postfix_lvl hp.2.1 l1], h.shape.2.1⟩
  | .cast t e, hp, s, h => by
    have h2 := own hp h
    simp only [canon, Own] at h2
    obtain ⟨h0, c1, c2, h1, h3, h4⟩ := h2
    rw [toksE, type_toks h3] at h1
    injection h1 with _ h1
    have h1 := List.append_cancel_left h1
    injection h1 with _ h1
    subst h1
    exact ⟨(back hp.2 (unparen (bal_toks hp.2) h4)).1, h0⟩
  | .call f [], hp, s, h => by
    have h2 := own hp h
    simp only [canon, canonArgs, Own] at h2
    obtain ⟨c1, h1, h3⟩ := h2
    rw [toksE_call, argToks] at h1
    have h1 := (List.append_inj' h1 rfl).1
    subst h1
    obtain ⟨f1, l1⟩ := back hp.1 h3
    exact ⟨by simp [Faithful, FaithfulArgs, f1, postfix_lvl hp.1 l1], h.shape.2.1⟩
  | .call f (a :: as), hp, s, h => by
    have h2 := own hp h
    simp only [canon, canonArgs, Own] at h2
    obtain ⟨c0, c1, c2, h1, h3, h4, h5⟩ := h2
    rw [toksE_call, argToks] at h1
    have h1' : toksE f ++ .punct "(" :: ((toksE a ++ toksArgs as) ++ [.punct ")"]) =
        c0 ++ .punct "(" :: ((c1 ++ c2) ++ [.punct ")"]) := by simpa using h1
    obtain ⟨rfl, h6⟩ := last_paren ((bal_toks hp.2.1).append (bal_args hp.2.2))
      ((bal_of h4).append (bal_of h5)) h1'
    obtain ⟨rfl, rfl⟩ := cut_args h6.symm (cnt_eq hp.2.1 h4) (args_both h5)
    obtain ⟨f1, l1⟩ := back hp.1 h3
    exact ⟨by simp [Faithful, FaithfulArgs, f1, postfix_lvl hp.1 l1, (back hp.2.1 h4).1,
      backArgs hp.2.2 h5], h.shape.2.1⟩
  | .sizeofType t, hp, s, h => by
    have h2 := own hp h
    exact ⟨rfl, h2.1⟩
  | .sizeofExpr e, hp, s, h => by
    have h2 := own hp h
    simp only [canon, Own] at h2
    obtain ⟨h0, c1, h1, h3⟩ := h2
    rw [toksE] at h1
    injection h1 with _ h1
    subst h1
    have hp : Plain ty e := hp
    exact ⟨(back hp (unparen (bal_toks hp) h3)).1, h0⟩
  | .arrIndex a i, hp, s, h => by
    have h2 := own hp h
    simp only [canon, Own] at h2
    obtain ⟨c1, c2, h1, h3, h4⟩ := h2
    rw [toksE] at h1
    obtain ⟨rfl, h5⟩ := cut h1.symm (cnt_eq hp.1 h3) rfl rfl
    have h5 := List.append_cancel_right h5
    subst h5
    obtain ⟨f1, l1⟩ := back hp.1 h3
    exact ⟨by simp [Faithful, f1, postfix_lvl hp.1 l1, (back hp.2 h4).1], h.shape.2.1⟩
theorem backArgs : ∀ {es}, PlainArgs ty es → CEx ty (.args (canonArgs es)) (toksArgs es) →
    FaithfulArgs es = true
  | [], _, _ => rfl
  | e :: es, hp, h => by
    obtain ⟨h1, _⟩ | ⟨a, as, c1, c2, h1, h2, h3, h4⟩ := args_shape h
    · simp [canonArgs] at h1
    · simp only [canonArgs, List.cons.injEq] at h1
      obtain ⟨rfl, rfl⟩ := h1
      rw [toksArgs] at h2
      injection h2 with _ h2
      obtain ⟨rfl, rfl⟩ := cut_args h2.symm (cnt_eq hp.1 h3) (args_both h4)
      simp [FaithfulArgs, (back hp.1 h3).1, backArgs hp.2 h4]
end

end Che.Proofs.CPrintBack
