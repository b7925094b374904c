import Verif.Proofs.CPrintRead
import Verif.Proofs.CUniqueInit
/-!
# Faithful expressions: the tokens derive the tree
-/
namespace Che.Proofs.CPrintDerive
open Che Che.Spec Che.FormatC Che.Proofs.CLexing Che.Proofs.CPrintToks Che.Proofs.CPrintRead

/-- How tightly the printed text holds together. -/
def lvl : CExpr → Nat
  | .lit _ => 15
  | .ident _ => 15
  | .fieldAccess _ _ _ => 15
  | .postfixOp _ _ => 15
  | .call _ _ => 15
  | .arrIndex _ _ => 15
  | .prefixOp _ _ => 14
  | .sizeofType _ => 14
  | .sizeofExpr _ => 14
  | .cast _ _ => 13
  | .binaryOp op _ _ => strength op
  | .compLit _ => 0

theorem lvl_postfix {e} (h : isPostfix e = true) : lvl e = 15 := by
  cases e <;> first | rfl | cases h

theorem lvl_unary {e} (h : isUnary e = true) : 14 ≤ lvl e := by
  cases e <;> first | (simp [lvl]; done) | cases h

theorem postfix_lvl {ty e} (hp : Plain ty e) (h : 15 ≤ lvl e) : isPostfix e = true := by
  cases e <;> first
    | rfl
    | (simp [lvl] at h; done)
    | (have := plain_strength hp.1; simp only [lvl] at h; omega)

theorem unary_lvl {ty e} (hp : Plain ty e) (h : 14 ≤ lvl e) : isUnary e = true := by
  cases e <;> first
    | rfl
    | (simp [lvl] at h; done)
    | (have := plain_strength hp.1; simp only [lvl] at h; omega)

theorem lvl_nonbinary {e} (hb : isBinary e = false) (h : Faithful e = true) : 13 ≤ lvl e := by
  cases e <;> first
    | (simp [lvl]; done)
    | (simp [Faithful] at h; done)
    | cases hb

theorem lvl_le (e) (h : Faithful e = true) {ty} (hp : Plain ty e) : 2 ≤ lvl e := by
  cases hb : isBinary e with
  | false => have := lvl_nonbinary hb h; omega
  | true =>
    cases e <;> first | cases hb | skip
    exact (plain_strength hp.1).1

/-! ## Literals -/

theorem splitL_join : ∀ (s : List Char), ∃ l ls, RStr.splitL '\n' s = l :: ls ∧
    escNewlines s = l ++ ls.flatMap (fun m => ['\\', 'n'] ++ m)
  | [] => ⟨[], [], rfl, rfl⟩
  | c :: cs => by
    obtain ⟨l, ls, h1, h2⟩ := splitL_join cs
    by_cases hc : c = '\n'
    · subst hc
      refine ⟨[], l :: ls, by rw [RStr.splitL, if_pos rfl, h1], ?_⟩
      have : escNewlines ('\n' :: cs) = ['\\', 'n'] ++ escNewlines cs := rfl
      rw [this, h2]; simp
    · refine ⟨c :: l, ls, by rw [RStr.splitL, if_neg hc, h1], ?_⟩
      have : escNewlines (c :: cs) = c :: escNewlines cs := by simp [escNewlines, hc]
      rw [this, h2]; rfl

theorem moreLines_map (ls : List String) :
    moreLines ls = (ls.flatMap (fun m => ["\\n", m])).map .str := by
  induction ls with
  | nil => rfl
  | cons l ls ih => simp [moreLines, ih]

theorem join_toList : ∀ (l : List String), (String.join l).toList = l.flatMap String.toList
  | [] => rfl
  | a :: l => by rw [String.join_cons, String.toList_append, join_toList l]; rfl

theorem derive_string (ty : String → Bool) (v : String) :
    CEx ty (.ex 15 (.lit (.string (String.ofList (escNewlines v.toList))))) (litToks (.string v)) := by
  obtain ⟨l, ls, h1, h2⟩ := splitL_join v.toList
  have e : litToks (.string v) = .str (String.ofList l) ::
      ((ls.map String.ofList).flatMap (fun m => ["\\n", m])).map .str := by
    simp [litToks, RStr.split, h1, moreLines_map]
  have e2 : String.ofList (escNewlines v.toList) =
      String.join (String.ofList l :: (ls.map String.ofList).flatMap (fun m => ["\\n", m])) := by
    apply String.toList_inj.mp
    rw [String.toList_ofList, h2, join_toList]
    clear h1 h2 e
    simp only [List.flatMap_cons, String.toList_ofList, List.append_cancel_left_eq]
    induction ls with
    | nil => rfl
    | cons m ms ih =>
      simp only [List.flatMap_cons, List.map_cons, List.flatMap_append, List.flatMap_nil, ih]
      simp
  rw [e, e2]
  exact .strs

theorem derive_type {ty t} (h : PlainType ty t) : CType ty t (typeToks t) := by
  obtain ⟨⟨c, n⟩, k⟩ := t
  cases c with
  | false => exact .plain h.2
  | true => exact .const h.2

/-- A wrapped operand is a postfix expression, an unwrapped one what it is. -/
theorem derive_wrap {ty e b s} (hs : 2 ≤ s) (hs2 : s ≤ 15)
    (h : ∀ k, 2 ≤ k → k ≤ lvl e → CEx ty (.ex k (canon e)) (toksE e)) (h2 : 2 ≤ lvl e)
    (hl : b = false → s ≤ lvl e) : CEx ty (.ex s (canon e)) (wrapT b (toksE e)) := by
  cases b with
  | false => exact h s hs (hl rfl)
  | true => exact CEx.up_to (.paren (h 2 (Nat.le_refl _) h2)) hs hs2

theorem wrapOperand_false {op e} (h : wrapOperand op e = false) (hb : isBinary e = true) :
    strength op ≤ lvl e ∧ op ≠ "&" ∧ op ≠ "<<" ∧ op ≠ ">>" := by
  cases e <;> first | cases hb | skip
  simp only [wrapOperand, isOp, Bool.or_eq_false_iff, decide_eq_false_iff_not, beq_eq_false_iff_ne,
    ne_eq] at h
  simp only [lvl]
  exact ⟨by omega, h.1.1.2, h.2, h.1.2⟩

mutual
theorem derive {ty} : ∀ {e}, Plain ty e → Faithful e = true → ∀ s, 2 ≤ s → s ≤ lvl e →
    CEx ty (.ex s (canon e)) (toksE e)
  | .lit (.char v), _, _, s, h2, hs => CEx.up_to .chr h2 hs
  | .lit (.number v), _, _, s, h2, hs => CEx.up_to .num h2 hs
  | .lit .null, h, _, s, h2, hs => CEx.up_to (.ident h) h2 hs
  | .lit (.string v), _, _, s, h2, hs => CEx.up_to (derive_string ty v) h2 hs
  | .compLit _, _, hf, _, _, _ => by simp [Faithful] at hf
  | .ident w, h, _, s, h2, hs => CEx.up_to (.ident h.2) h2 hs
  | .binaryOp op a b, h, hf, s, h2, hs => by
    simp only [Faithful, Bool.and_eq_true] at hf
    obtain ⟨⟨fa, fb⟩, hc⟩ := hf
    have da := derive h.2.1 fa
    have db := derive h.2.2 fb
    have la := lvl_le a fa h.2.1
    have lb := lvl_le b fb h.2.2
    obtain ⟨l, hl⟩ | hl := h.1
    · have hr := cLevel_range hl
      rw [if_neg (level_not_assign hl)] at hc
      simp only [lvl, strength_level hl] at hs
      refine CEx.up_to (.bin hl (derive_wrap (by omega) (by omega) da la ?_)
        (derive_wrap (by omega) (by omega) db lb ?_)) h2 hs
      · intro hw
        cases hb : isBinary a with
        | false => have := lvl_nonbinary hb fa; omega
        | true => have := (wrapOperand_false hw hb).1; rw [strength_level hl] at this; exact this
      · intro hw
        cases hb : isBinary b with
        | false => have := lvl_nonbinary hb fb; omega
        | true =>
          obtain ⟨k1, k2, k3, k4⟩ := wrapOperand_false hw hb
          simp only [Bool.or_eq_true, Bool.not_eq_true', beq_iff_eq, k2, k3, k4, or_false] at hc
          cases b <;> first | cases hb | skip
          simp only [lvl, strength_level hl] at k1 ⊢
          rename_i k _ _
          obtain ⟨l', hl'⟩ | hl' := h.2.2.1
          · rw [strength_level hl'] at k1 ⊢
            simp only [sameLevel, hl, hl', beq_eq_false_iff_ne, ne_eq, Option.some.injEq] at hc
            omega
          · rw [strength_assign _ hl'] at k1
            omega
    · rw [if_pos hl] at hc
      simp only [lvl, strength_assign _ hl] at hs
      obtain rfl : s = 2 := by omega
      refine .assign hl (derive_wrap (by omega) (by omega) da la fun _ => lvl_unary hc)
        (derive_wrap (by omega) (by omega) db lb fun _ => lb)
  | .fieldAccess op t f, h, hf, s, h2, hs => by
    obtain ⟨ho, ht, _, _, hk⟩ := h
    simp only [Faithful, Bool.and_eq_true, Bool.or_eq_true] at hf
    refine CEx.up_to ?_ h2 hs
    refine .field ho (derive_wrap (by omega) (by omega) (derive ht hf.1) (lvl_le t hf.1 ht) ?_) hk
    intro hw
    rw [wrapTarget_eq ho ht] at hw
    rw [hw] at hf
    exact Nat.le_of_eq (lvl_postfix (by simpa using hf.2)).symm
  | .prefixOp op e, h, hf, s, h2, hs => by
    simp only [Faithful, Bool.and_eq_true, Bool.or_eq_true, bne_iff_ne, ne_eq] at hf
    have de := derive h.2.1 hf.1
    have le := lvl_le e hf.1 h.2.1
    refine CEx.up_to ?_ h2 hs
    have ho := h.1
    by_cases hi : op ∈ ["++", "--"]
    · refine .incr hi (derive_wrap (by omega) (by omega) de le ?_)
      intro hw
      rw [wrapPrefix_eq h.2.1] at hw
      simp only [List.mem_cons, List.not_mem_nil, or_false] at hi
      obtain (⟨h3, h4⟩ | h3) | h3 := hf.2
      · obtain rfl | rfl := hi
        · exact absurd rfl h3
        · exact absurd rfl h4
      · exact lvl_unary h3
      · rw [hw] at h3; cases h3
    · have hu : op ∈ cUnaryOps := by
        simp only [List.mem_cons, List.not_mem_nil, or_false, not_or] at hi ho
        simp only [cUnaryOps, List.mem_cons, List.not_mem_nil, or_false]
        obtain rfl | rfl | rfl | rfl | rfl | rfl | rfl := ho <;> simp_all
      refine .unary hu (derive_wrap (by omega) (by omega) de le ?_)
      intro hw
      rw [wrapPrefix_eq h.2.1] at hw
      exact lvl_nonbinary hw hf.1
  | .postfixOp op e, h, hf, s, h2, hs => by
    simp only [Faithful, Bool.and_eq_true] at hf
    refine CEx.up_to ?_ h2 hs
    have := lvl_postfix hf.2
    exact .post h.1 (derive h.2.1 hf.1 15 (by omega) (by omega))
  | .cast t e, h, hf, s, h2, hs => by
    simp only [Faithful] at hf
    refine CEx.up_to ?_ h2 hs
    have := CEx.cast (derive_type h.1) (CEx.up_to (k := 13)
      (.paren (derive h.2 hf 2 (by omega) (lvl_le e hf h.2))) (by omega) (by omega))
    simpa [lvl, toksE, canon] using this
  | .call f [], h, hf, s, h2, hs => by
    simp only [Faithful, Bool.and_eq_true] at hf
    refine CEx.up_to ?_ h2 hs
    have := lvl_postfix hf.1.2
    have := CEx.call0 (derive h.1 hf.1.1 15 (by omega) (by omega))
    simpa [lvl, toksE, canon, canonArgs] using this
  | .call f (a :: as), h, hf, s, h2, hs => by
    simp only [Faithful, Bool.and_eq_true, FaithfulArgs] at hf
    refine CEx.up_to ?_ h2 hs
    have := lvl_postfix hf.1.2
    have := CEx.call (derive h.1 hf.1.1 15 (by omega) (by omega))
      (derive h.2.1 hf.2.1 2 (by omega) (lvl_le a hf.2.1 h.2.1)) (deriveArgs h.2.2 hf.2.2)
    simpa [lvl, toksE, canon, canonArgs] using this
  | .sizeofType t, h, _, s, h2, hs => by
    refine CEx.up_to ?_ h2 hs
    exact .sizeofType (derive_type h)
  | .sizeofExpr e, h, hf, s, h2, hs => by
    simp only [Faithful] at hf
    have h : Plain ty e := h
    refine CEx.up_to ?_ h2 hs
    exact .sizeofExpr (CEx.up_to (.paren (derive h hf 2 (by omega) (lvl_le e hf h))) (by omega) (by omega))
  | .arrIndex a i, h, hf, s, h2, hs => by
    simp only [Faithful, Bool.and_eq_true] at hf
    refine CEx.up_to ?_ h2 hs
    have := lvl_postfix hf.1.2
    exact .index (derive h.1 hf.1.1 15 (by omega) (by omega))
      (derive h.2 hf.2 2 (by omega) (lvl_le i hf.2 h.2))
theorem deriveArgs {ty} : ∀ {es}, PlainArgs ty es → FaithfulArgs es = true →
    CEx ty (.args (canonArgs es)) (toksArgs es)
  | [], _, _ => .argsNil
  | e :: es, h, hf => by
    simp only [FaithfulArgs, Bool.and_eq_true] at hf
    exact .argsCons (derive h.1 hf.1 2 (by omega) (lvl_le e hf.1 h.1)) (deriveArgs h.2 hf.2)
end

theorem derive2 {ty e} (h : Plain ty e) (hf : Faithful e = true) : CExpression ty (canon e) (toksE e) :=
  derive h hf 2 (by omega) (lvl_le e hf h)

mutual
theorem deriveInit {ty} : ∀ {e}, Plain ty e → FaithfulInit e = true → CInitializer ty (canon e) (toksE e)
  | .compLit [], _, _ => by
    have := CEx.initList (ty := ty) (.initsLast (.itemPlain (.initExpr
      (CEx.up_to (k := 2) (.num (s := "0")) (by omega) (by omega)))))
    simpa [toksE, canon] using this
  | .compLit (e :: es), h, hf => by
    simp only [FaithfulInit, FaithfulEntries, Bool.and_eq_true] at hf
    have h1 := deriveEntry h.1 hf.1
    have h2 := deriveEntries h.2 hf.2 h1
    have := CEx.initList h2
    simpa [toksE, canon] using this
  | .lit l, h, hf => .initExpr (derive2 h hf)
  | .ident _, h, hf => .initExpr (derive2 h hf)
  | .binaryOp _ _ _, h, hf => .initExpr (derive2 h hf)
  | .fieldAccess _ _ _, h, hf => .initExpr (derive2 h hf)
  | .prefixOp _ _, h, hf => .initExpr (derive2 h hf)
  | .postfixOp _ _, h, hf => .initExpr (derive2 h hf)
  | .cast _ _, h, hf => .initExpr (derive2 h hf)
  | .call _ _, h, hf => .initExpr (derive2 h hf)
  | .sizeofType _, h, hf => .initExpr (derive2 h hf)
  | .sizeofExpr _, h, hf => .initExpr (derive2 h hf)
  | .arrIndex _ _, h, hf => .initExpr (derive2 h hf)
theorem deriveEntries {ty} : ∀ {es}, PlainEntries ty es → FaithfulEntries es = true → ∀ {e c},
    CEx ty (.item e) c → CEx ty (.inits (e :: canonEntries es)) (c ++ toksEntries es)
  | [], _, _, e, c, h1 => by
    have := CEx.initsLast h1
    simpa [toksEntries, canonEntries] using this
  | e :: es, h, hf, e1, c, h1 => by
    simp only [FaithfulEntries, Bool.and_eq_true] at hf
    have := CEx.initsCons h1 (deriveEntries h.2 hf.2 (deriveEntry h.1 hf.1))
    simpa [toksEntries, canonEntries] using this
theorem deriveEntry {ty} : ∀ {e}, PlainEntry ty e → FaithfulEntry e = true →
    CEx ty (.item (canonEntry e)) (toksEntry e)
  | .mk b none v, h, hf => by
    obtain rfl : b = false := h.1
    simp only [FaithfulEntry, Bool.true_and] at hf
    exact .itemPlain (deriveInit h.2 hf)
  | .mk true (some k) v, h, hf => by
    simp only [FaithfulEntry, Bool.not_true, Bool.false_or, Bool.and_eq_true, Bool.not_eq_true'] at hf
    have hk : Plain ty k := h.1
    have h3 : 3 ≤ lvl k := by
      cases hb : isBinary k with
      | false => have := lvl_nonbinary hb hf.1.1; omega
      | true =>
        cases k <;> first | cases hb | skip
        obtain ⟨l, hl⟩ | hl := hk.1
        · simp only [lvl, strength_level hl]; exact (cLevel_range hl).1
        · simp [hl] at hf
    have := CEx.itemIndex (derive hk hf.1.1 3 (by omega) h3) (deriveInit h.2 hf.2)
    simpa [toksEntry, canonEntry] using this
  | .mk false (some k) v, h, hf => by
    obtain ⟨w, rfl, hw, hkw⟩ : ∃ w : String, k = .ident w ∧ CWord w.toList ∧ w ∉ cKeywords := h.1
    simp only [FaithfulEntry, Bool.not_false, Bool.true_or, Bool.true_and] at hf
    have := CEx.itemField hkw (deriveInit h.2 hf)
    simpa [toksEntry, toksE, canonEntry, canon] using this
end

end Che.Proofs.CPrintDerive
