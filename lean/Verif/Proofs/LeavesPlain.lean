import Verif.Spec.Leaves
import Verif.Proofs.Good
import Verif.Proofs.CUnitToks
/-!
# Trees that C can spell are translated to trees that C can spell
-/
namespace Che.Proofs.LeavesPlain
open Che Spec

variable {M : ModEnv} {Γ : Scopes} {ty : String → Bool}

/-! ## Shapes are kept -/

theorem emit_call (p : Pos) (f : Expr) (args : List Expr) : ∃ g, emitE M Γ (.call p f args) = .call g (emitArgs M Γ args) ∧
    (g = emitE M Γ f ∨ (∃ n, f = .name n) ∧ ∃ x, g = .ident x) := by
  simp only [emitE]
  split
  · rename_i h
    refine ⟨_, rfl, .inr ⟨?_, _, rfl⟩⟩
    cases f <;> simp_all [isIdent]
  · exact ⟨_, rfl, .inl rfl⟩

theorem emitKey_cases (k : Option Expr) : emitKey k = none ∨ ∃ x, emitKey k = some (.ident x) := by
  match k with
  | none => exact .inl rfl
  | some (.name n) => exact .inr ⟨_, rfl⟩
  | some (.lit _) | some (.arrIndex ..) | some (.binaryOp ..) | some (.fieldAccess ..) | some (.cast ..)
  | some (.compLit _) | some (.call ..) | some (.postfixOp ..) | some (.prefixOp ..) | some (.sizeofType _)
  | some (.sizeofExpr _) => exact .inl rfl

theorem leads_emit : ∀ (e : Expr), leads (emitE M Γ e) = leadsE e
  | .lit _ => rfl
  | .name _ => rfl
  | .compLit _ => rfl
  | .arrIndex a i => by simp only [emitE, leads, leadsE, leads_emit a]
  | .binaryOp _ op a b => by simp only [emitE, leads, leadsE, leads_emit a]
  | .fieldAccess _ _ t _ => by simp only [emitE, leads, leadsE, leads_emit t]
  | .prefixOp _ op e => rfl
  | .postfixOp op e => by simp only [emitE, leads, leadsE, leads_emit e]
  | .cast _ e => rfl
  | .call p f args => by
    obtain ⟨g, h1, rfl | ⟨⟨n, rfl⟩, x, rfl⟩⟩ := emit_call (M := M) (Γ := Γ) p f args
    · simp only [h1, leads, leadsE, leads_emit f]
    · simp only [h1, leads, leadsE]
  | .sizeofType _ => rfl
  | .sizeofExpr e => rfl

theorem sticks_emit (op : String) (e : Expr) : sticks op (emitE M Γ e) = sticksE op e := by
  simp [sticks, sticksE, leads_emit]

theorem isNum_emit (e : Expr) : isNumber (emitE M Γ e) = isNumE e := by
  cases e with
  | lit l => cases l <;> rfl
  | call p f args => obtain ⟨g, h1, _⟩ := emit_call (M := M) (Γ := Γ) p f args; rw [h1]; rfl
  | _ => rfl

theorem endsNum_emit : ∀ (e : Expr), endsNum (emitE M Γ e) = endsNumE e
  | .lit l => by cases l <;> rfl
  | .name _ => rfl
  | .compLit _ => rfl
  | .arrIndex a i => rfl
  | .binaryOp _ op a b => by simp only [emitE, endsNum, endsNumE, endsNum_emit b]
  | .fieldAccess _ _ t _ => rfl
  | .prefixOp _ op e => by simp only [emitE, endsNum, endsNumE, endsNum_emit e]
  | .postfixOp op e => rfl
  | .cast _ e => rfl
  | .call p f args => by obtain ⟨g, h1, _⟩ := emit_call (M := M) (Γ := Γ) p f args; rw [h1]; rfl
  | .sizeofType _ => rfl
  | .sizeofExpr e => rfl

theorem isBin_emit (e : Expr) : isBinary (emitE M Γ e) = isBinE e := by
  cases e with
  | call p f args => obtain ⟨g, h1, _⟩ := emit_call (M := M) (Γ := Γ) p f args; rw [h1]; rfl
  | _ => rfl

theorem opens_emit : ∀ (e : Expr), opensList (emitE M Γ e) = opensE e
  | .lit _ => rfl
  | .name _ => rfl
  | .compLit _ => rfl
  | .arrIndex a i => by simp only [emitE, opensList, opensE, opens_emit a]
  | .binaryOp _ op a b => by simp only [emitE, opensList, opensE, opens_emit a]
  | .fieldAccess _ _ t _ => by simp only [emitE, opensList, opensE, opens_emit t]
  | .prefixOp _ op e => rfl
  | .postfixOp op e => by simp only [emitE, opensList, opensE, opens_emit e]
  | .cast _ e => rfl
  | .call p f args => by
    obtain ⟨g, h1, rfl | ⟨⟨n, rfl⟩, x, rfl⟩⟩ := emit_call (M := M) (Γ := Γ) p f args
    · simp only [h1, opensList, opensE, opens_emit f]
    · simp only [h1, opensList, opensE]
  | .sizeofType _ => rfl
  | .sizeofExpr e => rfl

theorem isPost_emit (e : Expr) : isPostfix (emitE M Γ e) = isPostE e := by
  cases e with
  | call p f args => obtain ⟨g, h1, _⟩ := emit_call (M := M) (Γ := Γ) p f args; rw [h1]; rfl
  | _ => rfl

theorem isUn_emit (e : Expr) : isUnary (emitE M Γ e) = isUnE e := by
  cases e with
  | call p f args => obtain ⟨g, h1, _⟩ := emit_call (M := M) (Γ := Γ) p f args; rw [h1]; rfl
  | _ => rfl

theorem isOper_emit (e : Expr) : isOperation (emitE M Γ e) = isOperE e := by
  cases e with
  | call p f args => obtain ⟨g, h1, _⟩ := emit_call (M := M) (Γ := Γ) p f args; rw [h1]; rfl
  | _ => rfl

theorem same_emit (op : String) (e : Expr) : sameLevel op (emitE M Γ e) = sameE op e := by
  cases e with
  | call p f args => obtain ⟨g, h1, _⟩ := emit_call (M := M) (Γ := Γ) p f args; rw [h1]; rfl
  | _ => rfl

/-! ## Parentheses -/

mutual
theorem faith_emit : ∀ (e : Expr), Faithful (emitE M Γ e) = faithE e
  | .lit _ => rfl
  | .name _ => rfl
  | .compLit _ => rfl
  | .arrIndex a i => by simp only [emitE, Faithful, faithE, faith_emit a, faith_emit i, isPost_emit]
  | .binaryOp _ op a b => by
    simp only [emitE, Faithful, faithE, faith_emit a, faith_emit b, isUn_emit, same_emit]
  | .fieldAccess _ _ t _ => by simp only [emitE, Faithful, faithE, faith_emit t, isPost_emit, isOper_emit]
  | .prefixOp _ op e => by simp only [emitE, Faithful, faithE, faith_emit e, isUn_emit, isBin_emit]
  | .postfixOp op e => by simp only [emitE, Faithful, faithE, faith_emit e, isPost_emit]
  | .cast _ e => by simp only [emitE, Faithful, faithE, faith_emit e]
  | .call p f args => by
    obtain ⟨g, h1, rfl | ⟨⟨n, rfl⟩, x, rfl⟩⟩ := emit_call (M := M) (Γ := Γ) p f args
    · simp only [h1, Faithful, faithE, faith_emit f, isPost_emit, faith_args args]
    · simp only [h1, Faithful, faithE, isPostfix, isPostE, faith_args args]
  | .sizeofType _ => rfl
  | .sizeofExpr e => by simp only [emitE, Faithful, faithE, faith_emit e]
theorem faith_args : ∀ (es : List Expr), FaithfulArgs (emitArgs M Γ es) = faithArgs es
  | [] => rfl
  | e :: es => by simp only [emitArgs, FaithfulArgs, faithArgs, faith_emit e, faith_args es]
end

mutual
theorem faith_init : ∀ (e : Expr), FaithfulInit (emitE M Γ e) = faithInit e
  | .compLit es => by simp only [emitE, FaithfulInit, faithInit, faith_entries es]
  | .lit _ => rfl
  | .name _ => rfl
  | .arrIndex a i => by have := faith_emit (M := M) (Γ := Γ) (.arrIndex a i); simpa only [emitE, FaithfulInit, faithInit] using this
  | .binaryOp p op a b => by
    have := faith_emit (M := M) (Γ := Γ) (.binaryOp p op a b); simpa only [emitE, FaithfulInit, faithInit] using this
  | .fieldAccess p op t f => by
    have := faith_emit (M := M) (Γ := Γ) (.fieldAccess p op t f); simpa only [emitE, FaithfulInit, faithInit] using this
  | .prefixOp p op e => by
    have := faith_emit (M := M) (Γ := Γ) (.prefixOp p op e); simpa only [emitE, FaithfulInit, faithInit] using this
  | .postfixOp op e => by
    have := faith_emit (M := M) (Γ := Γ) (.postfixOp op e); simpa only [emitE, FaithfulInit, faithInit] using this
  | .cast t e => by have := faith_emit (M := M) (Γ := Γ) (.cast t e); simpa only [emitE, FaithfulInit, faithInit] using this
  | .call p f args => by
    have := faith_emit (M := M) (Γ := Γ) (.call p f args)
    simp only [emitE, faithInit] at this ⊢
    split at this
    · rename_i h; rw [if_pos h]; simpa only [FaithfulInit] using this
    · rename_i h; rw [if_neg h]; simpa only [FaithfulInit] using this
  | .sizeofType _ => rfl
  | .sizeofExpr e => by have := faith_emit (M := M) (Γ := Γ) (.sizeofExpr e); simpa only [emitE, FaithfulInit, faithInit] using this
theorem faith_entries : ∀ (es : List Entry), FaithfulEntries (emitEntries M Γ es) = faithEntries es
  | [] => rfl
  | .mk b k v :: es => by
    simp only [emitEntries, emitEntry, FaithfulEntries, faithEntries, faith_entries es]
    rcases emitKey_cases k with h | ⟨x, h⟩
    · simp only [h, FaithfulEntry, faith_init v, Bool.true_and]
    · simp only [h, FaithfulEntry, Faithful, Bool.not_false, Bool.and_true, Bool.or_true, faith_init v, Bool.true_and]
end

theorem faith_opt (e : Option Expr) : FaithfulOpt (emitOptE M Γ e) = faithOpt e := by
  cases e with
  | none => rfl
  | some e => exact faith_emit e

theorem faith_initOpt (e : Option Expr) : FaithfulInitOpt (emitOptE M Γ e) = faithInitOpt e := by
  cases e with
  | none => rfl
  | some e => exact faith_init e

theorem faith_const (e : Option Expr) : FaithfulConst (emitOptE M Γ e) = faithConst e := by
  cases e with
  | none => rfl
  | some e =>
    have := faith_emit (M := M) (Γ := Γ) e
    cases e <;> simp only [emitE, emitOptE, FaithfulConst, faithConst] at this ⊢ <;> try exact this
    case binaryOp => rw [this]
    case call =>
      split at this
      · rename_i h; rw [if_pos h]; exact this
      · rename_i h; rw [if_neg h]; exact this

theorem faith_indexes (l : List (Option Expr)) :
    (l.map (emitOptE M Γ)).all FaithfulOpt = l.all faithOpt := by
  induction l with
  | nil => rfl
  | cons a l ih => simp [faith_opt, ih]

theorem faith_formAs (f : Form) (x : String) : FaithfulForm (emitFormAs M Γ f x) = faithForm f :=
  faith_indexes f.indexes

theorem faith_form (f : Form) : FaithfulForm (emitForm M Γ f) = faithForm f := faith_formAs f f.name

theorem faith_first (i : Option ForInit) : FaithfulFirst (emitInit M Γ i) = faithFirst i := by
  match i with
  | none => rfl
  | some (.expr e) => exact faith_emit e
  | some (.decl t f v) =>
    show (_ && FaithfulInit (emitE M Γ v)) = _
    rw [faith_init v]
    show (FaithfulForm (emitForm M Γ f) && _) = _
    rw [faith_form]
    rfl

theorem faith_exprStmt (e : Expr) : FaithfulS (emitExprStmt M Γ e) = faithE e := by
  have h := faith_emit (M := M) (Γ := Γ) e
  cases e <;> simp only [emitExprStmt] <;> try exact h
  case call p f args =>
    split
    · rename_i hf
      cases f <;> simp_all [isIdent, emitPanic, emitPrint, FaithfulS, FaithfulSs, Faithful, FaithfulArgs, faithE,
        isPostfix, isPostE, faith_args args]
    · exact h

theorem faith_strCond (v : CExpr) (hv : Faithful v = true) (vs : List CaseValue) :
    Faithful (emitStrCond M Γ v vs) = true := by
  have ht : ∀ l, Faithful (emitStrTest M Γ v l) = true := by
    intro l
    cases l <;> simp [emitStrTest, emitStrValue, Faithful, FaithfulArgs, isPostfix, hv]
  cases vs with
  | nil => rfl
  | cons l ls =>
    simp only [emitStrCond]
    have := ht l
    generalize emitStrTest M Γ v l = a at this
    induction ls generalizing a with
    | nil => exact this
    | cons x ls ih =>
      refine ih _ ?_
      simp only [Faithful, this, ht]
      rfl

mutual
theorem faith_ss : ∀ (ss : List Stmt) (Γ : Scopes), faithSs ss = true → FaithfulSs (emitSs M Γ ss) = true
  | [], _, _ => rfl
  | s :: ss, Γ, h => by
    simp only [faithSs, Bool.and_eq_true] at h
    simp only [emitSs, FaithfulSs, faith_s s Γ h.1, faith_ss ss _ h.2, Bool.and_self]
theorem faith_s : ∀ (s : Stmt) (Γ : Scopes), faithS s = true → FaithfulS (emitS M Γ s) = true
  | .brk, _, _ => rfl
  | .cont, _, _ => rfl
  | .expr e, Γ, h => by simp only [emitS, faith_exprStmt]; exact h
  | .varDecl d, Γ, h => by
    simp only [faithS, Bool.and_eq_true] at h
    have h1 := h.1
    rw [← faith_form (M := M) (Γ := declare [(d.form.name, false)] Γ)] at h1
    have h2 := h.2
    rw [← faith_initOpt (M := M) (Γ := declare [(d.form.name, false)] Γ)] at h2
    simp only [emitS, emitVar, FaithfulS, List.zip_cons_cons, List.zip_nil_left, List.all_cons, List.all_nil,
      Bool.and_true, FaithfulDecl, h2, Bool.and_true]
    exact h1
  | .ret e, Γ, h => by simp only [emitS, FaithfulS, faith_opt]; exact h
  | .ifS c b e, Γ, h => by
    simp only [faithS, Bool.and_eq_true] at h
    simp only [emitS, FaithfulS, faith_emit, h.1.1, faith_ss b _ h.1.2, faith_b e _ h.2, Bool.and_self]
  | .whileS c b, Γ, h => by
    simp only [faithS, Bool.and_eq_true] at h
    simp only [emitS, FaithfulS, faith_emit, h.1, faith_ss b _ h.2, Bool.and_self]
  | .forS i c a b, Γ, h => by
    simp only [faithS, Bool.and_eq_true] at h
    simp only [emitS, FaithfulS, faith_first, faith_opt, h.1.1.1, h.1.1.2, h.1.2, faith_ss b _ h.2, Bool.and_self]
  | .switchS false v cs d, Γ, h => by
    simp only [faithS, Bool.and_eq_true] at h
    simp only [emitS, Bool.false_eq_true, if_false, FaithfulS, faith_emit, h.1.1, faith_cs cs _ h.1.2, faith_b d _ h.2,
      Bool.and_self]
  | .switchS true v [] d, Γ, h => rfl
  | .switchS true v (.mk vs b :: cs) d, Γ, h => by
    simp only [faithS, faithCs, Bool.and_eq_true] at h
    have hv : Faithful (emitE M Γ v) = true := by rw [faith_emit]; exact h.1.1
    simp only [emitS, if_true, emitStrCase, FaithfulS, faith_strCond _ hv, faith_ss b _ h.1.2.1,
      faith_strElse cs Γ _ _ hv (faith_b d Γ h.2) h.1.2.2, Bool.and_self]
theorem faith_b : ∀ (b : Option (List Stmt)) (Γ : Scopes), faithB b = true → FaithfulB (emitOptB M Γ b) = true
  | none, _, _ => rfl
  | some b, Γ, h => by
    simp only [faithB] at h
    simp only [emitOptB, FaithfulB, faith_ss b _ h]
theorem faith_cs : ∀ (cs : List SwitchCase) (Γ : Scopes), faithCs cs = true → FaithfulCs (emitCases M Γ cs) = true
  | [], _, _ => rfl
  | .mk vs b :: cs, Γ, h => by
    simp only [faithCs, Bool.and_eq_true] at h
    simp only [emitCases, FaithfulCs, faith_ss b _ h.1, faith_cs cs Γ h.2, Bool.and_self]
theorem faith_strElse : ∀ (cs : List SwitchCase) (Γ : Scopes) (v : CExpr) (d : Option CBody), Faithful v = true →
    FaithfulB d = true → faithCs cs = true → FaithfulB (emitStrElse M Γ v d cs) = true
  | [], _, _, _, _, hd, _ => hd
  | .mk vs b :: cs, Γ, v, d, hv, hd, h => by
    simp only [faithCs, Bool.and_eq_true] at h
    simp only [emitStrElse, emitStrCase, FaithfulB, FaithfulSs, FaithfulS, faith_strCond _ hv, faith_ss b _ h.1,
      faith_strElse cs Γ v d hv hd h.2, Bool.and_self]
end

theorem faith_elem {e : ModElem} (h : faithElem e = true) {c : CModElem} (hc : c ∈ emitElem M Γ e) :
    FaithfulElem c = true := by
  cases e with
  | «macro» x =>
    simp only [emitElem] at hc
    split at hc
    · cases hc
    · simp only [List.mem_singleton] at hc
      subst hc
      rfl
  | enum x =>
    simp only [emitElem, List.mem_singleton] at hc
    subst hc
    simp only [faithElem, List.all_eq_true] at h
    simp only [FaithfulElem, List.all_map, List.all_eq_true, Function.comp, faith_const]
    exact h
  | structAlias x =>
    simp only [emitElem, List.mem_singleton] at hc
    subst hc
    rfl
  | typedef x =>
    simp only [emitElem, List.mem_singleton] at hc
    subst hc
    rfl
  | structTypedef x =>
    simp only [emitElem, List.mem_cons, List.not_mem_nil, or_false] at hc
    rcases hc with rfl | rfl | rfl
    · rfl
    · simp only [faithElem, List.all_eq_true] at h
      simp only [FaithfulElem, List.all_eq_true, List.mem_flatMap, forall_exists_index, and_imp]
      intro i e he hi
      have := h e he
      cases e with
      | plain g =>
        simp only [emitStructEntry, List.mem_map] at hi
        obtain ⟨f, hf, rfl⟩ := hi
        simp only [faithMember, List.all_eq_true] at this
        simp only [FaithfulItem, emitTypeForm, faith_form]
        exact this f hf
      | union u =>
        simp only [emitStructEntry, List.mem_singleton] at hi
        subst hi
        simp only [faithMember, Bool.and_eq_true, List.all_eq_true] at this
        simp only [FaithfulItem, List.all_map, Function.comp_def, emitTypeForm, faith_form, this.2, Bool.and_true,
          List.all_eq_true]
        exact this.1
    · rfl
  | modVar d =>
    simp only [emitElem] at hc
    simp only [faithElem, Bool.and_eq_true] at h
    split at hc
    · rename_i e he
      simp only [List.mem_singleton] at hc
      subst hc
      rw [he] at h
      simp only [FaithfulElem, faith_formAs, faith_init, h.1, Bool.true_and]
      exact h.2
    · cases hc
  | funcDecl f =>
    simp only [faithElem, Bool.and_eq_true, List.all_eq_true] at h
    have hp : (emitParams M (declParams f.params :: Γ) f.params).list.all (fun f => FaithfulForm f.form) = true := by
      simp only [emitParams, List.all_eq_true, List.mem_flatMap, List.mem_map, forall_exists_index, and_imp]
      rintro x g hg f hf rfl
      simp only [emitTypeForm, faith_form]
      exact h.1.2 g hg f hf
    simp only [emitElem, List.mem_cons] at hc
    rcases hc with rfl | hc
    · simp only [FaithfulElem, emitFunc, emitProto, faith_formAs, h.1.1, hp, faith_ss _ _ h.2, Bool.and_self]
    · split at hc
      · cases hc
      · simp only [List.mem_singleton] at hc
        subst hc
        simp only [FaithfulElem, emitProto, faith_formAs, h.1.1, hp, Bool.and_self]

end Che.Proofs.LeavesPlain
