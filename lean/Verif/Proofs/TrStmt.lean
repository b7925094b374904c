import Verif.Proofs.TrExpr
import Mathlib.Tactic.Tauto
/-!
# Statements: the translator produces what the specification says
-/
namespace Che
open Spec

theorem addBinding_spec {x : String} {pos : Pos} {pub : Bool} {t : Ty} {c c' : TrCtx} {u : Unit}
    (h : addBinding x pos pub t c = .ok (u, c')) :
    Step [] [{ name := x, pos := pos, used := false, ispub := pub, typ := t }] c c' := by
  unfold addBinding at h
  cases hs : c.scopes with
  | nil => simp [hs] at h
  | cons s rest =>
    simp only [hs] at h
    split at h
    · simp at h
    · rename_i hany
      simp only [Res.ok.injEq, Prod.mk.injEq, true_and] at h
      subst h
      refine { head := rfl, heads := rfl, cmods := rfl, mods := rfl, structs := rfl, others := rfl,
               shape := ?_, nodup := ?_, ns := by simp, customs := by simp, used := ?_,
               ok := by simp }
      · simp [hs, shapeOf, growScopes, Binding.sig]
      · intro hnd
        rw [hs] at hnd
        simp only [headNames] at hnd ⊢
        rw [List.map_append, List.nodup_append]
        refine ⟨hnd, by simp, ?_⟩
        intro a ha b hb heq
        simp only [List.map_cons, List.map_nil, List.mem_singleton] at hb
        subst hb; subst heq
        obtain ⟨b, hb, hbn⟩ := List.mem_map.1 ha
        exact hany (List.any_eq_true.2 ⟨b, hb, by simp [hbn]⟩)
      · intro h y hu
        left
        rw [hs]
        rcases hu with ⟨hk, b, hb, hn, hbu⟩ | hu
        · rcases List.mem_append.1 hb with hb | hb
          · exact .inl ⟨hk, b, hb, hn, hbu⟩
          · rw [List.mem_singleton] at hb; subst hb; simp at hbu
        · exact .inr hu

theorem Step.occEq {o o' : List Occ} {n : List Binding} {c c' : TrCtx} (h : Step o n c c')
    (e : o = o') : Step o' n c c' := e ▸ h

/-- What is proved about a translated statement: its effect and the scopes in it. -/
structure StmtSpec (c c' : TrCtx) (occs : List Occ) (decls : List (String × Bool))
    (regs : List Region) : Prop where
  step : ∃ new, new.map Binding.decl = decls ∧ Step occs new c c'
  regs : ∀ r ∈ regs, RegionOk r

theorem StmtSpec.ofExpr {c c' : TrCtx} {us : List Use} (h : ExprSpec c c' us) :
    StmtSpec c c' (occAt (scopesOf c.scopes) us) [] [] :=
  ⟨⟨[], rfl, h⟩, by simp⟩

theorem StmtSpec.env {c c' : TrCtx} {o : List Occ} {d : List (String × Bool)} {r : List Region}
    (h : StmtSpec c c' o d r) : envOf c' = envOf c := by
  obtain ⟨⟨_, _, h⟩, _⟩ := h; exact h.env

theorem StmtSpec.scopes {c c' : TrCtx} {o : List Occ} {d : List (String × Bool)} {r : List Region}
    (h : StmtSpec c c' o d r) : scopesOf c'.scopes = declare d (scopesOf c.scopes) := by
  obtain ⟨⟨_, rfl, h⟩, _⟩ := h; exact h.scopes

theorem StmtSpec.scopes_nil {c c' : TrCtx} {o : List Occ} {r : List Region}
    (h : StmtSpec c c' o [] r) : scopesOf c'.scopes = scopesOf c.scopes := by
  rw [h.scopes, declare_nil]

theorem StmtSpec.trans {c c1 c2 : TrCtx} {o1 o2 : List Occ} {d1 d2 : List (String × Bool)}
    {r1 r2 : List Region} (h1 : StmtSpec c c1 o1 d1 r1) (h2 : StmtSpec c1 c2 o2 d2 r2) :
    StmtSpec c c2 (o1 ++ o2) (d1 ++ d2) (r1 ++ r2) := by
  obtain ⟨⟨n1, e1, s1⟩, g1⟩ := h1
  obtain ⟨⟨n2, e2, s2⟩, g2⟩ := h2
  refine ⟨⟨n1 ++ n2, by simp [e1, e2], s1.trans s2⟩, ?_⟩
  intro r hr
  rcases List.mem_append.1 hr with h | h
  · exact g1 r h
  · exact g2 r h

theorem StmtSpec.congr {c c' : TrCtx} {o o' : List Occ} {d d' : List (String × Bool)}
    {r r' : List Region} (h : StmtSpec c c' o d r) (ho : ∀ x, x ∈ o ↔ x ∈ o') (hd : d = d')
    (hr : ∀ x ∈ r', x ∈ r) : StmtSpec c c' o' d' r' := by
  obtain ⟨⟨n, e, s⟩, g⟩ := h
  exact ⟨⟨n, e.trans hd, s.congr ho⟩, fun x hx => g x (hr x hx)⟩

/-- A scope around translated statements. -/
theorem StmtSpec.scoped {c c2 c' : TrCtx} {o : List Occ} {d : List (String × Bool)} {r : List Region}
    (h : StmtSpec { c with scopes := [] :: c.scopes } c2 o d r)
    (he : endScope c2 = .ok ((), c')) :
    StmtSpec c c' o [] ({ height := (scopesOf c.scopes).length + 1, decls := d, occs := o } :: r) := by
  obtain ⟨⟨n, rfl, s⟩, g⟩ := h
  obtain ⟨h1, h2⟩ := inScope_step s he
  refine ⟨⟨[], rfl, h1⟩, ?_⟩
  intro x hx
  rcases List.mem_cons.1 hx with rfl | hx
  · rw [scopesOf_length]; exact h2
  · exact g x hx

theorem scopesOf_cons_nil (s : List (List Binding)) : scopesOf ([] :: s) = [] :: scopesOf s := rfl

theorem envOf_scopes (c : TrCtx) (s : List (List Binding)) : envOf { c with scopes := s } = envOf c :=
  envOf_congr rfl rfl rfl rfl rfl

theorem trLiteral_spec (l : Literal) : trLiteral l = emitLit l := by cases l <;> rfl

theorem mkPanic_spec {pos : Pos} {args : List Expr} {c c' : TrCtx} {r : CStmt}
    (h : mkPanic pos.fmt args c = .ok (r, c')) :
    r = emitPanic (envOf c) (scopesOf c.scopes) pos args ∧ ExprSpec c c' (usesArgs args) := by
  simp only [mkPanic, Tr.bind_ok, Tr.get_ok, Tr.pure_ok] at h
  obtain ⟨ts, c1, ht, x, c2, ⟨rfl, rfl⟩, rfl, rfl⟩ := h
  obtain ⟨h1, h2⟩ := trArgs_spec args ht
  refine ⟨?_, h2⟩
  rw [emitPanic, ← h1]
  simp [mkCallSt, mkCallExpr, emitPrint, mkStr, mkExit1, envOf, h2.head]

theorem exprStmt_plain {e : Expr} {c c' : TrCtx} {r : CStmt}
    (h : (do let (_, v) ← trExpr e; pure (CStmt.expr v) : Tr CStmt) c = .ok (r, c')) :
    r = .expr (emitE (envOf c) (scopesOf c.scopes) e) ∧ ExprSpec c c' (usesE e) := by
  simp only [Tr.bind_ok, Tr.pure_ok] at h
  obtain ⟨⟨t, v⟩, c1, hv, rfl, rfl⟩ := h
  obtain ⟨h1, h2⟩ := trExpr_spec e hv
  exact ⟨by rw [← h1], h2⟩

theorem trExprStmt_spec {e : Expr} {c c' : TrCtx} {r : CStmt} (h : trExprStmt e c = .ok (r, c')) :
    r = emitExprStmt (envOf c) (scopesOf c.scopes) e ∧ ExprSpec c c' (usesExprStmt e) := by
  match e with
  | .call pos f args =>
    simp only [trExprStmt] at h
    rw [Tr.ite_ok] at h
    rcases h with ⟨hp, h⟩ | ⟨hp, h⟩
    · obtain ⟨h1, h2⟩ := mkPanic_spec h
      simp only [emitExprStmt, usesExprStmt, hp, if_true]
      exact ⟨h1, h2⟩
    · simp only [emitExprStmt, usesExprStmt, hp, if_false, Bool.false_eq_true]
      exact exprStmt_plain h
  | .lit _ | .name _ | .arrIndex _ _ | .binaryOp _ _ _ _ | .fieldAccess _ _ _ _
  | .cast _ _ | .compLit _ | .postfixOp _ _
  | .prefixOp _ _ _ | .sizeofType _ | .sizeofExpr _ => exact exprStmt_plain h

theorem ExprSpec.cons {c c1 c2 : TrCtx} {u : Use} {us : List Use}
    (h1 : Step [⟨scopesOf c.scopes, u⟩] [] c c1) (h2 : ExprSpec c1 c2 us) : ExprSpec c c2 (u :: us) :=
  ExprSpec.seq (u1 := [u]) h1 h2

theorem trForm_local {f : Form} {c c' : TrCtx} {r : CForm} (h : trForm f false c = .ok (r, c')) :
    r = emitForm (envOf c) (scopesOf c.scopes) f ∧ ExprSpec c c' (usesForm f) := by
  have := trForm_spec h
  simpa [emitForm] using this

theorem trTypeForm_spec {t : Typename} {f : Form} {c c' : TrCtx} {r : CTypeForm}
    (h : trTypeForm t f c = .ok (r, c')) :
    r = emitTypeForm (envOf c) (scopesOf c.scopes) t f ∧ ExprSpec c c' (usesTypeForm t f) := by
  simp only [trTypeForm, Tr.bind_ok, Tr.pure_ok] at h
  obtain ⟨ct, c1, ht, cf, c2, hf, rfl, rfl⟩ := h
  obtain ⟨rfl, h2, _⟩ := trTypename_spec (scopesOf c.scopes) ht
  obtain ⟨h3, h4⟩ := trForm_local hf
  rw [h2.env, h2.scopes_nil] at h3
  exact ⟨by rw [emitTypeForm, h3], ExprSpec.cons h2 h4⟩

theorem trVarDecl_spec {d : VarDecl} {c c' : TrCtx} {r : CStmt} (h : trVarDecl d c = .ok (r, c')) :
    r = emitVar (envOf c) (scopesOf c.scopes) d ∧
    StmtSpec c c' (occAt (declare [(d.form.name, false)] (scopesOf c.scopes)) (usesVar d))
      [(d.form.name, false)] [] := by
  simp only [trVarDecl, Tr.bind_ok, Tr.pure_ok] at h
  obtain ⟨_, c1, hb, ct, c2, ht, cf, c3, hf, v, c4, hv, rfl, rfl⟩ := h
  have h0 := addBinding_spec hb
  obtain ⟨rfl, h2, _⟩ := trTypename_spec (scopesOf c1.scopes) ht
  obtain ⟨rfl, h4⟩ := trForm_local hf
  obtain ⟨rfl, h6⟩ := trOptExpr_spec hv
  have h26 : ExprSpec c1 c4 (usesVar d) := ExprSpec.cons h2 (h4.seq h6)
  have hs := h0.scopes
  simp only [List.map_cons, List.map_nil, Binding.decl] at hs
  refine ⟨?_, ⟨_, ?_, (h0.trans h26).occEq (by rw [hs]; rfl)⟩, by simp⟩
  · rw [emitVar, h4.env, h4.scopes_nil, h2.env, h2.scopes_nil, h0.env, hs]
  · rfl

theorem trForInit_spec {i : Option ForInit} {c c' : TrCtx} {r : Option CForInit} {Γ : Scopes}
    (hΓ : scopesOf c.scopes = [] :: Γ) (h : trForInit i c = .ok (r, c')) :
    r = emitInit (envOf c) (declInit i :: Γ) i ∧
    StmtSpec c c' (occAt (declInit i :: Γ) (usesInit i)) (declInit i) [] := by
  match i with
  | none =>
    simp only [trForInit, Tr.pure_ok] at h
    obtain ⟨rfl, rfl⟩ := h
    exact ⟨rfl, ⟨[], rfl, Step.refl⟩, by simp⟩
  | some (.expr e) =>
    simp only [trForInit, Tr.bind_ok, Tr.pure_ok] at h
    obtain ⟨⟨t, v⟩, c1, hv, rfl, rfl⟩ := h
    obtain ⟨h1, h2⟩ := trExpr_spec e hv
    rw [hΓ] at h1
    refine ⟨by simp only [emitInit, declInit]; rw [← h1], ⟨[], rfl, ?_⟩, by simp⟩
    unfold ExprSpec at h2
    rw [hΓ] at h2
    exact h2
  | some (.decl tn f e) =>
    simp only [trForInit, Tr.bind_ok, Tr.pure_ok] at h
    obtain ⟨_, c1, hb, ct, c2, ht, cf, c3, hf, ⟨t, v⟩, c4, hv, rfl, rfl⟩ := h
    have h0 := addBinding_spec hb
    obtain ⟨rfl, h2, _⟩ := trTypename_spec (scopesOf c1.scopes) ht
    obtain ⟨rfl, h4⟩ := trForm_local hf
    obtain ⟨h5, h6⟩ := trExpr_spec e hv
    have h26 : ExprSpec c1 c4 (usesInit (some (.decl tn f e))) := ExprSpec.cons h2 (h4.seq h6)
    have hs := h0.scopes
    rw [hΓ] at hs
    simp only [List.map_cons, List.map_nil, Binding.decl, declare, List.nil_append] at hs
    refine ⟨?_, ⟨_, ?_, (h0.trans h26).occEq (by rw [hs]; rfl)⟩, by simp⟩
    · rw [h4.env, h4.scopes_nil, h2.env, h2.scopes_nil, h0.env, hs] at h5
      simp only [emitInit, declInit]
      rw [← h5, h2.env, h2.scopes_nil, h0.env, hs]
    · rfl

theorem trCond_spec {e : Expr} {c c' : TrCtx} {r : CExpr} (h : trCond e c = .ok (r, c')) :
    r = emitE (envOf c) (scopesOf c.scopes) e ∧ ExprSpec c c' (usesE e) := by
  simp only [trCond, Tr.bind_ok] at h
  obtain ⟨⟨t, v⟩, c1, hv, h⟩ := h
  rw [Tr.ite_ok] at h
  rcases h with ⟨_, h⟩ | ⟨_, h⟩
  · simp [Tr.fail] at h
  · rw [Tr.pure_ok] at h
    obtain ⟨rfl, rfl⟩ := h
    exact trExpr_spec e hv

theorem trOptCond_spec {e : Option Expr} {c c' : TrCtx} {r : Option CExpr}
    (h : trOptCond e c = .ok (r, c')) :
    r = emitOptE (envOf c) (scopesOf c.scopes) e ∧ ExprSpec c c' (usesOpt e) := by
  cases e with
  | none =>
    simp only [trOptCond, Tr.pure_ok] at h
    obtain ⟨rfl, rfl⟩ := h
    exact ⟨rfl, Step.refl⟩
  | some e =>
    simp only [trOptCond, Tr.bind_ok, Tr.pure_ok] at h
    obtain ⟨v, c1, hv, rfl, rfl⟩ := h
    obtain ⟨rfl, h2⟩ := trCond_spec hv
    exact ⟨rfl, h2⟩

theorem trCaseValue_spec {v : CaseValue} {c c' : TrCtx} {r : CCaseValue}
    (h : trCaseValue v c = .ok (r, c')) :
    r = emitCaseValue (envOf c) (scopesOf c.scopes) v ∧ ExprSpec c c' (usesCase v) := by
  cases v with
  | ident n =>
    simp only [trCaseValue, Tr.bind_ok, Tr.pure_ok] at h
    obtain ⟨⟨t, s⟩, c1, hs, rfl, rfl⟩ := h
    obtain ⟨h1, h2⟩ := trNsidInExpr_spec hs
    exact ⟨by simp only [emitCaseValue]; rw [← h1], h2⟩
  | literal l =>
    simp only [trCaseValue, Tr.pure_ok] at h
    obtain ⟨rfl, rfl⟩ := h
    exact ⟨by simp only [emitCaseValue, trLiteral_spec], Step.refl⟩

theorem trCaseValues_spec : ∀ (vs : List CaseValue) {c c' : TrCtx} {r : List CCaseValue},
    trCaseValues vs c = .ok (r, c') →
    r = vs.map (emitCaseValue (envOf c) (scopesOf c.scopes)) ∧ ExprSpec c c' (vs.flatMap usesCase)
  | [], c, c', r, h => by
    simp only [trCaseValues, Tr.pure_ok] at h
    obtain ⟨rfl, rfl⟩ := h
    exact ⟨rfl, Step.refl⟩
  | v :: vs, c, c', r, h => by
    simp only [trCaseValues, Tr.bind_ok, Tr.pure_ok] at h
    obtain ⟨x, c1, hx, xs, c2, hxs, rfl, rfl⟩ := h
    obtain ⟨rfl, h2⟩ := trCaseValue_spec hx
    obtain ⟨h3, h4⟩ := trCaseValues_spec vs hxs
    rw [h2.env, h2.scopes_nil] at h3
    exact ⟨by rw [h3, List.map_cons], by rw [List.flatMap_cons]; exact h2.seq h4⟩

theorem trStrCaseValue_spec {v : CaseValue} {c c' : TrCtx} {r : CExpr}
    (h : trStrCaseValue v c = .ok (r, c')) :
    r = emitStrValue (envOf c) (scopesOf c.scopes) v ∧ ExprSpec c c' (usesCase v) := by
  cases v with
  | ident n =>
    simp only [trStrCaseValue, Tr.bind_ok, Tr.pure_ok] at h
    obtain ⟨⟨t, s⟩, c1, hs, rfl, rfl⟩ := h
    obtain ⟨h1, h2⟩ := trNsidInExpr_spec hs
    exact ⟨by simp only [emitStrValue]; rw [← h1], h2⟩
  | literal l =>
    simp only [trStrCaseValue, Tr.pure_ok] at h
    obtain ⟨rfl, rfl⟩ := h
    exact ⟨by simp only [emitStrValue, trLiteral_spec], Step.refl⟩

theorem switchStrCondLoop_spec (sv : CExpr) : ∀ (vs : List CaseValue) {root : CExpr} {c c' : TrCtx}
    {r : CExpr}, switchStrCondLoop sv root vs c = .ok (r, c') →
    r = vs.foldl (fun acc l => .binaryOp "||" acc (emitStrTest (envOf c) (scopesOf c.scopes) sv l)) root ∧
    ExprSpec c c' (vs.flatMap usesCase)
  | [], root, c, c', r, h => by
    simp only [switchStrCondLoop, Tr.pure_ok] at h
    obtain ⟨rfl, rfl⟩ := h
    exact ⟨rfl, Step.refl⟩
  | v :: vs, root, c, c', r, h => by
    simp only [switchStrCondLoop, Tr.bind_ok] at h
    obtain ⟨x, c1, hx, h⟩ := h
    obtain ⟨rfl, h2⟩ := trStrCaseValue_spec hx
    obtain ⟨h3, h4⟩ := switchStrCondLoop_spec sv vs h
    rw [h2.env, h2.scopes_nil] at h3
    refine ⟨?_, by rw [List.flatMap_cons]; exact h2.seq h4⟩
    rw [h3, List.foldl_cons]
    rfl

theorem mkSwitchStrCond_spec {vs : List CaseValue} {sv : CExpr} {c c' : TrCtx} {r : CExpr}
    (h : mkSwitchStrCond vs sv c = .ok (r, c')) :
    r = emitStrCond (envOf c) (scopesOf c.scopes) sv vs ∧ ExprSpec c c' (vs.flatMap usesCase) ∧
    vs ≠ [] := by
  cases vs with
  | nil => simp [mkSwitchStrCond, Tr.panic] at h
  | cons v vs =>
    simp only [mkSwitchStrCond, Tr.bind_ok] at h
    obtain ⟨x, c1, hx, h⟩ := h
    obtain ⟨rfl, h2⟩ := trStrCaseValue_spec hx
    obtain ⟨h3, h4⟩ := switchStrCondLoop_spec sv vs h
    rw [h2.env, h2.scopes_nil] at h3
    refine ⟨?_, by rw [List.flatMap_cons]; exact h2.seq h4, by simp⟩
    rw [h3]
    rfl

/-- The same facts as seen from a fixed environment. -/
theorem ofExprAt {c c' : TrCtx} {us : List Use} {Γ : Scopes} (hΓ : scopesOf c.scopes = Γ)
    (h : ExprSpec c c' us) : StmtSpec c c' (occAt Γ us) [] [] := hΓ ▸ StmtSpec.ofExpr h

/-- What is proved about a list of statements. -/
def StmtsGoal (b : List Stmt) : Prop :=
  ∀ (c c' : TrCtx) (r : List CStmt), trStmts b c = .ok (r, c') →
    r = emitSs (envOf c) (scopesOf c.scopes) b ∧
    StmtSpec c c' (occSs (scopesOf c.scopes) b) (b.flatMap declS) (regSs (scopesOf c.scopes) b)

theorem block_spec {b : List Stmt} (ih : StmtsGoal b) {c c' : TrCtx} {r : List CStmt}
    (h : inScope (trStmts b) c = .ok (r, c')) :
    r = emitSs (envOf c) ([] :: scopesOf c.scopes) b ∧
    StmtSpec c c' (occSs ([] :: scopesOf c.scopes) b) []
      (blockRegion (scopesOf c.scopes) b :: regSs ([] :: scopesOf c.scopes) b) := by
  obtain ⟨c2, hm, he⟩ := inScope_ok.1 h
  obtain ⟨h1, h2⟩ := ih _ _ _ hm
  rw [envOf_scopes] at h1
  exact ⟨h1, h2.scoped he⟩

/-- Close a goal about mentions or scopes being the same set. -/
macro "mem_tac" : tactic =>
  `(tactic| (intro x; simp only [List.mem_append, List.mem_cons, List.not_mem_nil, or_false, false_or]; try tauto))

theorem occCases_cons (Γ : Scopes) (x : SwitchCase) (xs : List SwitchCase) :
    occCases Γ (x :: xs) = occCases Γ [x] ++ occCases Γ xs := by
  cases x; simp [occCases]

theorem regCases_cons (Γ : Scopes) (x : SwitchCase) (xs : List SwitchCase) :
    regCases Γ (x :: xs) = regCases Γ [x] ++ regCases Γ xs := by
  cases x; simp [regCases]

mutual
theorem trStmts_spec : ∀ (b : List Stmt), StmtsGoal b
  | [] => by
    intro c c' r h
    simp only [trStmts, Tr.pure_ok] at h
    obtain ⟨rfl, rfl⟩ := h
    exact ⟨rfl, ⟨[], rfl, Step.refl⟩, by simp [regSs]⟩
  | s :: ss => by
    intro c c' r h
    simp only [trStmts, Tr.bind_ok, Tr.pure_ok] at h
    obtain ⟨x, c1, hx, xs, c2, hxs, rfl, rfl⟩ := h
    obtain ⟨rfl, h2⟩ := trStmt_spec s hx
    obtain ⟨h3, h4⟩ := trStmts_spec ss _ _ _ hxs
    rw [h2.scopes] at h3 h4
    rw [h2.env] at h3
    refine ⟨by rw [h3, emitSs], ?_⟩
    rw [occSs, regSs, List.flatMap_cons]
    exact h2.trans h4
theorem trStmt_spec : ∀ (s : Stmt) {c c' : TrCtx} {r : CStmt}, trStmt s c = .ok (r, c') →
    r = emitS (envOf c) (scopesOf c.scopes) s ∧
    StmtSpec c c' (occS (scopesOf c.scopes) s) (declS s) (regS (scopesOf c.scopes) s)
  | .brk, c, c', r, h => by
    simp only [trStmt, Tr.pure_ok] at h
    obtain ⟨rfl, rfl⟩ := h
    exact ⟨by rw [emitS], ⟨[], rfl, by rw [occS]; exact Step.refl⟩, by simp [regS]⟩
  | .cont, c, c', r, h => by
    simp only [trStmt, Tr.pure_ok] at h
    obtain ⟨rfl, rfl⟩ := h
    exact ⟨by rw [emitS], ⟨[], rfl, by rw [occS]; exact Step.refl⟩, by simp [regS]⟩
  | .expr e, c, c', r, h => by
    simp only [trStmt] at h
    obtain ⟨h1, h2⟩ := trExprStmt_spec h
    refine ⟨by rw [emitS, h1], ?_⟩
    rw [occS]
    exact (StmtSpec.ofExpr h2).congr (by simp) rfl (by simp [regS])
  | .ret e, c, c', r, h => by
    simp only [trStmt, Tr.bind_ok, Tr.pure_ok] at h
    obtain ⟨v, c1, hv, rfl, rfl⟩ := h
    obtain ⟨rfl, h2⟩ := trOptExpr_spec hv
    refine ⟨by rw [emitS], ?_⟩
    rw [occS]
    exact (StmtSpec.ofExpr h2).congr (by simp) rfl (by simp [regS])
  | .varDecl d, c, c', r, h => by
    simp only [trStmt] at h
    obtain ⟨rfl, h2⟩ := trVarDecl_spec h
    refine ⟨by rw [emitS], ?_⟩
    rw [occS]
    exact h2.congr (by simp) rfl (by simp [regS])
  | .whileS cnd b, c, c', r, h => by
    simp only [trStmt, Tr.bind_ok, Tr.pure_ok] at h
    obtain ⟨v, c1, hv, bb, c2, hb, rfl, rfl⟩ := h
    obtain ⟨rfl, h2⟩ := trCond_spec hv
    obtain ⟨h3, h4⟩ := block_spec (trStmts_spec b) hb
    rw [h2.env, h2.scopes_nil] at h3
    rw [h2.scopes_nil] at h4
    refine ⟨by rw [emitS, h3], ?_⟩
    rw [occS, regS]
    exact ((StmtSpec.ofExpr h2).trans h4).congr (by mem_tac) rfl (by mem_tac)
  | .ifS cnd b els, c, c', r, h => by
    simp only [trStmt, Tr.bind_ok, Tr.pure_ok] at h
    obtain ⟨e, c1, he, ⟨t, v⟩, c2, hv, bb, c3, hb, rfl, rfl⟩ := h
    obtain ⟨rfl, h1⟩ := trOptBody_spec els he
    obtain ⟨h2, h3⟩ := trExpr_spec cnd hv
    obtain ⟨h4, h5⟩ := block_spec (trStmts_spec b) hb
    rw [h3.env, h3.scopes_nil, h1.env, h1.scopes_nil] at h4
    rw [h3.scopes_nil, h1.scopes_nil] at h5
    have h3' := ofExprAt h1.scopes_nil h3
    rw [h1.env, h1.scopes_nil] at h2
    refine ⟨by rw [emitS, h4, ← h2], ?_⟩
    rw [occS, regS]
    exact ((h1.trans h3').trans h5).congr (by mem_tac) rfl (by mem_tac)
  | .forS i cnd a b, c, c', r, h => by
    simp only [trStmt] at h
    obtain ⟨c9, h, hend⟩ := inScope_ok.1 h
    simp only [Tr.bind_ok, Tr.pure_ok] at h
    obtain ⟨ii, c1, hi, cc, c2, hc, aa, c3, ha, bb, c4, hb, rfl, rfl⟩ := h
    obtain ⟨rfl, h1⟩ := trForInit_spec (Γ := scopesOf c.scopes) rfl hi
    obtain ⟨rfl, h2⟩ := trOptCond_spec hc
    obtain ⟨h3, h4⟩ := trOptExpr_spec ha
    obtain ⟨h5, h6⟩ := block_spec (trStmts_spec b) hb
    have hs1 : scopesOf c1.scopes = declInit i :: scopesOf c.scopes := by
      rw [h1.scopes]; rfl
    have he1 : envOf c1 = envOf c := by rw [h1.env, envOf_scopes]
    rw [h4.env, h4.scopes_nil, h2.env, h2.scopes_nil, he1, hs1] at h5
    rw [h4.scopes_nil, h2.scopes_nil, hs1] at h6
    rw [h2.env, h2.scopes_nil, he1, hs1] at h3
    have h24 := ofExprAt hs1 (h2.seq h4)
    refine ⟨?_, ?_⟩
    · rw [emitS, h5, h3, envOf_scopes, he1, hs1]
    · rw [occS, regS]
      refine StmtSpec.congr (StmtSpec.scoped (((h1.trans h24).trans h6).congr (o' := ?_)
        (d' := declInit i) (r' := blockRegion (declInit i :: scopesOf c.scopes) b ::
          regSs ([] :: declInit i :: scopesOf c.scopes) b) ?_ ?_ ?_) hend) ?_ rfl ?_
      · exact occAt (declInit i :: scopesOf c.scopes) (usesInit i ++ usesOpt cnd ++ usesOpt a) ++
          occSs ([] :: declInit i :: scopesOf c.scopes) b
      · simp only [occAt_append]; mem_tac
      · simp
      · mem_tac
      · simp
      · mem_tac
  | .switchS true v cs d, c, c', r, h => by
    rw [trStmt, if_pos rfl] at h
    rw [Tr.bind_ok] at h
    obtain ⟨⟨t, sv⟩, c1, hv, h⟩ := h
    obtain ⟨h1, h2⟩ := trExpr_spec v hv
    have h2' := StmtSpec.ofExpr h2
    match cs with
    | [] => simp [Tr.panic] at h
    | c0 :: rest =>
      simp only [Tr.bind_ok, Tr.pure_ok] at h
      obtain ⟨s, c2, hs0, e, c3, he, rfl, rfl⟩ := h
      obtain ⟨rfl, h4⟩ := strCase_spec sv c0 hs0
      have h5 := switchStrElse_spec sv rest (trOptBody d)
        (fun c => emitOptB (envOf c) (scopesOf c.scopes) d)
        (fun c => occOpt (scopesOf c.scopes) d) (fun c => regOpt (scopesOf c.scopes) d)
        (fun hd => trOptBody_spec d hd)
        (fun {c c'} h h' => by simp only [h, h']) (fun {c c'} h' => by simp only [h'])
        (fun {c c'} h' => by simp only [h']) he
      obtain ⟨rfl, h6⟩ := h5
      simp only [h4.env, h4.scopes_nil, h2.env, h2.scopes_nil] at h6 ⊢
      rw [h2'.scopes_nil] at h4
      refine ⟨?_, ?_⟩
      · rw [emitS, if_pos rfl]; simp only; rw [← h1]
      · rw [occS, regS]
        rw [show occCases (scopesOf c.scopes) (c0 :: rest) =
          occCases (scopesOf c.scopes) [c0] ++ occCases (scopesOf c.scopes) rest from occCases_cons _ _ _,
          show regCases (scopesOf c.scopes) (c0 :: rest) =
          regCases (scopesOf c.scopes) [c0] ++ regCases (scopesOf c.scopes) rest from regCases_cons _ _ _]
        exact ((h2'.trans h4).trans h6).congr (by mem_tac) rfl (by mem_tac)
  | .switchS false v cs d, c, c', r, h => by
    rw [trStmt, if_neg (by simp)] at h
    simp only [Tr.bind_ok, Tr.pure_ok] at h
    obtain ⟨tc, c1, hc, ⟨t, sv⟩, c2, hv, dd, c3, hd, rfl, rfl⟩ := h
    obtain ⟨rfl, h1⟩ := trCases_spec cs hc
    obtain ⟨h2, h3⟩ := trExpr_spec v hv
    obtain ⟨h4, h5⟩ := trOptBody_spec d hd
    rw [h3.env, h3.scopes_nil, h1.env, h1.scopes_nil] at h4
    rw [h3.scopes_nil, h1.scopes_nil] at h5
    have h3' := ofExprAt h1.scopes_nil h3
    rw [h1.env, h1.scopes_nil] at h2
    refine ⟨by simp only [emitS, Bool.false_eq_true, if_false, h4, ← h2], ?_⟩
    rw [occS, regS]
    exact ((h1.trans h3').trans h5).congr (by mem_tac) rfl (by mem_tac)
theorem trOptBody_spec : ∀ (b : Option (List Stmt)) {c c' : TrCtx} {r : Option CBody},
    trOptBody b c = .ok (r, c') →
    r = emitOptB (envOf c) (scopesOf c.scopes) b ∧
    StmtSpec c c' (occOpt (scopesOf c.scopes) b) [] (regOpt (scopesOf c.scopes) b)
  | none, c, c', r, h => by
    simp only [trOptBody, Tr.pure_ok] at h
    obtain ⟨rfl, rfl⟩ := h
    exact ⟨by rw [emitOptB], ⟨[], rfl, by rw [occOpt]; exact Step.refl⟩, by simp [regOpt]⟩
  | some b, c, c', r, h => by
    simp only [trOptBody, Tr.bind_ok, Tr.pure_ok] at h
    obtain ⟨x, c1, hx, rfl, rfl⟩ := h
    obtain ⟨rfl, h2⟩ := block_spec (trStmts_spec b) hx
    exact ⟨by rw [emitOptB], by rw [occOpt, regOpt]; exact h2⟩
theorem trCases_spec : ∀ (cs : List SwitchCase) {c c' : TrCtx} {r : List CSwitchCase},
    trCases cs c = .ok (r, c') →
    r = emitCases (envOf c) (scopesOf c.scopes) cs ∧
    StmtSpec c c' (occCases (scopesOf c.scopes) cs) [] (regCases (scopesOf c.scopes) cs)
  | [], c, c', r, h => by
    simp only [trCases, Tr.pure_ok] at h
    obtain ⟨rfl, rfl⟩ := h
    exact ⟨by rw [emitCases], ⟨[], rfl, by rw [occCases]; exact Step.refl⟩, by simp [regCases]⟩
  | .mk vs b :: cs, c, c', r, h => by
    simp only [trCases, Tr.bind_ok, Tr.pure_ok] at h
    obtain ⟨xs, c1, hv, bb, c2, hb, rest, c3, hr, rfl, rfl⟩ := h
    obtain ⟨rfl, h2⟩ := trCaseValues_spec vs hv
    obtain ⟨h3, h4⟩ := block_spec (trStmts_spec b) hb
    obtain ⟨h5, h6⟩ := trCases_spec cs hr
    rw [h4.env, h4.scopes_nil, h2.env, h2.scopes_nil] at h5
    rw [h4.scopes_nil, h2.scopes_nil] at h6
    rw [h2.env, h2.scopes_nil] at h3
    rw [h2.scopes_nil] at h4
    refine ⟨by rw [emitCases, h3, h5], ?_⟩
    rw [occCases, regCases]
    exact (((StmtSpec.ofExpr h2).trans h4).trans h6).congr (by mem_tac) rfl (by mem_tac)
theorem strCase_spec : ∀ (sv : CExpr) (sc : SwitchCase) {c c' : TrCtx} {r : CExpr × CBody},
    strCase sv sc c = .ok (r, c') →
    r = emitStrCase (envOf c) (scopesOf c.scopes) sv sc ∧
    StmtSpec c c' (occCases (scopesOf c.scopes) [sc]) [] (regCases (scopesOf c.scopes) [sc])
  | sv, .mk vs b, c, c', r, h => by
    simp only [strCase, Tr.bind_ok, Tr.pure_ok] at h
    obtain ⟨x, c1, hx, bb, c2, hb, rfl, rfl⟩ := h
    obtain ⟨rfl, h2, _⟩ := mkSwitchStrCond_spec hx
    obtain ⟨h3, h4⟩ := block_spec (trStmts_spec b) hb
    rw [h2.env, h2.scopes_nil] at h3
    rw [h2.scopes_nil] at h4
    refine ⟨by rw [emitStrCase, h3], ?_⟩
    rw [occCases, regCases, occCases, regCases]
    exact ((StmtSpec.ofExpr h2).trans h4).congr (by mem_tac) rfl (by mem_tac)
theorem switchStrElse_spec : ∀ (sv : CExpr) (cs : List SwitchCase) (dflt : Tr (Option CBody))
    (D : TrCtx → Option CBody) (O : TrCtx → List Occ) (R : TrCtx → List Region),
    (∀ {c c' : TrCtx} {r : Option CBody}, dflt c = .ok (r, c') → r = D c ∧ StmtSpec c c' (O c) [] (R c)) →
    (∀ {c c' : TrCtx}, envOf c = envOf c' → scopesOf c.scopes = scopesOf c'.scopes → D c = D c') →
    (∀ {c c' : TrCtx}, scopesOf c.scopes = scopesOf c'.scopes → O c = O c') →
    (∀ {c c' : TrCtx}, scopesOf c.scopes = scopesOf c'.scopes → R c = R c') →
    ∀ {c c' : TrCtx} {r : Option CBody},
    switchStrElse sv dflt cs c = .ok (r, c') →
    r = emitStrElse (envOf c) (scopesOf c.scopes) sv (D c) cs ∧
    StmtSpec c c' (occCases (scopesOf c.scopes) cs ++ O c) [] (regCases (scopesOf c.scopes) cs ++ R c)
  | sv, [], dflt, D, O, R, hd, hD, hO, hR, c, c', r, h => by
    simp only [switchStrElse] at h
    obtain ⟨rfl, h2⟩ := hd h
    refine ⟨by rw [emitStrElse], ?_⟩
    rw [occCases, regCases]; exact h2
  | sv, sc :: cs, dflt, D, O, R, hd, hD, hO, hR, c, c', r, h => by
    simp only [switchStrElse, Tr.bind_ok, Tr.pure_ok] at h
    obtain ⟨s, c1, hs, e, c2, he, rfl, rfl⟩ := h
    obtain ⟨rfl, h2⟩ := strCase_spec sv sc hs
    obtain ⟨rfl, h4⟩ := switchStrElse_spec sv cs dflt D O R hd hD hO hR he
    rw [hD h2.env h2.scopes_nil, h2.env, h2.scopes_nil]
    rw [hO h2.scopes_nil, hR h2.scopes_nil, h2.scopes_nil] at h4
    refine ⟨by rw [emitStrElse], ?_⟩
    rw [show occCases (scopesOf c.scopes) (sc :: cs) =
        occCases (scopesOf c.scopes) [sc] ++ occCases (scopesOf c.scopes) cs from occCases_cons _ _ _,
      show regCases (scopesOf c.scopes) (sc :: cs) =
        regCases (scopesOf c.scopes) [sc] ++ regCases (scopesOf c.scopes) cs from regCases_cons _ _ _]
    exact (h2.trans h4).congr (by mem_tac) rfl (by mem_tac)
end

end Che
