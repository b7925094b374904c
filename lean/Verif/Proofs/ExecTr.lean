import Verif.Proofs.TrModule
import Verif.Proofs.ExecStmt
/-!
# Translated functions run
-/
namespace Che
open Spec

/-! ## A translated `switch str` has cases and labels -/

theorem mkSwitchStrCond_ne {vs : List CaseValue} {sv : CExpr} {c c' : TrCtx} {r : CExpr}
    (h : mkSwitchStrCond vs sv c = .ok (r, c')) : vs.isEmpty = false := by
  cases vs with
  | nil => simp [mkSwitchStrCond, Tr.panic] at h
  | cons => rfl

mutual
theorem labelledIn_of_tr : ∀ (b : List Stmt) {c c' : TrCtx} {r : List CStmt},
    trStmts b c = .ok (r, c') → labelledIn b = true
  | [], _, _, _, _ => rfl
  | s :: ss, c, c', r, h => by
    simp only [trStmts, Tr.bind_ok, Tr.pure_ok] at h
    obtain ⟨x, c1, hx, xs, c2, hxs, rfl, rfl⟩ := h
    rw [labelledIn, labelled_of_tr s hx, labelledIn_of_tr ss hxs]; rfl
theorem labelled_of_tr : ∀ (s : Stmt) {c c' : TrCtx} {r : CStmt},
    trStmt s c = .ok (r, c') → labelled s = true
  | .brk, _, _, _, _ => rfl
  | .cont, _, _, _, _ => rfl
  | .expr _, _, _, _, _ => rfl
  | .ret _, _, _, _, _ => rfl
  | .varDecl _, _, _, _, _ => rfl
  | .whileS cnd b, c, c', r, h => by
    simp only [trStmt, Tr.bind_ok, Tr.pure_ok] at h
    obtain ⟨v, c1, hv, bb, c2, hb, rfl, rfl⟩ := h
    obtain ⟨c9, hb, _⟩ := inScope_ok.1 hb
    rw [labelled, labelledIn_of_tr b hb]
  | .ifS cnd b els, c, c', r, h => by
    simp only [trStmt, Tr.bind_ok, Tr.pure_ok] at h
    obtain ⟨e, c1, he, ⟨t, v⟩, c2, hv, bb, c3, hb, rfl, rfl⟩ := h
    obtain ⟨c9, hb, _⟩ := inScope_ok.1 hb
    rw [labelled, labelledIn_of_tr b hb, labelledOpt_of_tr els he]; rfl
  | .forS i cnd a b, c, c', r, h => by
    simp only [trStmt] at h
    obtain ⟨c9, h, hend⟩ := inScope_ok.1 h
    simp only [Tr.bind_ok, Tr.pure_ok] at h
    obtain ⟨ii, c1, hi, cc, c2, hc, aa, c3, ha, bb, c4, hb, rfl, rfl⟩ := h
    obtain ⟨c9, hb, _⟩ := inScope_ok.1 hb
    rw [labelled, labelledIn_of_tr b hb]
  | .switchS true v cs d, c, c', r, h => by
    rw [trStmt, if_pos rfl] at h
    rw [Tr.bind_ok] at h
    obtain ⟨⟨t, sv⟩, c1, hv, h⟩ := h
    match cs with
    | [] => simp [Tr.panic] at h
    | c0 :: rest =>
      simp only [Tr.bind_ok, Tr.pure_ok] at h
      obtain ⟨s, c2, hs0, e, c3, he, rfl, rfl⟩ := h
      have h1 := labelledCase_of_tr sv c0 hs0
      obtain ⟨h2, c4, c5, r5, h5⟩ := labelledElse_of_tr sv (trOptBody d) rest he
      have h3 := labelledOpt_of_tr d h5
      have : labelledCases true (c0 :: rest) = true := by
        cases c0 with | mk ls b =>
        simp only [labelledCases, Bool.and_eq_true] at h1 ⊢
        exact ⟨h1.1, h2⟩
      rw [labelled, this, h3]; rfl
  | .switchS false v cs d, c, c', r, h => by
    rw [trStmt, if_neg (by simp)] at h
    simp only [Tr.bind_ok, Tr.pure_ok] at h
    obtain ⟨tc, c1, hc, ⟨t, sv⟩, c2, hv, dd, c3, hd, rfl, rfl⟩ := h
    rw [labelled, labelledCases_of_tr cs hc, labelledOpt_of_tr d hd]; rfl
theorem labelledOpt_of_tr : ∀ (b : Option (List Stmt)) {c c' : TrCtx} {r : Option CBody},
    trOptBody b c = .ok (r, c') → labelledOpt b = true
  | none, _, _, _, _ => rfl
  | some b, c, c', r, h => by
    simp only [trOptBody, Tr.bind_ok, Tr.pure_ok] at h
    obtain ⟨x, c1, hx, rfl, rfl⟩ := h
    obtain ⟨c9, hx, _⟩ := inScope_ok.1 hx
    rw [labelledOpt, labelledIn_of_tr b hx]
theorem labelledCases_of_tr : ∀ (cs : List SwitchCase) {c c' : TrCtx} {r : List CSwitchCase},
    trCases cs c = .ok (r, c') → labelledCases false cs = true
  | [], _, _, _, _ => rfl
  | .mk vs b :: cs, c, c', r, h => by
    simp only [trCases, Tr.bind_ok, Tr.pure_ok] at h
    obtain ⟨xs, c1, hv, bb, c2, hb, rest, c3, hr, rfl, rfl⟩ := h
    obtain ⟨c9, hb, _⟩ := inScope_ok.1 hb
    rw [labelledCases, labelledIn_of_tr b hb, labelledCases_of_tr cs hr]; rfl
theorem labelledCase_of_tr : ∀ (sv : CExpr) (sc : SwitchCase) {c c' : TrCtx} {r : CExpr × CBody},
    strCase sv sc c = .ok (r, c') → labelledCases true [sc] = true
  | sv, .mk vs b, c, c', r, h => by
    simp only [strCase, Tr.bind_ok, Tr.pure_ok] at h
    obtain ⟨x, c1, hx, bb, c2, hb, rfl, rfl⟩ := h
    obtain ⟨c9, hb, _⟩ := inScope_ok.1 hb
    rw [labelledCases, labelledIn_of_tr b hb, mkSwitchStrCond_ne hx]; rfl
theorem labelledElse_of_tr : ∀ (sv : CExpr) (dflt : Tr (Option CBody)) (cs : List SwitchCase)
    {c c' : TrCtx} {r : Option CBody}, switchStrElse sv dflt cs c = .ok (r, c') →
    labelledCases true cs = true ∧ ∃ c1 c2 r1, dflt c1 = .ok (r1, c2)
  | sv, dflt, [], c, c', r, h => by
    simp only [switchStrElse] at h
    exact ⟨rfl, _, _, _, h⟩
  | sv, dflt, sc :: cs, c, c', r, h => by
    simp only [switchStrElse, Tr.bind_ok, Tr.pure_ok] at h
    obtain ⟨s, c1, hs, e, c2, he, rfl, rfl⟩ := h
    have h1 := labelledCase_of_tr sv sc hs
    obtain ⟨h2, h3⟩ := labelledElse_of_tr sv dflt cs he
    refine ⟨?_, h3⟩
    cases sc with | mk ls b =>
    simp only [labelledCases, Bool.and_eq_true] at h1 ⊢
    exact ⟨h1.1, h2⟩
end

/-! ## Functions of an accepted module -/

theorem trList_each {α β} {f : α → Tr β} : ∀ {xs : List α} {c c' : TrCtx} {r : List β},
    trList f xs c = .ok (r, c') → ∀ x ∈ xs, ∃ c1 c2 y, f x c1 = .ok (y, c2)
  | [], _, _, _, _, x, hx => by simp at hx
  | y :: ys, c, c', r, h, x, hx => by
    simp only [trList, Tr.bind_ok, Tr.pure_ok] at h
    obtain ⟨z, c1, hz, zs, c2, hzs, rfl, rfl⟩ := h
    rcases List.mem_cons.1 hx with rfl | hx
    · exact ⟨_, _, _, hz⟩
    · exact trList_each hzs x hx

/-- Every function of an accepted module was accepted by `tr_func_decl`. -/
theorem translate_func {m : Module} {p : TrParams} {cm : CModule} (h : translate m p = .ok cm)
    {f : FuncDecl} (hf : .funcDecl f ∈ m.elements) :
    ∃ c c' r, trFuncDecl f c = .ok (r, c') := by
  unfold translate at h
  cases hb : trModuleBody m p.ctx with
  | err e => simp [hb] at h
  | panic e => simp [hb] at h
  | diverge => simp [hb] at h
  | ok r =>
    obtain ⟨body, c⟩ := r
    obtain ⟨c9, hb, _⟩ := inScope_ok.1 hb
    simp only [Tr.bind_ok, Tr.pure_ok] at hb
    obtain ⟨_, c1, _, bs, c2, hbody, _, _⟩ := hb
    exact trList_each hbody _ hf

theorem trFuncDecl_body {x : FuncDecl} {c c' : TrCtx} {r : List CModElem}
    (h : trFuncDecl x c = .ok (r, c')) : labelledIn x.body = true := by
  simp only [trFuncDecl, Tr.bind_ok] at h
  obtain ⟨r', cE, h, _⟩ := h
  obtain ⟨c9, h, hend⟩ := inScope_ok.1 h
  simp only [Tr.bind_ok] at h
  obtain ⟨_, c1, hb, bb, c2, hbody, _⟩ := h
  obtain ⟨c9, hbody, _⟩ := inScope_ok.1 hbody
  exact labelledIn_of_tr _ hbody

theorem func_labelled {m : Module} {p : TrParams} {cm : CModule} (h : translate m p = .ok cm)
    {f : FuncDecl} (hf : .funcDecl f ∈ m.elements) : labelledIn f.body = true := by
  obtain ⟨c, c', r, hr⟩ := translate_func h hf
  exact trFuncDecl_body hr

theorem func_returns {m : Module} {p : TrParams} {cm : CModule} (h : translate m p = .ok cm)
    {f : FuncDecl} (hf : .funcDecl f ∈ m.elements) :
    (isVoid f.typename = true ∧ f.form.hops ≠ 1) ∨ bodyReturns f.body = true := by
  obtain ⟨c, c', r, hr⟩ := translate_func h hf
  exact (trFuncDecl_spec hr).2.2

end Che
