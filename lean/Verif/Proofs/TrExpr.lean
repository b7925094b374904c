import Verif.Proofs.TrStep
/-!
# Expressions: the translator produces what the specification says
-/
namespace Che
open Spec

theorem nsprefix_eq (u x : String) : nsprefix u x = globalName u x := rfl

/-- A step that only marks a namespace as used. -/
theorem step_ns {c : TrCtx} {Γ : Scopes} {n : NsName} {u : Use} (hu : u = .val n ∨ u = .typ n)
    (h1 : n.ns ≠ "") (h2 : n.ns ≠ "OS") (hok : OccOk (envOf c) ⟨Γ, u⟩) :
    Step [⟨Γ, u⟩] [] c { c with usedNs := n.ns :: c.usedNs } where
  head := rfl
  heads := rfl
  cmods := rfl
  mods := rfl
  structs := rfl
  others := rfl
  shape := (growScopes_nil _).symm
  nodup := id
  ns := by
    intro x
    simp only [List.mem_cons, List.mem_singleton, exists_eq_left, MentionsNs, List.not_mem_nil,
      or_false]
    constructor
    · rintro (rfl | h)
      · exact .inr ⟨h1, h2, n, rfl, hu⟩
      · exact .inl h
    · rintro (h | ⟨_, _, m, rfl, hm⟩)
      · exact .inr h
      · left
        rcases hu with rfl | rfl <;> rcases hm with hm | hm <;> cases hm <;> rfl
  customs := by
    intro x
    simp only [List.mem_singleton, exists_eq_left]
    rcases hu with rfl | rfl <;> simp
  used := fun _ _ h => .inl h
  ok := by simpa using hok

theorem refersTo_typ {Γ : Scopes} {n : NsName} {h : Nat} {x : String} : ¬ RefersTo ⟨Γ, .typ n⟩ h x := by
  rintro ⟨m, hm, _⟩; cases hm

/-- A mention that leaves the context as it is. -/
theorem step_noop {c : TrCtx} {o : Occ} (hns : ∀ x, ¬ MentionsNs o x) (hc : o.use ≠ .calloc)
    (hok : OccOk (envOf c) o) : Step [o] [] c c where
  head := rfl
  heads := rfl
  cmods := rfl
  mods := rfl
  structs := rfl
  others := rfl
  shape := (growScopes_nil _).symm
  nodup := id
  ns := by intro x; simp [hns]
  customs := by intro x; simp [hc]
  used := fun _ _ h => .inl h
  ok := by simpa using hok

theorem trTypename_spec {t : Typename} {c c' : TrCtx} {r : CTypename} (Γ : Scopes)
    (h : trTypename t c = .ok (r, c')) :
    r = emitTypename (envOf c) t ∧ Step [⟨Γ, .typ t.name⟩] [] c c' ∧ c'.scopes = c.scopes := by
  unfold trTypename at h
  split at h
  · rename_i hos
    rw [Tr.pure_ok] at h
    obtain ⟨rfl, rfl⟩ := h
    refine ⟨by simp [emitTypename, hos], step_noop ?_ (by simp) (.inl hos), rfl⟩
    rintro x ⟨_, h2, m, rfl, hm | hm⟩ <;> cases hm
    exact h2 hos
  · split at h
    · rename_i hos hns
      simp only [Tr.bind_ok, Tr.get_ok, Tr.lift_ok, Tr.pure_ok] at h
      obtain ⟨x, c1, ⟨rfl, rfl⟩, b, c2, ⟨hb, rfl⟩, rfl, rfl⟩ := h
      have hti : typeInfo c2 t.name.name = some b := by simp [typeInfo, hb]
      refine ⟨?_, step_noop ?_ (by simp) (.inr (.inl ⟨hns, ?_⟩)), rfl⟩
      · simp only [emitTypename, hos, hns, if_false, ne_eq, not_true_eq_false, envOf, hti]
        cases b <;> simp [nsprefix_eq]
      · rintro y ⟨h1, h2, m, rfl, hm | hm⟩ <;> cases hm
        exact h1 hns
      · simp [envOf, hti]
    · rename_i hos hns
      simp only [Tr.bind_ok, Tr.get_ok, Tr.unwrap_ok] at h
      obtain ⟨x, c1, ⟨rfl, rfl⟩, i, c2, ⟨hi, rfl⟩, hd, c3, ⟨hhd, rfl⟩, m, c4, ⟨hm, rfl⟩, h⟩ := h
      rw [Tr.ite_ok] at h
      rcases h with ⟨_, h⟩ | ⟨hex, h⟩
      · simp [Tr.fail] at h
      · simp only [Tr.bind_ok, Tr.modify_ok, Tr.pure_ok] at h
        obtain ⟨_, c5, rfl, rfl, rfl⟩ := h
        have hex : exportsHas m.exports t.name.name = true := by simpa using hex
        refine ⟨?_, step_ns (.inr rfl) hns hos (.inr (.inr ⟨hns, ?_, ?_⟩)), rfl⟩
        · simp [emitTypename, hos, hns, envOf, hi, hhd, nsprefix_eq]
        · simp [envOf, hi, hhd]
        · simp [envOf, hi, hm, hex]

theorem trBareTypeform_spec {t : BareTypeform} {c c' : TrCtx} {r : CBareTypeform} (Γ : Scopes)
    (h : trBareTypeform t c = .ok (r, c')) :
    r = emitBare (envOf c) t ∧ Step [⟨Γ, .typ t.typename.name⟩] [] c c' ∧ c'.scopes = c.scopes := by
  simp only [trBareTypeform, Tr.bind_ok, Tr.pure_ok] at h
  obtain ⟨x, c1, hx, rfl, rfl⟩ := h
  obtain ⟨rfl, hs, he⟩ := trTypename_spec Γ hx
  exact ⟨rfl, hs, he⟩

/-- The mark left by an unqualified name. -/
theorem step_mark {c : TrCtx} {n : NsName} (hns : n.ns = "") {s' : List (List Binding)}
    (hm : markUse n.name c.scopes = some s') :
    Step [⟨scopesOf c.scopes, .val n⟩] [] c { c with scopes := s' } where
  head := rfl
  heads := rfl
  cmods := rfl
  mods := rfl
  structs := rfl
  others := rfl
  shape := by rw [growScopes_nil]; exact markUse_shape hm
  nodup := by rw [headNames_shape (markUse_shape hm)]; exact id
  ns := by
    intro x
    simp only [List.mem_singleton, exists_eq_left]
    constructor
    · exact .inl
    · rintro (h | ⟨h1, _, m, rfl, hm | hm⟩)
      · exact h
      · cases hm; exact absurd hns h1
      · cases hm
  customs := by intro x; simp
  used := by
    intro h x hu
    rcases markUse_used hm h x hu with h | ⟨rfl, h2⟩
    · exact .inl h
    · exact .inr ⟨_, List.mem_singleton.2 rfl, n, rfl, hns, rfl, h2⟩
  ok := by
    simp only [List.mem_singleton, forall_eq]
    refine .inr (.inl ⟨hns, .inl ?_⟩)
    rw [findBinding_lookup]
    cases hf : findBinding c.scopes n.name with
    | none => rw [markUse_none.2 hf] at hm; simp at hm
    | some b => simp

/-- A name that is only a symbol of the C library. -/
theorem step_builtin {c : TrCtx} {n : NsName} (hns : n.ns = "")
    (hb : (Cspec.findSym n.name).isSome = true) :
    Step [⟨scopesOf c.scopes, .val n⟩] [] c c := by
  refine step_noop ?_ (by simp) (.inr (.inl ⟨hns, .inr hb⟩))
  rintro x ⟨h1, _, m, rfl, hm | hm⟩ <;> cases hm
  exact h1 hns

theorem nelem_builtin : (Cspec.findSym "nelem").isSome = true := by decide +kernel

theorem trNsid_spec {n : NsName} {c c' : TrCtx} {r : String} (h : trNsid n c = .ok (r, c')) :
    r = emitName (envOf c) (scopesOf c.scopes) n ∧ Step [⟨scopesOf c.scopes, .val n⟩] [] c c' := by
  unfold trNsid at h
  rw [Tr.ite_ok] at h
  rcases h with ⟨hos, h⟩ | ⟨hos, h⟩
  · rw [Tr.pure_ok] at h
    obtain ⟨rfl, rfl⟩ := h
    refine ⟨by simp [emitName, hos], step_noop ?_ (by simp) (.inl hos)⟩
    rintro x ⟨_, h2, m, rfl, hm | hm⟩ <;> cases hm
    exact h2 hos
  · rw [Tr.ite_ok] at h
    rcases h with ⟨hns, h⟩ | ⟨hns, h⟩
    · simp only [Tr.bind_ok, Tr.modify_ok, Tr.get_ok, Tr.unwrap_ok] at h
      obtain ⟨_, c1, rfl, x, c2, ⟨rfl, rfl⟩, i, c3, ⟨hi, rfl⟩, hd, c4, ⟨hhd, rfl⟩, m, c5, ⟨hm, rfl⟩, h⟩ := h
      rw [Tr.ite_ok] at h
      rcases h with ⟨_, h⟩ | ⟨hex, h⟩
      · simp [Tr.fail] at h
      · rw [Tr.pure_ok] at h
        obtain ⟨rfl, rfl⟩ := h
        have hex : exportsHas m.exports n.name = true := by simpa using hex
        have hi' : getNsPos c n.ns = some i := hi
        simp only at hhd hm
        refine ⟨?_, step_ns (.inl rfl) hns hos (.inr (.inr ⟨hns, ?_, ?_⟩))⟩
        · simp [emitName, hos, hns, envOf, hi', hhd, nsprefix_eq]
        · simp [envOf, hi', hhd]
        · simp [envOf, hi', hm, hex]
    · have hns : n.ns = "" := by simpa using hns
      simp only [Tr.bind_ok, Tr.get_ok] at h
      obtain ⟨x, c1, ⟨rfl, rfl⟩, b, c2, hb, h⟩ := h
      rw [Tr.ite_ok] at h
      rcases h with ⟨_, h⟩ | ⟨hbt, h⟩
      · simp [Tr.fail] at h
      · rw [Tr.pure_ok] at h
        obtain ⟨rfl, rfl⟩ := h
        have hbt : b = true := by simpa using hbt
        subst hbt
        refine ⟨?_, ?_⟩
        · simp only [emitName, hns, findBinding_lookup]
          cases hf : findBinding c1.scopes n.name with
          | none => simp
          | some b => cases hp : b.ispub <;> simp [hp, envOf, nsprefix_eq]
        · unfold markBindingUse at hb
          split at hb
          · rename_i s' hs'
            simp only [Res.ok.injEq, Prod.mk.injEq, true_and] at hb
            subst hb
            exact step_mark hns hs'
          · simp only [Res.ok.injEq, Prod.mk.injEq] at hb
            obtain ⟨hb, rfl⟩ := hb
            apply step_builtin hns
            cases hsym : (Cspec.findSym n.name).isSome with
            | true => rfl
            | false =>
              rw [hsym] at hb
              simp only [Bool.false_or, beq_iff_eq] at hb
              rw [hb, nelem_builtin] at hsym
              exact absurd hsym (by simp)

theorem trNsidInExpr_spec {n : NsName} {c c' : TrCtx} {r : Ty × String}
    (h : trNsidInExpr n c = .ok (r, c')) :
    r.2 = emitName (envOf c) (scopesOf c.scopes) n ∧ Step [⟨scopesOf c.scopes, .val n⟩] [] c c' := by
  simp only [trNsidInExpr, Tr.bind_ok] at h
  obtain ⟨v, c1, hv, h⟩ := h
  obtain ⟨rfl, hs⟩ := trNsid_spec hv
  rw [Tr.ite_ok] at h
  rcases h with ⟨_, h⟩ | ⟨_, h⟩
  · rw [Tr.pure_ok] at h
    obtain ⟨rfl, rfl⟩ := h
    exact ⟨rfl, hs⟩
  · simp only [Tr.bind_ok, Tr.get_ok] at h
    obtain ⟨x, c2, ⟨rfl, rfl⟩, h⟩ := h
    rw [Tr.ite_ok] at h
    rcases h with ⟨_, h⟩ | ⟨_, h⟩
    · cases hf : findBinding c2.scopes n.name with
      | some b =>
        simp only [hf] at h
        rw [Tr.pure_ok] at h; obtain ⟨rfl, rfl⟩ := h; exact ⟨rfl, hs⟩
      | none =>
        simp only [hf] at h
        cases hg : Cspec.findSym n.name with
        | some b =>
          simp only [hg] at h
          rw [Tr.pure_ok] at h; obtain ⟨rfl, rfl⟩ := h; exact ⟨rfl, hs⟩
        | none => simp [hg, Tr.panic] at h
    · simp only [Tr.bind_ok, Tr.unwrap_ok] at h
      obtain ⟨i, c3, ⟨_, rfl⟩, m, c4, ⟨_, rfl⟩, t, c5, ht, h⟩ := h
      rw [Tr.pure_ok] at h
      obtain ⟨rfl, rfl⟩ := h
      have : c5 = c4 := by
        rw [typeofExport, Tr.ite_ok] at ht
        rcases ht with ⟨_, ht⟩ | ⟨_, ht⟩
        · rw [Tr.pure_ok] at ht; exact ht.2.symm
        · cases hf : m.exports.fns.find? (fun f => f.form.name == n.name) with
          | some b => simp only [hf] at ht; rw [Tr.pure_ok] at ht; exact ht.2.symm
          | none => simp [hf, Tr.panic] at ht
      subst this
      exact ⟨rfl, hs⟩

theorem occAt_append (Γ : Scopes) (a b : List Use) : occAt Γ (a ++ b) = occAt Γ a ++ occAt Γ b := by
  simp [occAt]

theorem occAt_cons (Γ : Scopes) (a : Use) (b : List Use) : occAt Γ (a :: b) = ⟨Γ, a⟩ :: occAt Γ b := rfl

/-- Two translations in a row, in the same scopes. -/
theorem Step.seq {Γ : Scopes} {u1 u2 : List Use} {c c1 c2 : TrCtx} (h1 : Step (occAt Γ u1) [] c c1)
    (h2 : Step (occAt Γ u2) [] c1 c2) : Step (occAt Γ (u1 ++ u2)) [] c c2 := by
  rw [occAt_append]; exact h1.trans0 h2

theorem step_calloc {c : TrCtx} {Γ : Scopes} :
    Step [⟨Γ, .calloc⟩] [] c { c with usedCustoms := "calloc_or_panic" :: c.usedCustoms } where
  head := rfl
  heads := rfl
  cmods := rfl
  mods := rfl
  structs := rfl
  others := rfl
  shape := (growScopes_nil _).symm
  nodup := id
  ns := by
    intro x
    simp only [List.mem_singleton, exists_eq_left]
    constructor
    · exact .inl
    · rintro (h | ⟨_, _, m, _, hm | hm⟩)
      · exact h
      · cases hm
      · cases hm
  customs := by
    intro x
    constructor
    · intro h
      rcases List.mem_cons.1 h with h | h
      · exact .inr ⟨h, _, List.mem_singleton.2 rfl, rfl⟩
      · exact .inl h
    · rw [List.mem_cons]
      rintro (h | ⟨h, _⟩)
      · exact .inr h
      · exact .inl h
  used := fun _ _ h => .inl h
  ok := by simp [OccOk]

theorem trKey_spec {k : Option Expr} {c c' : TrCtx} {r : Option CExpr}
    (h : trKey k c = .ok (r, c')) : r = emitKey k ∧ c' = c := by
  match k with
  | none => simp only [trKey, Tr.pure_ok] at h; exact ⟨h.1.symm, h.2.symm⟩
  | some (.name n) =>
    simp only [trKey] at h
    rw [Tr.ite_ok] at h
    rcases h with ⟨_, h⟩ | ⟨_, h⟩
    · simp [Tr.panic] at h
    · rw [Tr.pure_ok] at h; exact ⟨h.1.symm, h.2.symm⟩
  | some (.lit _) | some (.arrIndex _ _) | some (.binaryOp _ _ _ _) | some (.fieldAccess _ _ _ _)
  | some (.cast _ _) | some (.compLit _) | some (.call _ _ _) | some (.postfixOp _ _)
  | some (.prefixOp _ _ _) | some (.sizeofType _) | some (.sizeofExpr _) =>
    simp [trKey, Tr.panic] at h

/-- What is proved about the translation of each kind of term. -/
abbrev ExprSpec (c c' : TrCtx) (us : List Use) : Prop := Step (occAt (scopesOf c.scopes) us) [] c c'

/-- Compose two expression steps. -/
theorem ExprSpec.seq {c c1 c2 : TrCtx} {u1 u2 : List Use} (h1 : ExprSpec c c1 u1)
    (h2 : ExprSpec c1 c2 u2) : ExprSpec c c2 (u1 ++ u2) := by
  unfold ExprSpec at *
  rw [h1.scopes_nil] at h2
  exact Step.seq h1 h2

mutual
theorem trExpr_spec : ∀ (e : Expr) {c c' : TrCtx} {r : Ty × CExpr}, trExpr e c = .ok (r, c') →
    r.2 = emitE (envOf c) (scopesOf c.scopes) e ∧ ExprSpec c c' (usesE e)
  | .lit l, c, c', r, h => by
    simp only [trExpr, Tr.pure_ok] at h
    obtain ⟨rfl, rfl⟩ := h
    exact ⟨by cases l <;> rfl, Step.refl⟩
  | .name n, c, c', r, h => by
    simp only [trExpr, Tr.bind_ok, Tr.pure_ok] at h
    obtain ⟨⟨t, v⟩, c1, hn, rfl, rfl⟩ := h
    obtain ⟨h1, h2⟩ := trNsidInExpr_spec hn
    exact ⟨by simp only [emitE]; rw [← h1], h2⟩
  | .arrIndex a i, c, c', r, h => by
    simp only [trExpr, Tr.bind_ok, Tr.pure_ok, Tr.lift_ok] at h
    obtain ⟨⟨t, v⟩, c1, ha, ⟨t2, v2⟩, c2, hi, t3, c3, ⟨_, rfl⟩, rfl, rfl⟩ := h
    obtain ⟨h1, h2⟩ := trExpr_spec a ha
    obtain ⟨h3, h4⟩ := trExpr_spec i hi
    rw [h2.env, h2.scopes_nil] at h3
    exact ⟨by simp only [emitE]; rw [← h1, ← h3], by rw [usesE]; exact h2.seq h4⟩
  | .binaryOp pos op a b, c, c', r, h => by
    simp only [trExpr, Tr.bind_ok, Tr.get_ok] at h
    obtain ⟨⟨t, v⟩, c1, ha, ⟨t2, v2⟩, c2, hb, x, c3, ⟨rfl, rfl⟩, h⟩ := h
    obtain ⟨h1, h2⟩ := trExpr_spec a ha
    obtain ⟨h3, h4⟩ := trExpr_spec b hb
    rw [h2.env, h2.scopes_nil] at h3
    have : r.2 = .binaryOp op v v2 ∧ c' = c3 := by
      cases hb : typeofBinop c3 op t t2 with
      | ok a => simp only [hb] at h; rw [Tr.pure_ok] at h; exact ⟨by rw [← h.1], h.2.symm⟩
      | err e =>
        simp only [hb] at h
        rw [Tr.ite_ok] at h
        rcases h with ⟨_, h⟩ | ⟨_, h⟩
        · simp [Tr.panic] at h
        · simp [Tr.fail] at h
      | panic m => simp [hb, Tr.panic] at h
      | diverge => simp [hb, Tr.diverge] at h
    obtain ⟨h5, rfl⟩ := this
    exact ⟨by rw [h5]; simp only [emitE]; rw [← h1, ← h3], by rw [usesE]; exact h2.seq h4⟩
  | .fieldAccess pos op t f, c, c', r, h => by
    simp only [trExpr, Tr.bind_ok, Tr.pure_ok, Tr.get_ok] at h
    obtain ⟨⟨tt, v⟩, c1, ht, x, c2, ⟨rfl, rfl⟩, rfl, rfl⟩ := h
    obtain ⟨h1, h2⟩ := trExpr_spec t ht
    exact ⟨by simp only [emitE]; rw [← h1], h2⟩
  | .compLit es, c, c', r, h => by
    simp only [trExpr, Tr.bind_ok, Tr.pure_ok] at h
    obtain ⟨v, c1, hv, rfl, rfl⟩ := h
    obtain ⟨h1, h2⟩ := trEntries_spec es hv
    exact ⟨by simp only [emitE]; rw [← h1], h2⟩
  | .prefixOp pos op e, c, c', r, h => by
    simp only [trExpr, Tr.bind_ok, Tr.pure_ok, Tr.lift_ok] at h
    obtain ⟨⟨t, v⟩, c1, hv, t2, c2, ⟨_, rfl⟩, rfl, rfl⟩ := h
    obtain ⟨h1, h2⟩ := trExpr_spec e hv
    exact ⟨by simp only [emitE]; rw [← h1], h2⟩
  | .postfixOp op e, c, c', r, h => by
    simp only [trExpr, Tr.bind_ok] at h
    obtain ⟨⟨t, v⟩, c1, hv, h⟩ := h
    obtain ⟨h1, h2⟩ := trExpr_spec e hv
    rw [Tr.ite_ok] at h
    rcases h with ⟨_, h⟩ | ⟨_, h⟩
    · rw [Tr.pure_ok] at h
      obtain ⟨rfl, rfl⟩ := h
      exact ⟨by simp only [emitE]; rw [← h1], h2⟩
    · simp [Tr.panic] at h
  | .cast tf e, c, c', r, h => by
    simp only [trExpr, Tr.bind_ok, Tr.pure_ok] at h
    obtain ⟨⟨t, v⟩, c1, hv, ct, c2, hct, rfl, rfl⟩ := h
    obtain ⟨h1, h2⟩ := trExpr_spec e hv
    obtain ⟨h3, h4, _⟩ := trBareTypeform_spec (scopesOf c1.scopes) hct
    rw [h2.env] at h3
    refine ⟨by simp only [emitE]; rw [← h1, ← h3], ?_⟩
    rw [usesE]
    exact h2.seq h4
  | .call pos f args, c, c', r, h => by
    rw [trExpr, Tr.ite_ok] at h
    rcases h with ⟨hc, h⟩ | ⟨hc, h⟩
    · simp only [Tr.bind_ok, Tr.modify_ok, Tr.get_ok, Tr.lift_ok, Tr.pure_ok] at h
      obtain ⟨_, c1, rfl, targs, c2, ha, ⟨ft, fv⟩, c3, hf, x, c4, ⟨rfl, rfl⟩, t, c5, ⟨_, rfl⟩, rfl, rfl⟩ := h
      obtain ⟨h1, h2⟩ := trArgs_spec args ha
      obtain ⟨h3, h4⟩ := trNsidInExpr_spec hf
      have h0 : ExprSpec c { c with usedCustoms := "calloc_or_panic" :: c.usedCustoms } [.calloc] :=
        step_calloc
      rw [h0.env, h0.scopes_nil] at h1
      have h02 := h0.seq h2
      rw [h02.env, h02.scopes_nil] at h3
      refine ⟨?_, ?_⟩
      · rw [emitE, if_pos hc]; simp only; rw [← h1]; simp only at h3; rw [h3]
      · rw [usesE, if_pos hc]
        exact h02.seq (u2 := [.val { ns := "", name := "calloc_or_panic", pos := pos }]) h4
    · simp only [Tr.bind_ok, Tr.get_ok, Tr.lift_ok, Tr.pure_ok] at h
      obtain ⟨targs, c2, ha, ⟨ft, fv⟩, c3, hf, x, c4, ⟨rfl, rfl⟩, t, c5, ⟨_, rfl⟩, rfl, rfl⟩ := h
      obtain ⟨h1, h2⟩ := trArgs_spec args ha
      obtain ⟨h3, h4⟩ := trExpr_spec f hf
      rw [h2.env, h2.scopes_nil] at h3
      refine ⟨?_, ?_⟩
      · rw [emitE, if_neg hc]; simp only; rw [← h1]; simp only at h3; rw [h3]
      · rw [usesE, if_neg hc]; exact h2.seq h4
  | .sizeofType t, c, c', r, h => by
    simp only [trExpr, Tr.bind_ok, Tr.pure_ok] at h
    obtain ⟨ct, c1, hct, rfl, rfl⟩ := h
    obtain ⟨h3, h4, _⟩ := trBareTypeform_spec (scopesOf c.scopes) hct
    exact ⟨by simp only [emitE]; rw [← h3], h4⟩
  | .sizeofExpr e, c, c', r, h => by
    simp only [trExpr, Tr.bind_ok, Tr.pure_ok] at h
    obtain ⟨⟨t, v⟩, c1, hv, rfl, rfl⟩ := h
    obtain ⟨h1, h2⟩ := trExpr_spec e hv
    exact ⟨by simp only [emitE]; rw [← h1], h2⟩
theorem trArgs_spec : ∀ (es : List Expr) {c c' : TrCtx} {r : List (Ty × CExpr)},
    trArgs es c = .ok (r, c') →
    r.map (·.2) = emitArgs (envOf c) (scopesOf c.scopes) es ∧ ExprSpec c c' (usesArgs es)
  | [], c, c', r, h => by
    simp only [trArgs, Tr.pure_ok] at h
    obtain ⟨rfl, rfl⟩ := h
    exact ⟨rfl, Step.refl⟩
  | e :: es, c, c', r, h => by
    simp only [trArgs, Tr.bind_ok, Tr.pure_ok] at h
    obtain ⟨x, c1, hx, xs, c2, hxs, rfl, rfl⟩ := h
    obtain ⟨h1, h2⟩ := trExpr_spec e hx
    obtain ⟨h3, h4⟩ := trArgs_spec es hxs
    rw [h2.env, h2.scopes_nil] at h3
    exact ⟨by simp only [emitArgs, List.map_cons, h1, h3], by rw [usesArgs]; exact h2.seq h4⟩
theorem trEntries_spec : ∀ (es : List Entry) {c c' : TrCtx} {r : List CEntry},
    trEntries es c = .ok (r, c') →
    r = emitEntries (envOf c) (scopesOf c.scopes) es ∧ ExprSpec c c' (usesEntries es)
  | [], c, c', r, h => by
    simp only [trEntries, Tr.pure_ok] at h
    obtain ⟨rfl, rfl⟩ := h
    exact ⟨rfl, Step.refl⟩
  | e :: es, c, c', r, h => by
    simp only [trEntries, Tr.bind_ok, Tr.pure_ok] at h
    obtain ⟨x, c1, hx, xs, c2, hxs, rfl, rfl⟩ := h
    obtain ⟨h1, h2⟩ := trEntry_spec e hx
    obtain ⟨h3, h4⟩ := trEntries_spec es hxs
    rw [h2.env, h2.scopes_nil] at h3
    exact ⟨by simp only [emitEntries, h1, h3], by rw [usesEntries]; exact h2.seq h4⟩
theorem trEntry_spec : ∀ (e : Entry) {c c' : TrCtx} {r : CEntry},
    trEntry e c = .ok (r, c') →
    r = emitEntry (envOf c) (scopesOf c.scopes) e ∧ ExprSpec c c' (usesEntry e)
  | .mk isIndex key v, c, c', r, h => by
    simp only [trEntry, Tr.bind_ok, Tr.pure_ok] at h
    obtain ⟨k, c1, hk, ⟨t, x⟩, c2, hx, rfl, rfl⟩ := h
    obtain ⟨rfl, rfl⟩ := trKey_spec hk
    obtain ⟨h1, h2⟩ := trExpr_spec v hx
    exact ⟨by simp only [emitEntry]; rw [← h1], h2⟩
end

theorem trOptExpr_spec {e : Option Expr} {c c' : TrCtx} {r : Option CExpr}
    (h : trOptExpr e c = .ok (r, c')) :
    r = emitOptE (envOf c) (scopesOf c.scopes) e ∧ ExprSpec c c' (usesOpt e) := by
  cases e with
  | none =>
    simp only [trOptExpr, Tr.pure_ok] at h
    obtain ⟨rfl, rfl⟩ := h
    exact ⟨rfl, Step.refl⟩
  | some e =>
    simp only [trOptExpr, Tr.bind_ok, Tr.pure_ok] at h
    obtain ⟨⟨t, v⟩, c1, hv, rfl, rfl⟩ := h
    obtain ⟨h1, h2⟩ := trExpr_spec e hv
    exact ⟨by simp only [emitOptE]; rw [← h1], h2⟩

theorem trIndexes_spec : ∀ (es : List (Option Expr)) {c c' : TrCtx} {r : List (Option CExpr)},
    trIndexes es c = .ok (r, c') →
    r = es.map (emitOptE (envOf c) (scopesOf c.scopes)) ∧ ExprSpec c c' (usesIndexes es)
  | [], c, c', r, h => by
    simp only [trIndexes, Tr.pure_ok] at h
    obtain ⟨rfl, rfl⟩ := h
    exact ⟨rfl, Step.refl⟩
  | e :: es, c, c', r, h => by
    simp only [trIndexes, Tr.bind_ok, Tr.pure_ok] at h
    obtain ⟨x, c1, hx, xs, c2, hxs, rfl, rfl⟩ := h
    obtain ⟨h1, h2⟩ := trOptExpr_spec hx
    obtain ⟨h3, h4⟩ := trIndexes_spec es hxs
    rw [h2.env, h2.scopes_nil] at h3
    exact ⟨by simp only [List.map_cons, h1, h3], by rw [usesIndexes]; exact h2.seq h4⟩

theorem trForm_spec {f : Form} {pub : Bool} {c c' : TrCtx} {r : CForm}
    (h : trForm f pub c = .ok (r, c')) :
    r = emitFormAs (envOf c) (scopesOf c.scopes) f
      (if pub then declName (envOf c) (scopesOf c.scopes) f.name else f.name) ∧
    ExprSpec c c' (usesForm f) := by
  simp only [trForm, Tr.bind_ok, Tr.pure_ok, Tr.get_ok] at h
  obtain ⟨ix, c1, hix, x, c2, ⟨rfl, rfl⟩, rfl, rfl⟩ := h
  obtain ⟨h1, h2⟩ := trIndexes_spec f.indexes hix
  refine ⟨?_, h2⟩
  have hl : lookup (scopesOf c.scopes) f.name = (findBinding c2.scopes f.name).map (·.ispub) := by
    rw [← h2.scopes_nil, findBinding_lookup]
  have hu : c2.thisModHead = c.thisModHead := h2.head
  rw [h1]
  unfold emitFormAs declName
  rw [hl, hu]
  cases hf : findBinding c2.scopes f.name with
  | none => simp
  | some b => cases pub <;> cases hp : b.ispub <;> simp [hp, nsprefix_eq, envOf]

end Che
