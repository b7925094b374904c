import Verif.Proofs.TrStmt
import Verif.Spec.ModuleEnv
/-!
# Modules: the translator produces what the specification says
-/
namespace Che
open Spec

/-! ## Module elements -/

theorem trList_spec {α β} {f : α → Tr β} {E : ModEnv → Scopes → α → β} {U : α → List Use}
    (hf : ∀ {x c c' r}, f x c = .ok (r, c') → r = E (envOf c) (scopesOf c.scopes) x ∧
      ExprSpec c c' (U x)) :
    ∀ (xs : List α) {c c' : TrCtx} {r : List β}, trList f xs c = .ok (r, c') →
    r = xs.map (E (envOf c) (scopesOf c.scopes)) ∧ ExprSpec c c' (xs.flatMap U)
  | [], c, c', r, h => by
    simp only [trList, Tr.pure_ok] at h
    obtain ⟨rfl, rfl⟩ := h
    exact ⟨rfl, Step.refl⟩
  | x :: xs, c, c', r, h => by
    simp only [trList, Tr.bind_ok, Tr.pure_ok] at h
    obtain ⟨y, c1, hy, ys, c2, hys, rfl, rfl⟩ := h
    obtain ⟨rfl, h2⟩ := hf hy
    obtain ⟨h3, h4⟩ := trList_spec hf xs hys
    rw [h2.env, h2.scopes_nil] at h3
    exact ⟨by rw [h3, List.map_cons], by rw [List.flatMap_cons]; exact h2.seq h4⟩

theorem trBareTypeform_spec' {x : BareTypeform} {c c' : TrCtx} {r : CBareTypeform}
    (h : trBareTypeform x c = .ok (r, c')) :
    r = (fun M (_ : Scopes) => emitBare M) (envOf c) (scopesOf c.scopes) x ∧
    ExprSpec c c' [Use.typ x.typename.name] := by
  obtain ⟨rfl, h2, _⟩ := trBareTypeform_spec (scopesOf c.scopes) h
  exact ⟨rfl, h2⟩

/-- The types mentioned by anonymous parameters. -/
def usesAnon : Option AnonParams → List Use
  | some p => p.forms.map (fun b => Use.typ b.typename.name)
  | none => []

theorem trAnonParams_spec {p : Option AnonParams} {c c' : TrCtx} {r : Option CAnonParams}
    (h : trAnonParams p c = .ok (r, c')) :
    r = p.map (fun p => { ellipsis := p.ellipsis, forms := p.forms.map (emitBare (envOf c)) }) ∧
    ExprSpec c c' (usesAnon p) := by
  cases p with
  | none =>
    simp only [trAnonParams, Tr.pure_ok] at h
    obtain ⟨rfl, rfl⟩ := h
    exact ⟨rfl, Step.refl⟩
  | some p =>
    simp only [trAnonParams, Tr.bind_ok, Tr.pure_ok] at h
    obtain ⟨fs, c1, hf, rfl, rfl⟩ := h
    obtain ⟨rfl, h2⟩ := trList_spec (E := fun M _ => emitBare M)
      (U := fun b => [Use.typ b.typename.name]) (fun h => trBareTypeform_spec' h) p.forms hf
    refine ⟨rfl, ?_⟩
    rwa [← List.map_eq_flatMap] at h2

theorem trTypedef_spec {x : Typedef} {c c' : TrCtx} {r : List CModElem}
    (h : trTypedef x c = .ok (r, c')) :
    r = emitElem (envOf c) (scopesOf c.scopes) (.typedef x) ∧
    StmtSpec c c' (occElem (scopesOf c.scopes) (.typedef x)) [] [] := by
  simp only [trTypedef, Tr.bind_ok, Tr.get_ok, Tr.pure_ok] at h
  obtain ⟨ps, c1, hp, y, c2, ⟨rfl, rfl⟩, t, c3, ht, rfl, rfl⟩ := h
  obtain ⟨rfl, h2⟩ := trAnonParams_spec hp
  obtain ⟨rfl, h4, _⟩ := trTypename_spec (scopesOf c2.scopes) ht
  have hu : c2.thisModHead = c.thisModHead := h2.head
  refine ⟨?_, ?_⟩
  · simp only [emitElem, h2.env, pubName, hu, nsprefix_eq]
    rfl
  · have h5 := StmtSpec.ofExpr (h2.seq (u2 := [.typ x.typename.name]) h4)
    cases hq : x.funcParams <;> simpa [occElem, hq, usesAnon] using h5

theorem trUnion_spec {u : UnionDef} {c c' : TrCtx} {r : CUnion} (h : trUnion u c = .ok (r, c')) :
    r = { form := emitForm (envOf c) (scopesOf c.scopes) u.form,
          fields := u.fields.map (fun f => emitTypeForm (envOf c) (scopesOf c.scopes) f.typename f.form) } ∧
    ExprSpec c c' (usesForm u.form ++ u.fields.flatMap (fun f => usesTypeForm f.typename f.form)) := by
  simp only [trUnion, Tr.bind_ok, Tr.pure_ok] at h
  obtain ⟨f, c1, hf, fs, c2, hfs, rfl, rfl⟩ := h
  obtain ⟨rfl, h2⟩ := trForm_local hf
  obtain ⟨h3, h4⟩ := trList_spec (E := fun M Γ (f : UnionField) => emitTypeForm M Γ f.typename f.form)
    (U := fun f => usesTypeForm f.typename f.form) (fun h => trTypeForm_spec h) u.fields hfs
  rw [h2.env, h2.scopes_nil] at h3
  exact ⟨by rw [h3], h2.seq h4⟩

theorem trStructEntry_spec {x : StructEntry} {c c' : TrCtx} {r : List CStructItem}
    (h : trStructEntry x c = .ok (r, c')) :
    r = emitStructEntry (envOf c) (scopesOf c.scopes) x ∧ ExprSpec c c' (usesStructEntry x) := by
  cases x with
  | plain x =>
    simp only [trStructEntry, Tr.bind_ok, Tr.pure_ok] at h
    obtain ⟨fs, c1, hf, rfl, rfl⟩ := h
    obtain ⟨rfl, h2⟩ := trList_spec (E := fun M Γ => emitTypeForm M Γ x.typename)
      (U := usesTypeForm x.typename) (fun h => trTypeForm_spec h) x.forms hf
    exact ⟨by simp [emitStructEntry, Function.comp_def], h2⟩
  | union u =>
    simp only [trStructEntry, Tr.bind_ok, Tr.pure_ok] at h
    obtain ⟨cu, c1, hu, rfl, rfl⟩ := h
    obtain ⟨rfl, h2⟩ := trUnion_spec hu
    exact ⟨rfl, h2⟩

theorem trStructTypedef_spec {x : StructTypedef} {c c' : TrCtx} {r : List CModElem}
    (h : trStructTypedef x c = .ok (r, c')) :
    r = emitElem (envOf c) (scopesOf c.scopes) (.structTypedef x) ∧
    StmtSpec c c' (occElem (scopesOf c.scopes) (.structTypedef x)) [] [] := by
  simp only [trStructTypedef, Tr.bind_ok, Tr.get_ok, Tr.pure_ok] at h
  obtain ⟨y, c2, ⟨rfl, rfl⟩, fs, c1, hf, rfl, rfl⟩ := h
  obtain ⟨rfl, h2⟩ := trList_spec (fun h => trStructEntry_spec h) x.entries hf
  refine ⟨?_, StmtSpec.ofExpr h2⟩
  simp only [emitElem, pubName, nsprefix_eq, List.flatMap]
  rfl

theorem trEnumEntry_spec {isPub : Bool} {e : EnumEntry} {c c' : TrCtx} {r : CEnumEntry}
    (h : trEnumEntry isPub e c = .ok (r, c')) :
    r = (fun M Γ (e : EnumEntry) => { id := pubName M isPub e.name, value := emitOptE M Γ e.val })
      (envOf c) (scopesOf c.scopes) e ∧
    ExprSpec c c' (usesOpt e.val) := by
  simp only [trEnumEntry, Tr.bind_ok, Tr.get_ok, Tr.pure_ok] at h
  obtain ⟨y, c2, ⟨rfl, rfl⟩, v, c1, hv, rfl, rfl⟩ := h
  obtain ⟨rfl, h2⟩ := trOptExpr_spec hv
  exact ⟨rfl, h2⟩

theorem trEnum_spec {x : EnumDef} {c c' : TrCtx} {r : List CModElem}
    (h : trEnum x c = .ok (r, c')) :
    r = emitElem (envOf c) (scopesOf c.scopes) (.enum x) ∧
    StmtSpec c c' (occElem (scopesOf c.scopes) (.enum x)) [] [] := by
  simp only [trEnum, Tr.bind_ok, Tr.pure_ok] at h
  obtain ⟨es, c1, he, rfl, rfl⟩ := h
  obtain ⟨rfl, h2⟩ := trList_spec
    (E := fun M Γ (e : EnumEntry) =>
      ({ id := pubName M x.isPub e.name, value := emitOptE M Γ e.val } : CEnumEntry))
    (U := fun e => usesOpt e.val) (fun h => trEnumEntry_spec h) x.entries he
  exact ⟨rfl, StmtSpec.ofExpr h2⟩

theorem trModVar_spec {d : VarDecl} {c c' : TrCtx} {r : List CModElem}
    (h : trModVar d c = .ok (r, c')) :
    r = emitElem (envOf c) (scopesOf c.scopes) (.modVar d) ∧
    StmtSpec c c' (occElem (scopesOf c.scopes) (.modVar d)) [] [] ∧ d.value.isSome = true := by
  simp only [trModVar, Tr.bind_ok] at h
  obtain ⟨t, c1, ht, f, c2, hf, h⟩ := h
  obtain ⟨rfl, h2, _⟩ := trTypename_spec (scopesOf c.scopes) ht
  obtain ⟨h3, h4⟩ := trForm_spec hf
  rw [if_pos rfl, h2.env, h2.scopes_nil] at h3
  cases hv : d.value with
  | none => simp [hv, Tr.panic] at h
  | some e =>
    simp only [hv, Tr.bind_ok, Tr.pure_ok] at h
    obtain ⟨⟨ty, v⟩, c3, he, rfl, rfl⟩ := h
    obtain ⟨h5, h6⟩ := trExpr_spec e he
    rw [h4.env, h4.scopes_nil, h2.env, h2.scopes_nil] at h5
    refine ⟨by simp only [emitElem, hv]; rw [h3, ← h5], ?_, rfl⟩
    have : usesVar d = .typ d.typename.name :: (usesForm d.form ++ usesE e) := by
      simp [usesVar, hv, usesOpt]
    rw [occElem, this]
    exact StmtSpec.ofExpr (ExprSpec.cons h2 (h4.seq h6))

theorem flatMap_flatten {α β} (f : α → List β) (l : List α) : (l.map f).flatten = l.flatMap f := rfl

theorem trFuncParams_spec {x : FuncParams} {c c' : TrCtx} {r : CFuncParams}
    (h : trFuncParams x c = .ok (r, c')) :
    r = emitParams (envOf c) (scopesOf c.scopes) x ∧ ExprSpec c c' (usesParams x) := by
  simp only [trFuncParams, Tr.bind_ok, Tr.pure_ok] at h
  obtain ⟨ps, c1, hp, rfl, rfl⟩ := h
  obtain ⟨rfl, h2⟩ := trList_spec
    (E := fun M Γ (p : TypeAndForms) => p.forms.map (emitTypeForm M Γ p.typename))
    (U := fun p => p.forms.flatMap (usesTypeForm p.typename))
    (fun {x _ _ _} h => trList_spec (E := fun M Γ => emitTypeForm M Γ x.typename)
      (U := usesTypeForm x.typename) (fun h => trTypeForm_spec h) x.forms h) x.list hp
  exact ⟨rfl, h2⟩

theorem bindForms_spec (t : Typename) : ∀ (fs : List Form) {c c' : TrCtx} {r : List Unit},
    trList (fun (f : Form) => addBinding f.name f.pos false (typefromTypename t f)) fs c = .ok (r, c') →
    StmtSpec c c' [] (fs.map (fun f => (f.name, false))) []
  | [], c, c', r, h => by
    simp only [trList, Tr.pure_ok] at h
    obtain ⟨rfl, rfl⟩ := h
    exact ⟨⟨[], rfl, Step.refl⟩, by simp⟩
  | x :: xs, c, c', r, h => by
    simp only [trList, Tr.bind_ok, Tr.pure_ok] at h
    obtain ⟨y, c1, hy, ys, c2, hys, rfl, rfl⟩ := h
    have h1 : StmtSpec c c1 [] [(x.name, false)] [] := ⟨⟨_, rfl, addBinding_spec hy⟩, by simp⟩
    exact h1.trans (bindForms_spec t xs hys)

theorem bindParamsLoop_spec : ∀ (ps : List TypeAndForms) {c c' : TrCtx} {r : List (List Unit)},
    trList (fun (p : TypeAndForms) =>
      trList (fun (f : Form) => addBinding f.name f.pos false (typefromTypename p.typename f))
        p.forms) ps c = .ok (r, c') →
    StmtSpec c c' [] (ps.flatMap (fun p => p.forms.map (fun f => (f.name, false)))) []
  | [], c, c', r, h => by
    simp only [trList, Tr.pure_ok] at h
    obtain ⟨rfl, rfl⟩ := h
    exact ⟨⟨[], rfl, Step.refl⟩, by simp⟩
  | x :: xs, c, c', r, h => by
    simp only [trList.eq_2, Tr.bind_ok, Tr.pure_ok] at h
    obtain ⟨y, c1, hy, ys, c2, hys, rfl, rfl⟩ := h
    exact (bindForms_spec _ _ hy).trans (bindParamsLoop_spec xs hys)

theorem bindParams_spec {ps : FuncParams} {c c' : TrCtx} {u : Unit}
    (h : bindParams ps c = .ok (u, c')) : StmtSpec c c' [] (declParams ps) [] := by
  simp only [bindParams, Tr.bind_ok, Tr.pure_ok] at h
  obtain ⟨r, c1, hr, _, rfl⟩ := h
  exact bindParamsLoop_spec _ hr

/-- The head of a function: type, form, parameters. -/
theorem funcHead_spec {x : FuncDecl} {c c1 c2 c3 : TrCtx} {t : CTypename} {f : CForm}
    {ps : CFuncParams} (h1 : trTypename x.typename c = .ok (t, c1))
    (h2 : trForm x.form true c1 = .ok (f, c2)) (h3 : trFuncParams x.params c2 = .ok (ps, c3)) :
    t = emitTypename (envOf c) x.typename ∧
    f = emitFormAs (envOf c) (scopesOf c.scopes) x.form
      (declName (envOf c) (scopesOf c.scopes) x.form.name) ∧
    ps = emitParams (envOf c) (scopesOf c.scopes) x.params ∧
    ExprSpec c c3 (.typ x.typename.name :: (usesForm x.form ++ usesParams x.params)) := by
  obtain ⟨rfl, s1, _⟩ := trTypename_spec (scopesOf c.scopes) h1
  obtain ⟨e2, s2⟩ := trForm_spec h2
  obtain ⟨e3, s3⟩ := trFuncParams_spec h3
  rw [if_pos rfl, s1.env, s1.scopes_nil] at e2
  rw [s2.env, s2.scopes_nil, s1.env, s1.scopes_nil] at e3
  exact ⟨rfl, e2, e3, ExprSpec.cons s1 (s2.seq s3)⟩

theorem trFuncDecl_spec {x : FuncDecl} {c c' : TrCtx} {r : List CModElem}
    (h : trFuncDecl x c = .ok (r, c')) :
    r = emitElem (envOf c) (scopesOf c.scopes) (.funcDecl x) ∧
    StmtSpec c c' (occElem (scopesOf c.scopes) (.funcDecl x)) []
      (regElem (scopesOf c.scopes) (.funcDecl x)) ∧
    ((isVoid x.typename = true ∧ x.form.hops ≠ 1) ∨ bodyReturns x.body = true) := by
  simp only [trFuncDecl, Tr.bind_ok] at h
  obtain ⟨r', cE, h, hret⟩ := h
  rw [Tr.ite_ok] at hret
  rcases hret with ⟨_, h'⟩ | ⟨hret, h'⟩
  · simp [Tr.fail] at h'
  rw [Tr.pure_ok] at h'
  obtain ⟨rfl, rfl⟩ := h'
  have hret' : (isVoid x.typename = true ∧ x.form.hops ≠ 1) ∨ bodyReturns x.body = true := by
    cases h1 : isVoid x.typename <;> cases h2 : bodyReturns x.body <;> simp_all
  obtain ⟨c9, h, hend⟩ := inScope_ok.1 h
  simp only [Tr.bind_ok] at h
  obtain ⟨_, c1, hb, bb, c2, hbody, t, c3, ht, f, c4, hf, ps, c5, hps, h⟩ := h
  have s0 := bindParams_spec hb
  obtain ⟨eb, sb⟩ := block_spec (trStmts_spec x.body) hbody
  have hsc1 : scopesOf c1.scopes = declParams x.params :: scopesOf c.scopes := by
    rw [s0.scopes]; rfl
  have he1 : envOf c1 = envOf c := by rw [s0.env, envOf_scopes]
  rw [he1, hsc1] at eb
  rw [hsc1] at sb
  have hsc2 : scopesOf c2.scopes = declParams x.params :: scopesOf c.scopes := by
    rw [sb.scopes_nil, hsc1]
  have he2 : envOf c2 = envOf c := by rw [sb.env, he1]
  obtain ⟨e1, e2, e3, s1⟩ := funcHead_spec ht hf hps
  rw [he2] at e1
  rw [he2, hsc2] at e2 e3
  have s1' := ofExprAt hsc2 s1
  refine ⟨?_, ?_, hret'⟩
  · rw [Tr.ite_ok] at h
    rcases h with ⟨hm, h⟩ | ⟨hm, h⟩
    · simp only [Tr.bind_ok, Tr.pure_ok] at h
      obtain ⟨t', c6, ht', f', c7, hf', ps', c8, hps', rfl, rfl⟩ := h
      obtain ⟨e1', e2', e3', s2⟩ := funcHead_spec ht' hf' hps'
      have he5 : envOf c5 = envOf c := by rw [s1.env, he2]
      have hsc5 : scopesOf c5.scopes = declParams x.params :: scopesOf c.scopes := by
        rw [s1.scopes_nil, hsc2]
      rw [he5] at e1'
      rw [he5, hsc5] at e2' e3'
      subst e1 e2 e3 e1' e2' e3' eb
      simp only [emitElem, if_neg hm]
      rfl
    · rw [Tr.pure_ok] at h
      obtain ⟨rfl, rfl⟩ := h
      have hm : x.form.name = "main" := by simpa using hm
      subst e1 e2 e3 eb
      simp only [emitElem, if_pos hm]
      rfl
  · have key : StmtSpec { c with scopes := [] :: c.scopes } c9 (occFunc (scopesOf c.scopes) x)
        (declParams x.params) (blockRegion (declParams x.params :: scopesOf c.scopes) x.body ::
          regSs ([] :: declParams x.params :: scopesOf c.scopes) x.body) := by
      have s05 := (s0.trans sb).trans s1'
      rw [Tr.ite_ok] at h
      rcases h with ⟨hm, h⟩ | ⟨hm, h⟩
      · simp only [Tr.bind_ok, Tr.pure_ok] at h
        obtain ⟨t', c6, ht', f', c7, hf', ps', c8, hps', _, rfl⟩ := h
        obtain ⟨e1', e2', e3', s2⟩ := funcHead_spec ht' hf' hps'
        have hsc5 : scopesOf c5.scopes = declParams x.params :: scopesOf c.scopes := by
          rw [s1.scopes_nil, hsc2]
        have s2' := ofExprAt hsc5 s2
        refine (s05.trans s2').congr ?_ ?_ ?_
        · simp only [occFunc]; mem_tac
        · simp
        · mem_tac
      · rw [Tr.pure_ok] at h
        obtain ⟨rfl, rfl⟩ := h
        refine s05.congr ?_ ?_ ?_
        · simp only [occFunc]; mem_tac
        · simp
        · mem_tac
    exact (key.scoped hend).congr (by simp [occElem]) rfl (by simp [regElem])

/-- What is proved about each translated module element. -/
theorem trModElem_spec {e : ModElem} {c c' : TrCtx} {r : List CModElem}
    (h : trModElem e c = .ok (r, c')) :
    r = emitElem (envOf c) (scopesOf c.scopes) e ∧
    StmtSpec c c' (occElem (scopesOf c.scopes) e) [] (regElem (scopesOf c.scopes) e) := by
  cases e with
  | «macro» x =>
    simp only [trModElem, Tr.pure_ok] at h
    obtain ⟨rfl, rfl⟩ := h
    exact ⟨rfl, ⟨[], rfl, Step.refl⟩, by simp [regElem]⟩
  | enum x => obtain ⟨h1, h2⟩ := trEnum_spec h; exact ⟨h1, h2⟩
  | structAlias x =>
    simp only [trModElem, trStructAlias, Tr.bind_ok, Tr.get_ok, Tr.pure_ok] at h
    obtain ⟨y, c2, ⟨rfl, rfl⟩, rfl, rfl⟩ := h
    exact ⟨rfl, ⟨[], rfl, Step.refl⟩, by simp [regElem]⟩
  | typedef x => obtain ⟨h1, h2⟩ := trTypedef_spec h; exact ⟨h1, h2⟩
  | structTypedef x => obtain ⟨h1, h2⟩ := trStructTypedef_spec h; exact ⟨h1, h2⟩
  | modVar d => obtain ⟨h1, h2, _⟩ := trModVar_spec h; exact ⟨h1, h2⟩
  | funcDecl x => obtain ⟨h1, h2, _⟩ := trFuncDecl_spec h; exact ⟨h1, h2⟩

theorem trModElems_spec : ∀ (es : List ModElem) {c c' : TrCtx} {r : List (List CModElem)},
    trList trModElem es c = .ok (r, c') →
    r = es.map (emitElem (envOf c) (scopesOf c.scopes)) ∧
    StmtSpec c c' (es.flatMap (occElem (scopesOf c.scopes))) []
      (es.flatMap (regElem (scopesOf c.scopes)))
  | [], c, c', r, h => by
    simp only [trList, Tr.pure_ok] at h
    obtain ⟨rfl, rfl⟩ := h
    exact ⟨rfl, ⟨[], rfl, Step.refl⟩, by simp⟩
  | x :: xs, c, c', r, h => by
    simp only [trList, Tr.bind_ok, Tr.pure_ok] at h
    obtain ⟨y, c1, hy, ys, c2, hys, rfl, rfl⟩ := h
    obtain ⟨rfl, h2⟩ := trModElem_spec hy
    obtain ⟨h3, h4⟩ := trModElems_spec xs hys
    rw [h2.env, h2.scopes_nil] at h3
    rw [h2.scopes_nil] at h4
    exact ⟨by rw [h3, List.map_cons], by simp only [List.flatMap_cons]; exact h2.trans h4⟩

/-! ## Registering the elements -/

/-- Register a struct. -/
def insStruct (m : List (String × StructTypedef)) : ModElem → List (String × StructTypedef)
  | .structTypedef x => mapInsert m x.name x
  | _ => m

/-- Register another type. -/
def insOther (m : List (String × TI)) : ModElem → List (String × TI)
  | .structAlias x => mapInsert m x.typename { isPub := x.ispub, t := tTodo }
  | .typedef x => mapInsert m x.alias { isPub := x.ispub, t := typefromTypedef x }
  | _ => m

/-- The effect of registering elements. -/
structure Bound (es : List ModElem) (new : List Binding) (c c' : TrCtx) : Prop where
  head : c'.thisModHead = c.thisModHead
  heads : c'.allModHeads = c.allModHeads
  cmods : c'.cmods = c.cmods
  mods : c'.mods = c.mods
  usedNs : c'.usedNs = c.usedNs
  usedCustoms : c'.usedCustoms = c.usedCustoms
  structs : c'.structTypedefs = es.foldl insStruct c.structTypedefs
  others : c'.otherTypedefs = es.foldl insOther c.otherTypedefs
  scopes : c'.scopes = growScopes new c.scopes
  nodup : (headNames c.scopes).Nodup → (headNames c'.scopes).Nodup
  unused : ∀ b ∈ new, b.used = false

theorem Bound.trans {e1 e2 : List ModElem} {n1 n2 : List Binding} {c c1 c2 : TrCtx}
    (h1 : Bound e1 n1 c c1) (h2 : Bound e2 n2 c1 c2) : Bound (e1 ++ e2) (n1 ++ n2) c c2 where
  head := h2.head.trans h1.head
  heads := h2.heads.trans h1.heads
  cmods := h2.cmods.trans h1.cmods
  mods := h2.mods.trans h1.mods
  usedNs := h2.usedNs.trans h1.usedNs
  usedCustoms := h2.usedCustoms.trans h1.usedCustoms
  structs := by rw [h2.structs, h1.structs, List.foldl_append]
  others := by rw [h2.others, h1.others, List.foldl_append]
  scopes := by rw [h2.scopes, h1.scopes, growScopes_append]
  nodup := h2.nodup ∘ h1.nodup
  unused := by
    intro b hb
    rcases List.mem_append.1 hb with h | h
    · exact h1.unused b h
    · exact h2.unused b h

theorem addBinding_bound {x : String} {pos : Pos} {pub : Bool} {t : Ty} {c c' : TrCtx} {u : Unit}
    (h : addBinding x pos pub t c = .ok (u, c')) :
    Bound [] [{ name := x, pos := pos, used := false, ispub := pub, typ := t }] c c' := by
  have hs := addBinding_spec h
  unfold addBinding at h
  cases hsc : c.scopes with
  | nil => simp [hsc] at h
  | cons s rest =>
    simp only [hsc] at h
    split at h
    · simp at h
    · simp only [Res.ok.injEq, Prod.mk.injEq, true_and] at h
      subst h
      exact { head := rfl, heads := rfl, cmods := rfl, mods := rfl, usedNs := rfl, usedCustoms := rfl,
              structs := rfl, others := rfl, scopes := by rw [hsc]; rfl, nodup := hs.nodup,
              unused := by simp }

/-- The same effect for an element that is not a type. -/
theorem Bound.elem {e : ModElem} {n : List Binding} {c c' : TrCtx} (h : Bound [] n c c')
    (h1 : ∀ m, insStruct m e = m) (h2 : ∀ m, insOther m e = m) : Bound [e] n c c' :=
  { h with
    structs := by rw [h.structs]; simp [h1]
    others := by rw [h.others]; simp [h2] }

theorem Bound.refl {c : TrCtx} : Bound [] [] c c where
  head := rfl
  heads := rfl
  cmods := rfl
  mods := rfl
  usedNs := rfl
  usedCustoms := rfl
  structs := rfl
  others := rfl
  scopes := (growScopes_nil _).symm
  nodup := id
  unused := by simp

theorem bindEnum_spec (pos : Pos) (pub : Bool) : ∀ (es : List EnumEntry) {c c' : TrCtx} {r : List Unit},
    trList (fun (e : EnumEntry) => addBinding e.name pos pub tNumber) es c = .ok (r, c') →
    ∃ new, new.map Binding.decl = es.map (fun e => (e.name, pub)) ∧ Bound [] new c c'
  | [], c, c', r, h => by
    simp only [trList, Tr.pure_ok] at h
    obtain ⟨rfl, rfl⟩ := h
    exact ⟨[], rfl, Bound.refl⟩
  | x :: xs, c, c', r, h => by
    simp only [trList, Tr.bind_ok, Tr.pure_ok] at h
    obtain ⟨y, c1, hy, ys, c2, hys, rfl, rfl⟩ := h
    obtain ⟨n, hn, hb⟩ := bindEnum_spec pos pub xs hys
    exact ⟨_ :: n, by rw [List.map_cons, List.map_cons, hn]; rfl, (addBinding_bound hy).trans hb⟩

theorem bindElem_spec {e : ModElem} {c c' : TrCtx} {u : Unit} (h : bindElem e c = .ok (u, c')) :
    ∃ new, new.map Binding.decl = declElem e ∧ Bound [e] new c c' := by
  cases e with
  | «macro» x =>
    simp only [bindElem] at h
    rw [Tr.ite_ok] at h
    rcases h with ⟨hd, h⟩ | ⟨hd, h⟩
    · simp only [declElem, if_pos hd, definedName]
      match hw : RStr.splitWs (RStr.trim x.value) with
      | [] => simp [hw, Tr.panic] at h
      | [a] => simp [hw, Tr.panic] at h
      | a :: b :: rest =>
        simp only [hw] at h
        exact ⟨_, rfl, (addBinding_bound h).elem (fun _ => rfl) (fun _ => rfl)⟩
    · rw [Tr.pure_ok] at h
      obtain ⟨_, rfl⟩ := h
      simp only [declElem, if_neg hd]
      exact ⟨[], rfl, Bound.refl.elem (fun _ => rfl) (fun _ => rfl)⟩
  | enum x =>
    simp only [bindElem, Tr.bind_ok, Tr.pure_ok] at h
    obtain ⟨r, c1, hr, _, rfl⟩ := h
    obtain ⟨n, hn, hb⟩ := bindEnum_spec _ _ _ hr
    exact ⟨n, hn, hb.elem (fun _ => rfl) (fun _ => rfl)⟩
  | structAlias x =>
    simp only [bindElem, Tr.modify_ok] at h
    subst h
    exact ⟨[], rfl, ⟨rfl, rfl, rfl, rfl, rfl, rfl, rfl, rfl, (growScopes_nil _).symm, id, by simp⟩⟩
  | typedef x =>
    simp only [bindElem, Tr.modify_ok] at h
    subst h
    exact ⟨[], rfl, ⟨rfl, rfl, rfl, rfl, rfl, rfl, rfl, rfl, (growScopes_nil _).symm, id, by simp⟩⟩
  | structTypedef x =>
    simp only [bindElem, Tr.modify_ok] at h
    subst h
    exact ⟨[], rfl, ⟨rfl, rfl, rfl, rfl, rfl, rfl, rfl, rfl, (growScopes_nil _).symm, id, by simp⟩⟩
  | modVar d => exact ⟨_, rfl, (addBinding_bound h).elem (fun _ => rfl) (fun _ => rfl)⟩
  | funcDecl x => exact ⟨_, rfl, (addBinding_bound h).elem (fun _ => rfl) (fun _ => rfl)⟩

theorem bindElems_spec : ∀ (es : List ModElem) {c c' : TrCtx} {r : List Unit},
    trList bindElem es c = .ok (r, c') →
    ∃ new, new.map Binding.decl = es.flatMap declElem ∧ Bound es new c c'
  | [], c, c', r, h => by
    simp only [trList, Tr.pure_ok] at h
    obtain ⟨rfl, rfl⟩ := h
    exact ⟨[], rfl, Bound.refl⟩
  | x :: xs, c, c', r, h => by
    simp only [trList, Tr.bind_ok, Tr.pure_ok] at h
    obtain ⟨y, c1, hy, ys, c2, hys, rfl, rfl⟩ := h
    obtain ⟨n1, hn1, hb1⟩ := bindElem_spec hy
    obtain ⟨n2, hn2, hb2⟩ := bindElems_spec xs hys
    exact ⟨n1 ++ n2, by simp [hn1, hn2], hb1.trans hb2⟩

/-! ## Types of the module -/

theorem mapGet_insStruct (x : String) : ∀ (es : List ModElem) (m : List (String × StructTypedef)),
    ((mapGet (es.foldl insStruct m) x).map (·.ispub)) =
      (lastDecl (structDecls es) x).or ((mapGet m x).map (·.ispub)) := by
  intro es
  induction es with
  | nil => intro m; simp [structDecls, lastDecl]
  | cons e es ih =>
    intro m
    rw [List.foldl_cons, ih]
    cases e with
    | structTypedef y =>
      have : structDecls (.structTypedef y :: es) = (y.name, y.ispub) :: structDecls es := rfl
      rw [this]
      simp only [insStruct, mapInsert, mapGet, lastDecl, List.reverse_cons, List.find?_append]
      cases h : (structDecls es).reverse.find? (fun d => d.1 == x) with
      | some d => simp
      | none =>
        by_cases hx : y.name = x <;> simp [hx]
    | «macro» _ | enum _ | structAlias _ | typedef _ | modVar _ | funcDecl _ => rfl

theorem mapGet_insOther (x : String) : ∀ (es : List ModElem) (m : List (String × TI)),
    ((mapGet (es.foldl insOther m) x).map (·.isPub)) =
      (lastDecl (aliasDecls es) x).or ((mapGet m x).map (·.isPub)) := by
  intro es
  induction es with
  | nil => intro m; simp [aliasDecls, lastDecl]
  | cons e es ih =>
    intro m
    rw [List.foldl_cons, ih]
    cases e with
    | typedef y =>
      have : aliasDecls (.typedef y :: es) = (y.alias, y.ispub) :: aliasDecls es := rfl
      rw [this]
      simp only [insOther, mapInsert, mapGet, lastDecl, List.reverse_cons, List.find?_append]
      cases h : (aliasDecls es).reverse.find? (fun d => d.1 == x) with
      | some d => simp
      | none => by_cases hx : y.alias = x <;> simp [hx]
    | structAlias y =>
      have : aliasDecls (.structAlias y :: es) = (y.typename, y.ispub) :: aliasDecls es := rfl
      rw [this]
      simp only [insOther, mapInsert, mapGet, lastDecl, List.reverse_cons, List.find?_append]
      cases h : (aliasDecls es).reverse.find? (fun d => d.1 == x) with
      | some d => simp
      | none => by_cases hx : y.typename = x <;> simp [hx]
    | «macro» _ | enum _ | structTypedef _ | modVar _ | funcDecl _ => rfl

theorem lastDecl_isSome (ds : List (String × Bool)) (x : String) :
    (lastDecl ds x).isSome = ds.any (fun d => d.1 == x) := by
  unfold lastDecl
  rw [Option.isSome_map, Bool.eq_iff_iff, List.find?_isSome, List.any_eq_true]
  simp

/-- The C library as the translator knows it. -/
def ctype (x : String) : Bool := Cspec.hasType x
/-- The C library as the translator knows it. -/
def csym (x : String) : Bool := (Cspec.findSym x).isSome

theorem bound_env {m : Module} {p : TrParams} {new : List Binding} {c : TrCtx}
    (h : Bound m.elements new { p.ctx with scopes := [] :: p.ctx.scopes } c) :
    envOf c = moduleEnv ctype csym p.allModHeads p.mods p.thisModHead m := by
  have hs := fun x => mapGet_insStruct x m.elements []
  have ho := fun x => mapGet_insOther x m.elements []
  have e1 : c.structTypedefs = m.elements.foldl insStruct [] := h.structs
  have e2 : c.otherTypedefs = m.elements.foldl insOther [] := h.others
  have e3 : c.thisModHead = p.thisModHead := h.head
  have e4 : c.allModHeads = p.allModHeads := h.heads
  have e5 : c.mods = p.mods := h.mods
  simp only [← e1] at hs
  simp only [← e2] at ho
  simp only [mapGet, Option.map_none, Option.or_none] at hs ho
  have hns : ∀ ns, getNsPos c ns = nsIndex p.allModHeads p.thisModHead ns := by
    intro ns; simp only [getNsPos, nsIndex, e3, e4]; rfl
  have hti : ∀ x, typeInfo c x = if ctype x then some false else
      match lastDecl (structDecls m.elements) x with
      | some b => some b
      | none => match lastDecl (aliasDecls m.elements) x with
        | some b => some b
        | none => if p.thisModHead.typedefs.contains x then some false else none := by
    intro x
    simp only [typeInfo, findType, ctype]
    by_cases hc : Cspec.hasType x = true
    · simp [hc]
    · simp only [hc, if_false, Bool.false_eq_true]
      rw [← hs, ← ho]
      cases mapGet c.structTypedefs x with
      | some t => simp
      | none =>
        cases mapGet c.otherTypedefs x with
        | some t => simp
        | none =>
          simp only [Option.map_none, e3]
          by_cases hh : p.thisModHead.typedefs.contains x = true
          · simp only [hh, if_true]
          · simp only [hh, if_false, Bool.false_eq_true]
  unfold envOf moduleEnv
  congr 1
  · rw [e3]
  · rw [e3]
  · funext x
    rw [hti, ← lastDecl_isSome, ← lastDecl_isSome]
    cases ctype x <;> cases lastDecl (structDecls m.elements) x <;>
      cases lastDecl (aliasDecls m.elements) x <;>
      cases p.thisModHead.typedefs.contains x <;> rfl
  · funext x
    rw [hti]
    cases ctype x <;> cases lastDecl (structDecls m.elements) x <;>
      cases lastDecl (aliasDecls m.elements) x <;>
      cases p.thisModHead.typedefs.contains x <;> simp
  · funext ns
    rw [hns, e4]
    cases nsIndex p.allModHeads p.thisModHead ns <;> rfl
  · funext ns x
    rw [hns, e5]
    cases nsIndex p.allModHeads p.thisModHead ns <;> rfl

/-! ## The module -/

/-- The environment of a module inside a project. -/
abbrev envFor (m : Module) (p : TrParams) : ModEnv :=
  moduleEnv ctype csym p.allModHeads p.mods p.thisModHead m

/-- What is known about a module that was translated. -/
structure Translated (m : Module) (p : TrParams) (cm : CModule) : Prop where
  elements : ∃ imported customs,
    expandImports p.ctx = .ok imported ∧
    (customs.contains "calloc_or_panic" = true ↔ ∃ o ∈ occModule m, o.use = .calloc) ∧
    cm.elements = reorderElems (moduleHead customs ++ imported ++
      m.elements.flatMap (emitElem (envFor m p) (moduleScope m)))
  occs : ∀ o ∈ occModule m, OccOk (envFor m p) o
  regions : ∀ r ∈ regModule m, RegionOk r
  imports : ∀ imp ∈ p.thisModHead.imports, ∃ o ∈ occModule m, MentionsNs o imp.ns
  link : cm.link = linkOf m.elements

theorem expandLoop_congr {c c' : TrCtx} (h1 : c'.allModHeads = c.allModHeads)
    (h2 : c'.cmods = c.cmods) : ∀ (imps : List ModuleRef) (present : List String),
    expandLoop c' present imps = expandLoop c present imps := by
  intro imps
  induction imps with
  | nil => intro _; rfl
  | cons i is ih =>
    intro present
    simp only [expandLoop, h1, h2, ih]

theorem trModuleBody_spec {m : Module} {p : TrParams} {body : List CModElem} {c' : TrCtx}
    (h : trModuleBody m p.ctx = .ok (body, c')) :
    body = m.elements.flatMap (emitElem (envFor m p) (moduleScope m)) ∧
    (∀ o ∈ occModule m, OccOk (envFor m p) o) ∧
    (∀ r ∈ regModule m, RegionOk r) ∧
    (∀ x, x ∈ c'.usedNs ↔ ∃ o ∈ occModule m, MentionsNs o x) ∧
    (∀ x, x ∈ c'.usedCustoms ↔ x = "calloc_or_panic" ∧ ∃ o ∈ occModule m, o.use = .calloc) ∧
    c'.thisModHead = p.thisModHead ∧ c'.allModHeads = p.allModHeads ∧ c'.cmods = p.cmods := by
  obtain ⟨c9, h, hend⟩ := inScope_ok.1 h
  simp only [Tr.bind_ok, Tr.pure_ok] at h
  obtain ⟨_, c1, hb, bs, c2, hbody, rfl, rfl⟩ := h
  obtain ⟨new, hnew, hB⟩ := bindElems_spec _ hb
  obtain ⟨e1, s1⟩ := trModElems_spec _ hbody
  have henv := bound_env hB
  have hsc : c1.scopes = [new] := by rw [hB.scopes]; rfl
  have hscopes : scopesOf c1.scopes = moduleScope m := by
    rw [hsc]; simp [scopesOf, moduleScope, hnew]
  rw [henv, hscopes] at e1
  rw [hscopes] at s1
  obtain ⟨⟨n0, hn0, st⟩, hregs⟩ := s1
  have hn0 : n0 = [] := by simpa using hn0
  subst hn0
  have pre : Step [] new { { c1 with scopes := [] } with scopes := [] :: [] } c1 := by
    refine { head := rfl, heads := rfl, cmods := rfl, mods := rfl, structs := rfl, others := rfl,
             shape := ?_, nodup := ?_, ns := by simp, customs := by simp, used := ?_, ok := by simp }
    · rw [hsc]
      simp only [shapeOf, growScopes, List.map_cons, List.map_nil, List.nil_append, List.cons.injEq,
        and_true]
      apply List.map_congr_left (g := id) _ |>.trans (List.map_id _)
      intro b hb
      have := hB.unused b hb
      cases b; simp only [Binding.sig, id] at this ⊢; subst this; rfl
    · intro _
      exact hB.nodup (by simp [headNames])
    · intro h x hu
      rw [hsc] at hu
      rcases hu with ⟨_, b, hb, _, hbu⟩ | hu
      · rw [hB.unused b hb] at hbu; simp at hbu
      · exact hu.elim
  have hall := pre.trans st
  rw [List.append_nil, List.nil_append] at hall
  obtain ⟨st', hreg⟩ := inScope_step hall hend
  have henv0 : envOf { c1 with scopes := [] } = envFor m p := by rw [envOf_scopes]; exact henv
  refine ⟨by rw [e1]; rfl, ?_, ?_, ?_, ?_, ?_, ?_, ?_⟩
  · intro o ho; rw [← henv0]; exact st'.ok o ho
  · intro r hr
    rcases List.mem_cons.1 hr with rfl | hr
    · simpa [hnew, occModule] using hreg
    · exact hregs r hr
  · intro x
    have := st'.ns x
    rw [this]
    have e : (TrCtx.usedNs { c1 with scopes := [] }) = [] := hB.usedNs
    rw [e]; simp [occModule]
  · intro x
    have := st'.customs x
    rw [this]
    have e : (TrCtx.usedCustoms { c1 with scopes := [] }) = [] := hB.usedCustoms
    rw [e]; simp [occModule]
  · rw [st'.head]; exact hB.head
  · rw [st'.heads]; exact hB.heads
  · rw [st'.cmods]; exact hB.cmods

theorem translate_spec {m : Module} {p : TrParams} {cm : CModule} (h : translate m p = .ok cm) :
    Translated m p cm := by
  have hlink : cm.link = linkOf m.elements := by
    unfold translate at h
    split at h <;> try cases h
    split at h <;> try cases h
    split at h <;> try cases h
    dsimp only at h
    split at h <;> cases h
    rfl
  unfold translate at h
  cases hb : trModuleBody m p.ctx with
  | err e => simp [hb] at h
  | panic e => simp [hb] at h
  | diverge => simp [hb] at h
  | ok r =>
    obtain ⟨body, c⟩ := r
    simp only [hb] at h
    obtain ⟨e1, h2, h3, h4, h5, h6, h7, h8⟩ := trModuleBody_spec hb
    cases hu : unusedImport c with
    | some imp => simp [hu] at h
    | none =>
      simp only [hu] at h
      cases hx : expandImports c with
      | err e => simp [hx] at h
      | panic e => simp [hx] at h
      | diverge => simp [hx] at h
      | ok imported =>
        simp only [hx] at h
        split at h
        · cases h
        · simp only [Res.ok.injEq] at h
          subst h
          refine ⟨⟨imported, c.usedCustoms, ?_, ?_, by rw [e1]⟩, h2, h3, ?_, rfl⟩
          · rw [← hx]
            unfold expandImports
            rw [h6]
            exact (expandLoop_congr h7 h8 _ _).symm
          · rw [List.contains_iff_mem, h5]; simp
          · intro imp himp
            unfold unusedImport at hu
            rw [h6] at hu
            have := List.find?_eq_none.1 hu imp himp
            simp only [Bool.not_eq_true', Bool.not_eq_false, List.contains_iff_mem] at this
            exact (h4 _).1 (by simpa using this)

end Che
