import Verif.Proofs.Reorder
import Verif.Spec.Output
import Verif.Props.Exports
/-!
# C26, C27, C28, C30–C34: translated modules
-/
namespace Che.Props
open Che Spec

/-! ## C26 -/

/-- A stack of scopes: at least one local scope on top of the module scope. -/
def Inside (G Γ : Scopes) : Prop := ∃ s locals, Γ = (s :: locals) ++ G ∧ Local (s :: locals)

theorem Inside.declare {G Γ : Scopes} (h : Inside G Γ) {ds : List (String × Bool)}
    (hd : ∀ d ∈ ds, d.2 = false) : Inside G (declare ds Γ) := by
  obtain ⟨s, ls, rfl, hl⟩ := h
  refine ⟨s ++ ds, ls, rfl, ?_⟩
  intro t ht d hd'
  rcases List.mem_cons.1 ht with rfl | ht
  · rcases List.mem_append.1 hd' with h | h
    · exact hl s (by simp) d h
    · exact hd d h
  · exact hl t (by simp [ht]) d hd'

theorem Inside.push {G Γ : Scopes} (h : Inside G Γ) {ds : List (String × Bool)}
    (hd : ∀ d ∈ ds, d.2 = false) : Inside G (ds :: Γ) := by
  obtain ⟨s, ls, rfl, hl⟩ := h
  refine ⟨ds, s :: ls, rfl, ?_⟩
  intro t ht d hd'
  rcases List.mem_cons.1 ht with rfl | ht
  · exact hd d hd'
  · exact hl t ht d hd'

theorem declS_private (s : Stmt) : ∀ d ∈ declS s, d.2 = false := by
  cases s <;> simp [declS]

theorem declInit_private (i : Option ForInit) : ∀ d ∈ declInit i, d.2 = false := by
  rcases i with _ | (_ | _) <;> simp [declInit]

theorem declParams_private (p : FuncParams) : ∀ d ∈ declParams p, d.2 = false := by
  intro d hd
  simp only [declParams, List.mem_flatMap, List.mem_map] at hd
  obtain ⟨_, _, _, _, rfl⟩ := hd
  rfl

theorem mem_occAt {Γ : Scopes} {us : List Use} {o : Occ} (h : o ∈ occAt Γ us) : o.scopes = Γ := by
  simp only [occAt, List.mem_map] at h
  obtain ⟨_, _, rfl⟩ := h
  rfl

mutual
theorem occSs_inside {G Γ : Scopes} (h : Inside G Γ) : ∀ (ss : List Stmt), ∀ o ∈ occSs Γ ss,
    Inside G o.scopes
  | [], o, ho => by simp [occSs] at ho
  | s :: ss, o, ho => by
    rw [occSs] at ho
    rcases List.mem_append.1 ho with ho | ho
    · exact occS_inside h s o ho
    · exact occSs_inside (h.declare (declS_private s)) ss o ho
theorem occS_inside {G Γ : Scopes} (h : Inside G Γ) : ∀ (s : Stmt), ∀ o ∈ occS Γ s,
    Inside G o.scopes
  | .brk, o, ho => by simp [occS] at ho
  | .cont, o, ho => by simp [occS] at ho
  | .expr e, o, ho => by rw [occS] at ho; rw [mem_occAt ho]; exact h
  | .varDecl d, o, ho => by
    rw [occS] at ho; rw [mem_occAt ho]
    exact h.declare (by simp)
  | .ret e, o, ho => by rw [occS] at ho; rw [mem_occAt ho]; exact h
  | .ifS c b e, o, ho => by
    rw [occS, List.mem_append, List.mem_append] at ho
    rcases ho with (ho | ho) | ho
    · exact occOpt_inside h e o ho
    · rw [mem_occAt ho]; exact h
    · exact occSs_inside (h.push (by simp)) b o ho
  | .whileS c b, o, ho => by
    rw [occS, List.mem_append] at ho
    rcases ho with ho | ho
    · rw [mem_occAt ho]; exact h
    · exact occSs_inside (h.push (by simp)) b o ho
  | .forS i c a b, o, ho => by
    rw [occS] at ho
    simp only [List.mem_append] at ho
    have h' := h.push (declInit_private i)
    rcases ho with ho | ho
    · rw [mem_occAt ho]; exact h'
    · exact occSs_inside (h'.push (by simp)) b o ho
  | .switchS _ v cs d, o, ho => by
    rw [occS, List.mem_append, List.mem_append] at ho
    rcases ho with (ho | ho) | ho
    · rw [mem_occAt ho]; exact h
    · exact occCases_inside h cs o ho
    · exact occOpt_inside h d o ho
theorem occOpt_inside {G Γ : Scopes} (h : Inside G Γ) : ∀ (b : Option (List Stmt)), ∀ o ∈ occOpt Γ b,
    Inside G o.scopes
  | none, o, ho => by simp [occOpt] at ho
  | some b, o, ho => by
    rw [occOpt] at ho
    exact occSs_inside (h.push (by simp)) b o ho
theorem occCases_inside {G Γ : Scopes} (h : Inside G Γ) : ∀ (cs : List SwitchCase), ∀ o ∈ occCases Γ cs,
    Inside G o.scopes
  | [], o, ho => by simp [occCases] at ho
  | .mk vs b :: cs, o, ho => by
    rw [occCases, List.mem_append, List.mem_append] at ho
    rcases ho with (ho | ho) | ho
    · rw [mem_occAt ho]; exact h
    · exact occSs_inside (h.push (by simp)) b o ho
    · exact occCases_inside h cs o ho
end

/-- Around a mention there are local scopes and, outermost, the module. -/
theorem occModule_scopes {m : Module} {o : Occ} (h : o ∈ occModule m) :
    ∃ locals, o.scopes = locals ++ moduleScope m ∧ Local locals := by
  simp only [occModule, List.mem_flatMap] at h
  obtain ⟨e, he, ho⟩ := h
  have triv : ∀ us, o ∈ occAt (moduleScope m) us →
      ∃ locals, o.scopes = locals ++ moduleScope m ∧ Local locals := by
    intro us h
    exact ⟨[], mem_occAt h, by intro s hs; cases hs⟩
  cases e with
  | «macro» x => simp [occElem] at ho
  | structAlias x => simp [occElem] at ho
  | enum x => exact triv _ ho
  | typedef x => exact triv _ ho
  | structTypedef x => exact triv _ ho
  | modVar x => exact triv _ ho
  | funcDecl f =>
    simp only [occElem, occFunc, List.mem_append] at ho
    have hin : Inside (moduleScope m) (declParams f.params :: moduleScope m) :=
      ⟨declParams f.params, [], rfl, by
        intro s hs d hd; simp at hs; subst hs; exact declParams_private _ d hd⟩
    have : Inside (moduleScope m) o.scopes := by
      rcases ho with ho | ho
      · exact occSs_inside (hin.push (by simp)) _ o ho
      · rw [mem_occAt ho]; exact hin
    obtain ⟨s, ls, h1, h2⟩ := this
    exact ⟨s :: ls, h1, h2⟩

theorem lookup_append {ls G : Scopes} {x : String} (h : Local ls) :
    lookup (ls ++ G) x = some true ↔ (∀ s ∈ ls, ¬ declares s x) ∧ lookup G x = some true := by
  induction ls with
  | nil => simp
  | cons s ls ih =>
    rw [List.cons_append, lookup]
    have ih := ih (fun t ht => h t (by simp [ht]))
    cases hf : s.find? (fun d => d.1 == x) with
    | some d =>
      have hd := List.find?_some hf
      have hm := List.mem_of_find?_eq_some hf
      have := h s (by simp) d hm
      simp only [this, Option.some.injEq, Bool.false_eq_true, false_iff, not_and]
      intro hall
      have := hall s (by simp)
      simp only [declares, List.any_eq_true, not_exists, not_and] at this
      exact absurd hd (this d hm)
    | none =>
      rw [ih]
      have : ¬ declares s x := by
        rw [List.find?_eq_none] at hf
        simp only [declares, List.any_eq_true, not_exists, not_and]
        exact hf
      simp [this]

theorem lookup_single_nodup {ds : List (String × Bool)} (h : (ds.map (·.1)).Nodup) (x : String) (b : Bool) :
    lookup [ds] x = some b ↔ (x, b) ∈ ds := by
  simp only [lookup]
  induction ds with
  | nil => simp
  | cons d ds ih =>
    rw [List.map_cons, List.nodup_cons] at h
    rw [List.find?_cons]
    by_cases hx : d.1 = x
    · subst hx
      simp only [beq_self_eq_true, List.mem_cons, Option.some.injEq]
      constructor
      · rintro rfl; exact .inl rfl
      · rintro (h' | h')
        · rw [← h']
        · exact absurd (List.mem_map_of_mem (f := (·.1)) h') h.1
    · have : (d.1 == x) = false := by simpa using hx
      rw [this]
      simp only
      rw [ih h.2, List.mem_cons]
      constructor
      · exact .inr
      · rintro (h' | h')
        · exact absurd (by rw [← h']) hx
        · exact h'

/-- The module scope of a translated module declares no name twice. -/
theorem moduleScope_nodup {m : Module} {p : TrParams} {cm : CModule} (h : translate m p = .ok cm) :
    ((m.elements.flatMap declElem).map (·.1)).Nodup :=
  ((translate_spec h).regions _ (List.mem_cons_self ..)).2

theorem exported_mem {m : Module} {x : String} (hx : x ≠ "main") :
    (x, true) ∈ m.elements.flatMap declElem ↔ ∃ e ∈ m.elements, x ∈ exportedValues e := by
  rw [List.mem_flatMap]
  refine exists_congr fun e => and_congr_right fun _ => ?_
  cases e with
  | «macro» d =>
    simp only [declElem, exportedValues]
    split
    · simp only [definedName]; split <;> simp
    · simp
  | enum d => cases h : d.isPub <;> simp [declElem, exportedValues, h]
  | funcDecl d =>
    cases h : d.ispub <;> simp [declElem, exportedValues, h]
    rintro rfl; exact hx
  | structAlias d => simp [declElem, exportedValues]
  | typedef d => simp [declElem, exportedValues]
  | structTypedef d => simp [declElem, exportedValues]
  | modVar d => simp [declElem, exportedValues]

theorem globalName_ne (u x : String) : globalName u x ≠ x := by
  intro h
  have := congrArg (fun s => s.toList.length) h
  simp only [globalName, String.toList_append, List.length_append] at this
  have : ("__".toList.length) = 2 := rfl
  omega

/-- C26: in a translated module every mention of an unqualified name `x` stands
inside some local scopes in the module scope, and its C name is the prefixed one
exactly when no local scope declares `x` and the module declares `x` as an
exported function or constant; otherwise the name is kept.  What is missing: the
name `main`, and names used as keys in composite literals (see the
counterexamples). -/
theorem C26_partial {m : Module} {p : TrParams} {cm : CModule} (h : translate m p = .ok cm)
    {o : Occ} (ho : o ∈ occModule m) {n : NsName} (hv : o.use = .val n) (hns : n.ns = "")
    (hmain : n.name ≠ "main") :
    ∃ locals, o.scopes = locals ++ moduleScope m ∧ Local locals ∧
      (emitName (envFor m p) o.scopes n = globalName p.thisModHead.uniqid n.name ↔
        (∀ s ∈ locals, ¬ declares s n.name) ∧ ∃ e ∈ m.elements, n.name ∈ exportedValues e) ∧
      (emitName (envFor m p) o.scopes n = n.name ↔
        ¬ ((∀ s ∈ locals, ¬ declares s n.name) ∧ ∃ e ∈ m.elements, n.name ∈ exportedValues e)) := by
  obtain ⟨ls, h1, h2⟩ := occModule_scopes ho
  have key : lookup o.scopes n.name = some true ↔
      (∀ s ∈ ls, ¬ declares s n.name) ∧ ∃ e ∈ m.elements, n.name ∈ exportedValues e := by
    rw [h1, lookup_append h2, ← exported_mem hmain, moduleScope,
      lookup_single_nodup (moduleScope_nodup h)]
  have he : emitName (envFor m p) o.scopes n =
      if lookup o.scopes n.name = some true then globalName p.thisModHead.uniqid n.name
      else n.name := by
    simp [emitName, hns, moduleEnv]
  refine ⟨ls, h1, h2, ?_, ?_⟩
  · rw [he, ← key]
    by_cases hl : lookup o.scopes n.name = some true
    · rw [if_pos hl]; simp only [hl]
    · rw [if_neg hl]; simp only [hl, iff_false]; exact (globalName_ne _ _).symm
  · rw [he, ← key]
    by_cases hl : lookup o.scopes n.name = some true
    · rw [if_pos hl]; simp only [hl, not_true_eq_false, iff_false]; exact globalName_ne _ _
    · rw [if_neg hl]; simp only [hl, not_false_eq_true]

/-- C26: the binding found for a name is in the innermost scope that has one. -/
theorem C26_innermost {scopes : List (List Binding)} {x : String} {b : Binding}
    (h : findBinding scopes x = some b) :
    ∃ inner s outer, scopes = inner ++ s :: outer ∧ b ∈ s ∧ b.name = x ∧
      ∀ t ∈ inner, ∀ d ∈ t, d.name ≠ x := by
  unfold findBinding at h
  induction scopes with
  | nil => simp at h
  | cons s rest ih =>
    rw [List.findSome?_cons] at h
    cases hf : s.find? (fun b => b.name == x) with
    | some d =>
      simp only [hf, Option.some.injEq] at h
      subst h
      exact ⟨[], s, rest, rfl, List.mem_of_find?_eq_some hf, by simpa using List.find?_some hf, by simp⟩
    | none =>
      simp only [hf] at h
      obtain ⟨i, t, o, rfl, h1, h2, h3⟩ := ih h
      refine ⟨s :: i, t, o, rfl, h1, h2, ?_⟩
      intro u hu d hd
      rcases List.mem_cons.1 hu with rfl | hu
      · rw [List.find?_eq_none] at hf
        simpa using hf d hd
      · exact h3 u hu d hd

mutual
theorem identsE_emitE (M : ModEnv) (Γ : Scopes) : ∀ e : Expr,
    identsE (emitE M Γ e) = (valNames (usesE e)).map (emitName M Γ)
  | .lit l => by simp [emitE, identsE, usesE, valNames]
  | .name n => by simp [emitE, identsE, usesE, valNames]
  | .arrIndex a i => by
    simp [emitE, identsE, usesE, valNames, identsE_emitE M Γ a, identsE_emitE M Γ i]
  | .binaryOp _ op a b => by
    simp [emitE, identsE, usesE, valNames, identsE_emitE M Γ a, identsE_emitE M Γ b]
  | .fieldAccess _ op t f => by simp [emitE, identsE, usesE, valNames, identsE_emitE M Γ t]
  | .compLit es => by simp [emitE, identsE, usesE, identsEntries_emit M Γ es]
  | .prefixOp _ op e => by simp [emitE, identsE, usesE, identsE_emitE M Γ e]
  | .postfixOp op e => by simp [emitE, identsE, usesE, identsE_emitE M Γ e]
  | .cast tf e => by simp [emitE, identsE, usesE, valNames, identsE_emitE M Γ e]
  | .call pos f args => by
    simp only [emitE, usesE]
    split
    · simp [identsE, valNames, identsArgs_emit M Γ args]
    · simp [identsE, valNames, identsArgs_emit M Γ args, identsE_emitE M Γ f]
  | .sizeofType t => by simp [emitE, identsE, usesE, valNames]
  | .sizeofExpr e => by simp [emitE, identsE, usesE, identsE_emitE M Γ e]
theorem identsArgs_emit (M : ModEnv) (Γ : Scopes) : ∀ es : List Expr,
    identsArgs (emitArgs M Γ es) = (valNames (usesArgs es)).map (emitName M Γ)
  | [] => by simp [emitArgs, identsArgs, usesArgs, valNames]
  | e :: es => by
    simp [emitArgs, identsArgs, usesArgs, valNames, identsE_emitE M Γ e, identsArgs_emit M Γ es]
theorem identsEntries_emit (M : ModEnv) (Γ : Scopes) : ∀ es : List Entry,
    identsEntries (emitEntries M Γ es) = (valNames (usesEntries es)).map (emitName M Γ)
  | [] => by simp [emitEntries, identsEntries, usesEntries, valNames]
  | e :: es => by
    simp [emitEntries, identsEntries, usesEntries, valNames, identsEntry_emit M Γ e,
      identsEntries_emit M Γ es]
theorem identsEntry_emit (M : ModEnv) (Γ : Scopes) : ∀ e : Entry,
    identsEntry (emitEntry M Γ e) = (valNames (usesEntry e)).map (emitName M Γ)
  | .mk i k v => by simp [emitEntry, identsEntry, usesEntry, identsE_emitE M Γ v]
end

/-- C26: the identifiers in a translated expression are, one for one, the C names
of the names mentioned in it. -/
theorem C26_expression {e : Expr} {c c' : TrCtx} {t : Ty} {r : CExpr}
    (h : trExpr e c = .ok ((t, r), c')) :
    identsE r = (valNames (usesE e)).map (emitName (envOf c) (scopesOf c.scopes)) := by
  have h1 := (trExpr_spec e h).1
  simp only at h1
  rw [h1]
  exact identsE_emitE _ _ e

/-! ## C27 -/

/-- C27: in a translated module every unqualified name mentioned is declared in
an enclosing scope or a symbol of the C library, and every private declaration -
function, constant, variable or macro of the module, parameter or local
variable - is mentioned inside its scope by a name that resolves to it.  What is
missing: names used as keys of composite literals are not looked at
(`C26_C27_counterexample_key`). -/
theorem C27_partial {m : Module} {p : TrParams} {cm : CModule} (h : translate m p = .ok cm) :
    (∀ o ∈ occModule m, ∀ n, o.use = .val n → n.ns = "" →
      (∃ s ∈ o.scopes, declares s n.name) ∨ (Cspec.findSym n.name).isSome) ∧
    (∀ r ∈ regModule m, ∀ d ∈ r.decls, d.2 = false → ∃ o ∈ r.occs, RefersTo o r.height d.1) := by
  have hs := translate_spec h
  refine ⟨?_, fun r hr => (hs.regions r hr).1⟩
  intro o ho n hv hn
  have := hs.occs o ho
  rw [OccOk, hv] at this
  simp only [hn, String.reduceEq, ne_eq, not_true_eq_false, true_and, false_and, or_false,
    false_or] at this
  rcases this with h | h
  · left
    clear ho hv
    revert h
    generalize o.scopes = Γ
    induction Γ with
    | nil => simp [lookup]
    | cons s rest ih =>
      intro h
      rw [lookup] at h
      cases hf : s.find? (fun d => d.1 == n.name) with
      | some d =>
        refine ⟨s, by simp, ?_⟩
        simp only [declares, List.any_eq_true]
        exact ⟨d, List.mem_of_find?_eq_some hf, List.find?_some (p := fun (d : String × Bool) => d.1 == n.name) hf⟩
      | none =>
        rw [hf] at h
        obtain ⟨s', h1, h2⟩ := ih h
        exact ⟨s', by simp [h1], h2⟩
  · exact .inr h

/-! ## C28 -/

theorem dedupKey_text {e : CModElem} {s : String} (h : dedupKey e = some s) :
    FormatC.formatElem e = s ∧ isTypeDecl e = true := by
  cases e <;> simp_all [dedupKey, FormatC.formatElem, isTypeDecl]

/-- Elements of a module's translation are in its C module, up to repeats. -/
theorem emitted_mem {m : Module} {p : TrParams} {cm : CModule} (h : translate m p = .ok cm)
    {e : ModElem} (he : e ∈ m.elements) {c : CModElem}
    (hc : c ∈ emitElem (envFor m p) (moduleScope m) e) :
    c ∈ cm.elements ∨ (isTypeDecl c = true ∧ ∃ c' ∈ cm.elements, FormatC.formatElem c' = FormatC.formatElem c) := by
  obtain ⟨imported, customs, _, _, hcm⟩ := (translate_spec h).elements
  have hmem : c ∈ moduleHead customs ++ imported ++
      m.elements.flatMap (emitElem (envFor m p) (moduleScope m)) := by
    simp only [List.mem_append, List.mem_flatMap]
    exact .inr ⟨e, he, hc⟩
  rw [hcm]
  rcases mem_dedup_text (seen := []) hmem with h | ⟨s, h1, h2 | ⟨e', h2, h3⟩⟩
  · exact .inl (mem_groupElems.2 h)
  · simp at h2
  · obtain ⟨a1, a2⟩ := dedupKey_text h1
    exact .inr ⟨a2, e', mem_groupElems.2 h2, by rw [a1, (dedupKey_text h3).1]⟩

theorem nsIndex_spec {heads : List ModuleInfo} {this : ModuleInfo} {ns : String} {j : Nat}
    (h : nsIndex heads this ns = some j) :
    ∃ imp hd, imp ∈ this.imports ∧ imp.ns = ns ∧ heads[j]? = some hd ∧ hd.filepath = imp.path := by
  unfold nsIndex at h
  cases hf : this.imports.find? (fun i => i.ns == ns) with
  | none => simp [hf] at h
  | some imp =>
    simp only [hf] at h
    obtain ⟨hj, h1, _⟩ := List.findIdx?_eq_some_iff_getElem.1 h
    exact ⟨imp, heads[j], List.mem_of_find?_eq_some hf, by simpa using List.find?_some hf,
      by simp [hj], by simpa using h1⟩

/-- The parameters of a declaration. -/
def paramNames : ModElem → List String
  | .funcDecl f => (declParams f.params).map (·.1)
  | _ => []

theorem lookup_params {f : FuncDecl} {G : Scopes} {x : String}
    (h : x ∉ (declParams f.params).map (·.1)) : lookup (declParams f.params :: G) x = lookup G x := by
  rw [lookup, List.find?_eq_none.2]
  intro d hd
  simp only [beq_iff_eq]
  rintro rfl
  exact h (List.mem_map_of_mem hd)

/-- An exported element defines the prefixed name. -/
theorem emitElem_defines {M : ModEnv} {m : Module} {e : ModElem} {x : String} (he : e ∈ m.elements)
    (hn : ((m.elements.flatMap declElem).map (·.1)).Nodup) (hx : x ∈ pubNames e)
    (hmain : x ≠ "main") (hp : x ∉ paramNames e) :
    ∃ c ∈ emitElem M (moduleScope m) e, globalName M.uid x ∈ definesC c := by
  cases e with
  | «macro» d => simp [pubNames] at hx
  | structAlias d => simp [pubNames] at hx
  | modVar d => simp [pubNames] at hx
  | enum d =>
    simp only [pubNames] at hx
    split at hx
    · rename_i hpub
      refine ⟨_, List.mem_singleton.2 rfl, ?_⟩
      simp only [definesC, List.map_map, List.mem_map, Function.comp_apply, pubName, hpub, if_true]
      obtain ⟨y, hy, rfl⟩ := List.mem_map.1 hx
      exact ⟨y, hy, rfl⟩
    · cases hx
  | typedef d =>
    simp only [pubNames] at hx
    split at hx
    · rename_i hpub
      refine ⟨_, List.mem_singleton.2 rfl, ?_⟩
      simp only [definesC, pubName, hpub, if_true, List.mem_singleton] at hx ⊢
      rw [hx]
    · cases hx
  | structTypedef d =>
    simp only [pubNames] at hx
    split at hx
    · rename_i hpub
      refine ⟨_, List.mem_cons_of_mem _ (List.mem_cons_of_mem _ (List.mem_singleton.2 rfl)), ?_⟩
      simp only [definesC, pubName, hpub, if_true, List.mem_singleton] at hx ⊢
      rw [hx]
    · cases hx
  | funcDecl f =>
    simp only [pubNames] at hx
    split at hx
    · rename_i hpub
      simp only [List.mem_singleton] at hx
      subst hx
      refine ⟨_, List.mem_cons_self .., ?_⟩
      have hl : lookup (declParams f.params :: moduleScope m) f.form.name = some true := by
        rw [lookup_params hp, moduleScope, lookup_single_nodup hn, exported_mem hmain]
        exact ⟨_, he, by simp [exportedValues, hpub]⟩
      simp [definesC, emitFunc, emitProto, emitFormAs, declName, hl, hmain]
    · cases hx

/-- What module number `i` of a project is translated with. -/
abbrev paramsFor (p : Project) (i : Nat) (h : ModuleInfo) : TrParams :=
  ⟨h, p.modheads, p.cmodules.take i, p.modules⟩

/-- C28: in a project, a qualified name `ns.x` mentioned in module `i` belongs to
an imported module `j` that declares `x` as `pub`, and its C name is the prefixed
name of `x` in module `j`.  The C module of `j` defines that name, up to the text
of a repeated typedef.  What is missing: if `x` is a function with a parameter
also called `x`, or is called `main`, the definition keeps the plain name and the
use does not (`C28_counterexample`). -/
theorem C28_partial [Unicode] {fs : FS} {fuel : Nat} {main : String} {p : Project}
    (hp : parseProject fs fuel main = .ok p) {i : Nat} {h : ModuleInfo} {m : Module}
    (hi : p.modheads[i]? = some h) (hm : p.modules[i]? = some m) {o : Occ} (ho : o ∈ occModule m)
    {n : NsName} (hu : o.use = .val n ∨ o.use = .typ n) (h1 : n.ns ≠ "") (h2 : n.ns ≠ "OS") :
    ∃ (imp : ModuleRef) (j : Nat) (h' : ModuleInfo) (m' : Module) (cm' : CModule) (e : ModElem),
      imp ∈ h.imports ∧ imp.ns = n.ns ∧ h'.filepath = imp.path ∧
      p.modheads[j]? = some h' ∧ p.modules[j]? = some m' ∧ p.cmodules[j]? = some cm' ∧
      e ∈ m'.elements ∧ n.name ∈ pubNames e ∧
      (∀ M : ModEnv, M = moduleEnv ctype csym p.modheads p.modules h m →
        emitName M o.scopes n = globalName h'.uniqid n.name ∧
        ∀ t : Typename, t.name = n → (emitTypename M t).name = globalName h'.uniqid n.name) ∧
      (n.name ≠ "main" → n.name ∉ paramNames e →
        ∃ c, globalName h'.uniqid n.name ∈ definesC c ∧
          (c ∈ cm'.elements ∨
           (isTypeDecl c = true ∧ ∃ c' ∈ cm'.elements, FormatC.formatElem c' = FormatC.formatElem c))) := by
  have hparts := parseProject_ok hp
  obtain ⟨cm, hcm, htr⟩ := hparts.translated i h m hi hm
  have hs := translate_spec htr
  have hok := hs.occs o ho
  have hq : ((envFor m (paramsFor p i h)).nsUid n.ns).isSome ∧
      (envFor m (paramsFor p i h)).nsExports n.ns n.name = true := by
    rcases hu with hu | hu <;> rw [OccOk, hu] at hok <;> simpa [h1, h2] using hok
  obtain ⟨q1, q2⟩ := hq
  simp only [moduleEnv] at q1 q2
  cases hj : nsIndex p.modheads h n.ns with
  | none => simp [hj] at q1
  | some j =>
    obtain ⟨imp, h', hI, hIn, hh', hpath⟩ := nsIndex_spec hj
    obtain ⟨m', hm', hparse⟩ := hparts.parsed j h' hh'
    obtain ⟨cm', hcm', htr'⟩ := hparts.translated j h' m' hh' hm'
    simp only [hj, Option.bind_some, hm'] at q2
    rw [parseMod_exports hparse, exportsHas_getExports] at q2
    obtain ⟨e, he, hx⟩ := q2
    refine ⟨imp, j, h', m', cm', e, hI, hIn, hpath, hh', hm', hcm', he, hx, ?_, ?_⟩
    · rintro M rfl
      refine ⟨by simp [emitName, h1, h2, moduleEnv, hj, hh'], ?_⟩
      rintro t rfl
      simp [emitTypename, h1, h2, moduleEnv, hj, hh']
    · intro hmain hpn
      obtain ⟨c, hc, hd⟩ := emitElem_defines
        (M := envFor m' (paramsFor p j h')) he (moduleScope_nodup htr') hx hmain hpn
      exact ⟨c, hd, emitted_mem htr' he hc⟩

/-- C28: every import of a translated module is mentioned in it. -/
theorem C28_imports_used {m : Module} {p : TrParams} {cm : CModule} (h : translate m p = .ok cm) :
    ∀ imp ∈ p.thisModHead.imports, ∃ o ∈ occModule m, ∃ n, n.ns = imp.ns ∧
      (o.use = .val n ∨ o.use = .typ n) := by
  intro imp hi
  obtain ⟨o, ho, _, _, n, h1, h2⟩ := (translate_spec h).imports imp hi
  exact ⟨o, ho, n, h1, h2⟩

/-! ## C30 -/

/-- C30: the C parameters of a function are the declared names one by one, in
order, each with the type of its group and its own stars and brackets. -/
theorem C30_parameters {x : FuncParams} {c c' : TrCtx} {r : CFuncParams}
    (h : trFuncParams x c = .ok (r, c')) :
    r.variadic = x.ellipsis ∧
    List.Forall₂ (fun (d : Typename × Form) (f : CTypeForm) =>
      f.typename = emitTypename (envOf c) d.1 ∧ f.form.stars = RStr.rep "*" d.2.hops ∧
      f.form.name = d.2.name ∧
      f.form.indexes = d.2.indexes.map (emitOptE (envOf c) (scopesOf c.scopes)))
      (x.list.flatMap (fun g => g.forms.map (fun f => (g.typename, f)))) r.list := by
  obtain ⟨rfl, _⟩ := trFuncParams_spec h
  refine ⟨rfl, ?_⟩
  have : (emitParams (envOf c) (scopesOf c.scopes) x).list =
      (x.list.flatMap (fun g => g.forms.map (fun f => (g.typename, f)))).map
        (fun d => emitTypeForm (envOf c) (scopesOf c.scopes) d.1 d.2) := by
    simp [emitParams, List.map_flatMap, Function.comp_def]
  rw [this, List.forall₂_map_right_iff, List.forall₂_same]
  intro d _
  exact ⟨rfl, rfl, rfl, rfl⟩

/-- C30: likewise for the fields of a struct; a union in a struct stays one item
with its own fields one by one. -/
theorem C30_fields {x : StructEntry} {c c' : TrCtx} {r : List CStructItem}
    (h : trStructEntry x c = .ok (r, c')) :
    match x with
    | .plain g => List.Forall₂ (fun (d : Form) (i : CStructItem) => ∃ f, i = .field f ∧
        f.typename = emitTypename (envOf c) g.typename ∧ f.form.stars = RStr.rep "*" d.hops ∧
        f.form.name = d.name ∧
        f.form.indexes = d.indexes.map (emitOptE (envOf c) (scopesOf c.scopes))) g.forms r
    | .union u => ∃ cu, r = [.union cu] ∧
        cu.form = emitForm (envOf c) (scopesOf c.scopes) u.form ∧
        List.Forall₂ (fun (d : UnionField) (f : CTypeForm) =>
          f.typename = emitTypename (envOf c) d.typename ∧
          f.form = emitForm (envOf c) (scopesOf c.scopes) d.form) u.fields cu.fields := by
  obtain ⟨rfl, _⟩ := trStructEntry_spec h
  cases x with
  | plain g =>
    simp only [emitStructEntry]
    rw [List.forall₂_map_right_iff, List.forall₂_same]
    intro d _
    exact ⟨_, rfl, rfl, rfl, rfl, rfl⟩
  | union u =>
    refine ⟨_, rfl, rfl, ?_⟩
    rw [List.forall₂_map_right_iff, List.forall₂_same]
    intro d _
    exact ⟨rfl, rfl⟩

/-! ## C31 -/

theorem pairwise_split {α} (r : α → Nat) (k : Nat) : ∀ (l : List α),
    l.Pairwise (fun a b => r a ≤ r b) →
    ∃ pre post, l = pre ++ post ∧ (∀ x ∈ pre, r x < k) ∧ (∀ x ∈ post, k ≤ r x)
  | [], _ => ⟨[], [], rfl, by simp, by simp⟩
  | a :: l, h => by
    rw [List.pairwise_cons] at h
    by_cases ha : r a < k
    · obtain ⟨pre, post, rfl, h1, h2⟩ := pairwise_split r k l h.2
      exact ⟨a :: pre, post, rfl, by simpa [ha] using h1, h2⟩
    · refine ⟨[], a :: l, rfl, by simp, ?_⟩
      intro x hx
      rcases List.mem_cons.1 hx with rfl | hx
      · omega
      · have := h.1 x hx; omega

theorem isFunc_iff (e : CModElem) : isFunc e = true ↔ 6 ≤ elemOrder e := by
  cases e <;> simp [isFunc, elemOrder]

/-- C31: in a translated module no function body comes before a declaration of
any other kind. -/
theorem C31_bodies_last {m : Module} {p : TrParams} {cm : CModule} (h : translate m p = .ok cm) :
    ∃ decls funcs, cm.elements = decls ++ funcs ∧
      (∀ e ∈ decls, isFunc e = false) ∧ (∀ e ∈ funcs, isFunc e = true) := by
  obtain ⟨imported, customs, _, _, hcm⟩ := (translate_spec h).elements
  obtain ⟨pre, post, h1, h2, h3⟩ := pairwise_split elemOrder 6 cm.elements
    (by rw [hcm]; exact groupElems_pairwise _)
  refine ⟨pre, post, h1, ?_, fun e he => (isFunc_iff e).2 (h3 e he)⟩
  intro e he
  have := h2 e he
  cases hf : isFunc e with
  | false => rfl
  | true => have := (isFunc_iff e).1 hf; omega

theorem globalName_ne_main (u x : String) : globalName u x ≠ "main" := by
  intro h
  have : '_' ∈ (globalName u x).toList := by simp [globalName, String.toList_append]
  rw [h] at this
  revert this
  decide

theorem declName_eq_main {M : ModEnv} {Γ : Scopes} {x : String} : declName M Γ x = "main" ↔ x = "main" := by
  unfold declName
  split
  · rename_i h
    exact ⟨fun h => absurd h (globalName_ne_main _ _), fun h' => absurd h' h.2⟩
  · rfl

/-- The functions of a C module are the translations of the module's functions,
after the `calloc!` helper. -/
theorem funcDef_cases {m : Module} {p : TrParams} {cm : CModule} (h : translate m p = .ok cm)
    {d : CFuncDef} (hd : .funcDef d ∈ cm.elements) :
    .funcDef d = mkCallocOrPanic ∨
    ∃ f, .funcDecl f ∈ m.elements ∧ d = emitFunc (envFor m p) (moduleScope m) f := by
  obtain ⟨imported, customs, himp, _, hcm⟩ := (translate_spec h).elements
  rw [hcm, mem_reorder_of_none (by rfl), List.mem_append, List.mem_append] at hd
  rcases hd with (hd | hd) | hd
  · left
    unfold moduleHead at hd
    simp only [List.mem_append, List.mem_map, List.mem_singleton, reduceCtorEq, and_false,
      exists_false, or_false, false_or] at hd
    split at hd
    · simpa using hd
    · simp at hd
  · have := expandImports_interface himp _ hd
    simp [inSynopsis] at this
  · right
    rw [List.mem_flatMap] at hd
    obtain ⟨e, he, hd⟩ := hd
    cases e with
    | funcDecl f =>
      simp only [emitElem, List.mem_cons, CModElem.funcDef.injEq] at hd
      rcases hd with hd | hd
      · exact ⟨f, he, hd⟩
      · split at hd <;> simp at hd
    | «macro» d => simp only [emitElem] at hd; split at hd <;> simp at hd
    | modVar d => simp only [emitElem] at hd; split at hd <;> simp at hd
    | enum d => simp [emitElem] at hd
    | typedef d => simp [emitElem] at hd
    | structAlias d => simp [emitElem] at hd
    | structTypedef d => simp [emitElem] at hd

/-- C31: every function of a translated module other than `main` has a prototype
with the same linkage, type, name and parameters.  What is missing: the helper
for `calloc!` has none (`C31_counterexample`); it comes first instead
(`C31_helper_first`). -/
theorem C31_partial {m : Module} {p : TrParams} {cm : CModule} (h : translate m p = .ok cm)
    {d : CFuncDef} (hd : .funcDef d ∈ cm.elements) (hmain : d.form.name ≠ "main")
    (hc : .funcDef d ≠ mkCallocOrPanic) :
    ∃ f, .forwardFunc f ∈ cm.elements ∧ f.isStatic = d.isStatic ∧ f.typename = d.typename ∧
      f.form = d.form ∧ f.params = d.params ∧
      FormatC.fmtForwardFunc f = FormatC.staticMark d.isStatic (FormatC.formatForm d.form) ++
        signature d.typename d.form d.params ++ ";\n" ∧
      FormatC.fmtFuncDef d = FormatC.staticMark d.isStatic (FormatC.formatForm d.form) ++
        signature d.typename d.form d.params ++ " " ++ FormatC.formatBody d.body := by
  rcases funcDef_cases h hd with h' | ⟨f, hf, rfl⟩
  · exact absurd h' hc
  · obtain ⟨imported, customs, _, _, hcm⟩ := (translate_spec h).elements
    refine ⟨emitProto (envFor m p) (moduleScope m) f, ?_, rfl, rfl, rfl, rfl, ?_, ?_⟩
    · rw [hcm, mem_reorder_of_none (by rfl)]
      simp only [List.mem_append, List.mem_flatMap]
      refine .inr ⟨_, hf, ?_⟩
      have : f.form.name ≠ "main" := by
        intro hn
        exact hmain (by simp only [emitFunc, emitProto, emitFormAs]; exact declName_eq_main.2 hn)
      simp [emitElem, this]
    · simp [FormatC.fmtForwardFunc, signature, emitFunc, String.append_assoc]
    · simp [FormatC.fmtFuncDef, signature, String.append_assoc]

theorem filter_funcs_dedup : ∀ (es : List CModElem) (seen : List String),
    (dedupElems seen es).filter isFunc = es.filter isFunc := by
  intro es
  induction es with
  | nil => intro seen; rfl
  | cons e es ih =>
    intro seen
    unfold dedupElems
    cases hk : dedupKey e with
    | none => simp only [List.filter_cons, ih]
    | some s =>
      have : isFunc e = false := by cases e <;> simp_all [dedupKey, isFunc]
      simp only
      split <;> simp [this, ih]

theorem isFunc_order (e : CModElem) : isFunc e = (elemOrder e == 6) := by
  cases e <;> rfl

/-- C31, C38: the functions of a C module in order: the helper for `calloc!` if
the module mentions `calloc!`, then the functions of the module. -/
theorem C31_helper_first {m : Module} {p : TrParams} {cm : CModule} (h : translate m p = .ok cm) :
    ∃ helper : List CModElem,
      ((∃ o ∈ occModule m, o.use = .calloc) → helper = [mkCallocOrPanic]) ∧
      ((¬ ∃ o ∈ occModule m, o.use = .calloc) → helper = []) ∧
      cm.elements.filter isFunc = helper ++ m.elements.filterMap (fun e => match e with
        | .funcDecl f => some (.funcDef (emitFunc (envFor m p) (moduleScope m) f))
        | _ => none) := by
  obtain ⟨imported, customs, himp, hcust, hcm⟩ := (translate_spec h).elements
  have hbody : ∀ es : List ModElem, (es.flatMap (emitElem (envFor m p) (moduleScope m))).filter isFunc =
      es.filterMap (fun e => match e with
        | .funcDecl f => some (.funcDef (emitFunc (envFor m p) (moduleScope m) f))
        | _ => none) := by
    intro es
    induction es with
    | nil => rfl
    | cons e es ih =>
      rw [List.flatMap_cons, List.filter_append, ih]
      cases e with
      | funcDecl f =>
        simp only [emitElem, List.filterMap_cons]
        by_cases hn : f.form.name = "main"
        · rw [if_pos hn]; rfl
        · rw [if_neg hn]; rfl
      | «macro» d => simp only [emitElem]; split <;> simp [isFunc]
      | modVar d => simp only [emitElem]; split <;> simp [isFunc]
      | enum d => simp [emitElem, isFunc]
      | typedef d => simp [emitElem, isFunc]
      | structAlias d => simp [emitElem, isFunc]
      | structTypedef d => simp [emitElem, isFunc]
  have himp' : imported.filter isFunc = [] := by
    rw [List.filter_eq_nil_iff]
    intro e he hf
    have := expandImports_interface himp e he
    cases e <;> simp_all [isFunc, inSynopsis]
  refine ⟨(moduleHead customs).filter isFunc, ?_, ?_, ?_⟩
  · intro hu
    have := hcust.2 hu
    simp only [moduleHead, this, if_true]
    rfl
  · intro hu
    have : ¬ (customs.contains "calloc_or_panic" = true) := fun h => hu (hcust.1 h)
    simp only [moduleHead, this, if_false, Bool.false_eq_true]
    rfl
  · have hg := groupElems_filter (dedupElems [] (moduleHead customs ++ imported ++
      m.elements.flatMap (emitElem (envFor m p) (moduleScope m)))) 6
    rw [hcm, reorderElems]
    have e : (fun e => elemOrder e == 6) = isFunc := funext (fun e => (isFunc_order e).symm)
    rw [e] at hg
    rw [hg, filter_funcs_dedup, List.filter_append, List.filter_append, himp', List.append_nil, hbody]

/-! ## C32 -/

theorem group_eq (e : CModElem) : group e = elemOrder e := by cases e <;> rfl

theorem dedupKey_iff {e : CModElem} {s : String} :
    dedupKey e = some s ↔ isTypeDecl e = true ∧ FormatC.formatElem e = s := by
  cases e <;> simp [dedupKey, FormatC.formatElem, isTypeDecl]

theorem dedupKey_none {e : CModElem} : dedupKey e = none ↔ isTypeDecl e = false := by
  cases e <;> simp [dedupKey, isTypeDecl]

theorem dedup_dropRepeats : ∀ (es : List CModElem) (seen : List String) (before : List CModElem),
    (∀ s, s ∈ seen ↔ ∃ b ∈ before, dedupKey b = some s) →
    dedupElems seen es = dropRepeats before es := by
  intro es
  induction es with
  | nil => intro _ _ _; rfl
  | cons e es ih =>
    intro seen before h
    unfold dedupElems dropRepeats
    cases hk : dedupKey e with
    | none =>
      simp only [dedupKey_none.1 hk, Bool.false_and, Bool.false_eq_true, if_false]
      rw [ih seen (before ++ [e])]
      intro s
      rw [h]
      simp [hk]
    | some s =>
      obtain ⟨h1, h2⟩ := dedupKey_iff.1 hk
      have hc : seen.contains s = (isTypeDecl e && before.any (fun b => isTypeDecl b &&
          FormatC.formatElem b == FormatC.formatElem e)) := by
        rw [Bool.eq_iff_iff, List.contains_iff_mem, h]
        simp only [h1, Bool.true_and, List.any_eq_true, Bool.and_eq_true, beq_iff_eq, h2, dedupKey_iff]
      simp only [hc]
      split
      · rename_i hif
        apply ih
        intro t
        rw [h]
        simp only [List.mem_append, List.mem_singleton, or_and_right, exists_or, exists_eq_left, hk]
        constructor
        · exact .inl
        · rintro (h' | h')
          · exact h'
          · cases h'
            rw [← hc, List.contains_iff_mem, h] at hif
            exact hif
      · rw [ih (s :: seen) (before ++ [e])]
        intro t
        simp only [List.mem_cons, List.mem_append, List.not_mem_nil, or_false, or_and_right,
          exists_or, exists_eq_left, hk, Option.some.injEq, h]
        constructor
        · rintro (rfl | h')
          · exact .inr rfl
          · exact .inl h'
        · rintro (h' | rfl)
          · exact .inr h'
          · exact .inl rfl

/-- C32: the elements of a C module are the module head, the imported elements
and the translations of the module's elements, without the typedefs and structs
whose text was there before, in group order, and within each group in the
original order. -/
theorem C32_reordering {m : Module} {p : TrParams} {cm : CModule} (h : translate m p = .ok cm) :
    ∃ imported customs kept, expandImports p.ctx = .ok imported ∧
      kept = dropRepeats [] (moduleHead customs ++ imported ++
        m.elements.flatMap (emitElem (envFor m p) (moduleScope m))) ∧
      cm.elements.Perm kept ∧
      cm.elements.Pairwise (fun a b => group a ≤ group b) ∧
      ∀ i, cm.elements.filter (fun e => group e == i) = kept.filter (fun e => group e == i) := by
  obtain ⟨imported, customs, himp, _, hcm⟩ := (translate_spec h).elements
  refine ⟨imported, customs, _, himp, rfl, ?_⟩
  rw [← dedup_dropRepeats _ [] [] (by simp), hcm, reorderElems]
  simp only [group_eq]
  exact ⟨groupElems_perm _, groupElems_pairwise _, fun i => groupElems_filter _ i⟩

/-! ## C33 -/

theorem toList_rep_star (n : Nat) : (RStr.rep "*" n).toList = List.replicate n '*' := by
  induction n with
  | zero => rfl
  | succ n ih =>
    simp only [RStr.rep, String.toList_append, ih, List.replicate_succ]
    rfl

theorem formatForm_main {M : ModEnv} {Γ : Scopes} {f : Form} {x : String} :
    FormatC.formatForm (emitFormAs M Γ f x) = "main" ↔ x = "main" ∧ f.hops = 0 ∧ f.indexes = [] := by
  constructor
  · intro h
    have hl := congrArg String.toList h
    simp only [FormatC.formatForm, emitFormAs, String.toList_append, toList_rep_star] at hl
    have hm : "main".toList = ['m', 'a', 'i', 'n'] := rfl
    rw [hm] at hl
    have hh : f.hops = 0 := by
      cases hn : f.hops with
      | zero => rfl
      | succ n => simp [hn, List.replicate_succ] at hl
    have hi : f.indexes = [] := by
      cases hix : f.indexes with
      | nil => rfl
      | cons a as =>
        exfalso
        have : '[' ∈ ['m', 'a', 'i', 'n'] := by
          rw [← hl, List.mem_append]
          right
          cases a <;> simp [hix, FormatC.formatIndex, emitOptE, String.join_cons, String.toList_append]
        revert this; decide
    refine ⟨?_, hh, hi⟩
    rw [hh, hi] at hl
    apply String.toList_inj.1
    simpa [hm] using hl
  · rintro ⟨rfl, h1, h2⟩
    simp [FormatC.formatForm, emitFormAs, h1, h2, RStr.rep]

/-- C33: the C text of a function starts with `static` exactly when the function
is neither `pub` nor `main`.  What is missing: a `main` returning a pointer is
marked `static` too (`C33_counterexample`). -/
theorem C33_partial (M : ModEnv) (Γ : Scopes) (f : FuncDecl)
    (hptr : f.form.name = "main" → f.form.hops = 0 ∧ f.form.indexes = []) :
    FormatC.formatElem (.funcDef (emitFunc M Γ f)) =
      (if f.ispub = false ∧ f.form.name ≠ "main" then "static " else "") ++
        signature (emitFunc M Γ f).typename (emitFunc M Γ f).form (emitFunc M Γ f).params ++ " " ++
        FormatC.formatBody (emitFunc M Γ f).body := by
  have : FormatC.staticMark (emitFunc M Γ f).isStatic (FormatC.formatForm (emitFunc M Γ f).form) =
      (if f.ispub = false ∧ f.form.name ≠ "main" then "static " else "") := by
    unfold FormatC.staticMark
    simp only [emitFunc, emitProto]
    congr 1
    rw [eq_iff_iff, Bool.and_eq_true, bne_iff_ne, ne_eq, formatForm_main, declName_eq_main]
    cases f.ispub <;> simp
    tauto
  simp only [FormatC.formatElem, FormatC.fmtFuncDef, this, signature, String.append_assoc]

/-- C33: every function of a translated module other than the `calloc!` helper is
such a translation, and the helper is `static`. -/
theorem C33_functions {m : Module} {p : TrParams} {cm : CModule} (h : translate m p = .ok cm)
    {d : CFuncDef} (hd : .funcDef d ∈ cm.elements) :
    (∃ f, .funcDecl f ∈ m.elements ∧ d = emitFunc (envFor m p) (moduleScope m) f) ∨
    (.funcDef d = mkCallocOrPanic ∧ d.isStatic = true) := by
  rcases funcDef_cases h hd with h' | h'
  · refine .inr ⟨h', ?_⟩
    simp only [mkCallocOrPanic, CModElem.funcDef.injEq] at h'
    rw [h']
  · exact .inl h'

/-- C33: module variables are static. -/
theorem C33_variables (d : CVarDecl) :
    FormatC.formatElem (.varDecl d) = "static " ++ FormatC.fmtVarDecl d ++ ";\n" := by
  simp [FormatC.formatElem, FormatC.fmtVarDecl, String.append_assoc]

/-! ## C34 -/

theorem isInterface_eq (e : CModElem) : isInterface e = inSynopsis e := by cases e <;> rfl

theorem interfaceKey_eq {e : CModElem} {k : String} (h : getObjKey e = some k) : interfaceKey e = k := by
  cases e <;> simp_all [getObjKey, interfaceKey]

/-- C34: the elements injected for the imports of module `i` of a project are
public interface elements of the imported C modules, each key once; and every
public interface element of an imported C module is among them, up to its key. -/
theorem C34_imports [Unicode] {fs : FS} {fuel : Nat} {main : String} {p : Project}
    (hp : parseProject fs fuel main = .ok p) {i : Nat} {h : ModuleInfo} {m : Module} {cm : CModule}
    (hi : p.modheads[i]? = some h) (hm : p.modules[i]? = some m) (hcm : p.cmodules[i]? = some cm) :
    ∃ imported customs,
      cm.elements = reorderElems (moduleHead customs ++ imported ++ m.elements.flatMap
        (emitElem (moduleEnv ctype csym p.modheads p.modules h m) (moduleScope m))) ∧
      (∀ e ∈ imported, ∃ imp ∈ h.imports, ∃ j h' cm', j < i ∧ p.modheads[j]? = some h' ∧
        h'.filepath = imp.path ∧ p.cmodules[j]? = some cm' ∧ e ∈ cm'.elements ∧ isInterface e = true) ∧
      (∀ imp ∈ h.imports, ∃ j h' cm', j < i ∧ p.modheads[j]? = some h' ∧
        h'.filepath = imp.path ∧ p.cmodules[j]? = some cm' ∧
        ∀ e ∈ cm'.elements, isInterface e = true →
          ∃ e' ∈ imported, interfaceKey e' = interfaceKey e) ∧
      (imported.map interfaceKey).Nodup := by
  have hparts := parseProject_ok hp
  obtain ⟨cm2, hcm2, htr⟩ := hparts.translated i h m hi hm
  rw [hcm] at hcm2
  cases hcm2
  obtain ⟨imported, customs, himp, _, hel⟩ := (translate_spec htr).elements
  obtain ⟨a1, a2, a3, a4⟩ := expandLoop_ok himp
  have hat : ∀ imp m', importAt (paramsFor p i h).ctx imp = some m' →
      ∃ j h', j < i ∧ p.modheads[j]? = some h' ∧ h'.filepath = imp.path ∧ p.cmodules[j]? = some m' := by
    intro imp m' hm'
    simp only [importAt, TrParams.ctx, Option.bind_eq_some_iff] at hm'
    obtain ⟨j, hj, hj2⟩ := hm'
    obtain ⟨hlt, h1, _⟩ := List.findIdx?_eq_some_iff_getElem.1 hj
    rw [List.getElem?_take] at hj2
    split at hj2
    · rename_i hji
      exact ⟨j, p.modheads[j], hji, by simp [hlt], by simpa using h1, hj2⟩
    · cases hj2
  refine ⟨imported, customs, hel, ?_, ?_, ?_⟩
  · intro e he
    obtain ⟨imp, h1, m', h2, h3, h4⟩ := a1 e he
    obtain ⟨j, h', b1, b2, b3, b4⟩ := hat imp m' h2
    exact ⟨imp, h1, j, h', m', b1, b2, b3, b4, h3, by rw [isInterface_eq]; exact h4⟩
  · intro imp hi'
    obtain ⟨m', h2, h3⟩ := a2 imp hi'
    obtain ⟨j, h', b1, b2, b3, b4⟩ := hat imp m' h2
    refine ⟨j, h', m', b1, b2, b3, b4, ?_⟩
    intro e he hs
    rw [isInterface_eq] at hs
    obtain ⟨k, hk, hk2⟩ := h3 e he hs
    rcases hk2 with hk2 | ⟨e', he', hk2⟩
    · cases hk2
    · exact ⟨e', he', by rw [interfaceKey_eq hk, interfaceKey_eq hk2]⟩
  · have : imported.map getObjKey = (imported.map interfaceKey).map some := by
      rw [List.map_map]
      apply List.map_congr_left
      intro e he
      obtain ⟨k, hk, _⟩ := a3 e he
      rw [Function.comp_apply, interfaceKey_eq hk, hk]
    rw [this] at a4
    exact List.Pairwise.of_map some (fun a b h h2 => h (by rw [h2])) a4

/-! ## Examples and counterexamples -/

section Examples
attribute [local instance] asciiOnly

/-- The C text of a project, module by module, without the fixed head of 17
elements. -/
def projectTexts (fs : FS) (main : String) : Option (List (List String)) :=
  match parseProject fs 2000 main with
  | .ok p => some (p.cmodules.map (fun cm => (cm.elements.drop 17).map FormatC.formatElem))
  | _ => none

/-- A project of two modules with public and private elements. -/
def moduleDemo : FS := memFS
  [("/a.c", "pub typedef { int x, *y; } t;\npub t *g(int n, *m) { if (m) { return NULL; } return n; }\n" ++
      "int h(t *a) { return a->x; }\npub int k(t *a) { return h(a); }\n"),
   ("/main.c", "#import a.c\nint main() { a.t *x = a.g(1, NULL); return a.k(x); }\n")]

/-- Groups, prototypes, `static`, one parameter and field per name, prefixes, and
the public interface of `a.c` in `main.c`. -/
example : projectTexts moduleDemo "/main.c" = some
  [["struct __mod0_a__t_struct;\n", "typedef struct __mod0_a__t_struct mod0_a__t;\n",
    "struct __mod0_a__t_struct {\n\tint x;\n\tint *y;\n\n};\n",
    "mod0_a__t *mod0_a__g (int n, int *m);\n", "static int h (mod0_a__t *a);\n",
    "int mod0_a__k (mod0_a__t *a);\n",
    "mod0_a__t *mod0_a__g (int n, int *m) {\n\tif (m) {\n\t\treturn NULL;\n\t}\n\t\n\treturn n;\n}\n",
    "static int h (mod0_a__t *a) {\n\treturn a->x;\n}\n",
    "int mod0_a__k (mod0_a__t *a) {\n\treturn h(a);\n}\n"],
   ["#define _XOPEN_SOURCE 700\n", "#define nelem(x) (sizeof (x)/sizeof (x)[0])\n",
    "typedef struct __mod0_a__t_struct mod0_a__t;\n",
    "struct __mod0_a__t_struct {\n\tint x;\n\tint *y;\n\n};\n",
    "mod0_a__t *mod0_a__g (int n, int *m);\n", "int mod0_a__k (mod0_a__t *a);\n",
    "int main (void) {\n\tmod0_a__t *x = mod0_a__g(1, NULL);\n\treturn mod0_a__k(x);\n}\n"]] := by
  decide +kernel

/-- C26 is false for `main`: the call gets a prefix that the definition has not. -/
theorem C26_counterexample_main :
    projectTexts (memFS [("/main.c", "int main() { return main(); }\n")]) "/main.c" =
      some [["int main (void) {\n\treturn mod0_main__main();\n}\n"]] := by decide +kernel

/-- C26 and C27 are false for the keys of composite literals: the exported
constant `K` is not prefixed there, and `NOPE`, declared nowhere, is accepted. -/
theorem C26_C27_counterexample_key :
    projectTexts (memFS [("/main.c", "pub enum { K = 1 }\n" ++
        "int main() { int a[2] = { [K] = 1, [NOPE] = 2 }; return a[0] + K; }\n")]) "/main.c" =
      some [["enum {\n\tmod0_main__K = 1\n};\n",
        "int main (void) {\n\tint a[2] = {\n\t\t[K] = 1,\n\t\t[NOPE] = 2\n\t};\n" ++
        "\treturn a[0] + mod0_main__K;\n}\n"]] := by decide +kernel

/-- C28 is false for a function with a parameter of its own name: the use is
prefixed and the definition is not. -/
theorem C28_counterexample :
    projectTexts (memFS [("/a.c", "pub int f(int f) { return f; }\n"),
        ("/main.c", "#import a.c\nint main() { return a.f(1); }\n")]) "/main.c" =
      some [["int f (int f);\n", "int f (int f) {\n\treturn f;\n}\n"],
        ["#define _XOPEN_SOURCE 700\n", "#define nelem(x) (sizeof (x)/sizeof (x)[0])\n",
         "int f (int f);\n", "int main (void) {\n\treturn mod0_a__f(1);\n}\n"]] := by decide +kernel

/-- C31 is false for the helper of `calloc!`: it is defined without a prototype. -/
theorem C31_counterexample :
    projectTexts (memFS [("/main.c", "int main() { int *p = calloc!(1, 2); return *p; }\n")]) "/main.c" =
      some [["static void *calloc_or_panic (size_t count, size_t size) {\n" ++
        "\tvoid *x = calloc(count, size);\n\tif (!x) {\n\t\tfprintf(stderr, \"calloc failed\");\n" ++
        "\t\texit(1);\n\t}\n\t\n\treturn x;\n}\n",
        "int main (void) {\n\tint *p = calloc_or_panic(1, 2);\n\treturn *p;\n}\n"]] := by decide +kernel

/-- C33 is false for a `main` that returns a pointer. -/
theorem C33_counterexample :
    projectTexts (memFS [("/main.c", "int *main() { return NULL; }\n")]) "/main.c" =
      some [["static int *main (void) {\n\treturn NULL;\n}\n"]] := by decide +kernel

/-- An unused parameter, an undefined name, a private name of another module and
an unused import are rejected. -/
example : projectTexts (memFS [("/main.c", "int f(int x) { return 1; }\nint main() { return f(2); }\n")])
    "/main.c" = none := by decide +kernel
example : projectTexts (memFS [("/main.c", "int main() { return x; }\n")]) "/main.c" = none := by
  decide +kernel
example : projectTexts (memFS [("/a.c", "int g() { return 1; }\npub int f() { return g(); }\n"),
    ("/main.c", "#import a.c\nint main() { return a.g(); }\n")]) "/main.c" = none := by decide +kernel
example : projectTexts (memFS [("/a.c", "pub int f() { return 1; }\n"),
    ("/main.c", "#import a.c\nint main() { return 1; }\n")]) "/main.c" = none := by decide +kernel

end Examples
end Che.Props
