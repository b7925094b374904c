import Verif.Proofs.LeavesPlain2
import Verif.Model.Translator
/-!
# Trees that C can spell are translated to trees that C can spell: statements, modules
-/
namespace Che.Proofs.LeavesPlain
open Che Spec

variable {M : ModEnv} {Γ : Scopes} {ty : String → Bool} {K : String → Prop}

theorem plain_exprStmt (hM : EnvFine M) (hH : HelperNames ty) {e : Expr} (h : Fine M ty (leavesE e)) (g : GoodE K e)
    (t : neatE e = true) (ho : opensE e = false) : PlainS ty (emitExprStmt M Γ e) := by
  have he := plain_e (Γ := Γ) hM h g t
  rw [← opens_emit (M := M) (Γ := Γ)] at ho
  cases e with
  | call p f args =>
    simp only [emitExprStmt]
    split
    · rename_i hf
      simp only [GoodE] at g
      simp only [neatE, Bool.and_eq_true] at t
      have hn : ¬ isIdent f "calloc!" = true := by
        cases f <;> simp_all [isIdent]
      simp only [leavesE] at h
      rw [if_neg hn, fine_append] at h
      exact plain_panic hM hH h.2 g.2 t.2
    · simp only [PlainS]; exact ⟨he, ho⟩
  | _ => simp only [emitExprStmt, PlainS]; exact ⟨he, ho⟩

theorem plain_strTest (hM : EnvFine M) (hH : HelperNames ty) {v : CExpr} (hv : Plain ty v) {l : CaseValue}
    (h : Fine M ty (leavesLabel l)) : Plain ty (emitStrTest M Γ v l) := by
  have hs := helper hH (w := "strcmp") (by simp)
  have hl : Plain ty (emitStrValue M Γ l) := by
    cases l with
    | ident n =>
      simp only [leavesLabel, fine_cons] at h
      simp only [emitStrValue, Plain]
      exact value_name hM h.1
    | literal l =>
      simp only [leavesLabel, fine_cons] at h
      simp only [emitStrValue, Plain]
      exact h.1
  simp only [emitStrTest, Plain, PlainArgs, isBinary, sticks, leads]
  exact ⟨by simp, ⟨hs, hl, hv, trivial⟩, fun _ => by decide⟩

theorem plain_strCond (hM : EnvFine M) (hH : HelperNames ty) {v : CExpr} (hv : Plain ty v) {vs : List CaseValue}
    (h : ∀ l ∈ vs, Fine M ty (leavesLabel l)) : Plain ty (emitStrCond M Γ v vs) := by
  cases vs with
  | nil => simp only [emitStrCond, Plain, PlainLit]; exact ⟨'0', [], rfl, by decide, trivial⟩
  | cons l ls =>
    simp only [emitStrCond]
    have h1 := plain_strTest (Γ := Γ) hM hH hv (h l (by simp))
    generalize emitStrTest M Γ v l = a at h1
    have h2 : ∀ l ∈ ls, Fine M ty (leavesLabel l) := fun x hx => h x (by simp [hx])
    clear h
    induction ls generalizing a with
    | nil => exact h1
    | cons x ls ih =>
      refine ih _ ?_ (fun y hy => h2 y (by simp [hy]))
      simp only [Plain]
      exact ⟨.inl ⟨3, rfl⟩, h1, plain_strTest hM hH hv (h2 x (by simp))⟩

mutual
theorem plain_ss (hM : EnvFine M) (hH : HelperNames ty) : ∀ {ss : List Stmt} {Γ : Scopes}, Fine M ty (leavesSs ss) →
    GoodSs K ss → neatSs ss = true → PlainSs ty (emitSs M Γ ss)
  | [], _, _, _, _ => by simp [emitSs, PlainSs]
  | s :: ss, Γ, h, g, t => by
    simp only [leavesSs, fine_append] at h
    simp only [GoodSs] at g
    simp only [neatSs, Bool.and_eq_true] at t
    simp only [emitSs, PlainSs]
    exact ⟨plain_s hM hH h.1 g.1 t.1, plain_ss hM hH h.2 g.2 t.2⟩
theorem plain_s (hM : EnvFine M) (hH : HelperNames ty) : ∀ {s : Stmt} {Γ : Scopes}, Fine M ty (leavesS s) →
    GoodS K s → neatS s = true → PlainS ty (emitS M Γ s)
  | .brk, _, _, _, _ => by simp [emitS, PlainS]
  | .cont, _, _, _, _ => by simp [emitS, PlainS]
  | .expr e, Γ, h, g, t => by
    simp only [leavesS] at h
    simp only [GoodS] at g
    simp only [neatS, Bool.and_eq_true, Bool.not_eq_true'] at t
    simp only [emitS]
    exact plain_exprStmt hM hH h g t.1 t.2
  | .varDecl d, Γ, h, g, t => by
    simp only [leavesS, fine_cons, fine_append] at h
    simp only [GoodS, GoodVar] at g
    simp only [neatS, Bool.and_eq_true] at t
    simp only [emitS, emitVar, PlainS, List.zip_cons_cons, List.zip_nil_left, List.mem_singleton, ne_eq, reduceCtorEq,
      not_false_eq_true, true_and, forall_eq]
    exact ⟨type_name hM h.1, plain_form hM h.2.1 g.2.1 t.1, plain_opt hM h.2.2 g.2.2 t.2⟩
  | .ret e, Γ, h, g, t => by
    simp only [leavesS] at h
    simp only [GoodS] at g
    simp only [neatS] at t
    simp only [emitS, PlainS]
    exact plain_opt hM h g t
  | .ifS c b e, Γ, h, g, t => by
    simp only [leavesS, fine_append] at h
    simp only [GoodS] at g
    simp only [neatS, Bool.and_eq_true] at t
    simp only [emitS, PlainS]
    exact ⟨plain_e hM h.1.1 g.1 t.1.1, plain_ss hM hH h.1.2 g.2.1 t.1.2, plain_b hM hH h.2 g.2.2 t.2⟩
  | .whileS c b, Γ, h, g, t => by
    simp only [leavesS, fine_append] at h
    simp only [GoodS] at g
    simp only [neatS, Bool.and_eq_true] at t
    simp only [emitS, PlainS]
    exact ⟨plain_e hM h.1 g.1 t.1, plain_ss hM hH h.2 g.2 t.2⟩
  | .forS i c a b, Γ, h, g, t => by
    simp only [leavesS, fine_append] at h
    simp only [GoodS] at g
    simp only [neatS, Bool.and_eq_true] at t
    simp only [emitS, PlainS]
    exact ⟨plain_init hM h.1.1.1 g.1 t.1.1.1, plain_opt hM h.1.1.2 g.2.1 t.1.1.2, plain_opt hM h.1.2 g.2.2.1 t.1.2,
      plain_ss hM hH h.2 g.2.2.2 t.2⟩
  | .switchS false v cs d, Γ, h, g, t => by
    simp only [leavesS, fine_append] at h
    simp only [GoodS] at g
    simp only [neatS, Bool.and_eq_true] at t
    simp only [emitS, Bool.false_eq_true, if_false, PlainS]
    exact ⟨plain_e hM h.1.1 g.1 t.1.1, plain_cs hM hH h.1.2 g.2.1 t.1.2, plain_b hM hH h.2 g.2.2 t.2⟩
  | .switchS true v [] d, Γ, h, g, t => by simp [emitS, PlainS, PlainSs]
  | .switchS true v (.mk vs b :: cs) d, Γ, h, g, t => by
    simp only [leavesS, leavesCs, fine_append, fine_flatMap] at h
    simp only [GoodS, GoodCases] at g
    simp only [neatS, neatCs, Bool.and_eq_true] at t
    have hv := plain_e (Γ := Γ) hM h.1.1 g.1 t.1.1
    simp only [emitS, if_true, emitStrCase, PlainS]
    exact ⟨plain_strCond hM hH hv h.1.2.1.1, plain_ss hM hH h.1.2.1.2 g.2.1.2.1 t.1.2.1,
      plain_strElse hM hH hv (plain_b hM hH h.2 g.2.2 t.2) h.1.2.2 g.2.1.2.2 t.1.2.2⟩
theorem plain_b (hM : EnvFine M) (hH : HelperNames ty) : ∀ {b : Option (List Stmt)} {Γ : Scopes}, Fine M ty (leavesB b) →
    GoodOptB K b → neatB b = true → PlainB ty (emitOptB M Γ b)
  | none, _, _, _, _ => by simp [emitOptB, PlainB]
  | some b, Γ, h, g, t => by
    simp only [leavesB] at h
    simp only [GoodOptB] at g
    simp only [neatB] at t
    simp only [emitOptB, PlainB]
    exact plain_ss hM hH h g t
theorem plain_cs (hM : EnvFine M) (hH : HelperNames ty) : ∀ {cs : List SwitchCase} {Γ : Scopes}, Fine M ty (leavesCs cs) →
    GoodCases K cs → neatCs cs = true → PlainCs ty (emitCases M Γ cs)
  | [], _, _, _, _ => by simp [emitCases, PlainCs]
  | .mk vs b :: cs, Γ, h, g, t => by
    simp only [leavesCs, fine_append, fine_flatMap] at h
    simp only [GoodCases] at g
    simp only [neatCs, Bool.and_eq_true] at t
    simp only [emitCases, PlainCs, List.mem_map, forall_exists_index, and_imp, forall_apply_eq_imp_iff₂]
    exact ⟨fun l hl => plain_label hM (h.1.1 l hl), plain_ss hM hH h.1.2 g.2.1 t.1, plain_cs hM hH h.2 g.2.2 t.2⟩
theorem plain_strElse (hM : EnvFine M) (hH : HelperNames ty) {v : CExpr} {d : Option CBody} : ∀ {cs : List SwitchCase} {Γ : Scopes},
    Plain ty v → PlainB ty d → Fine M ty (leavesCs cs) → GoodCases K cs → neatCs cs = true →
    PlainB ty (emitStrElse M Γ v d cs)
  | [], _, _, hd, _, _, _ => by simpa only [emitStrElse] using hd
  | .mk vs b :: cs, Γ, hv, hd, h, g, t => by
    simp only [leavesCs, fine_append, fine_flatMap] at h
    simp only [GoodCases] at g
    simp only [neatCs, Bool.and_eq_true] at t
    simp only [emitStrElse, emitStrCase, PlainB, PlainSs, PlainS, and_true]
    exact ⟨plain_strCond hM hH hv h.1.1, plain_ss hM hH h.1.2 g.2.1 t.1, plain_strElse hM hH hv hd h.2 g.2.2 t.2⟩
end

/-! ## Elements -/

theorem kType_plain {t : CTypename} (h : CWord t.name.toList) : kType t = ⟨t.isConst, false, t.name⟩ := by
  unfold kType
  split
  · rename_i w hw
    exfalso
    have := cword_idchars h ' ' (by rw [hw]; simp)
    revert this
    decide
  · rfl

theorem kType_struct (b : Bool) (w : String) : kType ⟨b, "struct " ++ w⟩ = ⟨b, true, w⟩ := by
  have e : ("struct " ++ w).toList = 's' :: 't' :: 'r' :: 'u' :: 'c' :: 't' :: ' ' :: w.toList := by
    rw [String.toList_append]; rfl
  unfold kType
  split
  · rename_i v hv
    rw [e] at hv
    have hw : w.toList = v := by simpa using hv
    rw [← hw, String.ofList_toList]
  · rename_i hv
    exact absurd e (hv _)

theorem tag_struct {x : String} (h : CWord x.toList) : PlainTag ("__" ++ x ++ "_struct") := by
  have e : ("__" ++ x ++ "_struct").toList = '_' :: '_' :: (x.toList ++ "_struct".toList) := by
    simp
  constructor
  · refine ⟨'_', '_' :: (x.toList ++ "_struct".toList), e, by decide, fun c hc => ?_⟩
    simp only [List.mem_cons, List.mem_append] at hc
    rcases hc with rfl | hc | hc
    · decide
    · exact cword_idchars h c hc
    · revert c; decide
  · intro hk
    exact keyword_no2 _ hk ⟨[], x.toList ++ "_struct".toList, by rw [e]; rfl⟩

theorem plain_field (hM : EnvFine M) {t : Typename} {f : Form} (ht : LeafFine M ty (.type t.name)) (h : Fine M ty (leavesForm f))
    (g : GoodForm K f) (n : neatForm f = true) : PlainField ty (emitTypeForm M Γ t f) :=
  ⟨type_name hM ht, plain_form hM h g n⟩

theorem plain_proto (hM : EnvFine M) {f : FuncDecl} (h : Fine M ty (leavesElem (.funcDecl f))) (g : GoodElem K (.funcDecl f))
    (t : NeatElem (.funcDecl f)) : PlainTypename ty (emitProto M Γ f).typename ∧ PlainForm ty (emitProto M Γ f).form ∧
      PlainParams ty (emitProto M Γ f).params := by
  simp only [leavesElem, fine_cons, fine_append, fine_flatMap] at h
  simp only [GoodElem] at g
  simp only [NeatElem] at t
  refine ⟨type_name hM h.1, plain_formAs hM h.2.1.1 g.2.1 t.1 (value_decl hM (fine_cons.mp h.2.1.1).1), ?_, ?_⟩
  · simp only [emitProto, emitParams, List.mem_flatMap, List.mem_map, forall_exists_index, and_imp]
    rintro x p hp f hf rfl
    have h1 := h.2.1.2 p hp
    simp only [leavesFields, fine_cons, fine_flatMap] at h1
    have h2 := (t.2.1 p hp).2
    simp only [List.all_eq_true] at h2
    exact plain_field hM h1.1 (h1.2 f hf) ((g.2.2.1 p hp).2 f hf) (h2 f hf)
  · intro hv
    have hl := t.2.2.1 hv
    simp only [emitProto, emitParams]
    cases he : f.params.list with
    | nil => exact absurd he hl
    | cons p ps =>
      have := (t.2.1 p (by simp [he])).1
      cases hp : p.forms with
      | nil => exact absurd hp this
      | cons a b => simp [hp]

theorem plain_elem (hM : EnvFine M) (hH : HelperNames ty) {e : ModElem} (h : Fine M ty (leavesElem e)) (g : GoodElem K e)
    (t : NeatElem e) {c : CModElem} (hc : c ∈ emitElem M Γ e) : PlainElem ty c := by
  cases e with
  | «macro» x =>
    simp only [emitElem] at hc
    split at hc
    · cases hc
    · rename_i hn
      simp only [List.mem_singleton] at hc
      subst hc
      simp only [NeatElem] at t
      rcases t with t | t | t
      · exact absurd (.inl t) hn
      · exact absurd (.inr t) hn
      · exact t
  | enum x =>
    simp only [emitElem, List.mem_singleton] at hc
    subst hc
    simp only [leavesElem, fine_flatMap, fine_cons] at h
    simp only [GoodElem] at g
    simp only [NeatElem] at t
    simp only [PlainElem, ne_eq, List.map_eq_nil_iff, List.mem_map, forall_exists_index, and_imp, forall_apply_eq_imp_iff₂]
    exact ⟨t.1, fun m hm => ⟨value_pub hM (h m hm).1 _, plain_opt hM (h m hm).2 (g m hm) (t.2 m hm)⟩⟩
  | structAlias x =>
    simp only [emitElem, List.mem_singleton] at hc
    subst hc
    simp only [leavesElem, fine_cons] at h
    simp only [PlainElem, kType_struct, PlainKType, if_true]
    exact ⟨h.1, ⟨0, rfl⟩, tag_pub hM h.2.1 _, by simp⟩
  | typedef x =>
    simp only [emitElem, List.mem_singleton] at hc
    subst hc
    simp only [leavesElem, fine_cons] at h
    simp only [NeatElem] at t
    have ht := type_name hM h.1
    simp only [PlainElem, kType_plain ht.1, PlainKType, Bool.false_eq_true, if_false]
    refine ⟨ht, stars_form _, tag_pub hM h.2.1 _, fun p hp => ?_⟩
    obtain ⟨q, hq, rfl⟩ := Option.map_eq_some_iff.mp hp
    have h3 := h.2.2
    rw [hq] at h3
    refine ⟨fun b hb => ?_, fun he => ?_⟩
    · obtain ⟨b', hb', rfl⟩ := List.mem_map.mp hb
      exact type_name hM (h3 _ (List.mem_map_of_mem hb'))
    · have := t q hq he
      simpa using this
  | structTypedef x =>
    simp only [leavesElem, fine_cons, fine_flatMap] at h
    simp only [GoodElem] at g
    simp only [NeatElem] at t
    have htag := tag_pub (M := M) hM h.1 x.ispub
    have hs := tag_struct htag.1
    simp only [emitElem, List.mem_cons, List.not_mem_nil, or_false] at hc
    rcases hc with rfl | rfl | rfl
    · exact hs
    · simp only [PlainElem]
      refine ⟨hs, ?_, ?_⟩
      · cases he : x.entries with
        | nil => exact absurd he t.1
        | cons a as =>
          have := t.2 a (by simp [he])
          cases a with
          | plain p =>
            simp only [neatMember, Bool.and_eq_true, Bool.not_eq_true', List.isEmpty_eq_false_iff] at this
            simp [emitStructEntry, this.1]
          | union u => simp [emitStructEntry]
      · simp only [List.mem_flatMap, forall_exists_index, and_imp]
        intro i m hm hi
        have h1 := h.2 m hm
        have g1 := g m hm
        have t1 := t.2 m hm
        cases m with
        | plain p =>
          simp only [emitStructEntry, List.mem_map] at hi
          obtain ⟨f, hf, rfl⟩ := hi
          simp only [leavesMember, leavesFields, fine_cons, fine_flatMap] at h1
          simp only [GoodMember, GoodFields] at g1
          simp only [neatMember, Bool.and_eq_true, List.all_eq_true] at t1
          exact plain_field hM h1.1 (h1.2 f hf) (g1.2 f hf) (t1.2 f hf)
        | union u =>
          simp only [emitStructEntry, List.mem_singleton] at hi
          subst hi
          simp only [leavesMember, fine_append, fine_flatMap, fine_cons] at h1
          simp only [GoodMember] at g1
          simp only [neatMember, Bool.and_eq_true, List.all_eq_true, Bool.not_eq_true', List.isEmpty_eq_false_iff] at t1
          simp only [PlainItem, ne_eq, List.map_eq_nil_iff, List.mem_map, forall_exists_index, and_imp,
            forall_apply_eq_imp_iff₂]
          exact ⟨t1.1.1, fun f hf => plain_field hM (h1.2 f hf).1 (h1.2 f hf).2 (g1.2 f hf).2 (t1.1.2 f hf),
            plain_form hM h1.1 g1.1 t1.2⟩
    · simp only [PlainElem, kType_struct, PlainKType, if_true]
      exact ⟨hs, ⟨0, rfl⟩, htag, by simp⟩
  | modVar d =>
    simp only [leavesElem, fine_cons, fine_append] at h
    simp only [GoodElem, GoodVar] at g
    simp only [NeatElem] at t
    simp only [emitElem] at hc
    split at hc
    · rename_i e he
      simp only [List.mem_singleton] at hc
      subst hc
      rw [he] at h g t
      simp only [PlainElem]
      exact ⟨type_name hM h.1, plain_formAs hM h.2.1 g.1.2.1 t.1 (value_decl hM (fine_cons.mp h.2.1).1),
        plain_e hM h.2.2 g.1.2.2 t.2⟩
    · cases hc
  | funcDecl f =>
    have hp := plain_proto (Γ := Γ) hM h g t
    simp only [emitElem, List.mem_cons] at hc
    rcases hc with rfl | hc
    · simp only [leavesElem, fine_cons, fine_append] at h
      simp only [GoodElem] at g
      simp only [NeatElem] at t
      simp only [PlainElem, emitFunc]
      exact ⟨hp.1, hp.2.1, hp.2.2, plain_ss hM hH h.2.2 g.2.2.2 t.2.2.2⟩
    · split at hc
      · cases hc
      · simp only [List.mem_singleton] at hc
        subst hc
        exact hp

/-! ## The head of a module -/

theorem not_infix_of {l : List Char} (h : (List.range l.length).all (fun i => !(['/', '*'].isPrefixOf (l.drop i))) = true) :
    ¬ ['/', '*'] <:+: l := by
  rintro ⟨a, b, e⟩
  simp only [List.all_eq_true, List.mem_range, Bool.not_eq_true'] at h
  have := h a.length (by rw [← e]; simp)
  rw [← e, List.append_assoc, List.drop_left] at this
  simp [List.isPrefixOf] at this

/-- `DirLine` as a test. -/
def isDirLine (l : List Char) : Bool :=
  !l.contains '\n' && l.getLast? != some '\\' && l.head? != some '#' &&
  (List.range l.length).all (fun i => !(['/', '*'].isPrefixOf (l.drop i)))

theorem isDirLine_dir {l : List Char} (h : isDirLine l = true) : DirLine l := by
  simp only [isDirLine, Bool.and_eq_true, Bool.not_eq_true', bne_iff_ne] at h
  exact ⟨by simpa using h.1.1.1, h.1.1.2, not_infix_of h.2, h.1.2⟩

theorem plain_calloc (hH : HelperNames ty) : PlainElem ty mkCallocOrPanic := by
  have hw : ∀ w ∈ ["calloc", "calloc_or_panic", "count", "exit", "fprintf", "size", "stderr", "strcmp", "x"],
    PlainWord ty w := fun w => helper hH
  have hv : PlainTypename ty ⟨false, "void"⟩ := ⟨isWord_word (by decide), hH.types.1, by decide, by decide⟩
  have hs : PlainTypename ty ⟨false, "size_t"⟩ := ⟨isWord_word (by decide), hH.types.2, by decide, by decide⟩
  have f0 : ∀ x, PlainWord ty x → PlainForm ty { indexes := [], name := x, stars := "" } :=
    fun x hx => ⟨⟨0, rfl⟩, hx, by simp⟩
  have f1 : ∀ x, PlainWord ty x → PlainForm ty { indexes := [], name := x, stars := "*" } :=
    fun x hx => ⟨⟨1, rfl⟩, hx, by simp⟩
  simp only [mkCallocOrPanic, PlainElem, PlainSs, PlainS, PlainB, PlainOpt, mkCallExpr, mkId, mkNeg, mkExit1, Plain, PlainArgs,
    PlainLit, and_true]
  refine ⟨hv, f1 _ (hw _ (by simp)), ⟨?_, by simp⟩, ⟨hv, by simp, ?_⟩, ⟨⟨by simp, hw _ (by simp), ?_⟩, ?_⟩, hw _ (by simp)⟩
  · simp only [List.mem_cons, List.not_mem_nil, or_false, forall_eq_or_imp, forall_eq]
    exact ⟨⟨hs, f0 _ (hw _ (by simp))⟩, hs, f0 _ (hw _ (by simp))⟩
  · simp only [List.zip_cons_cons, List.zip_nil_left, List.mem_singleton, forall_eq, Plain, PlainArgs, PlainOpt, and_true]
    exact ⟨f1 _ (hw _ (by simp)), hw _ (by simp), hw _ (by simp), hw _ (by simp)⟩
  · intro _; rfl
  · refine ⟨⟨⟨hw _ (by simp), hw _ (by simp), ?_⟩, rfl⟩, ⟨hw _ (by simp), ?_⟩, rfl⟩
    · exact raw_body (by decide) (by decide)
    · exact ⟨'1', [], rfl, by decide, trivial⟩

theorem plain_head (hH : HelperNames ty) (customs : List String) : ∀ e ∈ moduleHead customs, PlainElem ty e := by
  intro e he
  simp only [moduleHead, List.mem_append, List.mem_singleton, List.mem_map] at he
  rcases he with ((rfl | ⟨n, hn, rfl⟩) | he) | rfl
  · exact isDirLine_dir (by decide +kernel)
  · have key : ∀ n ∈ clibs, isDirLine ("include " ++ ("<" ++ n ++ ".h>")).toList = true := by decide +kernel
    exact isDirLine_dir (key n hn)
  · split at he
    · rw [List.mem_singleton] at he
      subst he
      exact plain_calloc hH
    · cases he
  · exact isDirLine_dir (by decide +kernel)

theorem faith_head (customs : List String) : ∀ e ∈ moduleHead customs, FaithfulElem e = true := by
  intro e he
  simp only [moduleHead, List.mem_append, List.mem_singleton, List.mem_map] at he
  rcases he with ((rfl | ⟨n, hn, rfl⟩) | he) | rfl
  · rfl
  · rfl
  · split at he
    · rw [List.mem_singleton] at he
      subst he
      decide +kernel
    · cases he
  · rfl

end Che.Proofs.LeavesPlain
