import Verif.Proofs.CStmtBack
import Verif.Proofs.CPrintDerive
import Verif.Proofs.CUniqueInit
/-!
# Printed statements can be read
-/
namespace Che.Proofs.CStmtDerive
open Che Che.Spec Che.FormatC Che.Proofs.CPrintToks Che.Proofs.CPrintDerive Che.Proofs.CStmtToks Che.Proofs.CStmtBack

variable {ty : String → Bool}

/-- What text can give back. -/
abbrev Same (e e' : CExpr) : Prop := e' = canon e

theorem derive_opt {e} (h : PlainOpt ty e) (hf : FaithfulOpt e = true) :
    ∃ e', COptEx ty e' (optToks e) ∧ OptAlike Same e e' := by
  cases e with
  | none => exact ⟨none, .none, .none⟩
  | some e => exact ⟨_, .some (derive2 (e := e) h hf), .some rfl⟩

theorem derive_bounds : ∀ {is}, (∀ i ∈ is, PlainOpt ty i) → is.all FaithfulOpt = true →
    ∃ is', CBounds ty is' (boundToks is) ∧ ListAlike (OptAlike Same) is is'
  | [], _, _ => ⟨[], .nil, .nil⟩
  | none :: is, h, hf => by
    simp only [List.all_cons, Bool.and_eq_true] at hf
    obtain ⟨is', h1, h2⟩ := derive_bounds (is := is) (fun i hi => h i (by simp [hi])) hf.2
    exact ⟨none :: is', .none h1, .cons .none h2⟩
  | some e :: is, h, hf => by
    simp only [List.all_cons, Bool.and_eq_true] at hf
    obtain ⟨is', h1, h2⟩ := derive_bounds (is := is) (fun i hi => h i (by simp [hi])) hf.2
    exact ⟨some (canon e) :: is', .some (derive2 (h (some e) (by simp)) hf.1) h1, .cons (.some rfl) h2⟩

theorem derive_form {f} (h : PlainForm ty f) (hf : f.indexes.all FaithfulOpt = true) :
    ∃ f', CDeclarator ty f' (formToks f) ∧ FormAlike Same f f' := by
  obtain ⟨⟨n, hn⟩, hw, hi⟩ := h
  obtain ⟨is', h1, h2⟩ := derive_bounds hi hf
  refine ⟨⟨String.ofList (List.replicate n '*'), f.name, is'⟩, ?_, ⟨hn, rfl, h2⟩⟩
  have : f.stars.toList.length = n := by rw [hn]; simp
  rw [formToks, this]
  exact .mk hw.2 h1

theorem derive_decl {d : CForm × Option CExpr} (h : PlainForm ty d.1) (hv : PlainOpt ty d.2)
    (hf : FaithfulDecl d = true) : ∃ d', CInitDecl ty d' (declToks d) ∧ DeclAlike Same Same d d' := by
  obtain ⟨f, v⟩ := d
  simp only [FaithfulDecl, Bool.and_eq_true] at hf
  obtain ⟨f', h1, h2⟩ := derive_form h hf.1
  cases v with
  | none => exact ⟨(f', none), .plain h1, ⟨h2, .none⟩⟩
  | some v => exact ⟨(f', some (canon v)), .init h1 (deriveInit (e := v) hv hf.2), ⟨h2, .some rfl⟩⟩

theorem derive_decls : ∀ {ds d}, (∀ e ∈ d :: ds, PlainForm ty e.1 ∧ PlainOpt ty e.2) →
    (d :: ds).all FaithfulDecl = true →
    ∃ ds', CInitDecls ty ds' (declToks d ++ declsToks ds) ∧ ListAlike (DeclAlike Same Same) (d :: ds) ds'
  | [], d, h, hf => by
    simp only [List.all_cons, Bool.and_eq_true] at hf
    have hd := h d (by simp)
    obtain ⟨d', h1, h2⟩ := derive_decl hd.1 hd.2 hf.1
    exact ⟨[d'], by simpa [declsToks] using CInitDecls.one h1, .cons h2 .nil⟩
  | e :: ds, d, h, hf => by
    rw [List.all_cons, Bool.and_eq_true] at hf
    have hd := h d (by simp)
    obtain ⟨d', h1, h2⟩ := derive_decl hd.1 hd.2 hf.1
    obtain ⟨ds', h3, h4⟩ := derive_decls (fun e he => h e (List.mem_cons_of_mem _ he)) hf.2
    exact ⟨d' :: ds', CInitDecls.cons h1 h3, .cons h2 h4⟩

theorem derive_spec {t} (h : PlainTypename ty t) : CTypeSpec ty t (specToks t) := by
  obtain ⟨b, w⟩ := t
  cases b
  · exact .plain h.2
  · exact .const h.2

theorem derive_first {i} (h : PlainInit ty i) (hf : FaithfulFirst i = true) :
    ∃ i', CForFirst ty i' (firstToks i) ∧ InitAlike Same Same i i' := by
  cases i with
  | none => exact ⟨none, .none, .none⟩
  | some i =>
    cases i with
    | expr e => exact ⟨_, .expr (derive2 h.1 hf), .expr rfl⟩
    | decl d =>
      obtain ⟨t, f, v⟩ := d
      obtain ⟨h1, h2, h3⟩ := h
      simp only [FaithfulFirst, Bool.and_eq_true] at hf
      obtain ⟨f', k1, k2⟩ := derive_form h2 hf.1
      exact ⟨_, .decl (derive_spec h1) k1 (deriveInit h3 hf.2), .decl k2 rfl⟩

theorem label_derive {l} (h : PlainLabel ty l) :
    ∃ l', CEx ty (.ex 3 (labelExpr l')) (toksE (labelExpr l)) ∧ Same (labelExpr l) (labelExpr l') := by
  have hd := derive2 h (by cases l <;> rfl)
  have hl : ∃ l', labelExpr l' = canon (labelExpr l) := by
    cases l with
    | ident x => exact ⟨.ident x, rfl⟩
    | literal v =>
      cases v with
      | null => exact ⟨.ident "NULL", rfl⟩
      | string v => exact ⟨.literal _, rfl⟩
      | char v => exact ⟨.literal _, rfl⟩
      | number v => exact ⟨.literal _, rfl⟩
  obtain ⟨l', hl⟩ := hl
  refine ⟨l', ?_, hl⟩
  have hd : CEx ty (.ex 2 (labelExpr l')) (toksE (labelExpr l)) := by rw [hl]; exact hd
  generalize toksE (labelExpr l) = T at hd
  clear hl
  cases l' with
  | ident x => cases hd with | up _ _ h => exact h
  | literal v => cases hd with | up _ _ h => exact h

theorem derive_labels {T k} (h : CSt ty (.stmt k) T) {K} (ha : Alike Same Same K k) :
    ∀ {ls}, (∀ l ∈ ls, PlainLabel ty l) →
    ∃ k', CSt ty (.stmt k') (labelToks ls ++ T) ∧ Alike Same Same (labels ls K) k'
  | [], _ => ⟨k, h, ha⟩
  | l :: ls, hl => by
    obtain ⟨k', h1, h2⟩ := derive_labels h ha (ls := ls) fun l h => hl l (by simp [h])
    obtain ⟨l', h3, h4⟩ := label_derive (hl l (by simp))
    exact ⟨.case l' k', by simpa [labelToks] using CSt.case h3 h1, .case h4 h2⟩

theorem items_append : ∀ {ss c ss2 c2}, CSt ty (.items ss) c → CSt ty (.items ss2) c2 →
    CSt ty (.items (ss ++ ss2)) (c ++ c2)
  | _, _, _, _, .nil, h2 => h2
  | _, _, _, _, .stmt h h1, h2 => by
    have := CSt.stmt h (items_append h1 h2)
    simpa using this
  | _, _, _, _, .decl h hd h1, h2 => by
    have := CSt.decl h hd (items_append h1 h2)
    simpa using this

/-- The tokens can be read as something like `K`. -/
def Can (ty : String → Bool) (T : List CTok) (K : List KStmt) : Prop :=
  ∃ ks, CSt ty (.items ks) T ∧ Alikes Same Same K ks

theorem Can.nil : Can ty [] [] := ⟨[], .nil, .nil⟩

theorem Can.append {T K T2 K2} (h : Can ty T K) (h2 : Can ty T2 K2) : Can ty (T ++ T2) (K ++ K2) := by
  obtain ⟨ks, h, ha⟩ := h
  obtain ⟨ks2, h2, ha2⟩ := h2
  exact ⟨_, items_append h h2, alikes_append ha ha2⟩

theorem Can.one {T k k'} (h : CSt ty (.stmt k') T) (ha : Alike Same Same k k') : Can ty T [k] :=
  ⟨[k'], by simpa using CSt.stmt h .nil, .cons ha .nil⟩

mutual
theorem canS : ∀ {s}, PlainS ty s → FaithfulS s = true → Can ty (toksS s) (lower s)
  | .block ss, h, hf => by
    obtain ⟨ks, h1, h2⟩ := canSs (ss := ss) h hf
    exact .one (.block h1) (.block h2)
  | .brk, _, _ => .one .brk .brk
  | .cont, _, _ => .one .cont .cont
  | .varDecl t fs vs, h, hf => by
    obtain ⟨h1, h2, h3⟩ := h
    simp only [FaithfulS] at hf
    rw [toksS, lower]
    cases hz : fs.zip vs with
    | nil => exact absurd hz h2
    | cons d ds =>
      rw [hz] at h3 hf
      obtain ⟨ds', k1, k2⟩ := derive_decls h3 hf
      refine ⟨[.decl t ds'], ?_, .cons (.decl k2) .nil⟩
      exact CSt.decl (derive_spec h1) k1 .nil
  | .ifS c b none, h, hf => by
    simp only [FaithfulS, Bool.and_eq_true] at hf
    obtain ⟨ks, h1, h2⟩ := canSs h.2.1 hf.1.2
    refine .one (k' := .ifS (canon c) (.block ks) none) ?_ (.ifS rfl (.block h2))
    exact CSt.ifOnly (derive2 h.1 hf.1.1) (.block h1)
  | .ifS c b (some b2), h, hf => by
    simp only [FaithfulS, Bool.and_eq_true] at hf
    obtain ⟨ks, h1, h2⟩ := canSs h.2.1 hf.1.2
    obtain ⟨ks2, h3, h4⟩ := canSs (ss := b2) h.2.2 hf.2
    refine .one (k' := .ifS (canon c) (.block ks) (some (.block ks2))) ?_ (.ifElse rfl (.block h2) (.block h4))
    have := CSt.ifElse (derive2 h.1 hf.1.1) (.block h1) (.block h3)
    simpa [toksS, elseToks] using this
  | .forS i c a b, h, hf => by
    simp only [FaithfulS, Bool.and_eq_true] at hf
    obtain ⟨i', i1, i2⟩ := derive_first h.1 hf.1.1.1
    obtain ⟨c', c1, c2⟩ := derive_opt h.2.1 hf.1.1.2
    obtain ⟨a', a1, a2⟩ := derive_opt h.2.2.1 hf.1.2
    obtain ⟨ks, h1, h2⟩ := canSs h.2.2.2 hf.2
    exact .one (CSt.for i1 c1 a1 (.block h1)) (.forS i2 c2 a2 (.block h2))
  | .whileS c b, h, hf => by
    simp only [FaithfulS, Bool.and_eq_true] at hf
    obtain ⟨ks, h1, h2⟩ := canSs h.2 hf.2
    exact .one (CSt.while (derive2 h.1 hf.1) (.block h1)) (.whileS rfl (.block h2))
  | .ret none, _, _ => (Can.one (CSt.ret .none) (.ret .none)).append (.one .empty .empty)
  | .ret (some e), h, hf => .one (CSt.ret (.some (derive2 (e := e) h hf))) (.ret (.some rfl))
  | .switchS v cs d, h, hf => by
    simp only [FaithfulS, Bool.and_eq_true] at hf
    obtain ⟨ks, h1, h2⟩ := (canCs h.2.1 hf.1.2).append (canD h.2.2 hf.2)
    exact .one (CSt.switch (derive2 h.1 hf.1.1) h1) (.switchS rfl h2)
  | .expr e, h, hf => .one (CSt.expr (derive2 h.1 hf)) (.expr rfl)
theorem canSs : ∀ {ss}, PlainSs ty ss → FaithfulSs ss = true → Can ty (toksSs ss) (lowers ss)
  | [], _, _ => .nil
  | s :: ss, h, hf => by
    simp only [FaithfulSs, Bool.and_eq_true] at hf
    exact (canS h.1 hf.1).append (canSs h.2 hf.2)
theorem canCs : ∀ {cs}, PlainCs ty cs → FaithfulCs cs = true → Can ty (toksCs cs) (lowerCases cs)
  | [], _, _ => .nil
  | .mk ls b :: cs, h, hf => by
    simp only [FaithfulCs, Bool.and_eq_true] at hf
    obtain ⟨ks, h1, h2⟩ := (canBody h.2.1 hf.1).append (.one .brk .brk)
    obtain ⟨k', h3, h4⟩ := derive_labels (CSt.block h1) (.block h2) h.1
    have := (Can.one h3 h4).append (canCs h.2.2 hf.2)
    simpa [toksCs, lowerCases] using this
theorem canD : ∀ {d}, PlainB ty d → FaithfulB d = true → Can ty (dfltToks d) (lowerDflt d)
  | none, _, _ => .nil
  | some b, h, hf => by
    obtain ⟨ks, h1, h2⟩ := canBody (ss := b) h hf
    exact .one (CSt.dflt (.block h1)) (.dflt (.block h2))
theorem canBody : ∀ {ss}, PlainSs ty ss → FaithfulSs ss = true → Can ty (bodyToks ss) (lowerBody ss)
  | [], _, _ => .nil
  | s :: ss, h, hf => by
    simp only [FaithfulSs, Bool.and_eq_true] at hf
    have := ((canS h.1 hf.1).append (.one .empty .empty)).append (canBody h.2 hf.2)
    simpa [bodyToks, lowerBody] using this
end

/-! ## Related statements -/

section
variable {R I : CExpr → CExpr → Prop}

/-- A relation that gives one result. -/
def Fun (R : CExpr → CExpr → Prop) : Prop := ∀ ⦃e a b⦄, R e a → R e b → a = b

theorem opt_fun (h : Fun R) {e a b} (h1 : OptAlike R e a) (h2 : OptAlike R e b) : a = b := by
  cases h1 with
  | none => cases h2; rfl
  | some h1 => cases h2 with | some h2 => rw [h h1 h2]

theorem list_fun {α : Type} {R : α → α → Prop} (h : ∀ ⦃e a b⦄, R e a → R e b → a = b) {l a b}
    (h1 : ListAlike R l a) (h2 : ListAlike R l b) : a = b := by
  induction h1 generalizing b with
  | nil => cases h2; rfl
  | cons h1 _ ih => cases h2 with | cons h2 h3 => rw [h h1 h2, ih h3]

theorem form_fun (h : Fun R) {e a b} (h1 : FormAlike R e a) (h2 : FormAlike R e b) : a = b := by
  obtain ⟨a1, a2, a3⟩ := a
  obtain ⟨b1, b2, b3⟩ := b
  have h3 := h1.stars.symm.trans h2.stars
  have h4 := h1.name.symm.trans h2.name
  have h5 := list_fun (R := OptAlike R) (fun _ _ _ => opt_fun h) h1.bounds h2.bounds
  simp_all

theorem decl_fun (h : Fun R) (hI : Fun I) {e a b} (h1 : DeclAlike R I e a) (h2 : DeclAlike R I e b) : a = b :=
  Prod.ext (form_fun h h1.form h2.form) (opt_fun hI h1.value h2.value)

theorem init_fun (h : Fun R) (hI : Fun I) {e a b} (h1 : InitAlike R I e a) (h2 : InitAlike R I e b) : a = b := by
  cases h1 with
  | none => cases h2; rfl
  | expr h1 => cases h2 with | expr h2 => rw [h h1 h2]
  | decl h1 h3 => cases h2 with | decl h2 h4 => rw [form_fun h h1 h2, hI h3 h4]

theorem label_inj {l l'} (h : labelExpr l = labelExpr l') : l = l' := by
  cases l <;> cases l' <;> simp_all [labelExpr]

mutual
theorem alike_fun (h : Fun R) (hI : Fun I) : ∀ {s a b}, Alike R I s a → Alike R I s b → a = b
  | _, _, _, .empty, .empty => rfl
  | _, _, _, .expr h1, .expr h2 => by rw [h h1 h2]
  | _, _, _, .decl h1, .decl h2 => by rw [list_fun (R := DeclAlike R I) (fun _ _ _ => decl_fun h hI) h1 h2]
  | _, _, _, .ret h1, .ret h2 => by rw [opt_fun h h1 h2]
  | _, _, _, .brk, .brk => rfl
  | _, _, _, .cont, .cont => rfl
  | _, _, _, .block h1, .block h2 => by rw [alikes_fun h hI h1 h2]
  | _, _, _, .ifS h1 h2, .ifS h3 h4 => by rw [h h1 h3, alike_fun h hI h2 h4]
  | _, _, _, .ifElse h1 h2 h3, .ifElse h4 h5 h6 => by rw [h h1 h4, alike_fun h hI h2 h5, alike_fun h hI h3 h6]
  | _, _, _, .whileS h1 h2, .whileS h3 h4 => by rw [h h1 h3, alike_fun h hI h2 h4]
  | _, _, _, .forS h1 h2 h3 h4, .forS h5 h6 h7 h8 => by
    rw [init_fun h hI h1 h5, opt_fun h h2 h6, opt_fun h h3 h7, alike_fun h hI h4 h8]
  | _, _, _, .switchS h1 h2, .switchS h3 h4 => by rw [h h1 h3, alikes_fun h hI h2 h4]
  | _, _, _, .case h1 h2, .case h3 h4 => by rw [label_inj (h h1 h3), alike_fun h hI h2 h4]
  | _, _, _, .dflt h1, .dflt h2 => by rw [alike_fun h hI h1 h2]
theorem alikes_fun (h : Fun R) (hI : Fun I) : ∀ {s a b}, Alikes R I s a → Alikes R I s b → a = b
  | _, _, _, .nil, .nil => rfl
  | _, _, _, .cons h1 h2, .cons h3 h4 => by rw [alike_fun h hI h1 h3, alikes_fun h hI h2 h4]
end

variable {R' I' : CExpr → CExpr → Prop}

theorem opt_mono (h : ∀ ⦃a b⦄, R a b → R' a b) {a b} (h1 : OptAlike R a b) : OptAlike R' a b := by
  cases h1 with
  | none => exact .none
  | some h1 => exact .some (h h1)

theorem list_mono {α : Type} {R R' : α → α → Prop} (h : ∀ ⦃a b⦄, R a b → R' a b) {a b} (h1 : ListAlike R a b) :
    ListAlike R' a b := by
  induction h1 with
  | nil => exact .nil
  | cons h1 _ ih => exact .cons (h h1) ih

theorem form_mono (h : ∀ ⦃a b⦄, R a b → R' a b) {a b} (h1 : FormAlike R a b) : FormAlike R' a b :=
  ⟨h1.stars, h1.name, list_mono (fun _ _ => opt_mono h) h1.bounds⟩

theorem init_mono (h : ∀ ⦃a b⦄, R a b → R' a b) (hI : ∀ ⦃a b⦄, I a b → I' a b) {a b} (h1 : InitAlike R I a b) :
    InitAlike R' I' a b := by
  cases h1 with
  | none => exact .none
  | expr h1 => exact .expr (h h1)
  | decl h1 h2 => exact .decl (form_mono h h1) (hI h2)

mutual
theorem alike_mono (h : ∀ ⦃a b⦄, R a b → R' a b) (hI : ∀ ⦃a b⦄, I a b → I' a b) :
    ∀ {a b}, Alike R I a b → Alike R' I' a b
  | _, _, .empty => .empty
  | _, _, .expr h1 => .expr (h h1)
  | _, _, .decl h1 => .decl (list_mono (fun _ _ k => ⟨form_mono h k.form, opt_mono hI k.value⟩) h1)
  | _, _, .ret h1 => .ret (opt_mono h h1)
  | _, _, .brk => .brk
  | _, _, .cont => .cont
  | _, _, .block h1 => .block (alikes_mono h hI h1)
  | _, _, .ifS h1 h2 => .ifS (h h1) (alike_mono h hI h2)
  | _, _, .ifElse h1 h2 h3 => .ifElse (h h1) (alike_mono h hI h2) (alike_mono h hI h3)
  | _, _, .whileS h1 h2 => .whileS (h h1) (alike_mono h hI h2)
  | _, _, .forS h1 h2 h3 h4 => .forS (init_mono h hI h1) (opt_mono h h2) (opt_mono h h3) (alike_mono h hI h4)
  | _, _, .switchS h1 h2 => .switchS (h h1) (alikes_mono h hI h2)
  | _, _, .case h1 h2 => .case (h h1) (alike_mono h hI h2)
  | _, _, .dflt h1 => .dflt (alike_mono h hI h1)
theorem alikes_mono (h : ∀ ⦃a b⦄, R a b → R' a b) (hI : ∀ ⦃a b⦄, I a b → I' a b) :
    ∀ {a b}, Alikes R I a b → Alikes R' I' a b
  | _, _, .nil => .nil
  | _, _, .cons h1 h2 => .cons (alike_mono h hI h1) (alikes_mono h hI h2)
end

end

theorem rd_fun : Fun (Rd ty) := fun _ _ _ h1 h2 => expr_unique h1.2 h2.2
theorem rdI_fun : Fun (RdI ty) := fun _ _ _ h1 h2 => (init_prefix h1.2 h2.2 rfl stop_nil stop_nil).1

end Che.Proofs.CStmtDerive
