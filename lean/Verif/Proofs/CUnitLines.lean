import Verif.Proofs.CUnitToks
/-!
# The lines of a printed module
-/
namespace Che.Proofs.CUnitLines
open Che Che.Spec Che.FormatC Che.Proofs.CLexing Che.Proofs.CPrintToks Che.Proofs.CPrintRead Che.Proofs.CStmtToks
  Che.Proofs.CUnitToks

variable {ty : String → Bool}

/-! ## No printed token makes a directive -/

/-- Not `#` or `%:`. -/
def calm : CTok → Bool
  | .punct p => p != "#" && p != "%:"
  | _ => true

/-- Not `#` or `%:` among them. -/
def Calm (c : List CTok) : Prop := c.all calm = true

theorem calm_wrap {b c} (h : Calm c) : Calm (wrapT b c) := by
  unfold Calm at h
  cases b <;> simp [wrapT, Calm, h, calm]

theorem calm_stars (n) : Calm (starToks n) := by
  induction n with
  | zero => rfl
  | succ n ih =>
    unfold Calm starToks at *
    rw [List.replicate_succ, List.all_cons, ih]
    rfl

theorem calm_type (t) : Calm (typeToks t) := by
  have := calm_stars t.hops
  unfold Calm at *
  unfold typeToks
  split <;> simp [this, calm]

theorem calm_more : ∀ ls, Calm (moreLines ls)
  | [] => rfl
  | l :: ls => by
    have := calm_more ls
    unfold Calm at *
    simp [moreLines, this, calm]

theorem calm_lit (l) : Calm (litToks l) := by
  cases l with
  | char v => rfl
  | number v => rfl
  | null => rfl
  | string v =>
    simp only [litToks]
    split
    · rfl
    · next l ls _ =>
      have := calm_more ls
      unfold Calm at *
      simp [this, calm]

theorem calm_op {op : String} (h : (∃ s, cLevel op = some s) ∨ op ∈ cAssignOps) : calm (.punct op) = true := by
  obtain ⟨s, h⟩ | h := h
  · have k : ∀ op ∈ levelOps, calm (.punct op) = true := by decide +kernel
    exact k op (level_mem h)
  · have k : ∀ op ∈ cAssignOps, calm (.punct op) = true := by decide +kernel
    exact k op h

theorem calm_of {ops : List String} (hk : ∀ op ∈ ops, calm (.punct op) = true) {op} (h : op ∈ ops) :
    calm (.punct op) = true := hk op h

mutual
theorem calmE : ∀ {e}, Plain ty e → Calm (toksE e)
  | .lit l, _ => calm_lit l
  | .ident s, _ => rfl
  | .cast t e, h => by
    have h1 := calmE h.2
    have h2 := calm_type t
    unfold Calm at *
    simp [toksE, h1, h2, calm]
  | .call f args, h => by
    have h1 := calmE h.1
    have h2 := calmArgs h.2
    rw [toksE_call]
    cases args with
    | nil => unfold Calm at *; simp [h1, argToks, calm]
    | cons a as =>
      unfold Calm at *
      simp only [toksArgs, List.all_cons, List.all_append, Bool.and_eq_true] at h2
      simp [h1, h2, argToks, calm]
  | .compLit [], _ => rfl
  | .compLit (e :: es), h => by
    have h1 := calmEntry h.1
    have h2 := calmEntries h.2
    unfold Calm at *
    simp [toksE, h1, h2, calm]
  | .sizeofType t, h => by
    have h2 := calm_type t
    unfold Calm at *
    simp [toksE, h2, calm]
  | .sizeofExpr e, h => by
    have h2 := calmE (e := e) h
    unfold Calm at *
    simp [toksE, h2, calm]
  | .fieldAccess op t f, h => by
    have h1 := calm_wrap (b := wrapTarget op t) (calmE h.2.1)
    have h2 := calm_of (ops := [".", "->"]) (by decide) h.1
    unfold Calm at *
    simp only [toksE, List.all_append, h1, List.all_cons, h2]
    rfl
  | .binaryOp op a b, h => by
    have h1 := calm_wrap (b := wrapOperand op a) (calmE h.2.1)
    have h2 := calm_wrap (b := wrapOperand op b) (calmE h.2.2)
    have h3 := calm_op h.1
    unfold Calm at *
    simp only [toksE, List.all_append, h1, List.all_cons, h2, h3]
    rfl
  | .prefixOp op e, h => by
    have h1 := calm_wrap (b := wrapPrefix e) (calmE h.2.1)
    have h2 := calm_of (ops := ["!", "--", "++", "*", "~", "&", "-"]) (by decide) h.1
    unfold Calm at *
    simp only [toksE, List.all_append, h1, List.all_cons, h2]
    rfl
  | .postfixOp op e, h => by
    have h1 := calmE h.2.1
    have h2 := calm_of (ops := ["++", "--"]) (by decide) h.1
    unfold Calm at *
    simp only [toksE, List.all_append, h1, List.all_cons, h2]
    rfl
  | .arrIndex a i, h => by
    have h1 := calmE h.1
    have h2 := calmE h.2
    unfold Calm at *
    simp [toksE, h1, h2, calm]
theorem calmArgs : ∀ {es}, PlainArgs ty es → Calm (toksArgs es)
  | [], _ => rfl
  | e :: es, h => by
    have h1 := calmE h.1
    have h2 := calmArgs h.2
    unfold Calm at *
    simp [toksArgs, h1, h2, calm]
theorem calmEntries : ∀ {es}, PlainEntries ty es → Calm (toksEntries es)
  | [], _ => rfl
  | e :: es, h => by
    have h1 := calmEntry h.1
    have h2 := calmEntries h.2
    unfold Calm at *
    simp [toksEntries, h1, h2, calm]
theorem calmEntry : ∀ {e}, PlainEntry ty e → Calm (toksEntry e)
  | .mk true (some k) v, h => by
    have h1 := calmE (e := k) h.1
    have h2 := calmE h.2
    unfold Calm at *
    simp [toksEntry, h1, h2, calm]
  | .mk false (some k) v, h => by
    obtain ⟨w, rfl, _⟩ := h.1
    have h2 := calmE h.2
    unfold Calm at *
    simp [toksEntry, toksE, h2, calm]
  | .mk b none v, h => by
    have h2 := calmE h.2
    unfold Calm at *
    simp [toksEntry, h2]
end

theorem calm_spec (t) : Calm (specToks t) := by
  unfold Calm specToks; split <;> rfl

theorem calm_bounds : ∀ {is}, (∀ i ∈ is, PlainOpt ty i) → Calm (boundToks is)
  | [], _ => rfl
  | none :: is, h => by
    have := calm_bounds (is := is) fun i hi => h i (by simp [hi])
    unfold Calm at *
    simp [boundToks, this, calm]
  | some e :: is, h => by
    have := calm_bounds (is := is) fun i hi => h i (by simp [hi])
    have h1 : Calm (toksE e) := calmE (h (some e) (by simp))
    unfold Calm at *
    simp [boundToks, this, h1, calm]

theorem calm_form {f} (h : PlainForm ty f) : Calm (formToks f) := by
  have h1 := calm_bounds h.2.2
  have h2 := calm_stars f.stars.toList.length
  unfold Calm at *
  unfold formToks
  rw [List.all_append, h2, List.all_cons, h1]
  rfl

theorem calm_decl {d : CForm × Option CExpr} (h : PlainForm ty d.1) (hv : PlainOpt ty d.2) : Calm (declToks d) := by
  obtain ⟨f, v⟩ := d
  have h1 := calm_form h
  cases v with
  | none => exact h1
  | some v =>
    have h2 : Calm (toksE v) := calmE hv
    unfold Calm at *
    simp only at h1
    simp [declToks, h1, h2, calm]

theorem calm_decls : ∀ {ds : List (CForm × Option CExpr)}, (∀ d ∈ ds, PlainForm ty d.1 ∧ PlainOpt ty d.2) →
    Calm (declsToks ds)
  | [], _ => rfl
  | d :: ds, h => by
    have h1 := calm_decls (ds := ds) fun e he => h e (by simp [he])
    have hd := h d (by simp)
    have h2 := calm_decl hd.1 hd.2
    unfold Calm at *
    simp [declsToks, h1, h2, calm]

theorem calm_allDecls {ds : List (CForm × Option CExpr)} (h : ∀ d ∈ ds, PlainForm ty d.1 ∧ PlainOpt ty d.2) :
    Calm (allDecls ds) := by
  have := calm_decls h
  cases ds with
  | nil => rfl
  | cons d ds =>
    unfold Calm at *
    simp only [declsToks, List.all_cons, Bool.and_eq_true] at this
    exact this.2

theorem calm_opt {e} (h : PlainOpt ty e) : Calm (optToks e) := by
  cases e with
  | none => rfl
  | some e => exact calmE (e := e) h

theorem calm_first {i} (h : PlainInit ty i) : Calm (firstToks i) := by
  cases i with
  | none => rfl
  | some i =>
    cases i with
    | expr e => exact calmE h.1
    | decl d =>
      have h1 := calm_spec d.typename
      have h2 := calm_form h.2.1
      have h3 := calmE h.2.2
      unfold Calm at *
      simp [firstToks, h1, h2, h3, calm]

theorem calm_labels : ∀ {ls}, (∀ l ∈ ls, PlainLabel ty l) → Calm (labelToks ls)
  | [], _ => rfl
  | l :: ls, h => by
    have h1 := calm_labels (ls := ls) fun e he => h e (by simp [he])
    have h2 := calmE (h l (by simp))
    unfold Calm at *
    simp [labelToks, h1, h2, calm]

mutual
theorem calmS : ∀ {s}, PlainS ty s → Calm (toksS s)
  | .block ss, h => by
    have h1 := calmSs (ss := ss) h
    unfold Calm at *
    simp [toksS, h1, calm]
  | .brk, _ => rfl
  | .cont, _ => rfl
  | .varDecl t fs vs, h => by
    have h1 := calm_spec t
    have h2 := calm_allDecls h.2.2
    unfold Calm at *
    simp [toksS, h1, h2, calm]
  | .ifS c b els, h => by
    have h1 := calmE h.1
    have h2 := calmSs h.2.1
    have h3 := calmB h.2.2
    unfold Calm at *
    simp [toksS, h1, h2, h3, calm]
  | .forS i c a b, h => by
    have h1 := calm_first h.1
    have h2 := calm_opt h.2.1
    have h3 := calm_opt h.2.2.1
    have h4 := calmSs h.2.2.2
    unfold Calm at *
    simp [toksS, h1, h2, h3, h4, calm]
  | .whileS c b, h => by
    have h1 := calmE h.1
    have h2 := calmSs h.2
    unfold Calm at *
    simp [toksS, h1, h2, calm]
  | .ret none, _ => rfl
  | .ret (some e), h => by
    have h1 := calmE (e := e) h
    unfold Calm at *
    simp [toksS, h1, calm]
  | .switchS v cs d, h => by
    have h1 := calmE h.1
    have h2 := calmCs h.2.1
    have h3 := calmD h.2.2
    unfold Calm at *
    simp [toksS, h1, h2, h3, calm]
  | .expr e, h => by
    have h1 := calmE h.1
    unfold Calm at *
    simp [toksS, h1, calm]
theorem calmSs : ∀ {ss}, PlainSs ty ss → Calm (toksSs ss)
  | [], _ => rfl
  | s :: ss, h => by
    have h1 := calmS h.1
    have h2 := calmSs h.2
    unfold Calm at *
    simp [toksSs, h1, h2]
theorem calmB : ∀ {b}, PlainB ty b → Calm (elseToks b)
  | none, _ => rfl
  | some b, h => by
    have h1 := calmSs (ss := b) h
    unfold Calm at *
    simp [elseToks, h1, calm]
theorem calmCs : ∀ {cs}, PlainCs ty cs → Calm (toksCs cs)
  | [], _ => rfl
  | .mk ls b :: cs, h => by
    have h1 := calm_labels h.1
    have h2 := calmBody h.2.1
    have h3 := calmCs h.2.2
    unfold Calm at *
    simp [toksCs, h1, h2, h3, calm]
theorem calmD : ∀ {b}, PlainB ty b → Calm (dfltToks b)
  | none, _ => rfl
  | some b, h => by
    have h1 := calmBody (ss := b) h
    unfold Calm at *
    simp [dfltToks, h1, calm]
theorem calmBody : ∀ {ss}, PlainSs ty ss → Calm (bodyToks ss)
  | [], _ => rfl
  | s :: ss, h => by
    have h1 := calmS h.1
    have h2 := calmBody h.2
    unfold Calm at *
    simp [bodyToks, h1, h2, calm]
end

theorem calm_field {f} (h : PlainField ty f) : Calm (fieldToks f) := by
  have h1 := calm_spec f.typename
  have h2 := calm_form h.2
  unfold Calm at *
  simp [fieldToks, h1, h2]

theorem calm_fields : ∀ {fs : List CTypeForm}, (∀ f ∈ fs, PlainField ty f) → Calm (fieldsToks fs)
  | [], _ => rfl
  | f :: fs, h => by
    have ih := calm_fields (fs := fs) fun e he => h e (by simp [he])
    have h1 := calm_spec f.typename
    have h2 := calm_form (h f (by simp)).2
    unfold Calm at *
    simp [fieldsToks, h1, h2, ih, calm]

theorem calm_member {m} (h : PlainItem ty m) : Calm (memberToks m) := by
  cases m with
  | field f =>
    have h1 := calm_spec f.typename
    have h2 := calm_form h.2
    unfold Calm at *
    simp [memberToks, h1, h2, calm]
  | union u =>
    have h1 := calm_fields h.2.1
    have h2 := calm_form h.2.2
    unfold Calm at *
    simp [memberToks, h1, h2, calm]

theorem calm_members : ∀ {ms : List CStructItem}, (∀ f ∈ ms, PlainItem ty f) → Calm (membersToks ms)
  | [], _ => rfl
  | f :: fs, h => by
    have ih := calm_members (ms := fs) fun e he => h e (by simp [he])
    have h1 := calm_member (h f (by simp))
    unfold Calm at *
    simp [membersToks, h1, ih]

theorem calm_enumerator {m : CEnumEntry} (h : PlainOpt ty m.value) : Calm (enumeratorToks m) := by
  obtain ⟨w, v⟩ := m
  cases v with
  | none => rfl
  | some e =>
    have h1 := calmE (e := e) h
    unfold Calm at *
    simp [enumeratorToks, h1, calm]

theorem calm_enumerators : ∀ {ms : List CEnumEntry}, (∀ m ∈ ms, PlainWord ty m.id ∧ PlainOpt ty m.value) →
    Calm (enumeratorsToks ms)
  | [], _ => rfl
  | f :: fs, h => by
    have ih := calm_enumerators (ms := fs) fun e he => h e (by simp [he])
    have h1 := calm_enumerator (h f (by simp)).2
    unfold Calm at *
    simp [enumeratorsToks, h1, ih, calm]

theorem calm_dots (b) : Calm (dotsToks b) := by cases b <;> rfl

theorem calm_moreParams : ∀ {fs : List CTypeForm}, (∀ f ∈ fs, PlainField ty f) → Calm (moreParams fs)
  | [], _ => rfl
  | f :: fs, h => by
    have ih := calm_moreParams (fs := fs) fun e he => h e (by simp [he])
    have h1 := calm_field (h f (by simp))
    unfold Calm at *
    simp [moreParams, h1, ih, calm]

theorem calm_params {p} (h : PlainParams ty p) : Calm (paramsToks p) := by
  obtain ⟨ps, b⟩ := p
  cases ps with
  | nil => rfl
  | cons f fs =>
    have h1 := calm_field (h.1 f (by simp))
    have h2 := calm_moreParams (fs := fs) fun e he => h.1 e (by simp [he])
    have h3 := calm_dots b
    unfold Calm at *
    simp [paramsToks, h1, h2, h3, calm]

theorem calm_moreTypes : ∀ fs : List CBareTypeform, Calm (moreTypes fs)
  | [] => rfl
  | f :: fs => by
    have ih := calm_moreTypes fs
    have h1 := calm_type f
    unfold Calm at *
    simp [moreTypes, h1, ih, calm]

theorem calm_anon (p) : Calm (anonToks p) := by
  cases p with
  | none => rfl
  | some p =>
    obtain ⟨b, l⟩ := p
    cases l with
    | nil => rfl
    | cons t l =>
      have h1 := calm_type t
      have h2 := calm_moreTypes l
      have h3 := calm_dots b
      unfold Calm at *
      simp [anonToks, h1, h2, h3, calm]

theorem calm_static (b) : Calm (staticToks b) := by cases b <;> rfl

theorem calmElem {e} (h : PlainElem ty e) : Calm (elemToks e) := by
  cases e with
  | «include» x => rfl
  | «macro» x => rfl
  | forwardStruct w => rfl
  | forwardFunc f =>
    have h0 := calm_static (kStatic f.isStatic f.form)
    have h1 := calm_spec f.typename
    have h2 := calm_form h.2.1
    have h3 := calm_params h.2.2
    unfold Calm at *
    simp [elemToks, h0, h1, h2, h3, calm]
  | defEnum d =>
    have h1 := calm_enumerators h.2
    obtain ⟨b, es⟩ := d
    cases es with
    | nil => rfl
    | cons m ms =>
      unfold Calm at *
      simp only [enumeratorsToks, List.all_cons, List.all_append, Bool.and_eq_true] at h1
      simp [elemToks, h1, calm]
  | typedef d =>
    have h1 := calm_stars d.form.stars.toList.length
    have h2 := calm_anon d.form.params
    have h3 : Calm (kTypeToks (kType d.typename)) := by
      unfold Calm kTypeToks
      split <;> split <;> rfl
    have h4 : Calm (sizeToks d.form.size) := by
      unfold Calm sizeToks
      split <;> rfl
    unfold Calm at *
    simp only [elemToks, List.all_cons, List.all_append, h1, h2, h3, h4]
    rfl
  | structDef d =>
    have h1 := calm_members h.2.2
    unfold Calm at *
    simp [elemToks, h1, calm]
  | varDecl d =>
    have h1 := calm_spec d.typename
    have h2 := calm_form h.2.1
    have h3 := calmE h.2.2
    unfold Calm at *
    simp [elemToks, h1, h2, h3, calm]
  | funcDef f =>
    have h0 := calm_static (kStatic f.isStatic f.form)
    have h1 := calm_spec f.typename
    have h2 := calm_form h.2.1
    have h3 := calm_params h.2.2.1
    have h4 := calmSs h.2.2.2
    unfold Calm at *
    simp [elemToks, h0, h1, h2, h3, h4, calm]

theorem calm_starts {ts} (h : Calm ts) : ¬ StartsHash ts := by
  intro k
  cases ts with
  | nil => obtain k | k := k <;> cases k
  | cons t ts =>
    unfold Calm at h
    simp only [List.all_cons, Bool.and_eq_true] at h
    obtain k | k := k <;> (injection k with k; subst k; exact absurd h.1 (by decide))

/-! ## Text in lines -/

/-- What starts a line starts the text. -/
theorem prefix_line {w s l r : List Char} (h : w <+: l) : w <+: l ++ '\n' :: s ++ r := by
  obtain ⟨y, rfl⟩ := h
  exact ⟨y ++ '\n' :: s ++ r, by simp⟩

theorem noline_prefix {w s l l' s' : List Char} (hw : '\n' ∉ w) (he : w ++ s = l ++ '\n' :: s') :
    ∃ l', l = w ++ l' ∧ s = l' ++ '\n' :: s' := by
  rcases List.append_eq_append_iff.mp he with ⟨a, h1, h2⟩ | ⟨a, h1, h2⟩
  · exact ⟨a, h1, h2⟩
  · cases a with
    | nil => exact ⟨[], by simpa using h1.symm, by simpa using h2.symm⟩
    | cons c a =>
      exfalso
      injection h2 with h2 _
      subst h2
      exact hw (by rw [h1]; simp)

/-- Text can be cut at a newline. -/
theorem cut_line {s ts r} (h : CReads s ts r) : ∀ {l s'}, s = l ++ '\n' :: s' → '\n' ∉ l →
    ∃ t1 t2, ts = t1 ++ t2 ∧ CReads l t1 [] ∧ CReads s' t2 r := by
  induction h with
  | nil => intro l s' he _; simp at he
  | @blank c s ts r hb h ih =>
    intro l s' he hl
    cases l with
    | nil =>
      injection he with _ he
      subst he
      exact ⟨[], ts, rfl, .nil, h⟩
    | cons d l =>
      injection he with hc he
      subst hc
      simp only [List.mem_cons, not_or] at hl
      obtain ⟨t1, t2, h1, h2, h3⟩ := ih he hl.2
      exact ⟨t1, t2, h1, .blank hb h2, h3⟩
  | @tok w t s ts r hw hlong hcom h ih =>
    intro l s' he hl
    obtain ⟨l', rfl, hs⟩ := noline_prefix (l' := l) (spelling_line hw) he
    simp only [List.mem_append, not_or] at hl
    obtain ⟨t1, t2, h1, h2, h3⟩ := ih hs hl.2
    refine ⟨t :: t1, t2, by rw [h1]; rfl, ?_, h3⟩
    have hx : w ++ (s ++ r) = (w ++ l') ++ '\n' :: s' ++ r := by rw [hs]; simp
    refine .tok hw ?_ ?_ h2
    · intro w' t' hw' hp
      refine hlong w' t' hw' ?_
      rw [hx]
      exact prefix_line (by simpa using hp)
    · intro k
      apply hcom
      rw [hx]
      exact k.imp (fun k => prefix_line (by simpa using k)) (fun k => prefix_line (by simpa using k))

theorem cut_newline {s : List Char} (h : '\n' ∈ s) : ∃ l s', s = l ++ '\n' :: s' ∧ '\n' ∉ l := by
  induction s with
  | nil => simp at h
  | cons c s ih =>
    by_cases hc : c = '\n'
    · subst hc; exact ⟨[], s, rfl, by simp⟩
    · have : '\n' ∈ s := by
        rcases List.mem_cons.mp h with h | h
        · exact absurd h.symm hc
        · exact h
      obtain ⟨l, s', rfl, hl⟩ := ih this
      exact ⟨c :: l, s', rfl, by simp [hl]; exact fun h => hc h.symm⟩

/-- Whole lines without directives. -/
theorem file_lines : ∀ (n : Nat) {s ts}, s.length = n → CReads s ts [] → (s = [] ∨ s.getLast? = some '\n') → Calm ts →
    ∀ {s' is}, CFile s' is → CFile (s ++ s') (ts.map .tok ++ is) := by
  intro n
  induction n using Nat.strongRecOn with
  | _ n ih =>
    intro s ts hn h hl hc s' is hf
    obtain rfl | hl := hl
    · rw [← creads_det CReads.nil h]
      exact hf
    · obtain ⟨l, u, rfl, hl2⟩ := cut_newline (List.mem_of_mem_getLast? (by rw [hl]; rfl))
      obtain ⟨t1, t2, rfl, h1, h2⟩ := cut_line h rfl hl2
      have hc1 : Calm t1 ∧ Calm t2 := by
        unfold Calm at hc ⊢
        rwa [List.all_append, Bool.and_eq_true] at hc
      have hu : u = [] ∨ u.getLast? = some '\n' := by
        cases u with
        | nil => exact .inl rfl
        | cons c u =>
          right
          rw [← hl, List.getLast?_append, List.getLast?_cons_cons, List.getLast?_cons]
          rfl
      have := CFile.line hl2 h1 (calm_starts hc1.1) (ih u.length (by simp at hn; omega) rfl h2 hu hc1.2 hf)
      simpa using this

/-- What an element is in a file. -/
def elemItems (e : CModElem) : List CItem :=
  match kElem e with
  | .directive l => [.dir l]
  | _ => (elemToks e).map .tok

theorem last_line {a b : String} (h : b.toList.getLast? = some '\n') : (a ++ b).toList.getLast? = some '\n' := by
  rw [String.toList_append, List.getLast?_append, h]; rfl

theorem elem_line (e : CModElem) : (formatElem e).toList.getLast? = some '\n' := by
  cases e with
  | funcDef f =>
    simp only [formatElem, fmtFuncDef, formatBody]
    exact last_line (last_line (by decide +kernel))
  | _ => exact last_line (by decide +kernel)

/-- The items of a printed module. -/
theorem file_elems : ∀ {es : List CModElem}, (∀ e ∈ es, PlainElem ty e) →
    CFile (String.join (es.map formatElem)).toList (es.flatMap elemItems)
  | [], _ => by simpa using CFile.nil
  | e :: es, h => by
    have ih := file_elems (es := es) fun x hx => h x (by simp [hx])
    have he := h e (by simp)
    rw [List.map_cons, String.join_cons, String.toList_append, List.flatMap_cons]
    cases hd : isDir e with
    | false =>
      have h1 := readsElem he hd (CReads.nil (r := []))
      simp only [List.append_nil] at h1
      have h2 := file_lines _ rfl h1 (.inr (elem_line e)) (calmElem he) ih
      have h3 : elemItems e = (elemToks e).map .tok := by
        cases e <;> first | rfl | cases hd
      rw [h3]
      exact h2
    | true =>
      cases e with
      | «include» x =>
        have := CFile.dir (b := []) (by simp) he ih
        rw [String.ofList_toList] at this
        simpa [elemItems, kElem, formatElem, String.toList_append] using this
      | «macro» x =>
        have := CFile.dir (b := []) (by simp) he ih
        rw [String.ofList_toList] at this
        simpa [elemItems, kElem, formatElem, String.toList_append] using this
      | _ => cases hd

/-! ## Text is cut in one way -/

theorem hash_spelling {w l s : List Char} {tk} (h : Spelling w tk) (he : w ++ s = '#' :: l) (hl : l.head? ≠ some '#') :
    tk = .punct "#" := by
  obtain ⟨c, cs, hw, hk⟩ := spelling_kind h
  have hc : c = '#' := by rw [hw] at he; injection he
  subst hc
  cases hk with
  | word hx => exact absurd hx (by decide)
  | wide hx => exact absurd hx (by decide)
  | num hx => exact absurd hx (by decide)
  | chr hx => exact absurd hx (by decide)
  | str hx => exact absurd hx (by decide)
  | @punct p _ _ _ _ _ =>
    generalize hu : w = u at h
    cases h with
    | punct hp =>
      subst hu
      have k : ∀ p ∈ cPunctuators, p.toList.head? = some '#' → p = "#" ∨ p = "##" := by decide +kernel
      obtain rfl | rfl := k p hp (by rw [hw]; rfl)
      · rfl
      · exfalso
        apply hl
        injection he with _ he
        rw [← he]; rfl

theorem hash_head : ∀ {b l ts}, (∀ c ∈ b, c = ' ' ∨ c = '\t') → l.head? ≠ some '#' →
    CReads (b ++ '#' :: l) ts [] → StartsHash ts
  | [], l, ts, _, hl, h => by
    generalize hs : [] ++ '#' :: l = s at h
    cases h with
    | nil => cases hs
    | blank hb _ => injection hs with hs _; subst hs; exact absurd hb (by decide)
    | tok hw _ _ _ =>
      have := hash_spelling hw hs.symm hl
      subst this
      exact .inl rfl
  | c :: b, l, ts, hb, hl, h => by
    have hc : cBlank c = true := by
      obtain rfl | rfl := hb c (by simp) <;> rfl
    generalize hs : c :: b ++ '#' :: l = s at h
    cases h with
    | nil => cases hs
    | blank _ h =>
      injection hs with _ hs
      subst hs
      exact hash_head (fun d hd => hb d (by simp [hd])) hl h
    | tok hw _ _ _ =>
      exfalso
      obtain ⟨d, ds, rfl, hk⟩ := spelling_kind hw
      injection hs with hs _
      subst hs
      rw [kind_not_blank hk] at hc; cases hc

theorem line_inj : ∀ {l l' s s' : List Char}, '\n' ∉ l → '\n' ∉ l' → l ++ '\n' :: s = l' ++ '\n' :: s' → l = l' ∧ s = s'
  | [], [], _, _, _, _, h => by injection h with _ h; exact ⟨rfl, h⟩
  | [], c :: l', _, _, _, h2, h => by injection h with h _; subst h; simp at h2
  | c :: l, [], _, _, h1, _, h => by injection h with h _; subst h; simp at h1
  | c :: l, d :: l', _, _, h1, h2, h => by
    injection h with h3 h
    subst h3
    simp only [List.mem_cons, not_or] at h1 h2
    obtain ⟨rfl, rfl⟩ := line_inj h1.2 h2.2 h
    exact ⟨rfl, rfl⟩

theorem dir_noline {b l : List Char} (hb : ∀ c ∈ b, c = ' ' ∨ c = '\t') (hl : '\n' ∉ l) : '\n' ∉ b ++ '#' :: l := by
  simp only [List.mem_append, List.mem_cons, not_or]
  refine ⟨fun h => ?_, by decide, hl⟩
  obtain h | h := hb _ h <;> exact absurd h (by decide)

theorem blanks_inj : ∀ {b b' l l' : List Char}, (∀ c ∈ b, c = ' ' ∨ c = '\t') → (∀ c ∈ b', c = ' ' ∨ c = '\t') →
    b ++ '#' :: l = b' ++ '#' :: l' → l = l'
  | [], [], _, _, _, _, h => by injection h
  | [], c :: b', _, _, _, h2, h => by
    injection h with h _; subst h
    obtain h | h := h2 '#' (by simp) <;> exact absurd h (by decide)
  | c :: b, [], _, _, h1, _, h => by
    injection h with h _; subst h
    obtain h | h := h1 '#' (by simp) <;> exact absurd h (by decide)
  | c :: b, d :: b', _, _, h1, h2, h => by
    injection h with _ h
    exact blanks_inj (fun d hd => h1 d (by simp [hd])) (fun d hd => h2 d (by simp [hd])) h

theorem cfile_det {s is} (h : CFile s is) : ∀ {is'}, CFile s is' → is = is' := by
  induction h with
  | nil =>
    intro is' h'
    generalize hs : ([] : List Char) = s at h'
    cases h' with
    | nil => rfl
    | dir _ _ _ => simp at hs
    | line _ _ _ _ => simp at hs
  | @dir b l s is hb hl _ ih =>
    intro is' h'
    generalize hs : b ++ '#' :: (l ++ '\n' :: s) = u at h'
    cases h' with
    | nil => simp at hs
    | @dir b' l' s' is' hb' hl' h2 =>
      have e : (b ++ '#' :: l) ++ '\n' :: s = (b' ++ '#' :: l') ++ '\n' :: s' := by simpa using hs
      obtain ⟨e1, rfl⟩ := line_inj (dir_noline hb hl.one) (dir_noline hb' hl'.one) e
      rw [blanks_inj hb hb' e1, ih h2]
    | @line l' ts s' is' hl' hr hh h2 =>
      exfalso
      have e : (b ++ '#' :: l) ++ '\n' :: s = l' ++ '\n' :: s' := by simpa using hs
      obtain ⟨rfl, rfl⟩ := line_inj (dir_noline hb hl.one) hl' e
      exact hh (hash_head hb hl.hash hr)
  | @line l ts s is hl hr hh _ ih =>
    intro is' h'
    generalize hs : l ++ '\n' :: s = u at h'
    cases h' with
    | nil => simp at hs
    | @dir b' l' s' is' hb' hl' h2 =>
      exfalso
      have e : l ++ '\n' :: s = (b' ++ '#' :: l') ++ '\n' :: s' := by simpa using hs
      obtain ⟨rfl, rfl⟩ := line_inj hl (dir_noline hb' hl'.one) e
      exact hh (hash_head hb' hl'.hash hr)
    | @line l' ts' s' is' hl' hr' hh' h2 =>
      obtain ⟨rfl, rfl⟩ := line_inj hl hl' hs
      rw [creads_det hr hr', ih h2]

end Che.Proofs.CUnitLines
