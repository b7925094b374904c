import Verif.Proofs.LeavesPlain
/-!
# Trees that C can spell are translated to trees that C can spell: names and literals
-/
namespace Che.Proofs.LeavesPlain
open Che Spec

variable {M : ModEnv} {Γ : Scopes} {ty : String → Bool} {K : String → Prop}

/-- All names and literals are fine. -/
def Fine (M : ModEnv) (ty : String → Bool) (ls : List Leaf) : Prop := ∀ l ∈ ls, LeafFine M ty l

theorem fine_append {a b : List Leaf} : Fine M ty (a ++ b) ↔ Fine M ty a ∧ Fine M ty b := by
  simp [Fine, or_imp, forall_and]

theorem fine_cons {a : Leaf} {b : List Leaf} : Fine M ty (a :: b) ↔ LeafFine M ty a ∧ Fine M ty b := by
  simp [Fine]

theorem fine_flatMap {α : Type} {f : α → List Leaf} {l : List α} :
    Fine M ty (l.flatMap f) ↔ ∀ x ∈ l, Fine M ty (f x) := by
  simp only [Fine, List.mem_flatMap, forall_exists_index, and_imp]
  exact ⟨fun h x hx l hl => h l x hx hl, fun h l x hx hl => h x hx l hl⟩

/-! ## Names -/

theorem cword_idchars {w : List Char} (h : CWord w) : ∀ c ∈ w, cIdChar c = true := by
  obtain ⟨c, cs, rfl, h1, h2⟩ := h
  intro x hx
  rcases List.mem_cons.mp hx with rfl | hx
  · simp [cIdChar, h1]
  · exact h2 x hx

theorem keyword_no2 : ∀ k ∈ cKeywords, ¬ ['_', '_'] <:+: k.toList := by decide +kernel

theorem global_toList (u x : String) : (globalName u x).toList = u.toList ++ ('_' :: '_' :: x.toList) := by
  simp [globalName]

theorem global_keyword (u x : String) : globalName u x ∉ cKeywords := by
  intro h
  refine keyword_no2 _ h ⟨u.toList, x.toList, ?_⟩
  simp [global_toList]

theorem global_word {u x : String} (hu : u = "" ∨ CWord u.toList) (hx : CWord x.toList) : CWord (globalName u x).toList := by
  have hx := cword_idchars hx
  have h2 : ∀ c ∈ '_' :: '_' :: x.toList, cIdChar c = true := by
    intro c hc
    simp only [List.mem_cons] at hc
    rcases hc with rfl | rfl | hc
    · decide
    · decide
    · exact hx c hc
  rcases hu with rfl | ⟨c, cs, h, h1, h3⟩
  · exact ⟨'_', '_' :: x.toList, by simp [global_toList], by decide, fun c hc => h2 c (by simp [hc])⟩
  · refine ⟨c, cs ++ ('_' :: '_' :: x.toList), by simp [global_toList, h], h1, fun d hd => ?_⟩
    rcases List.mem_append.mp hd with hd | hd
    · exact h3 d hd
    · exact h2 d hd

theorem ns_word (hM : EnvFine M) (ns : String) : (M.nsUid ns).getD "" = "" ∨ CWord ((M.nsUid ns).getD "").toList := by
  cases h : M.nsUid ns with
  | none => exact .inl rfl
  | some u => exact .inr (hM.nsUid ns u h)

theorem value_bare {x : String} (h : LeafFine M ty (.value x)) : PlainWord ty x := ⟨h.1, h.2.2.1, h.2.1⟩

theorem value_global {x u : String} (h : LeafFine M ty (.value x)) (hu : u = "" ∨ CWord u.toList) :
    PlainWord ty (globalName u x) := ⟨global_word hu h.1, h.2.2.2 u, global_keyword u x⟩

theorem value_name (hM : EnvFine M) {n : NsName} (h : LeafFine M ty (.value n.name)) : PlainWord ty (emitName M Γ n) := by
  unfold emitName
  split
  · exact value_bare h
  · split
    · exact value_global h (ns_word hM _)
    · split
      · exact value_global h (.inr hM.uid)
      · exact value_bare h

theorem value_decl (hM : EnvFine M) {x : String} (h : LeafFine M ty (.value x)) : PlainWord ty (declName M Γ x) := by
  unfold declName
  split
  · exact value_global h (.inr hM.uid)
  · exact value_bare h

theorem value_pub (hM : EnvFine M) {x : String} (h : LeafFine M ty (.value x)) (b : Bool) : PlainWord ty (pubName M b x) := by
  unfold pubName
  split
  · exact value_global h (.inr hM.uid)
  · exact value_bare h

theorem tag_pub (hM : EnvFine M) {x : String} (h : LeafFine M ty (.tag x)) (b : Bool) : PlainTag (pubName M b x) := by
  unfold pubName
  split
  · exact ⟨global_word (.inr hM.uid) h.1, global_keyword _ _⟩
  · exact h

theorem type_name (hM : EnvFine M) {t : Typename} (h : LeafFine M ty (.type t.name)) : PlainTypename ty (emitTypename M t) := by
  refine ⟨?_, h.2⟩
  simp only [emitTypename]
  split
  · exact h.1
  · split
    · exact global_word (ns_word hM _) h.1
    · split
      · exact global_word (.inr hM.uid) h.1
      · exact h.1

theorem bin_c {op : String} (h : (binLevel op).isSome = true) : (∃ s, cLevel op = some s) ∨ op ∈ cAssignOps := by
  have key : ∀ op ∈ ["=", "+=", "-=", "*=", "/=", "%=", "<<=", ">>=", "&=", "^=", "|=", "||", "&&", "|", "^", "&",
      "==", "!=", "<", ">", "<=", ">=", "<<", ">>", "+", "-", "*", "/", "%"],
      (cLevel op).isSome = true ∨ op ∈ cAssignOps := by decide +kernel
  exact (key op (binLevel_cases h)).imp_left (fun h => Option.isSome_iff_exists.mp h)

/-! ## Expressions -/

theorem plain_key {b : Bool} {k : Option Expr}
    (h : Fine M ty (match (generalizing := false) k with
      | some (.name n) => if b then [.value n.name] else [.field n.name]
      | _ => []))
    (t : (match (generalizing := false) k with | some (.name _) => true | _ => !b) = true) :
    match (generalizing := false) emitKey k with
    | some k => if b then Plain ty k else ∃ w : String, k = .ident w ∧ CWord w.toList ∧ w ∉ cKeywords
    | none => b = false := by
  rcases k with _ | k
  · simpa [emitKey] using t
  · cases k with
    | name n =>
      simp only [emitKey]
      cases b with
      | true =>
        simp only [if_true, Plain] at h ⊢
        exact value_bare (fine_cons.mp h).1
      | false =>
        simp only [Bool.false_eq_true, if_false] at h ⊢
        exact ⟨_, rfl, (fine_cons.mp h).1⟩
    | _ => simpa [emitKey] using t

theorem entry_leaves {b : Bool} {k : Option Expr} {v : Expr} (h : Fine M ty (leavesEntry (.mk b k v))) :
    Fine M ty (match (generalizing := false) k with
      | some (.name n) => if b then [.value n.name] else [.field n.name]
      | _ => []) ∧ Fine M ty (leavesE v) := by
  simp only [leavesEntry, fine_append] at h
  exact h

theorem entry_neat {b : Bool} {k : Option Expr} {v : Expr} (t : neatEntry (.mk b k v) = true) :
    (match (generalizing := false) k with | some (.name _) => true | _ => !b) = true ∧ neatE v = true := by
  simp only [neatEntry, Bool.and_eq_true] at t
  exact t

theorem entry_good {b : Bool} {k : Option Expr} {v : Expr} (g : GoodEntry K (.mk b k v)) : GoodE K v := by
  cases k <;> simp only [GoodEntry] at g <;> exact g.2

theorem entry_plain {b : Bool} {k : Option Expr} {v : Expr}
    (h : match (generalizing := false) emitKey k with
      | some k => if b then Plain ty k else ∃ w : String, k = .ident w ∧ CWord w.toList ∧ w ∉ cKeywords
      | none => b = false) (hv : Plain ty (emitE M Γ v)) : PlainEntry ty (emitEntry M Γ (.mk b k v)) := by
  rw [emitEntry]
  revert h
  cases emitKey k with
  | none => intro h; simp only [PlainEntry]; exact ⟨h, hv⟩
  | some k => intro h; simp only [PlainEntry]; exact ⟨h, hv⟩

mutual
theorem plain_e (hM : EnvFine M) : ∀ {e : Expr}, Fine M ty (leavesE e) → GoodE K e → neatE e = true → Plain ty (emitE M Γ e)
  | .lit l, h, _, _ => h (.lit l) (by simp [leavesE])
  | .name n, h, _, _ => value_name hM (h (.value n.name) (by simp [leavesE]))
  | .arrIndex a i, h, g, t => by
    simp only [leavesE, fine_append] at h
    simp only [GoodE] at g
    simp only [neatE, Bool.and_eq_true] at t
    simp only [emitE, Plain]
    exact ⟨plain_e hM h.1 g.1 t.1, plain_e hM h.2 g.2 t.2⟩
  | .binaryOp _ op a b, h, g, t => by
    simp only [leavesE, fine_append] at h
    simp only [GoodE] at g
    simp only [neatE, Bool.and_eq_true] at t
    simp only [emitE, Plain]
    exact ⟨bin_c g.1, plain_e hM h.1 g.2.1 t.1, plain_e hM h.2 g.2.2 t.2⟩
  | .fieldAccess _ op e f, h, g, t => by
    simp only [leavesE, fine_append, fine_cons, LeafFine] at h
    simp only [GoodE] at g
    simp only [neatE, Bool.and_eq_true, Bool.not_eq_true'] at t
    simp only [emitE, Plain, isNum_emit]
    exact ⟨by rcases g.1 with rfl | rfl <;> simp, plain_e hM h.1 g.2 t.1, t.2, h.2.1.1, h.2.1.2⟩
  | .compLit es, h, g, t => by
    simp only [leavesE] at h
    simp only [GoodE] at g
    simp only [neatE] at t
    simp only [emitE, Plain]
    exact plain_entries hM h g t
  | .prefixOp _ op e, h, g, t => by
    simp only [leavesE] at h
    simp only [GoodE] at g
    simp only [neatE, Bool.and_eq_true, Bool.or_eq_true, Bool.not_eq_true'] at t
    simp only [emitE, Plain, isBin_emit, sticks_emit]
    exact ⟨g.1, plain_e hM h g.2 t.1, fun hb => t.2.resolve_left (by simp [hb])⟩
  | .postfixOp op e, h, g, t => by
    simp only [leavesE] at h
    simp only [GoodE] at g
    simp only [neatE, Bool.and_eq_true, Bool.not_eq_true'] at t
    simp only [emitE, Plain, endsNum_emit]
    exact ⟨by rcases g.1 with rfl | rfl <;> simp, plain_e hM h g.2 t.1, t.2⟩
  | .cast tf e, h, g, t => by
    simp only [leavesE, fine_cons] at h
    simp only [GoodE] at g
    simp only [neatE] at t
    simp only [emitE, Plain]
    exact ⟨type_name hM h.1, plain_e hM h.2 g.2 t⟩
  | .call p f args, h, g, t => by
    simp only [leavesE] at h
    simp only [GoodE] at g
    simp only [neatE, Bool.and_eq_true] at t
    simp only [emitE]
    split
    · rename_i hc
      rw [if_pos hc] at h
      rw [fine_cons] at h
      simp only [Plain]
      exact ⟨value_name hM h.1, plain_args hM h.2 g.2 t.2⟩
    · rename_i hc
      rw [if_neg hc] at h
      rw [fine_append] at h
      simp only [Plain]
      exact ⟨plain_e hM h.1 g.1 t.1, plain_args hM h.2 g.2 t.2⟩
  | .sizeofType tf, h, _, _ => by
    simp only [leavesE, fine_cons] at h
    simp only [emitE, Plain]
    exact type_name hM h.1
  | .sizeofExpr e, h, g, t => by
    simp only [leavesE] at h
    simp only [GoodE] at g
    simp only [neatE] at t
    simp only [emitE, Plain]
    exact plain_e hM h g t
theorem plain_args (hM : EnvFine M) : ∀ {es : List Expr}, Fine M ty (leavesArgs es) → GoodArgs K es → neatArgs es = true →
    PlainArgs ty (emitArgs M Γ es)
  | [], _, _, _ => by simp [emitArgs, PlainArgs]
  | e :: es, h, g, t => by
    simp only [leavesArgs, fine_append] at h
    simp only [GoodArgs] at g
    simp only [neatArgs, Bool.and_eq_true] at t
    simp only [emitArgs, PlainArgs]
    exact ⟨plain_e hM h.1 g.1 t.1, plain_args hM h.2 g.2 t.2⟩
theorem plain_entries (hM : EnvFine M) : ∀ {es : List Entry}, Fine M ty (leavesEntries es) → GoodEntries K es →
    neatEntries es = true → PlainEntries ty (emitEntries M Γ es)
  | [], _, _, _ => by simp [emitEntries, PlainEntries]
  | e :: es, h, g, t => by
    simp only [leavesEntries, fine_append] at h
    simp only [GoodEntries] at g
    simp only [neatEntries, Bool.and_eq_true] at t
    simp only [emitEntries, PlainEntries]
    exact ⟨plain_entry hM h.1 g.1 t.1, plain_entries hM h.2 g.2 t.2⟩
theorem plain_entry (hM : EnvFine M) : ∀ {e : Entry}, Fine M ty (leavesEntry e) → GoodEntry K e →
    neatEntry e = true → PlainEntry ty (emitEntry M Γ e)
  | .mk b k v, h, g, t => by
    have hv := plain_e hM (entry_leaves h).2 (entry_good g) (entry_neat t).2
    exact entry_plain (plain_key (entry_leaves h).1 (entry_neat t).1) hv
end

theorem plain_opt (hM : EnvFine M) {e : Option Expr} (h : Fine M ty (leavesOpt e)) (g : GoodOpt K e) (t : neatOpt e = true) :
    PlainOpt ty (emitOptE M Γ e) := by
  cases e with
  | none => trivial
  | some e => exact plain_e hM h g t

theorem stars_form (n : Nat) : ∃ k, RStr.rep "*" n = String.ofList (List.replicate k '*') := by
  refine ⟨n, ?_⟩
  apply String.toList_injective
  rw [String.toList_ofList]
  induction n with
  | zero => rfl
  | succ n ih => rw [RStr.rep, String.toList_append, ih]; rfl

theorem plain_formAs (hM : EnvFine M) {f : Form} (h : Fine M ty (leavesForm f)) (g : GoodForm K f) (t : neatForm f = true)
    {x : String} (hx : PlainWord ty x) : PlainForm ty (emitFormAs M Γ f x) := by
  simp only [leavesForm, fine_cons, fine_flatMap] at h
  simp only [neatForm, List.all_eq_true] at t
  refine ⟨stars_form _, hx, fun i hi => ?_⟩
  obtain ⟨e, he, rfl⟩ := List.mem_map.mp hi
  exact plain_opt hM (h.2 e he) (g e he) (t e he)

theorem plain_form (hM : EnvFine M) {f : Form} (h : Fine M ty (leavesForm f)) (g : GoodForm K f) (t : neatForm f = true) :
    PlainForm ty (emitForm M Γ f) :=
  plain_formAs hM h g t (value_bare (fine_cons.mp h).1)

theorem plain_init (hM : EnvFine M) {i : Option ForInit} (h : Fine M ty (leavesInit i)) (g : GoodInit K i) (t : neatInit i = true) :
    PlainInit ty (emitInit M Γ i) := by
  match i with
  | none => trivial
  | some (.expr e) =>
    simp only [leavesInit] at h
    simp only [GoodInit] at g
    simp only [neatInit, Bool.and_eq_true, Bool.not_eq_true'] at t
    simp only [emitInit, PlainInit, opens_emit]
    exact ⟨plain_e hM h g t.1, t.2⟩
  | some (.decl tn f v) =>
    simp only [leavesInit, fine_cons, fine_append] at h
    simp only [GoodInit] at g
    simp only [neatInit, Bool.and_eq_true] at t
    simp only [emitInit, PlainInit]
    exact ⟨type_name hM h.1, plain_form hM h.2.1 g.2.1 t.1, plain_e hM h.2.2 g.2.2 t.2⟩

theorem plain_label (hM : EnvFine M) {l : CaseValue} (h : Fine M ty (leavesLabel l)) : PlainLabel ty (emitCaseValue M Γ l) := by
  cases l with
  | ident n =>
    simp only [leavesLabel, fine_cons] at h
    simp only [emitCaseValue, PlainLabel, labelExpr, Plain]
    exact value_name hM h.1
  | literal l =>
    simp only [leavesLabel, fine_cons] at h
    simp only [emitCaseValue, PlainLabel, labelExpr, Plain]
    exact h.1

/-! ## Statements -/

/-- `CWord` as a test. -/
def isWord : List Char → Bool
  | [] => false
  | c :: cs => cLetter c && cs.all cIdChar

theorem isWord_word {w : List Char} (h : isWord w = true) : CWord w := by
  cases w with
  | nil => cases h
  | cons c cs =>
    simp only [isWord, Bool.and_eq_true, List.all_eq_true] at h
    exact ⟨c, cs, rfl, h.1, h.2⟩

theorem helper (hH : HelperNames ty) {w : String}
    (hw : w ∈ ["calloc", "calloc_or_panic", "count", "exit", "fprintf", "size", "stderr", "strcmp", "x"]) : PlainWord ty w := by
  have key : ∀ w ∈ ["calloc", "calloc_or_panic", "count", "exit", "fprintf", "size", "stderr", "strcmp", "x"],
      isWord w.toList = true ∧ w ∉ cKeywords := by decide +kernel
  exact ⟨isWord_word (key w hw).1, hH.values w hw, (key w hw).2⟩

theorem raw_append {a b : List Char} (ha : RawBody a) (hb : RawBody b) : RawBody (a ++ b) := by
  induction ha with
  | nil => exact hb
  | plain h1 h2 _ ih => exact .plain h1 h2 ih
  | esc h1 _ ih => exact .esc h1 ih

theorem raw_body : ∀ {l : List Char}, '"' ∉ l → '\\' ∉ l → RawBody l
  | [], _, _ => .nil
  | c :: l, h1, h2 => .plain (fun h => h1 (by simp [h])) (fun h => h2 (by simp [h]))
      (raw_body (fun h => h1 (by simp [h])) (fun h => h2 (by simp [h])))

theorem digits_free (n : Nat) : '"' ∉ (toString n).toList ∧ '\\' ∉ (toString n).toList := by
  have : ∀ c ∈ (toString n).toList, c.isDigit = true := by
    intro c hc
    rw [Nat.toString_eq_repr, Nat.toList_repr] at hc
    exact Nat.isDigit_of_mem_toDigits (by decide) (by decide) hc
  constructor
  · intro h; exact absurd (this _ h) (by decide)
  · intro h; exact absurd (this _ h) (by decide)

theorem raw_panic (hM : EnvFine M) (p : Pos) : RawBody (M.file ++ ":" ++ p.fmt).toList := by
  have h1 := digits_free p.line
  have h2 := digits_free p.col
  have h3 := hM.file
  apply raw_body <;>
  · simp only [Pos.fmt, String.toList_append, List.mem_append, not_or]
    simp_all

theorem plain_panic (hM : EnvFine M) (hH : HelperNames ty) {p : Pos} {args : List Expr} (h : Fine M ty (leavesArgs args))
    (g : GoodArgs K args) (t : neatArgs args = true) : PlainS ty (emitPanic M Γ p args) := by
  have hf := helper hH (w := "fprintf") (by simp)
  have hs := helper hH (w := "stderr") (by simp)
  have hx := helper hH (w := "exit") (by simp)
  simp only [emitPanic, emitPrint, PlainS, PlainSs, Plain, PlainArgs, PlainLit, opensList, and_true]
  refine ⟨⟨hf, hs, ?_, raw_panic hM p⟩, ⟨hf, hs, plain_args hM h g t⟩, ⟨hf, hs, ?_⟩, hx, ?_⟩
  · exact raw_append (a := "*** panic at %s ***".toList) (raw_body (by decide) (by decide)) (.esc (by decide) .nil)
  · exact .esc (by decide) .nil
  · exact ⟨'1', [], rfl, by decide, trivial⟩

end Che.Proofs.LeavesPlain
