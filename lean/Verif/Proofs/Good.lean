import Verif.Spec.Grammar
import Verif.Spec.Emit
import Verif.Model.FormatChe
import Verif.Model.FormatC
import Mathlib.Tactic.ByContra
/-!
# What the grammar guarantees about trees

Operators are known, namespaces are imported, cases have labels, module variables
have values.  `K` tells which namespaces are imported.
-/
namespace Che
open Spec

/-- The namespace is empty, `OS` or imported. -/
def GoodName (K : String → Prop) (n : NsName) : Prop := n.ns = "" ∨ n.ns = "OS" ∨ K n.ns

mutual
/-- Known operators and namespaces. -/
def GoodE (K : String → Prop) : Expr → Prop
  | .lit _ => True
  | .name n => GoodName K n
  | .arrIndex a i => GoodE K a ∧ GoodE K i
  | .binaryOp _ op a b => (binLevel op).isSome = true ∧ GoodE K a ∧ GoodE K b
  | .fieldAccess _ op t _ => (op = "->" ∨ op = ".") ∧ GoodE K t
  | .compLit es => GoodEntries K es
  | .prefixOp _ op e => op ∈ prefixOps ∧ GoodE K e
  | .postfixOp op e => (op = "++" ∨ op = "--") ∧ GoodE K e
  | .cast tf e => GoodName K tf.typename.name ∧ GoodE K e
  | .call _ f args => GoodE K f ∧ GoodArgs K args
  | .sizeofType t => GoodName K t.typename.name
  | .sizeofExpr e => GoodE K e
/-- All arguments. -/
def GoodArgs (K : String → Prop) : List Expr → Prop
  | [] => True
  | e :: es => GoodE K e ∧ GoodArgs K es
/-- All entries. -/
def GoodEntries (K : String → Prop) : List Entry → Prop
  | [] => True
  | e :: es => GoodEntry K e ∧ GoodEntries K es
/-- One entry. -/
def GoodEntry (K : String → Prop) : Entry → Prop
  | .mk _ key v => (match key with | some k => GoodE K k | none => True) ∧ GoodE K v
end

/-- An optional expression. -/
def GoodOpt (K : String → Prop) : Option Expr → Prop
  | some e => GoodE K e
  | none => True

/-- A declared form. -/
def GoodForm (K : String → Prop) (f : Form) : Prop := ∀ i ∈ f.indexes, GoodOpt K i

/-- The initialiser of a `for`. -/
def GoodInit (K : String → Prop) : Option ForInit → Prop
  | some (.expr e) => GoodE K e
  | some (.decl t f v) => GoodName K t.name ∧ GoodForm K f ∧ GoodE K v
  | none => True

/-- One label. -/
def GoodLabel (K : String → Prop) : CaseValue → Prop
  | .ident n => GoodName K n
  | .literal _ => True

/-- A variable declaration. -/
def GoodVar (K : String → Prop) (d : VarDecl) : Prop :=
  GoodName K d.typename.name ∧ GoodForm K d.form ∧ GoodOpt K d.value

mutual
/-- All statements. -/
def GoodSs (K : String → Prop) : List Stmt → Prop
  | [] => True
  | s :: ss => GoodS K s ∧ GoodSs K ss
/-- A statement. -/
def GoodS (K : String → Prop) : Stmt → Prop
  | .brk => True
  | .cont => True
  | .expr e => GoodE K e
  | .varDecl d => GoodVar K d
  | .ret e => GoodOpt K e
  | .ifS c b e => GoodE K c ∧ GoodSs K b ∧ GoodOptB K e
  | .whileS c b => GoodE K c ∧ GoodSs K b
  | .forS i c a b => GoodInit K i ∧ GoodOpt K c ∧ GoodOpt K a ∧ GoodSs K b
  | .switchS _ v cs d => GoodE K v ∧ GoodCases K cs ∧ GoodOptB K d
/-- An optional block. -/
def GoodOptB (K : String → Prop) : Option (List Stmt) → Prop
  | some b => GoodSs K b
  | none => True
/-- All cases. -/
def GoodCases (K : String → Prop) : List SwitchCase → Prop
  | [] => True
  | .mk vs b :: cs => (vs ≠ [] ∧ ∀ v ∈ vs, GoodLabel K v) ∧ GoodSs K b ∧ GoodCases K cs
end

/-- A type with the forms it declares. -/
def GoodFields (K : String → Prop) (x : TypeAndForms) : Prop :=
  GoodName K x.typename.name ∧ ∀ f ∈ x.forms, GoodForm K f

/-- A struct member. -/
def GoodMember (K : String → Prop) : StructEntry → Prop
  | .plain x => GoodFields K x
  | .union u => GoodForm K u.form ∧ ∀ f ∈ u.fields, GoodName K f.typename.name ∧ GoodForm K f.form

/-- A module element. -/
def GoodElem (K : String → Prop) : ModElem → Prop
  | .macro _ => True
  | .structAlias _ => True
  | .enum x => ∀ e ∈ x.entries, GoodOpt K e.val
  | .typedef x => GoodName K x.typename.name ∧
      ∀ p, x.funcParams = some p → ∀ b ∈ p.forms, GoodName K b.typename.name
  | .structTypedef x => ∀ e ∈ x.entries, GoodMember K e
  | .modVar d => GoodVar K d ∧ d.value ≠ none
  | .funcDecl f => GoodName K f.typename.name ∧ GoodForm K f.form ∧
      (∀ p ∈ f.params.list, GoodFields K p) ∧ GoodSs K f.body

/-! ## From the grammar -/

section
variable {ctx : ParseCtx}

/-- The namespaces a file imports. -/
def importedNs (ctx : ParseCtx) (ns : String) : Prop :=
  ctx.thismod.imports.any (fun x => x.ns == ns) = true

theorem NsId.good {n : NsName} {c : List Token} (h : NsId ctx n c) : GoodName (importedNs ctx) n := by
  cases h with
  | plain _ => exact .inl rfl
  | qualified _ h =>
    unfold ParseCtx.isImportedNs at h
    split at h
    · rename_i h'; exact .inr (.inl h')
    · exact .inr (.inr h)

theorem TypeG.good {t : Typename} {c : List Token} (h : TypeG ctx t c) :
    GoodName (importedNs ctx) t.name := by
  cases h with
  | plain h => exact NsId.good h
  | const _ h => exact NsId.good h

theorem BareG.good {t : BareTypeform} {c : List Token} (h : BareG ctx t c) :
    GoodName (importedNs ctx) t.typename.name := by
  cases h with
  | mk h _ => exact TypeG.good h

/-- What holds for each kind of expression rule. -/
def GoodCat (K : String → Prop) : Cat → Prop
  | .ex _ e => GoodE K e
  | .args es => GoodArgs K es
  | .entries es => GoodEntries K es
  | .entry e => GoodEntry K e

theorem ExG.good {k : Cat} {c : List Token} (h : ExG ctx k c) : GoodCat (importedNs ctx) k := by
  induction h with
  | up _ _ ih => exact ih
  | bin _ _ hl _ ih1 ih2 => exact ⟨by rw [hl]; rfl, ih1, ih2⟩
  | unary h _ ih => exact ⟨h, ih⟩
  | cast _ _ h _ _ ih => exact ⟨BareG.good h, ih⟩
  | sizeofType _ _ h _ _ => exact BareG.good h
  | sizeofExpr _ _ _ _ _ ih => exact ih
  | base _ _ ih => exact ih
  | name h => exact NsId.good h
  | num _ => trivial
  | string _ => trivial
  | char _ => trivial
  | paren _ _ _ ih => exact ih
  | compLit _ _ _ ih => exact ih
  | call0 _ _ _ ih => exact ⟨ih, trivial⟩
  | call _ _ _ _ _ ih1 ih2 ih3 => exact ⟨ih1, ih2, ih3⟩
  | index _ _ _ _ ih1 ih2 => exact ⟨ih1, ih2⟩
  | post _ h ih => exact ⟨h, ih⟩
  | field _ h _ ih => exact ⟨h.imp id (·.1), ih⟩
  | argsNil => trivial
  | argsCons _ _ _ ih1 ih2 => exact ⟨ih1, ih2⟩
  | entriesNil => trivial
  | entriesLast _ ih => exact ⟨ih, trivial⟩
  | entriesCons _ _ _ ih1 ih2 => exact ⟨ih1, ih2⟩
  | entryField _ _ _ _ ih => exact ⟨.inl rfl, ih⟩
  | entryIndex _ _ _ _ _ ih1 ih2 => exact ⟨ih1, ih2⟩
  | entryPlain _ ih => exact ⟨trivial, ih⟩

theorem Ex.good {e : Expr} {c : List Token} (h : Ex ctx e c) : GoodE (importedNs ctx) e := ExG.good h

theorem Indexes.good {is : List (Option Expr)} {c : List Token} (h : Indexes ctx is c) :
    ∀ i ∈ is, GoodOpt (importedNs ctx) i := by
  induction h with
  | nil => simp
  | empty _ _ _ ih =>
    intro i hi
    rcases List.mem_cons.1 hi with rfl | hi
    · trivial
    · exact ih i hi
  | size _ he _ _ ih =>
    intro i hi
    rcases List.mem_cons.1 hi with rfl | hi
    · exact Ex.good he
    · exact ih i hi

theorem FormG.good {f : Form} {c : List Token} (h : FormG ctx f c) : GoodForm (importedNs ctx) f := by
  cases h with
  | mk _ _ _ h _ => exact Indexes.good h

theorem InitG.good {v : Option Expr} {c : List Token} (h : InitG ctx v c) :
    GoodOpt (importedNs ctx) v := by
  cases h with
  | none => trivial
  | some _ h => exact Ex.good h

theorem VarG.good {d : VarDecl} {c : List Token} (h : VarG ctx d c) : GoodVar (importedNs ctx) d := by
  cases h with
  | mk h1 h2 h3 _ _ => exact ⟨TypeG.good h1, FormG.good h2, InitG.good h3⟩

theorem OptG.good {v : Option Expr} {c : List Token} (h : OptG ctx v c) :
    GoodOpt (importedNs ctx) v := by
  cases h with
  | none => trivial
  | some h => exact Ex.good h

theorem ForInitG.good {v : Option ForInit} {c : List Token} (h : ForInitG ctx v c) :
    GoodInit (importedNs ctx) v := by
  cases h with
  | none => trivial
  | decl _ h1 h2 _ h3 => exact ⟨TypeG.good h1, FormG.good h2, Ex.good h3⟩
  | expr h _ => exact Ex.good h

theorem ValueG.good {v : CaseValue} {c : List Token} (h : ValueG ctx v c) :
    GoodLabel (importedNs ctx) v := by
  cases h with
  | ident h => exact NsId.good h
  | num _ => trivial
  | string _ => trivial
  | char _ => trivial

theorem ValuesG.good {vs : List CaseValue} {c : List Token} (h : ValuesG ctx vs c) :
    vs ≠ [] ∧ ∀ v ∈ vs, GoodLabel (importedNs ctx) v := by
  induction h with
  | one h => exact ⟨by simp, by simpa using ValueG.good h⟩
  | more h _ _ ih =>
    refine ⟨by simp, fun v hv => ?_⟩
    rcases List.mem_cons.1 hv with rfl | hv
    · exact ValueG.good h
    · exact ih.2 v hv

/-- What holds for each kind of statement rule. -/
def GoodSCat (K : String → Prop) : SCat → Prop
  | .stmt s _ => GoodS K s
  | .block b _ => GoodSs K b
  | .body b => GoodSs K b
  | .stmts b => GoodSs K b
  | .case c => GoodCases K [c]
  | .cases cs => GoodCases K cs
  | .dflt b => GoodOptB K b

theorem StG.good {k : SCat} {c : List Token} (h : StG ctx k c) : GoodSCat (importedNs ctx) k := by
  induction h with
  | varDecl h _ => exact VarG.good h
  | brk _ _ => trivial
  | cont _ _ => trivial
  | ret _ h _ => exact OptG.good h
  | expr h _ _ => exact Ex.good h
  | «while» _ _ h _ _ ih => exact ⟨Ex.good h, ih⟩
  | «if» _ _ h _ _ ih => exact ⟨Ex.good h, ih, trivial⟩
  | ifElse _ _ h _ _ _ _ ih1 ih2 => exact ⟨Ex.good h, ih1, ih2⟩
  | «for» _ _ h1 _ h2 _ h3 _ _ ih => exact ⟨ForInitG.good h1, OptG.good h2, OptG.good h3, ih⟩
  | switch _ _ h _ _ _ _ _ ih1 ih2 => exact ⟨Ex.good h, ih1, ih2⟩
  | switchStr _ _ _ _ h _ _ _ _ _ ih1 ih2 => exact ⟨Ex.good h, ih1, ih2⟩
  | casesNil => trivial
  | @casesCons x _ _ _ _ _ ih1 ih2 =>
    obtain ⟨vs, b⟩ := x
    exact ⟨ih1.1, ih1.2.1, ih2⟩
  | case _ h _ _ ih => exact ⟨ValuesG.good h, ih, trivial⟩
  | dfltNone => trivial
  | dfltSome _ _ _ ih => exact ih
  | blockBody _ ih => exact ih
  | blockStmt _ _ ih => exact ⟨ih, trivial⟩
  | body _ _ _ ih => exact ih
  | stmtsNil => trivial
  | stmtsCons _ _ ih1 ih2 => exact ⟨ih1, ih2⟩

theorem EnumsG.good {es : List EnumEntry} {c : List Token} (h : EnumsG ctx es c) :
    ∀ e ∈ es, GoodOpt (importedNs ctx) e.val := by
  induction h with
  | one _ h => simpa using InitG.good h
  | last _ h _ => simpa using InitG.good h
  | more _ h _ _ ih =>
    intro e he
    rcases List.mem_cons.1 he with rfl | he
    · exact InitG.good h
    · exact ih e he

theorem FormsG.good {fs : List Form} {c : List Token} (h : FormsG ctx fs c) :
    ∀ f ∈ fs, GoodForm (importedNs ctx) f := by
  induction h with
  | nil => simp
  | cons _ h _ ih =>
    intro e he
    rcases List.mem_cons.1 he with rfl | he
    · exact FormG.good h
    · exact ih e he

theorem ParamFormsG.good {fs : List Form} {c : List Token} (h : ParamFormsG ctx fs c) :
    ∀ f ∈ fs, GoodForm (importedNs ctx) f := by
  induction h with
  | nil => simp
  | cons _ h _ _ ih =>
    intro e he
    rcases List.mem_cons.1 he with rfl | he
    · exact FormG.good h
    · exact ih e he

theorem FieldsG.good {x : TypeAndForms} {c : List Token} (h : FieldsG ctx x c) :
    GoodFields (importedNs ctx) x := by
  cases h with
  | mk h1 h2 h3 =>
    refine ⟨TypeG.good h1, fun e he => ?_⟩
    rcases List.mem_cons.1 he with rfl | he
    · exact FormG.good h2
    · exact FormsG.good h3 e he

theorem ParamG.good {x : TypeAndForms} {c : List Token} (h : ParamG ctx x c) :
    GoodFields (importedNs ctx) x := by
  cases h with
  | mk h1 h2 h3 _ =>
    refine ⟨TypeG.good h1, fun e he => ?_⟩
    rcases List.mem_cons.1 he with rfl | he
    · exact FormG.good h2
    · exact ParamFormsG.good h3 e he

theorem ParamsG.good {ps : List TypeAndForms} {b : Bool} {c : List Token} (h : ParamsG ctx ps b c) :
    ∀ p ∈ ps, GoodFields (importedNs ctx) p := by
  induction h with
  | none => simp
  | dots _ => simp
  | one h => simpa using ParamG.good h
  | oneDots h _ => simpa using ParamG.good h
  | more h _ _ ih =>
    intro e he
    rcases List.mem_cons.1 he with rfl | he
    · exact ParamG.good h
    · exact ih e he

theorem AnonsG.good {bs : List BareTypeform} {b : Bool} {c : List Token} (h : AnonsG ctx bs b c) :
    ∀ x ∈ bs, GoodName (importedNs ctx) x.typename.name := by
  induction h with
  | nil => simp
  | dots _ _ => simp
  | cons _ h _ ih =>
    intro e he
    rcases List.mem_cons.1 he with rfl | he
    · exact BareG.good h
    · exact ih e he

theorem AnonG.good {p : Option AnonParams} {c : List Token} (h : AnonG ctx p c) :
    ∀ q, p = some q → ∀ x ∈ q.forms, GoodName (importedNs ctx) x.typename.name := by
  cases h with
  | none => simp
  | empty _ _ => rintro q ⟨⟩; simp
  | list _ h h' _ =>
    rintro q ⟨⟩ e he
    rcases List.mem_cons.1 he with rfl | he
    · exact BareG.good h
    · exact AnonsG.good h' e he

theorem MembersG.good {fs : List UnionField} {c : List Token} (h : MembersG ctx fs c) :
    ∀ f ∈ fs, GoodName (importedNs ctx) f.typename.name ∧ GoodForm (importedNs ctx) f.form := by
  induction h with
  | nil => simp
  | cons h1 h2 _ _ ih =>
    intro e he
    rcases List.mem_cons.1 he with rfl | he
    · exact ⟨TypeG.good h1, FormG.good h2⟩
    · exact ih e he

theorem StructG.good {es : List StructEntry} {c : List Token} (h : StructG ctx es c) :
    ∀ e ∈ es, GoodMember (importedNs ctx) e := by
  induction h with
  | nil => simp
  | plain h _ _ ih =>
    intro e he
    rcases List.mem_cons.1 he with rfl | he
    · exact FieldsG.good h
    · exact ih e he
  | union _ _ h1 _ h2 _ _ ih =>
    intro e he
    rcases List.mem_cons.1 he with rfl | he
    · exact ⟨FormG.good h2, MembersG.good h1⟩
    · exact ih e he

theorem ObjG.good {p : Bool} {pos : Pos} {e : ModElem} {c : List Token} (h : ObjG ctx p pos e c) :
    GoodElem (importedNs ctx) e := by
  cases h with
  | enum _ _ h _ _ => exact EnumsG.good h
  | struct _ _ h _ _ _ => exact StructG.good h
  | «alias» _ _ _ _ _ => trivial
  | typedef _ h1 _ _ h2 _ _ => exact ⟨TypeG.good h1, AnonG.good h2⟩
  | var _ h1 h2 _ h3 _ => exact ⟨⟨TypeG.good h1, FormG.good h2, Ex.good h3⟩, by simp⟩
  | func h1 h2 _ h3 _ h4 => exact ⟨TypeG.good h1, FormG.good h2, ParamsG.good h3, StG.good h4⟩

theorem ModG.good {es : List ModElem} {c : List Token} (h : ModG ctx es c) :
    ∀ e ∈ es, GoodElem (importedNs ctx) e := by
  induction h with
  | nil => simp
  | skip _ _ ih => exact ih
  | cons h _ ih =>
    intro e he
    rcases List.mem_cons.1 he with rfl | he
    · cases h with
      | obj _ h _ => exact ObjG.good h
      | define _ _ _ _ _ => trivial
    · exact ih e he

end

/-! ## Printing never meets an unknown operator -/

theorem binLevel_cases {op : String} (h : (binLevel op).isSome = true) :
    op ∈ ["=", "+=", "-=", "*=", "/=", "%=", "<<=", ">>=", "&=", "^=", "|=", "||", "&&", "|", "^", "&",
      "==", "!=", "<", ">", "<=", ">=", "<<", ">>", "+", "-", "*", "/", "%"] := by
  by_contra hn
  simp only [List.mem_cons, List.not_mem_nil, or_false, not_or] at hn
  simp [binLevel, hn] at h

theorem binLevel_known {op : String} (h : (binLevel op).isSome = true) :
    (operatorStrength op).isNone = false := by
  have h := binLevel_cases h
  simp only [List.mem_cons, List.not_mem_nil, or_false] at h
  rcases h with rfl | rfl | rfl | rfl | rfl | rfl | rfl | rfl | rfl | rfl | rfl | rfl | rfl | rfl | rfl |
    rfl | rfl | rfl | rfl | rfl | rfl | rfl | rfl | rfl | rfl | rfl | rfl | rfl | rfl <;> decide


theorem GoodE.isOp {K : String → Prop} {e : Expr} (h : GoodE K e) :
    ∀ k, e.isOp = some k → (operatorStrength k).isNone = false := by
  intro k hk
  cases e <;> simp only [Expr.isOp, Option.some.injEq, reduceCtorEq] at hk
  case binaryOp p op a b => subst hk; exact binLevel_known h.1
  case prefixOp => subst hk; decide
  case postfixOp => subst hk; decide

section
variable {K : String → Prop}

theorem opGuard {o : Option String} {op : String} :
    (∀ k, o = some k → (operatorStrength k).isNone = false) →
    (operatorStrength op).isNone = false →
    (match o with
      | some k => (operatorStrength k).isNone || (operatorStrength op).isNone
      | none => false) = false := by
  intro h h'
  cases o with
  | none => rfl
  | some k => simp only [h k rfl, h', Bool.or_self]

mutual
theorem GoodE.che : ∀ {e : Expr}, GoodE K e → FormatChe.panicsExpr e = false
  | .lit _, _ => rfl
  | .name _, _ => rfl
  | .arrIndex a i, h => by simp only [FormatChe.panicsExpr, GoodE.che h.1, GoodE.che h.2, Bool.or_self]
  | .binaryOp _ op a b, h => by
    simp only [FormatChe.panicsExpr, GoodE.che h.2.1, GoodE.che h.2.2, Bool.or_false, FormatChe.unknownOp,
      Bool.or_eq_false_iff]
    exact ⟨opGuard (GoodE.isOp h.2.1) (binLevel_known h.1), opGuard (GoodE.isOp h.2.2) (binLevel_known h.1)⟩
  | .fieldAccess _ _ t _, h => by simp only [FormatChe.panicsExpr, GoodE.che h.2]
  | .compLit es, h => by simp only [FormatChe.panicsExpr, GoodEntries.che h]
  | .prefixOp _ _ e, h => by
    simp only [FormatChe.panicsExpr, GoodE.che h.2, Bool.or_false]
    cases e <;> try rfl
    exact binLevel_known h.2.1
  | .postfixOp _ e, h => by simp only [FormatChe.panicsExpr, GoodE.che h.2]
  | .cast _ e, h => by simp only [FormatChe.panicsExpr, GoodE.che h.2]
  | .call _ f args, h => by simp only [FormatChe.panicsExpr, GoodE.che h.1, GoodArgs.che h.2, Bool.or_self]
  | .sizeofType _, _ => rfl
  | .sizeofExpr e, h => by
    have h : GoodE K e := h
    simp only [FormatChe.panicsExpr, GoodE.che h]
theorem GoodArgs.che : ∀ {es : List Expr}, GoodArgs K es → FormatChe.panicsArgs es = false
  | [], _ => rfl
  | e :: es, h => by simp only [FormatChe.panicsArgs, GoodE.che h.1, GoodArgs.che h.2, Bool.or_self]
theorem GoodEntries.che : ∀ {es : List Entry}, GoodEntries K es → FormatChe.panicsEntries es = false
  | [], _ => rfl
  | e :: es, h => by
    simp only [FormatChe.panicsEntries, GoodEntry.che h.1, GoodEntries.che h.2, Bool.or_self]
theorem GoodEntry.che : ∀ {e : Entry}, GoodEntry K e → FormatChe.panicsEntry e = false
  | .mk _ none v, h => by simp only [FormatChe.panicsEntry, GoodE.che h.2, Bool.or_self]
  | .mk _ (some k) v, h => by
    have h1 : GoodE K k := h.1
    simp only [FormatChe.panicsEntry, GoodE.che h1, GoodE.che h.2, Bool.or_self]
end

variable {M : ModEnv}

/-- The C operator of an emitted expression is known. -/
theorem GoodE.cIsOp {e : Expr} (h : GoodE K e) (Γ : Scopes) :
    ∀ k, FormatC.isOp (emitE M Γ e) = some k → (operatorStrength k).isNone = false := by
  intro k hk
  cases e
  case call =>
    simp only [emitE] at hk
    by_cases hc : isIdent ‹Expr› "calloc!" = true
    · rw [if_pos hc] at hk; simp [FormatC.isOp] at hk
    · rw [if_neg hc] at hk; simp [FormatC.isOp] at hk
  all_goals simp only [emitE, FormatC.isOp, Option.some.injEq, reduceCtorEq] at hk
  case binaryOp p op a b => subst hk; exact binLevel_known h.1
  case prefixOp => subst hk; decide
  case postfixOp => subst hk; decide

theorem emitE_binaryOp {e : Expr} {Γ : Scopes} {op : String} {a b : CExpr}
    (h : emitE M Γ e = .binaryOp op a b) : ∃ p x y, e = .binaryOp p op x y := by
  cases e <;> simp only [emitE, reduceCtorEq, CExpr.binaryOp.injEq] at h
  case binaryOp p op' x y => exact ⟨p, x, y, by rw [h.1]⟩
  case call => split at h <;> simp at h

/-- `panicsExpr` on a key. -/
def panicsKey : Option CExpr → Bool
  | some k => FormatC.panicsExpr k
  | none => false

theorem panicsKey_emit (key : Option Expr) : panicsKey (emitKey key) = false := by
  match key with
  | none => rfl
  | some k => cases k <;> rfl

theorem panicsEntry_eq (i : Bool) (k : Option CExpr) (v : CExpr) :
    FormatC.panicsEntry (.mk i k v) = (panicsKey k || FormatC.panicsExpr v) := by
  cases k <;> simp only [FormatC.panicsEntry, panicsKey]

/-- `panicsStmts` on an optional block. -/
def panicsOptB : Option CBody → Bool
  | some b => FormatC.panicsStmts b
  | none => false

theorem panicsIf_eq (c : CExpr) (b : CBody) (e : Option CBody) :
    FormatC.panicsStmt (.ifS c b e) = (FormatC.panicsExpr c || FormatC.panicsStmts b || panicsOptB e) := by
  cases e <;> simp only [FormatC.panicsStmt, panicsOptB]

theorem panicsSwitch_eq (c : CExpr) (cs : List CSwitchCase) (e : Option CBody) :
    FormatC.panicsStmt (.switchS c cs e) =
      (FormatC.panicsExpr c || FormatC.panicsCases cs || panicsOptB e) := by
  cases e <;> simp only [FormatC.panicsStmt, panicsOptB]

mutual
theorem GoodE.c (Γ : Scopes) : ∀ {e : Expr}, GoodE K e → FormatC.panicsExpr (emitE M Γ e) = false
  | .lit _, _ => rfl
  | .name _, _ => rfl
  | .arrIndex a i, h => by
    simp only [emitE, FormatC.panicsExpr, GoodE.c Γ h.1, GoodE.c Γ h.2, Bool.or_self]
  | .binaryOp _ op a b, h => by
    simp only [emitE, FormatC.panicsExpr, GoodE.c Γ h.2.1, GoodE.c Γ h.2.2, Bool.or_false,
      FormatC.unknownOp, Bool.or_eq_false_iff]
    exact ⟨opGuard (GoodE.cIsOp h.2.1 Γ) (binLevel_known h.1),
      opGuard (GoodE.cIsOp h.2.2 Γ) (binLevel_known h.1)⟩
  | .fieldAccess _ op t _, h => by
    have hop : (operatorStrength op).isNone = false := by
      rcases h.1 with rfl | rfl <;> decide
    simp only [emitE, FormatC.panicsExpr, GoodE.c Γ h.2, Bool.or_false, FormatC.unknownOp]
    exact opGuard (GoodE.cIsOp h.2 Γ) hop
  | .compLit es, h => by simp only [emitE, FormatC.panicsExpr, GoodEntries.c Γ h]
  | .prefixOp _ _ e, h => by
    simp only [emitE, FormatC.panicsExpr, GoodE.c Γ h.2, Bool.or_false]
    split
    · rename_i op a b he
      obtain ⟨p, x, y, rfl⟩ := emitE_binaryOp he
      exact binLevel_known h.2.1
    · rfl
  | .postfixOp _ e, h => by simp only [emitE, FormatC.panicsExpr, GoodE.c Γ h.2]
  | .cast _ e, h => by simp only [emitE, FormatC.panicsExpr, GoodE.c Γ h.2]
  | .call _ f args, h => by
    simp only [emitE]
    split
    · simp only [FormatC.panicsExpr, GoodArgs.c Γ h.2, Bool.or_self]
    · simp only [FormatC.panicsExpr, GoodE.c Γ h.1, GoodArgs.c Γ h.2, Bool.or_self]
  | .sizeofType _, _ => rfl
  | .sizeofExpr e, h => by
    have h : GoodE K e := h
    simp only [emitE, FormatC.panicsExpr, GoodE.c Γ h]
theorem GoodArgs.c (Γ : Scopes) : ∀ {es : List Expr}, GoodArgs K es →
    FormatC.panicsArgs (emitArgs M Γ es) = false
  | [], _ => rfl
  | e :: es, h => by
    simp only [emitArgs, FormatC.panicsArgs, GoodE.c Γ h.1, GoodArgs.c Γ h.2, Bool.or_self]
theorem GoodEntries.c (Γ : Scopes) : ∀ {es : List Entry}, GoodEntries K es →
    FormatC.panicsEntries (emitEntries M Γ es) = false
  | [], _ => rfl
  | e :: es, h => by
    simp only [emitEntries, FormatC.panicsEntries, GoodEntry.c Γ h.1, GoodEntries.c Γ h.2, Bool.or_self]
theorem GoodEntry.c (Γ : Scopes) : ∀ {e : Entry}, GoodEntry K e →
    FormatC.panicsEntry (emitEntry M Γ e) = false
  | .mk _ none v, h => by
    rw [emitEntry, panicsEntry_eq, GoodE.c Γ h.2, panicsKey_emit]
    rfl
  | .mk _ (some k) v, h => by
    rw [emitEntry, panicsEntry_eq, GoodE.c Γ h.2, panicsKey_emit]
    rfl
end

theorem GoodOpt.c (Γ : Scopes) {e : Option Expr} (h : GoodOpt K e) :
    FormatC.panicsOpt (emitOptE M Γ e) = false := by
  cases e with
  | none => rfl
  | some e => exact GoodE.c Γ h

theorem GoodForm.c (Γ : Scopes) {f : Form} (h : GoodForm K f) (n : String) :
    FormatC.panicsForm (emitFormAs M Γ f n) = false := by
  simp only [FormatC.panicsForm, emitFormAs, List.any_map, List.any_eq_false, Function.comp]
  intro i hi
  rw [GoodOpt.c Γ (h i hi)]
  simp

theorem GoodInit.c (Γ : Scopes) {i : Option ForInit} (h : GoodInit K i) :
    FormatC.panicsForInit (emitInit M Γ i) = false := by
  match i, h with
  | none, _ => rfl
  | some (.expr e), h => exact GoodE.c Γ h
  | some (.decl t f v), h =>
    simp only [emitInit, FormatC.panicsForInit, emitForm, GoodForm.c Γ h.2.1, GoodE.c Γ h.2.2, Bool.or_self]

theorem emitStrTest_fine (Γ : Scopes) {v : CExpr} (hv : FormatC.panicsExpr v = false) (l : CaseValue) :
    FormatC.panicsExpr (emitStrTest M Γ v l) = false := by
  have : FormatC.panicsExpr (emitStrValue M Γ l) = false := by cases l <;> rfl
  simp [emitStrTest, FormatC.panicsExpr, FormatC.panicsArgs, hv, this]

theorem emitStrCond_fine (Γ : Scopes) {v : CExpr} (hv : FormatC.panicsExpr v = false)
    (ls : List CaseValue) : FormatC.panicsExpr (emitStrCond M Γ v ls) = false := by
  cases ls with
  | nil => rfl
  | cons l ls =>
    simp only [emitStrCond]
    have key : ∀ (ls : List CaseValue) (acc : CExpr), FormatC.panicsExpr acc = false →
        (∀ k, FormatC.isOp acc = some k → (operatorStrength k).isNone = false) →
        FormatC.panicsExpr (ls.foldl (fun acc l => .binaryOp "||" acc (emitStrTest M Γ v l)) acc) = false := by
      intro ls
      induction ls with
      | nil => intro acc h _; exact h
      | cons l ls ih =>
        intro acc h ho
        refine ih _ ?_ ?_
        · have ho2 : ∀ k, FormatC.isOp (emitStrTest M Γ v l) = some k →
              (operatorStrength k).isNone = false := by
            intro k hk
            simp only [emitStrTest, FormatC.isOp, Option.some.injEq] at hk
            subst hk; decide
          have hb : (operatorStrength "||").isNone = false := by decide
          simp only [FormatC.panicsExpr, FormatC.unknownOp, h, emitStrTest_fine Γ hv, Bool.or_false,
            Bool.or_eq_false_iff]
          exact ⟨opGuard ho hb, opGuard ho2 hb⟩
        · intro k hk
          simp only [FormatC.isOp, Option.some.injEq] at hk
          subst hk; decide
    refine key ls _ (emitStrTest_fine Γ hv l) ?_
    intro k hk
    simp only [emitStrTest, FormatC.isOp, Option.some.injEq] at hk
    subst hk; decide

theorem GoodE.cStmt (Γ : Scopes) {e : Expr} (h : GoodE K e) :
    FormatC.panicsStmt (emitExprStmt M Γ e) = false := by
  unfold emitExprStmt
  split
  · split
    · simp [emitPanic, emitPrint, FormatC.panicsStmt, FormatC.panicsStmts, FormatC.panicsExpr,
        FormatC.panicsArgs, GoodArgs.c Γ h.2]
    · exact GoodE.c Γ h
  · exact GoodE.c Γ h

mutual
theorem GoodSs.c (Γ : Scopes) : ∀ {ss : List Stmt}, GoodSs K ss →
    FormatC.panicsStmts (emitSs M Γ ss) = false
  | [], _ => by simp only [emitSs, FormatC.panicsStmts]
  | s :: ss, h => by
    simp only [emitSs, FormatC.panicsStmts, GoodS.c Γ h.1, GoodSs.c _ h.2, Bool.or_self]
theorem GoodS.c (Γ : Scopes) : ∀ {s : Stmt}, GoodS K s → FormatC.panicsStmt (emitS M Γ s) = false
  | .brk, _ => by simp only [emitS, FormatC.panicsStmt]
  | .cont, _ => by simp only [emitS, FormatC.panicsStmt]
  | .expr e, h => by
    have h : GoodE K e := h
    simp only [emitS, GoodE.cStmt Γ h]
  | .varDecl d, h => by
    have h : GoodVar K d := h
    simp [emitS, emitVar, FormatC.panicsStmt, emitForm, GoodForm.c _ h.2.1, GoodOpt.c _ h.2.2]
  | .ret e, h => by
    have h : GoodOpt K e := h
    simp only [emitS, FormatC.panicsStmt, GoodOpt.c Γ h]
  | .ifS c b e, h => by
    have := GoodOptB.c Γ (e := e) h.2.2
    rw [emitS, panicsIf_eq, GoodE.c Γ h.1, GoodSs.c _ h.2.1, this]
    rfl
  | .whileS c b, h => by
    simp only [emitS, FormatC.panicsStmt, GoodE.c Γ h.1, GoodSs.c _ h.2, Bool.or_self]
  | .forS i c a b, h => by
    simp only [emitS, FormatC.panicsStmt, GoodInit.c _ h.1, GoodOpt.c _ h.2.1, GoodOpt.c _ h.2.2.1,
      GoodSs.c _ h.2.2.2, Bool.or_self]
  | .switchS isStr v cs d, h => by
    have hd := GoodOptB.c Γ (e := d) h.2.2
    have hv := GoodE.c (M := M) Γ h.1
    have h1 := GoodCases.cStr Γ hv hd h.2.1
    have h2 := GoodCases.c Γ h.2.1
    cases isStr with
    | true =>
      cases cs with
      | nil => rfl
      | cons c rest =>
        rw [emitStrElse, panicsOptB, FormatC.panicsStmts, FormatC.panicsStmts, Bool.or_false] at h1
        simp only [emitS]
        exact h1
    | false =>
      simp only [emitS, Bool.false_eq_true, if_false]
      rw [panicsSwitch_eq, hv, h2, hd]
      rfl
theorem GoodOptB.c (Γ : Scopes) : ∀ {e : Option (List Stmt)}, GoodOptB K e →
    panicsOptB (emitOptB M Γ e) = false
  | none, _ => by rw [emitOptB]; rfl
  | some b, h => by
    have h : GoodSs K b := h
    rw [emitOptB, panicsOptB, GoodSs.c _ h]
theorem GoodCases.c (Γ : Scopes) : ∀ {cs : List SwitchCase}, GoodCases K cs →
    FormatC.panicsCases (emitCases M Γ cs) = false
  | [], _ => by simp only [emitCases, FormatC.panicsCases]
  | .mk vs b :: cs, h => by
    simp only [emitCases, FormatC.panicsCases, GoodSs.c _ h.2.1, GoodCases.c Γ h.2.2, Bool.or_self]
theorem GoodCases.cStr (Γ : Scopes) {v : CExpr} (hv : FormatC.panicsExpr v = false) {d : Option CBody}
    (hd : panicsOptB d = false) :
    ∀ {cs : List SwitchCase}, GoodCases K cs →
    panicsOptB (emitStrElse M Γ v d cs) = false
  | [], _ => by rw [emitStrElse]; exact hd
  | .mk vs b :: cs, h => by
    have h' := GoodCases.cStr Γ hv hd (cs := cs) h.2.2
    rw [emitStrElse, emitStrCase, panicsOptB, FormatC.panicsStmts, FormatC.panicsStmts, panicsIf_eq,
      emitStrCond_fine Γ hv, GoodSs.c _ h.2.1, h']
    rfl
end

theorem GoodFields.c (Γ : Scopes) {x : TypeAndForms} (h : GoodFields K x) :
    ∀ y ∈ x.forms.map (emitTypeForm M Γ x.typename), FormatC.panicsForm y.form = false := by
  intro y hy
  obtain ⟨f, hf, rfl⟩ := List.mem_map.1 hy
  exact GoodForm.c Γ (h.2 f hf) _

theorem GoodMember.c (Γ : Scopes) {x : StructEntry} (h : GoodMember K x) :
    ∀ y ∈ emitStructEntry M Γ x, FormatC.panicsStructItem y = false := by
  intro y hy
  cases x with
  | plain x =>
    simp only [emitStructEntry, List.mem_map] at hy
    obtain ⟨f, hf, rfl⟩ := hy
    exact GoodForm.c Γ (h.2 f hf) _
  | union u =>
    simp only [emitStructEntry, List.mem_singleton] at hy
    subst hy
    simp only [FormatC.panicsStructItem, Bool.or_eq_false_iff, List.any_eq_false, List.mem_map]
    refine ⟨GoodForm.c Γ h.1 _, ?_⟩
    rintro y ⟨f, hf, rfl⟩
    simp only [emitTypeForm, emitForm, GoodForm.c Γ (h.2 f hf).2]
    simp

theorem GoodElem.c (Γ : Scopes) {e : ModElem} (h : GoodElem K e) :
    ∀ y ∈ emitElem M Γ e, FormatC.panicsElem y = false := by
  intro y hy
  cases e with
  | «macro» x =>
    simp only [emitElem] at hy
    split at hy
    · simp at hy
    · simp only [List.mem_singleton] at hy; subst hy; rfl
  | structAlias x => simp only [emitElem, List.mem_singleton] at hy; subst hy; rfl
  | typedef x => simp only [emitElem, List.mem_singleton] at hy; subst hy; rfl
  | enum x =>
    simp only [emitElem, List.mem_singleton] at hy; subst hy
    simp only [FormatC.panicsElem, List.any_eq_false, List.mem_map]
    rintro y ⟨e, he, rfl⟩
    simp only [GoodOpt.c Γ (h e he)]
    simp
  | structTypedef x =>
    simp only [emitElem, List.mem_cons, List.not_mem_nil, or_false] at hy
    rcases hy with rfl | rfl | rfl
    · rfl
    · simp only [FormatC.panicsElem, List.any_eq_false, List.mem_flatMap]
      rintro y ⟨e, he, hy⟩
      rw [GoodMember.c Γ (h e he) y hy]
      simp
    · rfl
  | modVar d =>
    simp only [emitElem] at hy
    split at hy
    · rename_i v hv
      simp only [List.mem_singleton] at hy; subst hy
      have hv : GoodE K v := by have := h.1.2.2; rwa [hv] at this
      simp only [FormatC.panicsElem, GoodForm.c Γ h.1.2.1, GoodE.c Γ hv, Bool.or_self]
    · simp at hy
  | funcDecl f =>
    have hp : ∀ Γ, FormatC.panicsParams (emitParams M Γ f.params) = false := by
      intro Γ
      simp only [FormatC.panicsParams, emitParams, List.any_eq_false, List.mem_flatMap]
      rintro y ⟨p, hp, hy⟩
      rw [GoodFields.c Γ (h.2.2.1 p hp) y hy]
      simp
    simp only [emitElem, List.mem_cons] at hy
    rcases hy with rfl | hy
    · simp only [FormatC.panicsElem, emitFunc, emitProto, GoodForm.c _ h.2.1, hp, GoodSs.c _ h.2.2.2, Bool.or_self]
    · split at hy
      · simp at hy
      · simp only [List.mem_singleton] at hy; subst hy
        simp only [FormatC.panicsElem, emitProto, GoodForm.c _ h.2.1, hp, Bool.or_self]

end

end Che
