import Verif.Proofs.CStmtDerive
import Verif.Proofs.AlikeRun
import Verif.Props.Running
import Verif.Props.Printing
/-!
# C40: the printed text of statements and their structure

C's statement grammar is in `Verif.Spec.CStmtGrammar`.
-/
namespace Che.Props
open Che Spec FormatC Proofs.CLexing Proofs.CPrintToks Proofs.CPrintRead Proofs.CPrintDerive Proofs.CStmtToks
  Proofs.CStmtBack Proofs.CStmtDerive

variable {ty : String → Bool}

/-- `e'` is what C makes of the text printed for `e`. -/
def TextOf (ty : String → Bool) (e e' : CExpr) : Prop :=
  ∃ ts, CReads (fmtExpr e).toList ts [] ∧ CExpression ty e' ts

/-- `e'` is what C makes of the text printed for `e`, as an initialiser. -/
def TextOfInit (ty : String → Bool) (e e' : CExpr) : Prop :=
  ∃ ts, CReads (fmtExpr e).toList ts [] ∧ CInitializer ty e' ts

theorem reads_body {b : List CStmt} (h : PlainSs ty b) :
    CReads (formatBody b).toList (.punct "{" :: (toksSs b ++ [.punct "}"])) [] := by
  have := reads_block (fun x => readsSs' h x) (CReads.nil (r := []))
  simpa [formatBody] using this

theorem reads_expr {e : CExpr} (h : Plain ty e) : CReads (fmtExpr e).toList (toksE e) [] := by
  have := reads h (s := []) (ts := []) (x := []) (by simp [After, AfterNum, AfterWord]) .nil
  simpa using this

/-- C40: however C reads the text of a body, it finds the statements that were
printed: the branches, loops, cases and blocks are those of the tree, each `else`
with its `if`.  The expressions in them are what C makes of the text of the
expressions (C39 says when that is the expression printed).

`PlainSs` says that names, types, literals and operators are words and marks of C, so
that the text can be cut into tokens at all.  C's grammar by itself gives a text two
readings if an `else` follows two `if`s (`C40_grammar_is_ambiguous`). -/
theorem C40_pairing (hty : TypeNames ty) {b : List CStmt} (h : PlainSs ty b) {ts : List CTok} {k : KStmt}
    (hr : CReads (formatBody b).toList ts []) (hk : CSt ty (.stmt k) ts) :
    Alike (TextOf ty) (TextOfInit ty) (.block (lowers b)) k := by
  rw [creads_det hr (reads_body h)] at hk
  exact alike_mono (fun _ _ k => ⟨_, reads_expr k.1, k.2⟩) (fun _ _ k => ⟨_, reads_expr k.1, k.2⟩)
    (body_back hty h hk)

/-- C40: there is at most one reading. -/
theorem C40_one_reading (hty : TypeNames ty) {b : List CStmt} (h : PlainSs ty b) {ts ts' : List CTok}
    {k k' : KStmt} (hr : CReads (formatBody b).toList ts []) (hk : CSt ty (.stmt k) ts)
    (hr' : CReads (formatBody b).toList ts' []) (hk' : CSt ty (.stmt k') ts') : k = k' := by
  rw [creads_det hr (reads_body h)] at hk
  rw [creads_det hr' (reads_body h)] at hk'
  exact alike_fun rd_fun rdI_fun (body_back hty h hk) (body_back hty h hk')

/-- C40: if all expressions have their parentheses, the text is C, and its one reading
is the tree that was printed. -/
theorem C40_reads_back (hty : TypeNames ty) {b : List CStmt} (h : PlainSs ty b) (hf : FaithfulSs b = true) :
    (∃ ts k, CReads (formatBody b).toList ts [] ∧ CSt ty (.stmt k) ts) ∧
    ∀ ts k, CReads (formatBody b).toList ts [] → CSt ty (.stmt k) ts →
      Alike (fun e e' => e' = canon e) (fun e e' => e' = canon e) (.block (lowers b)) k := by
  obtain ⟨ks, h1, h2⟩ := canSs h hf
  refine ⟨⟨_, _, reads_body h, .block h1⟩, fun ts k hr hk => ?_⟩
  rw [C40_one_reading hty h hr hk (reads_body h) (.block h1)]
  exact .block h2

/-! ## With the translation -/

section
variable {m : Type → Type} [Monad m] [LawfulMonad m] {V : Type}

/-- C41 down to the text: the text printed for the body of a function, read as C and
run, does what the source of the function does.  As in `C41_function_partial` a
`break` directly in a case of a `switch str` is left out; the text must have the
parentheses that C needs (`FaithfulSs`, see C39) and be spelt properly (`PlainSs`). -/
theorem C41_text_partial {E : ESem m V} {S : CSem m V} (hS : S.Lawful) (hT : S.Textual) {mo : Module}
    {p : TrParams} {cm : CModule} (h : translate mo p = .ok cm) {f : FuncDecl} (hf : .funcDecl f ∈ mo.elements)
    (hr : Respects (envFor mo p) E S ([] :: declParams f.params :: moduleScope mo) f.body)
    (hty : TypeNames ty) {b : List CStmt} (hb : b = (emitFunc (envFor mo p) (moduleScope mo) f).body)
    (hp : PlainSs ty b) (hF : FaithfulSs b = true) :
    (∃ ts k, CReads (formatBody b).toList ts [] ∧ CSt ty (.stmt k) ts) ∧
    ∀ ts k, CReads (formatBody b).toList ts [] → CSt ty (.stmt k) ts → ∀ N,
      S.run N k = E.scope (E.runs (envFor mo p).file N ([] :: declParams f.params :: moduleScope mo) f.body) := by
  obtain ⟨h1, h2⟩ := C40_reads_back hty hp hF
  refine ⟨h1, fun ts k hk1 hk2 N => ?_⟩
  rw [Proofs.AlikeRun.run_alike hT N (h2 ts k hk1 hk2), CSem.run, hr.scope, hb,
    (C41_function_partial hS h hf hr N).2]

/-- C35 down to the text: the text printed for a switch, read as C and run, runs the body
of the first case that lists the value, or else the default body, and then the switch is
over.  The text must have the parentheses that C needs and be spelt properly. -/
theorem C35_text {S : CSem m V} (hS : S.Lawful) (hT : S.Textual) (hty : TypeNames ty) (v : CExpr) (cs : List CSwitchCase)
    (d : Option (List CStmt)) (hp : PlainSs ty [.switchS v cs d]) (hF : FaithfulSs [.switchS v cs d] = true) :
    (∃ ts k, CReads (formatBody [.switchS v cs d]).toList ts [] ∧ CSt ty (.stmt k) ts) ∧
    ∀ ts k, CReads (formatBody [.switchS v cs d]).toList ts [] → CSt ty (.stmt k) ts → ∀ N,
      S.run N k = S.scope (do
        let x ← S.eval v
        let r ← (match ((cs.find? (fun c => (caseValues c).any (S.hit x))).map caseStmts).or d with
          | some b => S.scope (S.runs N (lowers b))
          | none => pure .normal)
        pure r.caught) := by
  obtain ⟨h1, h2⟩ := C40_reads_back hty hp hF
  refine ⟨h1, fun ts k hk1 hk2 N => ?_⟩
  rw [Proofs.AlikeRun.run_alike hT N (h2 ts k hk1 hk2), CSem.run, lowers, lowers, List.append_nil, C35_switch hS N v cs d]
  rfl

end

/-! ## Examples -/

/-- `if (a) { if (b) { x; } } else { c; }` -/
def outerElse : List CStmt :=
  [.ifS (.ident "a") [.ifS (.ident "b") [.expr (.ident "x")] none] (some [.expr (.ident "c")])]

/-- `if (a) { if (b) { x; } else { c; } }` -/
def innerElse : List CStmt :=
  [.ifS (.ident "a") [.ifS (.ident "b") [.expr (.ident "x")] (some [.expr (.ident "c")])] none]


example : formatBody outerElse =
    "{\n\tif (a) {\n\t\tif (b) {\n\t\t\tx;\n\t\t}\n\t\n\t}\n\t else {\n\t\tc;\n\t}\n\n}\n" := by
  decide +kernel

theorem demo_typeNames : TypeNames demoTypes := by
  simp only [TypeNames]; decide

theorem demo_outer : PlainSs demoTypes outerElse ∧ PlainSs demoTypes innerElse := by
  simp only [outerElse, innerElse, PlainSs, PlainS, PlainB, Plain, opensList, and_true]
  have h : ∀ w ∈ ["a", "b", "c", "p", "i", "x", "f"], PlainWord demoTypes w := fun w h => plain_demo h
  simp only [List.forall_mem_cons] at h
  simp [h]

-- both can be read, in one way, and not in the same way
example : ∃ ts k, CReads (formatBody outerElse).toList ts [] ∧ CSt demoTypes (.stmt k) ts :=
  (C40_reads_back demo_typeNames demo_outer.1 (by decide)).1

example {ts ts' : List CTok} {k k' : KStmt} (h1 : CReads (formatBody outerElse).toList ts [])
    (h2 : CSt demoTypes (.stmt k) ts) (h3 : CReads (formatBody innerElse).toList ts' [])
    (h4 : CSt demoTypes (.stmt k') ts') : k ≠ k' := by
  rintro rfl
  have h5 := C40_pairing demo_typeNames demo_outer.1 h1 h2
  have h6 := C40_pairing demo_typeNames demo_outer.2 h3 h4
  cases h5 with
  | block h5 => cases h5 with
    | cons h5 _ => cases h5 with
      | ifElse _ _ _ => cases h6 with
        | block h6 => cases h6 with
          | cons h6 _ => cases h6

/-- An expression that is a word. -/
theorem word_expr {w : String} (h : PlainWord ty w) : CExpression ty (.ident w) [.word w] :=
  derive2 (e := .ident w) h rfl

/-- C's grammar alone does not say whose `else` it is: without braces the same tokens
are both statements. -/
theorem C40_grammar_is_ambiguous : ∃ ts,
    CSt demoTypes (.stmt (.ifS (.ident "a") (.ifS (.ident "b") (.expr (.ident "x")) none)
      (some (.expr (.ident "c"))))) ts ∧
    CSt demoTypes (.stmt (.ifS (.ident "a") (.ifS (.ident "b") (.expr (.ident "x"))
      (some (.expr (.ident "c")))) none)) ts := by
  have ha := word_expr (plain_demo (w := "a") (by simp))
  have hb := word_expr (plain_demo (w := "b") (by simp))
  have hc := word_expr (plain_demo (w := "c") (by simp))
  have hx := word_expr (plain_demo (w := "x") (by simp))
  refine ⟨_, .ifElse ha (.ifOnly hb (.expr hx)) (.expr hc), ?_⟩
  exact .ifOnly ha (.ifElse hb (.expr hx) (.expr hc))

/-! `Textual` asks for little: every meaning becomes textual if trees are first replaced
by what their text says. -/

theorem escNewlines_twice (s : List Char) : escNewlines (escNewlines s) = escNewlines s := by
  induction s with
  | nil => rfl
  | cons c cs ih =>
    by_cases hc : c = '\n'
    · subst hc
      have h : ∀ l, escNewlines ('\n' :: l) = '\\' :: 'n' :: escNewlines l := fun l => rfl
      have h1 : ∀ l, escNewlines ('\\' :: l) = '\\' :: escNewlines l := fun l => by simp [escNewlines]
      have h2 : ∀ l, escNewlines ('n' :: l) = 'n' :: escNewlines l := fun l => by simp [escNewlines]
      rw [h, h1, h2, ih]
    · have h : ∀ l, escNewlines (c :: l) = c :: escNewlines l := fun l => by simp [escNewlines, hc]
      rw [h, h, ih]

mutual
theorem canon_twice : ∀ e, canon (canon e) = canon e
  | .lit .null => rfl
  | .lit (.string v) => by simp [canon, escNewlines_twice]
  | .lit (.char _) => rfl
  | .lit (.number _) => rfl
  | .compLit [] => rfl
  | .compLit (e :: es) => by simp only [canon, canonEntry_twice e, canonEntries_twice es]
  | .ident _ => rfl
  | .binaryOp _ a b => by simp only [canon, canon_twice a, canon_twice b]
  | .fieldAccess _ a _ => by simp only [canon, canon_twice a]
  | .prefixOp _ a => by simp only [canon, canon_twice a]
  | .postfixOp _ a => by simp only [canon, canon_twice a]
  | .cast _ a => by simp only [canon, canon_twice a]
  | .call f a => by simp only [canon, canon_twice f, canonArgs_twice a]
  | .sizeofType _ => rfl
  | .sizeofExpr a => by simp only [canon, canon_twice a]
  | .arrIndex a b => by simp only [canon, canon_twice a, canon_twice b]
theorem canonArgs_twice : ∀ es, canonArgs (canonArgs es) = canonArgs es
  | [] => rfl
  | e :: es => by simp only [canonArgs, canon_twice e, canonArgs_twice es]
theorem canonEntries_twice : ∀ es, canonEntries (canonEntries es) = canonEntries es
  | [] => rfl
  | e :: es => by simp only [canonEntries, canonEntry_twice e, canonEntries_twice es]
theorem canonEntry_twice : ∀ e, canonEntry (canonEntry e) = canonEntry e
  | .mk _ none v => by simp only [canonEntry, canon_twice v]
  | .mk _ (some k) v => by simp only [canonEntry, canon_twice v, canon_twice k]
end

/-- A label as its text says. -/
def canonLabel : CCaseValue → CCaseValue
  | .literal .null => .ident "NULL"
  | .literal (.string v) => .literal (.string (String.ofList (escNewlines v.toList)))
  | l => l

theorem labelExpr_canon (l : CCaseValue) : labelExpr (canonLabel l) = canon (labelExpr l) := by
  cases l with
  | ident x => rfl
  | literal v => cases v <;> rfl

/-- A declarator as its text says. -/
def canonForm (f : CForm) : CForm := ⟨f.stars, f.name, f.indexes.map (·.map canon)⟩

theorem optAlike_eq {v v'} (h : OptAlike (fun e e' => e' = canon e) v v') : v' = v.map canon := by
  cases h with
  | none => rfl
  | some h => rw [h]; rfl

theorem formAlike_eq {f f'} (h : FormAlike (fun e e' => e' = canon e) f f') : f' = canonForm f := by
  obtain ⟨h1, h2, h3⟩ := h
  obtain ⟨s, n, is⟩ := f
  obtain ⟨s', n', is'⟩ := f'
  have : is' = is.map (·.map canon) := by
    simp only at h3
    clear h1 h2
    induction h3 with
    | nil => rfl
    | cons h _ ih => rw [optAlike_eq h, ih]; rfl
  simp only at h1 h2
  rw [this, h1, h2, canonForm]

theorem optMap_twice (v : Option CExpr) : (v.map canon).map canon = v.map canon := by
  cases v <;> simp [canon_twice]

section
variable {m : Type → Type} [Monad m] {V : Type}

/-- The meaning of the text. -/
def textual (S : CSem m V) : CSem m V where
  eval e := S.eval (canon e)
  truth := S.truth
  hit x l := S.hit x (canonLabel l)
  scope := S.scope
  declare t f v := S.declare t (canonForm f) (v.map canon)

theorem textual_textual (S : CSem m V) : (textual S).Textual where
  eval e := by simp only [textual, canon_twice]
  hit l l' h x := by
    rw [← labelExpr_canon] at h
    rw [label_inj h]
    have : canonLabel (canonLabel l) = canonLabel l :=
      label_inj (by rw [labelExpr_canon, labelExpr_canon, canon_twice])
    simp only [textual, this]
  declare f f' v v' h1 h2 t := by
    rw [formAlike_eq h1, optAlike_eq h2]
    have : canonForm (canonForm f) = canonForm f := by
      simp [canonForm, Function.comp_def, canon_twice]
    simp only [textual, this, optMap_twice]

end

end Che.Props
