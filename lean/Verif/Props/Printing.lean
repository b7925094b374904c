import Verif.Proofs.CPrintBack
import Verif.Proofs.CPrintDerive
import Verif.Proofs.CUniqueInit
/-!
# C39: the printed text of an expression and its tree

C's tokens are in `Verif.Spec.CLex`, C's expression grammar in
`Verif.Spec.CGrammar`; `Verif.Spec.CPrint` has the trees in question.
-/
namespace Che.Props
open Che Spec FormatC Proofs.CLexing Proofs.CPrintToks Proofs.CPrintRead Proofs.CPrintDerive Proofs.CPrintBack

variable {ty : String → Bool}

/-- Full property: for every tree, reading the printed text gives the tree back.  It
is false of the code (`C39_counterexample_…`).  Missing here: trees with missing
parentheses (not `Faithful`), and trees with a wrong token (not `Plain`). -/
theorem C39_reads_back_partial {e : CExpr} (hp : Plain ty e) (hf : Faithful e = true) :
    (∃ ts, CReads (fmtExpr e).toList ts [] ∧ CExpression ty (canon e) ts) ∧
    ∀ ts e', CReads (fmtExpr e).toList ts [] → CExpression ty e' ts → e' = canon e := by
  have h : CReads (fmtExpr e).toList (toksE e) [] := by
    have := reads hp (s := []) (ts := []) (x := []) (by simp [After, starts, AfterNum, AfterWord]) .nil
    simpa using this
  have d := derive2 hp hf
  refine ⟨⟨_, h, d⟩, fun ts e' h' d' => ?_⟩
  rw [creads_det h' h] at d'
  exact expr_unique d' d

/-- For plain trees `Faithful` is exact: the text can be read as the tree if and only
if all the parentheses are there. -/
theorem C39_exact_partial {e : CExpr} (hp : Plain ty e) :
    (∃ ts, CReads (fmtExpr e).toList ts [] ∧ CExpression ty (canon e) ts) ↔ Faithful e = true := by
  refine ⟨fun ⟨ts, h, d⟩ => ?_, fun hf => (C39_reads_back_partial hp hf).1⟩
  have h' : CReads (fmtExpr e).toList (toksE e) [] := by
    have := reads hp (s := []) (ts := []) (x := []) (by simp [After, AfterNum, AfterWord]) .nil
    simpa using this
  rw [creads_det h h'] at d
  exact (back hp d).1

/-- The same as `C39_reads_back_partial` for initialisers, which may be lists in
braces. -/
theorem C39_initializer_partial {e : CExpr} (hp : Plain ty e) (hf : FaithfulInit e = true) :
    (∃ ts, CReads (fmtExpr e).toList ts [] ∧ CInitializer ty (canon e) ts) ∧
    ∀ ts e', CReads (fmtExpr e).toList ts [] → CInitializer ty e' ts → e' = canon e := by
  have h : CReads (fmtExpr e).toList (toksE e) [] := by
    have := reads hp (s := []) (ts := []) (x := []) (by simp [After, AfterNum, AfterWord]) .nil
    simpa using this
  have d := deriveInit hp hf
  refine ⟨⟨_, h, d⟩, fun ts e' h' d' => ?_⟩
  rw [creads_det h' h] at d'
  exact (init_prefix d' d rfl stop_nil stop_nil).1

/-! ## Where it is false -/

/-- A word of the examples. -/
def demoTypes (w : String) : Bool := w == "int" || w == "T"

theorem plain_demo {w : String} (h : w ∈ ["a", "b", "c", "p", "i", "x", "f"]) : PlainWord demoTypes w := by
  simp only [List.mem_cons, List.not_mem_nil, or_false] at h
  obtain rfl | rfl | rfl | rfl | rfl | rfl | rfl := h <;>
    exact ⟨⟨_, [], rfl, by decide +kernel, by simp⟩, by decide +kernel, by decide +kernel⟩

/-- A text that is printed for a tree and is read as another one. -/
def ReadAs (e e' : CExpr) : Prop :=
  canon e' ≠ canon e ∧ ∃ ts, CReads (fmtExpr e).toList ts [] ∧ CExpression demoTypes (canon e') ts

theorem readAs {e e'} (ht : fmtExpr e = fmtExpr e') (hp : Plain demoTypes e') (hf : Faithful e' = true)
    (hn : canon e' ≠ canon e) : ReadAs e e' := by
  refine ⟨hn, ?_⟩
  rw [ht]
  exact (C39_reads_back_partial hp hf).1

/-- `a - (b - c)` is printed as `a - b - c`, which is `(a - b) - c`. -/
theorem C39_counterexample_minus :
    ReadAs (.binaryOp "-" (.ident "a") (.binaryOp "-" (.ident "b") (.ident "c")))
      (.binaryOp "-" (.binaryOp "-" (.ident "a") (.ident "b")) (.ident "c")) :=
  readAs (by decide +kernel)
    ⟨.inl ⟨11, by decide +kernel⟩, ⟨.inl ⟨11, by decide +kernel⟩, plain_demo (by simp), plain_demo (by simp)⟩,
      plain_demo (by simp)⟩ (by decide +kernel) (by simp [canon])

/-- `(*p)[i]` is printed as `*p[i]`, which is `*(p[i])`. -/
theorem C39_counterexample_index :
    ReadAs (.arrIndex (.prefixOp "*" (.ident "p")) (.ident "i"))
      (.prefixOp "*" (.arrIndex (.ident "p") (.ident "i"))) :=
  readAs (by decide +kernel)
    ⟨by decide, ⟨plain_demo (by simp), plain_demo (by simp)⟩, by decide +kernel⟩ (by decide +kernel)
    (by simp [canon])

/-- `(*p)++` is printed as `*p++`, which is `*(p++)`. -/
theorem C39_counterexample_increment :
    ReadAs (.postfixOp "++" (.prefixOp "*" (.ident "p"))) (.prefixOp "*" (.postfixOp "++" (.ident "p"))) :=
  readAs (by decide +kernel)
    ⟨by decide, ⟨by decide, plain_demo (by simp), by decide⟩, by decide +kernel⟩ (by decide +kernel)
    (by simp [canon])

/-- `(*f)(x)` is printed as `*f(x)`, which is `*(f(x))`. -/
theorem C39_counterexample_call :
    ReadAs (.call (.prefixOp "*" (.ident "f")) [.ident "x"]) (.prefixOp "*" (.call (.ident "f") [.ident "x"])) :=
  readAs (by decide +kernel)
    ⟨by decide, ⟨plain_demo (by simp), plain_demo (by simp), trivial⟩, by decide +kernel⟩ (by decide +kernel)
    (by simp [canon])

/-- `-(-x)` is printed as `--x`, the decrement. -/
theorem C39_counterexample_negation :
    ReadAs (.prefixOp "-" (.prefixOp "-" (.ident "x"))) (.prefixOp "--" (.ident "x")) :=
  readAs (by decide +kernel) ⟨by decide, plain_demo (by simp), by decide +kernel⟩ (by decide +kernel)
    (by simp [canon])

/-- `((T *)p)->f` is printed as `(T*)(p)->f`, which is `(T *)(p->f)`. -/
theorem C39_counterexample_cast :
    ∃ ts, CReads (fmtExpr (.fieldAccess "->" (.cast ⟨⟨false, "T"⟩, 1⟩ (.ident "p")) "f")).toList ts [] ∧
      CExpression demoTypes (.cast ⟨⟨false, "T"⟩, 1⟩ (.fieldAccess "->" (.ident "p") "f")) ts := by
  have hp : Plain demoTypes (.fieldAccess "->" (.cast ⟨⟨false, "T"⟩, 1⟩ (.ident "p")) "f") :=
    ⟨by decide, ⟨⟨⟨_, [], rfl, by decide +kernel, by simp⟩, by decide +kernel, by decide, by decide⟩,
      plain_demo (by simp)⟩, rfl, ⟨_, [], rfl, by decide +kernel, by simp⟩, by decide +kernel⟩
  refine ⟨_, by simpa using reads hp (s := []) (ts := []) (x := []) (by simp [After, AfterNum, AfterWord]) .nil, ?_⟩
  have h15 : CEx demoTypes (.ex 15 (.fieldAccess "->" (.ident "p") "f"))
      ((.punct "(" :: ([.word "p"] ++ [.punct ")"])) ++ [.punct "->", .word "f"]) :=
    .field (by decide) (.paren ((CEx.ident (plain_demo (w := "p") (by simp)).2).up_to (by omega) (by omega)))
      (by decide +kernel)
  exact (CEx.cast (.plain ⟨by decide +kernel, by decide, by decide⟩)
    (h15.up_to (by omega) (by omega))).up_to (by omega) (by omega)

/-! ## Examples -/

/-- A tree with most of the constructs that keeps its shape. -/
def keeps : CExpr :=
  .binaryOp "=" (.arrIndex (.ident "a") (.ident "i"))
    (.binaryOp "+" (.binaryOp "*" (.prefixOp "-" (.binaryOp "-" (.ident "a") (.ident "b"))) (.ident "c"))
      (.cast ⟨⟨false, "int"⟩, 0⟩ (.call (.fieldAccess "." (.prefixOp "*" (.ident "p")) "f")
        [.ident "x", .lit (.number "1")])))

example : fmtExpr keeps = "a[i] = -(a - b) * c + (int)((*p).f(x, 1))" ∧ Faithful keeps = true := by
  decide +kernel

example : Plain demoTypes keeps :=
  ⟨.inr (by decide), ⟨plain_demo (by simp), plain_demo (by simp)⟩,
    .inl ⟨11, by decide +kernel⟩,
    ⟨.inl ⟨12, by decide +kernel⟩, ⟨by decide, ⟨.inl ⟨11, by decide +kernel⟩, plain_demo (by simp),
      plain_demo (by simp)⟩, by decide +kernel⟩, plain_demo (by simp)⟩,
    ⟨⟨_, _, rfl, by decide +kernel, by decide +kernel⟩, by decide +kernel, by decide, by decide⟩,
    ⟨by decide, ⟨by decide, plain_demo (by simp), by decide +kernel⟩, by decide +kernel,
      ⟨_, [], rfl, by decide +kernel, by simp⟩, by decide +kernel⟩,
    plain_demo (by simp), ⟨_, [], rfl, by decide +kernel, trivial⟩, trivial⟩

/-- Initialisers in braces. -/
def keepsList : CExpr :=
  .compLit [.mk false (some (.ident "f")) (.compLit []), .mk true (some (.ident "i")) (.ident "x")]

example : fmtExpr keepsList = "{\n\t.f = {0},\n\t[i] = x\n}" ∧ FaithfulInit keepsList = true := by
  decide +kernel

end Che.Props
