import Verif.Proofs.ParseModule
import Verif.Spec.DemoRun
/-!
# C17–C20: what the parser accepts, when it stops, when it crashes

The grammar of `Spec/Grammar.lean` says which token sequences are expressions,
statements and modules and which trees they stand for.  The parser agrees with it
in both directions.  The budget `n` of the model is the number of nested calls;
the bounds below are in the number of tokens, so a run of the real parser that
stops is a run of the model with such a budget.
-/
namespace Che.Props
open Spec

variable {ctx : ParseCtx}

/-! ## C17 -/

/-- What follows does not continue an expression: the end, or a token that is
neither a binary operator nor a postfix one. -/
def Ends (rest : List Token) : Prop :=
  ∀ t r, rest = t :: r → t.kind ∉ ["(", "[", "++", "--", "->", "."] ∧ isOpTok t.kind = false

/-- **C17**: on tokens `c` followed by the end of the expression the parser builds
the tree `e` exactly if the grammar derives `e` from `c`. -/
theorem C17_precedence {n : Nat} {e : Expr} {c rest : List Token} (hr : Ends rest)
    (hn : 40 * (c ++ rest).length + 31 ≤ n) :
    parseExpr n ctx 0 (c ++ rest) = .ok e rest ↔ Ex ctx e c := by
  constructor
  · intro h
    obtain ⟨c', e', g⟩ := parseExpr_ok (by omega) h
    rw [List.append_cancel_right e']
    exact g
  · intro g
    have hf : Follow 0 rest := fun t r e => ⟨(hr t r e).1, by simp [(hr t r e).2]⟩
    obtain ⟨k, _, h⟩ := (g.parse (by omega) hf).get 0
    have hJ := parseExpr_J ctx (m := k) (s := 0) (by omega) hn
    rw [hJ.stable (by rw [h]; simp), h]

/-- **C17**: whatever the parser accepts is an expression of the grammar. -/
theorem C17_accepts_only_grammar {n : Nat} {e : Expr} {ts rest : List Token}
    (h : parseExpr n ctx 0 ts = .ok e rest) : ∃ c, ts = c ++ rest ∧ Ex ctx e c :=
  parseExpr_ok (by omega) h

/-- **C17**: the grammar gives a token sequence at most one tree. -/
theorem C17_one_tree {e e' : Expr} {c : List Token} (h : Ex ctx e c) (h' : Ex ctx e' c) : e = e' := by
  have hr : Ends [] := by rintro _ _ ⟨⟩
  have a := (C17_precedence (n := 40 * (c ++ []).length + 31) hr (Nat.le_refl _)).2 h
  have b := (C17_precedence (n := 40 * (c ++ []).length + 31) hr (Nat.le_refl _)).2 h'
  rw [a] at b
  cases b
  rfl

/-- An expression of a high level is one of each lower level. -/
theorem lower {e : Expr} {c : List Token} {j : Nat} (d : Nat) (hj : j + d ≤ 13)
    (h : ExG ctx (.ex (j + d) e) c) : ExG ctx (.ex j e) c := by
  induction d with
  | zero => exact h
  | succ d ih => exact ih (by omega) (.up (by omega) h)

theorem lower' {e : Expr} {c : List Token} {i j : Nat} (h1 : i ≤ j) (h2 : j ≤ 13)
    (h : ExG ctx (.ex j e) c) : ExG ctx (.ex i e) c := by
  obtain ⟨d, rfl⟩ := Nat.exists_eq_add_of_le h1
  exact lower d h2 h

theorem binLevel_lt {op : String} {i : Nat} (h : binLevel op = some i) : i < 13 := by
  unfold binLevel at h
  repeat' split at h
  all_goals first | (cases h; omega) | cases h

/-- **C17**: of two binary operators the stronger one takes the middle operand, and
of two equally strong ones the left one does. -/
theorem C17_two_operators {x y z : Expr} {cx cy cz : List Token} {o1 o2 : Token} {i j n : Nat}
    (hx : ExG ctx (.ex 13 x) cx) (hy : ExG ctx (.ex 13 y) cy) (hz : ExG ctx (.ex 13 z) cz)
    (h1 : binLevel o1.kind = some i) (h2 : binLevel o2.kind = some j)
    (hn : 40 * (cx ++ o1 :: cy ++ o2 :: cz).length + 31 ≤ n) :
    parseExpr n ctx 0 (cx ++ o1 :: cy ++ o2 :: cz) = .ok
      (if i < j then .binaryOp o1.pos o1.kind x (.binaryOp o2.pos o2.kind y z)
       else .binaryOp o2.pos o2.kind (.binaryOp o1.pos o1.kind x y) z) [] := by
  have li := binLevel_lt h1
  have lj := binLevel_lt h2
  have key := (C17_precedence (ctx := ctx) (n := n) (c := cx ++ o1 :: cy ++ o2 :: cz) (rest := [])
    (e := if i < j then .binaryOp o1.pos o1.kind x (.binaryOp o2.pos o2.kind y z)
       else .binaryOp o2.pos o2.kind (.binaryOp o1.pos o1.kind x y) z) (by rintro _ _ ⟨⟩)
    (by rwa [List.append_nil])).2
  rw [List.append_nil] at key
  apply key
  split
  · rename_i h
    have inner : ExG ctx (.ex (i + 1) (.binaryOp o2.pos o2.kind y z)) (cy ++ o2 :: cz) :=
      lower' (j := j) (by omega) (by omega)
        (.bin lj (lower' (by omega) (by omega) hy) h2 (lower' (by omega) (by omega) hz))
    have := ExG.bin li (lower' (j := 13) (by omega) (by omega) hx) h1 inner
    rw [List.append_assoc, List.cons_append]
    exact lower' (Nat.zero_le _) (by omega) this
  · have inner : ExG ctx (.ex j (.binaryOp o1.pos o1.kind x y)) (cx ++ o1 :: cy) :=
      lower' (j := i) (by omega) (by omega)
        (.bin li (lower' (by omega) (by omega) hx) h1 (lower' (by omega) (by omega) hy))
    have := ExG.bin lj inner h2 (lower' (by omega) (by omega) hz)
    exact lower' (Nat.zero_le _) (by omega) this

/-! ## C18 -/

/-- **C18**: parsing an expression always stops. -/
theorem C18_expression_stops_partial {n : Nat} {ts : List Token} (hn : 40 * ts.length + 31 ≤ n) :
    parseExpr n ctx 0 ts ≠ .diverge :=
  (parseExpr_J ctx (m := 0) (s := 0) (by omega) hn).stops trivial

/-- **C18**: parsing a type definition or an enum always stops. -/
theorem C18_definitions_stop_partial {n : Nat} {ts : List Token} {p : Bool} (hn : 40 * ts.length + 1 ≤ n) :
    parseTypedef n ctx p ts ≠ .diverge ∧ parseEnum n ctx p ts ≠ .diverge :=
  ⟨(parseTypedef_J (T := True) ctx 0 hn).stops trivial, (parseEnum_J (T := True) ctx (m := 0) hn).stops trivial⟩

/-- **C18**: a budget linear in the number of tokens decides: if it does not
suffice then no budget does, and the real parser loops for ever. -/
theorem C18_budget_decides_partial {n : Nat} {ts : List Token} (hn : 40 * ts.length + 2 ≤ n)
    (h : parseModule n ctx ts = .diverge) (k : Nat) : parseModule k ctx ts = .diverge := by
  by_cases hk : parseModule k ctx ts = .diverge
  · exact hk
  · have := moduleLoop_stable (ctx := ctx) k n [] [] ts hn hk
    unfold parseModule at h hk
    rw [h] at this
    exact absurd this.symm hk

/-- **C18**: every file of the grammar is parsed to the end. -/
theorem C18_grammatical_stops_partial {n : Nat} {ts : List Token} {es : List ModElem} (hn : 40 * ts.length + 2 ≤ n)
    (h : ModG ctx es ts) : parseModule n ctx ts ≠ .diverge := by
  rw [(parseModule_iff hn ⟨es, getExports es⟩).2 ⟨h, rfl⟩]
  simp

/-- **C18**: the loop of a body that runs out of tokens never ends. -/
theorem C18_unclosed_body (n : Nat) (ss : List Stmt) (es : List Error) :
    bodyLoop n ctx ss es [] = .diverge := bodyLoop_nil ctx n ss es

/-! ## C19 -/

/-- **C19**: the parser crashes only at the places and on the tokens listed in `Bad`. -/
theorem C19_crash_reason_partial {n : Nat} {ts : List Token} {m : String}
    (h : parseModule n ctx ts = .panic m) : Bad ts m :=
  moduleLoop_reason n [] [] ts m h

/-- **C19**: a file of the grammar never makes the parser crash. -/
theorem C19_grammatical_partial {n : Nat} {ts : List Token} {es : List ModElem}
    (h : ModG ctx es ts) (m : String) : parseModule n ctx ts ≠ .panic m := by
  intro hp
  have h1 := (parseModule_iff (n := max n (40 * ts.length + 2)) (by omega) ⟨es, getExports es⟩).2 ⟨h, rfl⟩
  have h2 := moduleLoop_stable (ctx := ctx) n (max n (40 * ts.length + 2)) [] [] ts (by omega)
    (by unfold parseModule at hp; rw [hp]; simp)
  unfold parseModule at h1 hp
  rw [h1, hp] at h2
  cases h2

/-! ## C20 -/

/-- **C20**: a module comes out exactly for the files of the grammar; every token
then belongs to an element or is an import. -/
theorem C20_module_iff_grammar {n : Nat} {ts : List Token} (hn : 40 * ts.length + 2 ≤ n) (m : Module) :
    parseModule n ctx ts = .ok m ↔ ModG ctx m.elements ts ∧ m.exports = getExports m.elements :=
  parseModule_iff hn m

/-- **C20**: if the file is not in the grammar then no module comes out, whatever
the budget. -/
theorem C20_bad_file_fails {ts : List Token} (h : ∀ es, ¬ ModG ctx es ts) (n : Nat) (m : Module) :
    parseModule n ctx ts ≠ .ok m := by
  intro hp
  exact h _ (parseModule_ok hp).1

/-- The errors a body reports are those of its statements, in order.  A statement
that fails reports one error and is skipped up to `;` or `}`; a statement that
succeeds reports the errors of the bodies inside of it. -/
inductive BodyRun (ctx : ParseCtx) : Nat → List Token → List Error → List Token → Prop
  | close {n t r} : t.kind = "}" → BodyRun ctx (n + 1) (t :: r) [] (t :: r)
  | good {n t r s es ts' es' ts''} : t.kind ≠ "}" → parseStatement n ctx (t :: r) = .ok (s, es) ts' →
      BodyRun ctx n ts' es' ts'' → BodyRun ctx (n + 1) (t :: r) (es ++ es') ts''
  | bad {n t r e ts' es' ts''} : t.kind ≠ "}" → parseStatement n ctx (t :: r) = .err e ts' →
      BodyRun ctx n (recover ts') es' ts'' → BodyRun ctx (n + 1) (t :: r) (e :: es') ts''

/-- **C20**: a body returns every error of its statements. -/
theorem C20_body_errors_partial {n : Nat} {ss : List Stmt} {b : Body} {es0 es : List Error}
    {ts ts' : List Token} (h : bodyLoop n ctx ss es0 ts = .ok (b, es) ts') :
    ∃ es', es = es0 ++ es' ∧ BodyRun ctx n ts es' ts' := by
  induction n generalizing ss es0 ts with
  | zero => cases h
  | succ n ih =>
    cases ts with
    | nil => rw [bodyLoop_nil] at h; cases h
    | cons t r =>
      by_cases ht : t.kind = "}"
      · rw [bodyLoop_close ht] at h
        cases h
        exact ⟨[], by simp, .close ht⟩
      · rw [bodyLoop_step ht] at h
        cases hs : parseStatement n ctx (t :: r) with
        | ok x ts1 =>
          obtain ⟨s, es1⟩ := x
          rw [hs] at h
          obtain ⟨es', rfl, hr⟩ := ih h
          exact ⟨es1 ++ es', by simp, .good ht hs hr⟩
        | err e ts1 =>
          rw [hs] at h
          obtain ⟨es', rfl, hr⟩ := ih h
          exact ⟨e :: es', by simp, .bad ht hs hr⟩
        | panic m => rw [hs] at h; cases h
        | diverge => rw [hs] at h; cases h

/-- One pass over the elements of a file: the errors reported and the elements
built.  The pass ends at the first element that fails as a whole. -/
inductive FileRun (ctx : ParseCtx) : Nat → List Token → List ModElem → List Error → Prop
  | done {n} : FileRun ctx (n + 1) [] [] []
  | skip {n t r ms es} : t.kind = "import" → FileRun ctx n r ms es → FileRun ctx (n + 1) (t :: r) ms es
  | elem {n t r m es ts' ms es'} : t.kind ≠ "import" → elemStep ctx n t r = .ok (m, es) ts' →
      FileRun ctx n ts' ms es' → FileRun ctx (n + 1) (t :: r) (m :: ms) (es ++ es')
  | fail {n t r e ts'} : t.kind ≠ "import" → elemStep ctx n t r = .err e ts' →
      FileRun ctx (n + 1) (t :: r) [] [e]

theorem moduleLoop_run {n : Nat} {objs : List ModElem} {errs : List Error} {ts : List Token} {r : ModRes}
    (h : moduleLoop ctx n objs errs ts = r) (hp : ∀ m, r ≠ .panic m) (hd : r ≠ .diverge) :
    ∃ ms es, FileRun ctx n ts ms es ∧ r = finishModule (objs ++ ms) (errs ++ es) := by
  induction n generalizing objs errs ts with
  | zero => exact absurd h.symm hd
  | succ n ih =>
    cases ts with
    | nil => exact ⟨[], [], .done, by rw [← h]; simp; rfl⟩
    | cons t ts =>
      by_cases hi : t.kind = "import"
      · rw [moduleLoop_import hi] at h
        obtain ⟨ms, es, hr, e⟩ := ih h
        exact ⟨ms, es, .skip hi hr, e⟩
      · rw [moduleLoop_step hi] at h
        cases hs : elemStep ctx n t ts with
        | ok x ts1 =>
          obtain ⟨m, es1⟩ := x
          rw [hs] at h
          obtain ⟨ms, es, hr, e⟩ := ih h
          exact ⟨m :: ms, es1 ++ es, .elem hi hs hr, by rw [e]; simp⟩
        | err e ts1 => rw [hs] at h; exact ⟨[], [e], .fail hi hs, by rw [← h]; simp⟩
        | panic m => rw [hs] at h; exact absurd h.symm (hp m)
        | diverge => rw [hs] at h; exact absurd h.symm hd

/-- **C20**: the errors returned for a file are those of its elements, in order,
and a module comes out exactly if there are none. -/
theorem C20_file_errors_partial {n : Nat} {ts : List Token} {es : List Error}
    (h : parseModule n ctx ts = .errs es) : es ≠ [] ∧ ∃ ms, FileRun ctx n ts ms es := by
  obtain ⟨ms, es', hr, e⟩ := moduleLoop_run h (by simp) (by simp)
  simp only [List.nil_append] at e
  unfold finishModule at e
  split at e
  · cases e
    refine ⟨?_, ms, hr⟩
    rename_i hl
    rintro rfl
    simp at hl
  · cases e

section Examples
attribute [local instance] asciiOnly

/-- Trees written out with all parentheses. -/
def showExpr : Nat → Expr → String
  | 0, _ => "?"
  | n + 1, e =>
    match e with
    | .arrIndex a i => showExpr n a ++ "[" ++ showExpr n i ++ "]"
    | .binaryOp _ op a b => "(" ++ showExpr n a ++ op ++ showExpr n b ++ ")"
    | .fieldAccess _ op t f => "(" ++ showExpr n t ++ op ++ f ++ ")"
    | .cast t e => "(" ++ t.typename.name.name ++ ")" ++ showExpr n e
    | .compLit _ => "{..}"
    | .call _ f as => showExpr n f ++ "(" ++ String.intercalate "," (as.map (showExpr n)) ++ ")"
    | .lit (.number s) => s
    | .lit _ => "lit"
    | .name nm => if nm.ns = "" then nm.name else nm.ns ++ "::" ++ nm.name
    | .postfixOp op e => "(" ++ showExpr n e ++ op ++ ")"
    | .prefixOp _ op e => "(" ++ op ++ showExpr n e ++ ")"
    | .sizeofType t => "sizeof<" ++ t.typename.name.name ++ ">"
    | .sizeofExpr e => "sizeof" ++ showExpr n e

/-- The context of a file with type `t` and an imported module `m`. -/
def demoCtx : ParseCtx where
  thismod := { filepath := "/f.c", uniqid := "f", typedefs := ["t"], imports := [⟨"/m.c", "m"⟩] }
  allmods := []
  eof := ⟨1, 1⟩

/-- The tree of an expression text. -/
def treeText (s : String) : String :=
  match lexAll s.toList with
  | .ok ts _ =>
    match parseExpr (40 * ts.length + 31) demoCtx 0 ts with
    | .ok e rest => showExpr 100 e ++ " " ++ toString rest.length
    | .err e _ => e.message
    | .panic m => "panic " ++ m
    | .diverge => "no end"
  | _ => "lex"

example : treeText "a = b + c * -d[1]++" = "(a=(b+(c*(-(d[1]++))))) 0" := by decide +kernel
example : treeText "a - (b - c) - d" = "((a-(b-c))-d) 0" := by decide +kernel
example : treeText "(t)a.b + m.x" = "((t)(a.b)+m::x) 0" := by decide +kernel

/-- The tokens of a text. -/
def toks (s : String) : List Token :=
  match lexAll s.toList with
  | .ok ts _ => ts
  | _ => []

/-- The grammar derives a file with an import, a struct and a function. -/
example : ∃ es, es.length = 2 ∧
    ModG demoCtx es (toks "#import m.c\ntypedef { int a; } t;\npub int f(t x) { while (1) x.a++; return x.a; }") := by
  have h : (match parseModule 2000 demoCtx
        (toks "#import m.c\ntypedef { int a; } t;\npub int f(t x) { while (1) x.a++; return x.a; }") with
      | .ok m => m.elements.length
      | _ => 0) = 2 := by decide +kernel
  split at h
  · rename_i m hm
    exact ⟨m.elements, h, (parseModule_ok hm).1⟩
  · cases h

/-- **C18 counterexamples**: bodies that the file does not close.  In the second
one the closing brace is taken for the beginning of an expression and skipped. -/
theorem C18_counterexample : outcome "int main() {" = "no end" ∧ outcome "int f() { return }" = "no end" := by
  decide +kernel

/-- **C19 counterexamples**. -/
theorem C19_counterexample : treeText "a ~ b" = "panic parser.rs:469" ∧ treeText "a +" = "panic parser.rs:229" := by
  decide +kernel

/-- **C20**: three statements and a whole function fail; all four errors come out. -/
example : outcome "int f() { a b; if (1) { c d; } return 0 1; } int f( { }" =
    "1:13 parsing statement: expected ';', got '[word, b]';1:27 parsing statement: expected ';', got '[word, d]';1:41 expected ';', got '[num, 1]';1:53 parse_function_declaration: expected ')', got '[{]';" := by
  decide +kernel

/-- **C20 counterexample**: the error in the first branch is recorded and then lost,
because the second branch fails as a whole. -/
theorem C20_lost_error_counterexample : outcome "int f() { if (1) { a b; } else ) ; }" =
    "1:32 id: unexpected token [) ];" := by
  decide +kernel

end Examples

end Che.Props
