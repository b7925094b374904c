import Verif.Model.Parser
/-!
# The grammar of Che

A description of the language by production rules, written without reference to
the parser functions: which token sequences are an expression, a statement, a
module, and which tree belongs to them.  Only the name lookups of the parse
context are shared with the model: which words name an imported module
(`isImportedNs`), which name a type (`isType`), and which qualified names are
types (`nsType`).
-/
namespace Che.Spec
open Che

/-- The binary operators and how tightly they bind. -/
def binLevel (op : String) : Option Nat :=
  if op ∈ ["=", "+=", "-=", "*=", "/=", "%=", "<<=", ">>=", "&=", "^=", "|="] then some 2
  else if op = "||" then some 3
  else if op = "&&" then some 4
  else if op = "|" then some 5
  else if op = "^" then some 6
  else if op = "&" then some 7
  else if op ∈ ["==", "!="] then some 8
  else if op ∈ ["<", ">", "<=", ">="] then some 9
  else if op ∈ ["<<", ">>"] then some 10
  else if op ∈ ["+", "-"] then some 11
  else if op ∈ ["*", "/", "%"] then some 12
  else none

/-- The prefix operators. -/
def prefixOps : List String := ["!", "--", "++", "*", "~", "&", "-"]

/-- A plain or a qualified name. -/
inductive NsId (ctx : ParseCtx) : NsName → List Token → Prop
  | plain {w : Token} : w.kind = "word" → NsId ctx ⟨w.pos, "", w.content⟩ [w]
  | qualified {w d b : Token} : w.kind = "word" → ctx.isImportedNs w.content = true →
      d.kind = "." → b.kind = "word" → NsId ctx ⟨w.pos, w.content, b.content⟩ [w, d, b]

/-- `const` and a name. -/
inductive TypeG (ctx : ParseCtx) : Typename → List Token → Prop
  | plain {n c} : NsId ctx n c → TypeG ctx ⟨false, n⟩ c
  | const {t n c} : t.kind = "const" → NsId ctx n c → TypeG ctx ⟨true, n⟩ (t :: c)

/-- A number of stars. -/
def Stars (n : Nat) (c : List Token) : Prop := c.length = n ∧ ∀ t ∈ c, t.kind = "*"

/-- A type name with stars. -/
inductive BareG (ctx : ParseCtx) : BareTypeform → List Token → Prop
  | mk {t n c1 c2} : TypeG ctx t c1 → Stars n c2 → BareG ctx ⟨t, n⟩ (c1 ++ c2)

/-- The tokens begin with something that must be a type. -/
def TypeStart (ctx : ParseCtx) (ts : List Token) : Prop :=
  (∃ t r, ts = t :: r ∧ t.kind = "const") ∨
  (∃ t r, ts = t :: r ∧ t.kind = "word" ∧ isType t.content ctx.thismod.typedefs = true) ∨
  (∃ a b c r, ts = a :: b :: c :: r ∧ a.kind = "word" ∧ b.kind = "." ∧ c.kind = "word" ∧
    nsType ctx a.content c.content = true)

/-- A word that names a type of this module or of C. -/
def TypeWord (ctx : ParseCtx) (t : Token) : Prop :=
  t.kind = "word" ∧ isType t.content ctx.thismod.typedefs = true

/-- The tokens begin like a cast. -/
def CastStart (ctx : ParseCtx) (ts : List Token) : Prop :=
  ∃ p w r, ts = p :: w :: r ∧ p.kind = "(" ∧ TypeWord ctx w

/-- The tokens are one word that names an imported module. -/
def NsWord (ctx : ParseCtx) (ts : List Token) : Prop :=
  ∃ w, ts = [w] ∧ w.kind = "word" ∧ ctx.isImportedNs w.content = true

/-- What expression rules describe: an expression of some binding strength, the
rest of an argument list, the entries of a composite literal, one entry. -/
inductive Cat
  | ex (s : Nat) (e : Expr)
  | args (es : List Expr)
  | entries (es : List Entry)
  | entry (e : Entry)

/-- The expression grammar.  Strength 0 is any expression, 13 a prefix
expression, 14 a postfix expression. -/
inductive ExG (ctx : ParseCtx) : Cat → List Token → Prop
  -- binary operators, to the left
  | up {s e c} : s < 13 → ExG ctx (.ex (s + 1) e) c → ExG ctx (.ex s e) c
  | bin {s a b t c1 c2} : s < 13 → ExG ctx (.ex s a) c1 → binLevel t.kind = some s →
      ExG ctx (.ex (s + 1) b) c2 → ExG ctx (.ex s (.binaryOp t.pos t.kind a b)) (c1 ++ t :: c2)
  -- prefix expressions
  | unary {t e c} : t.kind ∈ prefixOps → ExG ctx (.ex 13 e) c →
      ExG ctx (.ex 13 (.prefixOp t.pos t.kind e)) (t :: c)
  | cast {l r w : Token} {tf e c1 c2} : l.kind = "(" → TypeWord ctx w → BareG ctx tf (w :: c1) →
      r.kind = ")" → ExG ctx (.ex 13 e) c2 → ExG ctx (.ex 13 (.cast tf e)) (l :: w :: c1 ++ r :: c2)
  | sizeofType {t l r : Token} {tf c} : t.kind = "sizeof" → l.kind = "(" → BareG ctx tf c →
      TypeStart ctx c → r.kind = ")" → ExG ctx (.ex 13 (.sizeofType tf)) (t :: l :: c ++ [r])
  | sizeofExpr {t l r : Token} {e c} : t.kind = "sizeof" → l.kind = "(" → ExG ctx (.ex 0 e) c →
      ¬ TypeStart ctx c → r.kind = ")" → ExG ctx (.ex 13 (.sizeofExpr e)) (t :: l :: c ++ [r])
  | base {e c} : ExG ctx (.ex 14 e) c → ¬ CastStart ctx c → ExG ctx (.ex 13 e) c
  -- atoms
  | name {n c} : NsId ctx n c → ExG ctx (.ex 14 (.name n)) c
  | num {t : Token} : t.kind = "num" → ExG ctx (.ex 14 (.lit (.number t.content))) [t]
  | string {t : Token} : t.kind = "string" → ExG ctx (.ex 14 (.lit (.string t.content))) [t]
  | char {t : Token} : t.kind = "char" → ExG ctx (.ex 14 (.lit (.char t.content))) [t]
  | paren {l r : Token} {e c} : l.kind = "(" → ExG ctx (.ex 0 e) c → r.kind = ")" →
      ExG ctx (.ex 14 e) (l :: c ++ [r])
  | compLit {l r : Token} {es c} : l.kind = "{" → ExG ctx (.entries es) c → r.kind = "}" →
      ExG ctx (.ex 14 (.compLit es)) (l :: c ++ [r])
  -- postfix expressions
  | call0 {f c} {l r : Token} : ExG ctx (.ex 14 f) c → l.kind = "(" → r.kind = ")" →
      ExG ctx (.ex 14 (.call l.pos f [])) (c ++ [l, r])
  | call {f c a as c1 c2} {l r : Token} : ExG ctx (.ex 14 f) c → l.kind = "(" → ExG ctx (.ex 0 a) c1 →
      ExG ctx (.args as) c2 → r.kind = ")" →
      ExG ctx (.ex 14 (.call l.pos f (a :: as))) (c ++ l :: c1 ++ c2 ++ [r])
  | index {a c i c1} {l r : Token} : ExG ctx (.ex 14 a) c → l.kind = "[" → ExG ctx (.ex 0 i) c1 →
      r.kind = "]" → ExG ctx (.ex 14 (.arrIndex a i)) (c ++ l :: c1 ++ [r])
  | post {a c} {t : Token} : ExG ctx (.ex 14 a) c → t.kind = "++" ∨ t.kind = "--" →
      ExG ctx (.ex 14 (.postfixOp t.kind a)) (c ++ [t])
  | field {a c} {t w : Token} : ExG ctx (.ex 14 a) c → t.kind = "->" ∨ t.kind = "." ∧ ¬ NsWord ctx c →
      w.kind = "word" → ExG ctx (.ex 14 (.fieldAccess t.pos t.kind a w.content)) (c ++ [t, w])
  -- argument lists
  | argsNil : ExG ctx (.args []) []
  | argsCons {t : Token} {a as c1 c2} : t.kind = "," → ExG ctx (.ex 0 a) c1 → ExG ctx (.args as) c2 →
      ExG ctx (.args (a :: as)) (t :: c1 ++ c2)
  -- composite literals; a comma may follow the last entry
  | entriesNil : ExG ctx (.entries []) []
  | entriesLast {e c} : ExG ctx (.entry e) c → ExG ctx (.entries [e]) c
  | entriesCons {e es c1 c2} {t : Token} : ExG ctx (.entry e) c1 → t.kind = "," →
      ExG ctx (.entries es) c2 → ExG ctx (.entries (e :: es)) (c1 ++ t :: c2)
  | entryField {d w q : Token} {v c} : d.kind = "." → w.kind = "word" → q.kind = "=" →
      ExG ctx (.ex 0 v) c →
      ExG ctx (.entry (.mk false (some (.name ⟨w.pos, "", w.content⟩)) v)) (d :: w :: q :: c)
  | entryIndex {l r q : Token} {k v c1 c2} : l.kind = "[" → ExG ctx (.ex 0 k) c1 → r.kind = "]" →
      q.kind = "=" → ExG ctx (.ex 0 v) c2 →
      ExG ctx (.entry (.mk true (some k) v)) (l :: c1 ++ r :: q :: c2)
  | entryPlain {v c} : ExG ctx (.ex 0 v) c → ExG ctx (.entry (.mk false none v)) c

/-- An expression. -/
abbrev Ex (ctx : ParseCtx) (e : Expr) (c : List Token) : Prop := ExG ctx (.ex 0 e) c

/-! ## Declarations -/

/-- Array brackets after a declared name. -/
inductive Indexes (ctx : ParseCtx) : List (Option Expr) → List Token → Prop
  | nil : Indexes ctx [] []
  | empty {l r : Token} {is c} : l.kind = "[" → r.kind = "]" → Indexes ctx is c →
      Indexes ctx (none :: is) (l :: r :: c)
  | size {l r : Token} {e is c1 c2} : l.kind = "[" → Ex ctx e c1 → r.kind = "]" → Indexes ctx is c2 →
      Indexes ctx (some e :: is) (l :: c1 ++ r :: c2)

/-- Stars, a name and array brackets. -/
inductive FormG (ctx : ParseCtx) : Form → List Token → Prop
  | mk {t : Token} {n c c1 w is c2} : Stars n c1 → w.kind = "word" → w.content ≠ "" →
      Indexes ctx is c2 → c1 ++ w :: c2 = t :: c →
      FormG ctx ⟨t.pos, w.content, n, is⟩ (t :: c)

/-- An optional initialiser. -/
inductive InitG (ctx : ParseCtx) : Option Expr → List Token → Prop
  | none : InitG ctx none []
  | some {t : Token} {e c} : t.kind = "=" → Ex ctx e c → InitG ctx (some e) (t :: c)

/-- A variable declaration. -/
inductive VarG (ctx : ParseCtx) : VarDecl → List Token → Prop
  | mk {t c ty c1 f c2 v c3} {e : Token} : TypeG ctx ty c1 → FormG ctx f c2 → InitG ctx v c3 →
      e.kind = ";" → c1 ++ c2 ++ c3 ++ [e] = t :: c → VarG ctx ⟨t.pos, ty, f, v⟩ (t :: c)

/-- An expression that may be left out. -/
inductive OptG (ctx : ParseCtx) : Option Expr → List Token → Prop
  | none : OptG ctx none []
  | some {e c} : Ex ctx e c → OptG ctx (some e) c

/-- The initialiser of a `for`. -/
inductive ForInitG (ctx : ParseCtx) : Option ForInit → List Token → Prop
  | none : ForInitG ctx none []
  | decl {w : Token} {ty c1 f c2 e c3} {q : Token} : TypeWord ctx w → TypeG ctx ty (w :: c1) →
      FormG ctx f c2 → q.kind = "=" → Ex ctx e c3 →
      ForInitG ctx (some (.decl ty f e)) (w :: c1 ++ c2 ++ q :: c3)
  | expr {e c} : Ex ctx e c → (∀ w r, c = w :: r → ¬ TypeWord ctx w) →
      ForInitG ctx (some (.expr e)) c

/-- One value of a switch case. -/
inductive ValueG (ctx : ParseCtx) : CaseValue → List Token → Prop
  | ident {n c} : NsId ctx n c → ValueG ctx (.ident n) c
  | num {t : Token} : t.kind = "num" → ValueG ctx (.literal (.number t.content)) [t]
  | string {t : Token} : t.kind = "string" → ValueG ctx (.literal (.string t.content)) [t]
  | char {t : Token} : t.kind = "char" → ValueG ctx (.literal (.char t.content)) [t]

/-- The values of a switch case. -/
inductive ValuesG (ctx : ParseCtx) : List CaseValue → List Token → Prop
  | one {v c} : ValueG ctx v c → ValuesG ctx [v] c
  | more {v c vs c'} {t : Token} : ValueG ctx v c → t.kind = "," → ValuesG ctx vs c' →
      ValuesG ctx (v :: vs) (c ++ t :: c')

/-! ## Statements -/

/-- What statement rules describe.  The flag tells whether an `else` after these
tokens would belong to an `if` inside of them. -/
inductive SCat
  | stmt (s : Stmt) (isOpen : Bool)
  | block (b : Body) (isOpen : Bool)
  | body (b : Body)
  | stmts (b : Body)
  | case (c : SwitchCase)
  | cases (cs : List SwitchCase)
  | dflt (b : Option Body)

/-- The statement grammar. -/
inductive StG (ctx : ParseCtx) : SCat → List Token → Prop
  | varDecl {d c} : VarG ctx d c → TypeStart ctx c → StG ctx (.stmt (.varDecl d) false) c
  | brk {t e : Token} : t.kind = "break" → e.kind = ";" → StG ctx (.stmt .brk false) [t, e]
  | cont {t e : Token} : t.kind = "continue" → e.kind = ";" → StG ctx (.stmt .cont false) [t, e]
  | ret {t e : Token} {v c} : t.kind = "return" → OptG ctx v c → e.kind = ";" →
      StG ctx (.stmt (.ret v) false) (t :: c ++ [e])
  | expr {v c} {e : Token} : Ex ctx v c → ¬ TypeStart ctx c → e.kind = ";" →
      StG ctx (.stmt (.expr v) false) (c ++ [e])
  | while {t l r : Token} {v c b c' o} : t.kind = "while" → l.kind = "(" → Ex ctx v c → r.kind = ")" →
      StG ctx (.block b o) c' → StG ctx (.stmt (.whileS v b) o) (t :: l :: c ++ r :: c')
  | if {t l r : Token} {v c b c' o} : t.kind = "if" → l.kind = "(" → Ex ctx v c → r.kind = ")" →
      StG ctx (.block b o) c' → StG ctx (.stmt (.ifS v b none) true) (t :: l :: c ++ r :: c')
  | ifElse {t l r x : Token} {v c b c' b' c'' o} : t.kind = "if" → l.kind = "(" → Ex ctx v c →
      r.kind = ")" → StG ctx (.block b false) c' → x.kind = "else" → StG ctx (.block b' o) c'' →
      StG ctx (.stmt (.ifS v b (some b')) o) (t :: l :: c ++ r :: c' ++ x :: c'')
  | for {t l s1 s2 r : Token} {i c1 v c2 a c3 b c4 o} : t.kind = "for" → l.kind = "(" →
      ForInitG ctx i c1 → s1.kind = ";" → OptG ctx v c2 → s2.kind = ";" → OptG ctx a c3 →
      r.kind = ")" → StG ctx (.block b o) c4 →
      StG ctx (.stmt (.forS i v a b) o) (t :: l :: c1 ++ s1 :: c2 ++ s2 :: c3 ++ r :: c4)
  | switch {t l r lb rb : Token} {v c cs c1 d c2} : t.kind = "switch" → l.kind = "(" → Ex ctx v c →
      r.kind = ")" → lb.kind = "{" → StG ctx (.cases cs) c1 → StG ctx (.dflt d) c2 → rb.kind = "}" →
      StG ctx (.stmt (.switchS false v cs d) false) (t :: l :: c ++ r :: lb :: c1 ++ c2 ++ [rb])
  | switchStr {t w l r lb rb : Token} {v c cs c1 d c2} : t.kind = "switch" →
      w.kind = "word" → w.content = "str" → l.kind = "(" → Ex ctx v c →
      r.kind = ")" → lb.kind = "{" → StG ctx (.cases cs) c1 → StG ctx (.dflt d) c2 → rb.kind = "}" →
      StG ctx (.stmt (.switchS true v cs d) false) (t :: w :: l :: c ++ r :: lb :: c1 ++ c2 ++ [rb])
  | casesNil : StG ctx (.cases []) []
  | casesCons {x c xs c'} : StG ctx (.case x) c → StG ctx (.cases xs) c' →
      StG ctx (.cases (x :: xs)) (c ++ c')
  | case {t e : Token} {vs c b c'} : t.kind = "case" → ValuesG ctx vs c → e.kind = ":" →
      StG ctx (.body b) c' → StG ctx (.case (.mk vs b)) (t :: c ++ e :: c')
  | dfltNone : StG ctx (.dflt none) []
  | dfltSome {t e : Token} {b c} : t.kind = "default" → e.kind = ":" → StG ctx (.body b) c →
      StG ctx (.dflt (some b)) (t :: e :: c)
  | blockBody {b c} : StG ctx (.body b) c → StG ctx (.block b false) c
  | blockStmt {s o c} : StG ctx (.stmt s o) c → (∀ t r, c = t :: r → t.kind ≠ "{") →
      StG ctx (.block [s] o) c
  | body {l r : Token} {b c} : l.kind = "{" → StG ctx (.stmts b) c → r.kind = "}" →
      StG ctx (.body b) (l :: c ++ [r])
  | stmtsNil : StG ctx (.stmts []) []
  | stmtsCons {s o c b c'} : StG ctx (.stmt s o) c → StG ctx (.stmts b) c' →
      StG ctx (.stmts (s :: b)) (c ++ c')

/-! ## Modules -/

/-- The entries of an enum; a comma may follow the last. -/
inductive EnumsG (ctx : ParseCtx) : List EnumEntry → List Token → Prop
  | one {w : Token} {v c} : w.kind = "word" → InitG ctx v c →
      EnumsG ctx [⟨w.content, v⟩] (w :: c)
  | last {w t : Token} {v c} : w.kind = "word" → InitG ctx v c → t.kind = "," →
      EnumsG ctx [⟨w.content, v⟩] (w :: c ++ [t])
  | more {w t : Token} {v c es c'} : w.kind = "word" → InitG ctx v c → t.kind = "," →
      EnumsG ctx es c' → EnumsG ctx (⟨w.content, v⟩ :: es) (w :: c ++ t :: c')

/-- Forms separated by commas, after the first. -/
inductive FormsG (ctx : ParseCtx) : List Form → List Token → Prop
  | nil : FormsG ctx [] []
  | cons {t : Token} {f c fs c'} : t.kind = "," → FormG ctx f c → FormsG ctx fs c' →
      FormsG ctx (f :: fs) (t :: c ++ c')

/-- A type with the forms it declares. -/
inductive FieldsG (ctx : ParseCtx) : TypeAndForms → List Token → Prop
  | mk {ty c1 f c2 fs c3} : TypeG ctx ty c1 → FormG ctx f c2 → FormsG ctx fs c3 →
      FieldsG ctx ⟨ty, f :: fs⟩ (c1 ++ c2 ++ c3)

/-- The further forms of a function parameter; a word that names a type would
begin the next parameter. -/
inductive ParamFormsG (ctx : ParseCtx) : List Form → List Token → Prop
  | nil : ParamFormsG ctx [] []
  | cons {t : Token} {f x c fs c'} : t.kind = "," → FormG ctx f (x :: c) → ¬ TypeWord ctx x →
      ParamFormsG ctx fs c' → ParamFormsG ctx (f :: fs) (t :: x :: c ++ c')

/-- One function parameter: several names may share the type. -/
inductive ParamG (ctx : ParseCtx) : TypeAndForms → List Token → Prop
  | mk {ty c1 f c2 fs c3} : TypeG ctx ty c1 → FormG ctx f c2 → ParamFormsG ctx fs c3 →
      TypeStart ctx (c1 ++ c2 ++ c3) → ParamG ctx ⟨ty, f :: fs⟩ (c1 ++ c2 ++ c3)

/-- Function parameters.  The comma before the dots may be left out. -/
inductive ParamsG (ctx : ParseCtx) : List TypeAndForms → Bool → List Token → Prop
  | none : ParamsG ctx [] false []
  | dots {t : Token} : t.kind = "..." → ParamsG ctx [] true [t]
  | one {p c} : ParamG ctx p c → ParamsG ctx [p] false c
  | oneDots {p c} {t : Token} : ParamG ctx p c → t.kind = "..." → ParamsG ctx [p] true (c ++ [t])
  | more {p c ps b x c'} {t : Token} : ParamG ctx p c → t.kind = "," → ParamsG ctx ps b (x :: c') →
      ParamsG ctx (p :: ps) b (c ++ t :: x :: c')

/-- Parameter types, after the first. -/
inductive AnonsG (ctx : ParseCtx) : List BareTypeform → Bool → List Token → Prop
  | nil : AnonsG ctx [] false []
  | dots {t d : Token} : t.kind = "," → d.kind = "..." → AnonsG ctx [] true [t, d]
  | cons {t : Token} {f c fs b c'} : t.kind = "," → BareG ctx f c → AnonsG ctx fs b c' →
      AnonsG ctx (f :: fs) b (t :: c ++ c')

/-- The parameter types of a function typedef. -/
inductive AnonG (ctx : ParseCtx) : Option AnonParams → List Token → Prop
  | none : AnonG ctx none []
  | empty {l r : Token} : l.kind = "(" → r.kind = ")" → AnonG ctx (some ⟨false, []⟩) [l, r]
  | list {l r : Token} {f c fs b c'} : l.kind = "(" → BareG ctx f c → AnonsG ctx fs b c' →
      r.kind = ")" → AnonG ctx (some ⟨b, f :: fs⟩) (l :: c ++ c' ++ [r])

/-- The array size of a typedef: a plain decimal number. -/
inductive SizeG : Nat → List Token → Prop
  | none : SizeG 0 []
  | some {l t r : Token} {n} : l.kind = "[" → t.kind = "num" → parseUsize t.content = some n →
      r.kind = "]" → SizeG n [l, t, r]

/-- The members of a union. -/
inductive MembersG (ctx : ParseCtx) : List UnionField → List Token → Prop
  | nil : MembersG ctx [] []
  | cons {ty c1 f c2 fs c3} {e : Token} : TypeG ctx ty c1 → FormG ctx f c2 → e.kind = ";" →
      MembersG ctx fs c3 → MembersG ctx (⟨ty, f⟩ :: fs) (c1 ++ c2 ++ e :: c3)

/-- The members of a struct. -/
inductive StructG (ctx : ParseCtx) : List StructEntry → List Token → Prop
  | nil : StructG ctx [] []
  | plain {f c es c'} {e : Token} : FieldsG ctx f c → e.kind = ";" → StructG ctx es c' →
      StructG ctx (.plain f :: es) (c ++ e :: c')
  | union {t l r e : Token} {fs c1 f c2 es c3} : t.kind = "union" → l.kind = "{" →
      MembersG ctx fs c1 → r.kind = "}" → FormG ctx f c2 → e.kind = ";" → StructG ctx es c3 →
      StructG ctx (.union ⟨f, fs⟩ :: es) (t :: l :: c1 ++ r :: c2 ++ e :: c3)

/-- The word `pub`. -/
inductive PubG : Bool → List Token → Prop
  | no : PubG false []
  | yes {t : Token} : t.kind = "pub" → PubG true [t]

/-- An optional semicolon. -/
inductive SemiG : List Token → Prop
  | no : SemiG []
  | yes {t : Token} : t.kind = ";" → SemiG [t]

/-- The part of a module element after `pub`; `pos` is where the element begins. -/
inductive ObjG (ctx : ParseCtx) (isPub : Bool) (pos : Pos) : ModElem → List Token → Prop
  | enum {t l r : Token} {es c c'} : t.kind = "enum" → l.kind = "{" → EnumsG ctx es c → r.kind = "}" →
      SemiG c' → ObjG ctx isPub pos (.enum ⟨isPub, es, t.pos⟩) (t :: l :: c ++ r :: c')
  | struct {t l r w e : Token} {es c} : t.kind = "typedef" → l.kind = "{" → StructG ctx es c →
      r.kind = "}" → w.kind = "word" → e.kind = ";" →
      ObjG ctx isPub pos (.structTypedef ⟨isPub, es, w.content⟩) (t :: l :: c ++ [r, w, e])
  | alias {t s a b e : Token} : t.kind = "typedef" → s.kind = "struct" → a.kind = "word" →
      b.kind = "word" → e.kind = ";" →
      ObjG ctx isPub pos (.structAlias ⟨isPub, a.content, b.content⟩) [t, s, a, b, e]
  | typedef {t w e : Token} {ty c1 n c2 ps c3 k c4} : t.kind = "typedef" → TypeG ctx ty c1 →
      Stars n c2 → w.kind = "word" → AnonG ctx ps c3 → SizeG k c4 → e.kind = ";" →
      ObjG ctx isPub pos (.typedef ⟨isPub, w.content, ty, n, k, ps⟩)
        (t :: c1 ++ c2 ++ w :: c3 ++ c4 ++ [e])
  | var {ty c1 f c2 v c3} {q e : Token} : isPub = false → TypeG ctx ty c1 → FormG ctx f c2 →
      q.kind = "=" → Ex ctx v c3 → e.kind = ";" →
      ObjG ctx isPub pos (.modVar ⟨pos, ty, f, some v⟩) (c1 ++ c2 ++ q :: c3 ++ [e])
  | func {ty c1 f c2 ps b c3 body o c4} {l r : Token} : TypeG ctx ty c1 → FormG ctx f c2 →
      l.kind = "(" → ParamsG ctx ps b c3 → r.kind = ")" → StG ctx (.block body o) c4 →
      ObjG ctx isPub pos (.funcDecl ⟨pos, isPub, ty, f, ⟨ps, b⟩, body⟩)
        (c1 ++ c2 ++ l :: c3 ++ r :: c4)

/-- One element of a module. -/
inductive ElemG (ctx : ParseCtx) : ModElem → List Token → Prop
  | obj {p c1 t c e c2} : PubG p c1 → ObjG ctx p t.pos e c2 → c1 ++ c2 = t :: c → ElemG ctx e (t :: c)
  | define {t : Token} {ch : Char} {name value : List Char} : t.kind = "macro" →
      t.content.toList = ch :: name ++ ' ' :: value → ch ≠ ' ' → ch.utf8Size = 1 → ' ' ∉ name →
      ElemG ctx (.macro ⟨String.ofList name, String.ofList (' ' :: value), t.pos⟩) [t]

/-- A module: imports and elements. -/
inductive ModG (ctx : ParseCtx) : List ModElem → List Token → Prop
  | nil : ModG ctx [] []
  | skip {t : Token} {es c} : t.kind = "import" → ModG ctx es c → ModG ctx es (t :: c)
  | cons {e c es c'} : ElemG ctx e c → ModG ctx es c' → ModG ctx (e :: es) (c ++ c')

end Che.Spec
