import Verif.Spec.Emit
/-!
# Specification: how statements run

Two languages are given a meaning: Che statements and C statements.  What an
expression does is left open.  Evaluating one is a computation in an arbitrary
monad `m`, so it may read and write memory, print, call functions, stop the
program or be nondeterministic; the meaning of statements is built on top of
that.

Loops: a run is given a number `N`, and a loop that has gone round `N` times ends
with the outcome `timeout`.  Two programs that run alike for every `N` therefore
have the same finite runs, and their infinite runs have the same effects up to
any point.
-/
namespace Che.Spec
open Che

/-- How a statement ends. -/
inductive Out (V : Type) where
  | normal
  | brk
  | cont
  | ret (v : Option V)
  | timeout
deriving DecidableEq, Repr

/-- What a loop or a switch makes of `break`. -/
def Out.caught {V : Type} : Out V → Out V
  | .brk => .normal
  | r => r

section
variable {m : Type → Type} [Monad m] {V : Type}

/-- First one statement, then, if it ended normally, another. -/
def andThen (x : m (Out V)) (y : m (Out V)) : m (Out V) := do
  match ← x with
  | .normal => y
  | r => pure r

/-- A loop: test, body, step. -/
def loop (test : m Bool) (body : m (Out V)) (step : m Unit) : Nat → m (Out V)
  | 0 => pure .timeout
  | n + 1 => do
    if ← test then
      match ← body with
      | .normal => do step; loop test body step n
      | .cont => do step; loop test body step n
      | .brk => pure .normal
      | .ret v => pure (.ret v)
      | .timeout => pure .timeout
    else pure .normal

end

/-! ## C -/

/-- C statements as C itself has them: a label stands before a statement, control
falls from one labelled statement to the next, and the body of a branch or a loop
is any statement.  The body of a switch is a compound statement, as in all the
code considered here. -/
inductive KStmt where
  | empty
  | expr (e : CExpr)
  | decl (t : CTypename) (ds : List (CForm × Option CExpr))
  | ret (e : Option CExpr)
  | brk
  | cont
  | block (ss : List KStmt)
  | ifS (c : CExpr) (thn : KStmt) (els : Option KStmt)
  | whileS (c : CExpr) (body : KStmt)
  | forS (init : Option CForInit) (cond act : Option CExpr) (body : KStmt)
  | switchS (v : CExpr) (body : List KStmt)
  | case (l : CCaseValue) (s : KStmt)
  | dflt (s : KStmt)

/-- The meaning of everything below statements, for C. -/
structure CSem (m : Type → Type) (V : Type) where
  /-- evaluate an expression -/
  eval : CExpr → m V
  /-- does the value count as true? -/
  truth : V → Bool
  /-- does the value select the label? -/
  hit : V → CCaseValue → Bool
  /-- run something in a scope of its own -/
  scope : {α : Type} → m α → m α
  /-- declare a variable, perhaps with an initial value -/
  declare : CTypename → CForm → Option CExpr → m Unit

/-- One of the labels standing before a statement satisfies `p`
(`none` is `default`). -/
def KStmt.labelled (p : Option CCaseValue → Bool) : KStmt → Bool
  | .case l s => p (some l) || s.labelled p
  | .dflt s => p none || s.labelled p
  | _ => false

namespace CSem
variable {m : Type → Type} [Monad m] {V : Type} (S : CSem m V)

/-- Evaluate for the truth of the value. -/
def test (e : CExpr) : m Bool := do
  let v ← S.eval e
  pure (S.truth v)

/-- The condition of a `for`; none is true. -/
def testOpt : Option CExpr → m Bool
  | some e => S.test e
  | none => pure true

/-- Evaluate for the effect. -/
def effect (e : CExpr) : m Unit := do
  let _ ← S.eval e
  pure ()

/-- Evaluate for the effect, if there is anything. -/
def effectOpt : Option CExpr → m Unit
  | some e => S.effect e
  | none => pure ()

/-- The declarators of a declaration, one after the other. -/
def declares (t : CTypename) : List (CForm × Option CExpr) → m Unit
  | [] => pure ()
  | d :: ds => do S.declare t d.1 d.2; declares t ds

/-- The initialiser of a `for`. -/
def init : Option CForInit → m Unit
  | some (.expr e) => S.effect e
  | some (.decl d) => S.declare d.typename d.form (some d.value)
  | none => pure ()

/-- The result of a `return`. -/
def result : Option CExpr → m (Option V)
  | some e => do
    let v ← S.eval e
    pure (some v)
  | none => pure none

mutual
/-- Run a C statement. -/
def run (N : Nat) : KStmt → m (Out V)
  | .empty => pure .normal
  | .expr e => do S.effect e; pure .normal
  | .decl t ds => do S.declares t ds; pure .normal
  | .ret e => do
    let v ← S.result e
    pure (.ret v)
  | .brk => pure .brk
  | .cont => pure .cont
  | .block ss => S.scope (runs N ss)
  | .ifS c thn els => do
    if ← S.test c then run N thn else runElse N els
  | .whileS c body => loop (S.test c) (run N body) (pure ()) N
  | .forS init cond act body => S.scope do
    S.init init
    loop (S.testOpt cond) (run N body) (S.effectOpt act) N
  | .switchS v body => do
    let x ← S.eval v
    let r ← S.scope (
      match jump N (·.labelled fun l => match l with | some l => S.hit x l | none => false) body with
      | some y => y
      | none =>
        match jump N (·.labelled fun l => l.isNone) body with
        | some y => y
        | none => pure .normal)
    pure r.caught
  | .case _ s => run N s
  | .dflt s => run N s
/-- Run statements one after the other. -/
def runs (N : Nat) : List KStmt → m (Out V)
  | [] => pure .normal
  | s :: ss => andThen (run N s) (runs N ss)
/-- Run an `else` branch, if there is one. -/
def runElse (N : Nat) : Option KStmt → m (Out V)
  | some s => run N s
  | none => pure .normal
/-- Run from the first statement with the property on; `none` if there is no such
statement. -/
def jump (N : Nat) (p : KStmt → Bool) : List KStmt → Option (m (Out V))
  | [] => none
  | s :: ss => if p s then some (andThen (run N s) (runs N ss)) else jump N p ss
end

/-- Scopes behave as scopes and `||` as `||`. -/
structure Lawful : Prop where
  /-- a scope directly inside a scope adds nothing -/
  nest : ∀ {α : Type} (x : m α), S.scope (S.scope x) = S.scope x
  /-- nothing happens in an empty scope -/
  nothing : ∀ {α : Type} (r : α), S.scope (pure r) = pure r
  /-- it makes no difference whether an expression is evaluated just outside or
  just inside a scope -/
  eval : ∀ {α : Type} (e : CExpr) (k : V → m α),
    S.scope (S.eval e >>= k) = S.eval e >>= fun v => S.scope (k v)
  /-- what is done with the result afterwards is not part of the scope -/
  map : ∀ {α β : Type} (x : m α) (f : α → β),
    S.scope (x >>= fun r => pure (f r)) = S.scope x >>= fun r => pure (f r)
  /-- `a || b` evaluates `b` only if `a` is false -/
  or : ∀ a b : CExpr, S.test (.binaryOp "||" a b) = do
    if ← S.test a then pure true else S.test b

end CSem

/-! ## From the generated tree to C statements

The printed text of a generated statement, read as C. -/

/-- The labels of a case, before a statement. -/
def labels (ls : List CCaseValue) (s : KStmt) : KStmt := ls.foldr .case s

mutual
/-- A generated statement.  `return;` is followed by an empty statement. -/
def lower : CStmt → List KStmt
  | .block ss => [.block (lowers ss)]
  | .brk => [.brk]
  | .cont => [.cont]
  | .varDecl t forms values => [.decl t (forms.zip values)]
  | .ifS c b els => [.ifS c (.block (lowers b)) (lowerOpt els)]
  | .forS i c a b => [.forS i c a (.block (lowers b))]
  | .whileS c b => [.whileS c (.block (lowers b))]
  | .ret none => [.ret none, .empty]
  | .ret (some e) => [.ret (some e)]
  | .switchS v cases dflt => [.switchS v (lowerCases cases ++ lowerDflt dflt)]
  | .expr e => [.expr e]
/-- Generated statements. -/
def lowers : List CStmt → List KStmt
  | [] => []
  | s :: ss => lower s ++ lowers ss
/-- An else branch. -/
def lowerOpt : Option (List CStmt) → Option KStmt
  | some b => some (.block (lowers b))
  | none => none
/-- The cases of a switch: labels, the body, `break`. -/
def lowerCases : List CSwitchCase → List KStmt
  | [] => []
  | .mk values body :: cs => labels values (.block (lowerBody body ++ [.brk])) :: lowerCases cs
/-- The default case has no `break`. -/
def lowerDflt : Option (List CStmt) → List KStmt
  | some b => [.dflt (.block (lowerBody b))]
  | none => []
/-- The body of a case: every statement is followed by an empty one. -/
def lowerBody : List CStmt → List KStmt
  | [] => []
  | s :: ss => lower s ++ .empty :: lowerBody ss
end

/-! ## Che -/

/-- The meaning of everything below statements, for Che.  Names are looked up in
the scopes around the expression. -/
structure ESem (m : Type → Type) (V : Type) where
  /-- evaluate an expression -/
  eval : Scopes → Expr → m V
  /-- does the value count as true? -/
  truth : V → Bool
  /-- is the value the one of the label of a switch? -/
  hit : Scopes → V → CaseValue → Bool
  /-- is the value a string equal to the label of a `switch str`? -/
  same : Scopes → V → CaseValue → m Bool
  /-- run something in a scope of its own -/
  scope : {α : Type} → m α → m α
  /-- declare a variable, perhaps with an initial value -/
  declare : Scopes → Typename → Form → Option Expr → m Unit
  /-- formatted output to stderr -/
  say : Scopes → List Expr → m Unit
  /-- end the program -/
  exit : Nat → m Unit

namespace ESem
variable {m : Type → Type} [Monad m] {V : Type} (S : ESem m V)

/-- Evaluate for the truth of the value. -/
def test (Γ : Scopes) (e : Expr) : m Bool := do
  let v ← S.eval Γ e
  pure (S.truth v)

/-- The condition of a `for`; none is true. -/
def testOpt (Γ : Scopes) : Option Expr → m Bool
  | some e => S.test Γ e
  | none => pure true

/-- Evaluate for the effect. -/
def effect (Γ : Scopes) (e : Expr) : m Unit := do
  let _ ← S.eval Γ e
  pure ()

/-- Evaluate for the effect, if there is anything. -/
def effectOpt (Γ : Scopes) : Option Expr → m Unit
  | some e => S.effect Γ e
  | none => pure ()

/-- The initialiser of a `for`. -/
def init (Γ : Scopes) : Option ForInit → m Unit
  | some (.expr e) => S.effect Γ e
  | some (.decl t f v) => S.declare Γ t f (some v)
  | none => pure ()

/-- The result of a `return`. -/
def result (Γ : Scopes) : Option Expr → m (Option V)
  | some e => do
    let v ← S.eval Γ e
    pure (some v)
  | none => pure none

/-- A string literal. -/
def str (s : String) : Expr := .lit (.string s)

/-- `panic`: print where, print the message, exit with status 1. -/
def panic (file : String) (Γ : Scopes) (pos : Pos) (args : List Expr) : m Unit := do
  S.say Γ [str "*** panic at %s ***\\n", str (file ++ ":" ++ pos.fmt)]
  S.say Γ args
  S.say Γ [str "\\n"]
  S.exit 1

/-- An expression statement: `panic` or anything else. -/
def exprStmt (file : String) (Γ : Scopes) : Expr → m Unit
  | .call pos f args =>
    if isIdent f "panic" then S.panic file Γ (expressionPos f) args
    else S.effect Γ (.call pos f args)
  | e => S.effect Γ e

/-- Is the string one of the labels?  Compared in order, up to the first hit. -/
def sameAny (Γ : Scopes) (x : V) : List CaseValue → m Bool
  | [] => pure false
  | l :: ls => do
    if ← S.same Γ x l then pure true else sameAny Γ x ls

mutual
/-- Run a Che statement.

A switch runs the body of the first case listing the value, or the default body,
or nothing; `break` ends the switch.  `switch str` does the same with equality of
strings. -/
def run (file : String) (N : Nat) (Γ : Scopes) : Stmt → m (Out V)
  | .brk => pure .brk
  | .cont => pure .cont
  | .expr e => do S.exprStmt file Γ e; pure .normal
  | .varDecl d => do
    S.declare (Spec.declare [(d.form.name, false)] Γ) d.typename d.form d.value
    pure .normal
  | .ret e => do
    let v ← S.result Γ e
    pure (.ret v)
  | .ifS c b els => do
    if ← S.test Γ c then S.scope (runs file N ([] :: Γ) b)
    else runOpt file N Γ els
  | .whileS c b => loop (S.test Γ c) (S.scope (runs file N ([] :: Γ) b)) (pure ()) N
  | .forS i c a b => S.scope do
    let Γ' := declInit i :: Γ
    S.init Γ' i
    loop (S.testOpt Γ' c) (S.scope (runs file N ([] :: Γ') b)) (S.effectOpt Γ' a) N
  | .switchS isStr v cs d => do
    let x ← S.eval Γ v
    let r ← select file N Γ
      (if isStr then S.sameAny Γ x else fun ls => pure (ls.any (S.hit Γ x))) (runOpt file N Γ d) cs
    pure r.caught
/-- Run statements one after the other. -/
def runs (file : String) (N : Nat) (Γ : Scopes) : List Stmt → m (Out V)
  | [] => pure .normal
  | s :: ss => andThen (run file N Γ s) (runs file N (Spec.declare (declS s) Γ) ss)
/-- An optional block. -/
def runOpt (file : String) (N : Nat) (Γ : Scopes) : Option (List Stmt) → m (Out V)
  | some b => S.scope (runs file N ([] :: Γ) b)
  | none => pure .normal
/-- Run the first case whose labels satisfy the test, or else `other`. -/
def select (file : String) (N : Nat) (Γ : Scopes) (p : List CaseValue → m Bool)
    (other : m (Out V)) : List SwitchCase → m (Out V)
  | [] => other
  | .mk ls b :: cs => do
    if ← p ls then S.scope (runs file N ([] :: Γ) b)
    else select file N Γ p other cs
end

end ESem

/-! ## `break` that leaves -/

mutual
/-- The statement contains a `break` that is not inside a loop or switch of the
statement. -/
def breaks : Stmt → Bool
  | .brk => true
  | .ifS _ b els => breaksIn b || breaksOpt els
  | _ => false
/-- `breaks` on a list. -/
def breaksIn : List Stmt → Bool
  | [] => false
  | s :: ss => breaks s || breaksIn ss
/-- `breaks` on an optional block. -/
def breaksOpt : Option (List Stmt) → Bool
  | some b => breaksIn b
  | none => false
end

/-! ## `switch str` has cases, and they have labels -/

mutual
/-- Every `switch str` in the statement has a case and every case a label. -/
def labelled : Stmt → Bool
  | .ifS _ b els => labelledIn b && labelledOpt els
  | .whileS _ b => labelledIn b
  | .forS _ _ _ b => labelledIn b
  | .switchS isStr _ cs d => !(isStr && cs.isEmpty) && labelledCases isStr cs && labelledOpt d
  | _ => true
/-- `labelled` on a list. -/
def labelledIn : List Stmt → Bool
  | [] => true
  | s :: ss => labelled s && labelledIn ss
/-- `labelled` on an optional block. -/
def labelledOpt : Option (List Stmt) → Bool
  | some b => labelledIn b
  | none => true
/-- `labelled` on the cases of a switch. -/
def labelledCases (isStr : Bool) : List SwitchCase → Bool
  | [] => true
  | .mk ls b :: cs => !(isStr && ls.isEmpty) && labelledIn b && labelledCases isStr cs
end

/-! ## What the two meanings must agree on -/

/-- Something a statement does that is not itself a statement. -/
inductive Piece where
  /-- evaluates an expression -/
  | eval (Γ : Scopes) (e : Expr)
  /-- declares a variable -/
  | decl (Γ : Scopes) (t : Typename) (f : Form) (v : Option Expr)
  /-- compares a value with a label -/
  | label (Γ : Scopes) (l : CaseValue)
  /-- prints to stderr -/
  | say (Γ : Scopes) (args : List Expr)
  /-- exits with status 1 -/
  | exit
  /-- compares the value of a `switch str` with a label -/
  | str (Γ : Scopes) (v : Expr) (l : CaseValue)
  /-- runs the body of a case of a `switch str` -/
  | strBody (b : List Stmt)

/-- The piece of an optional expression. -/
def piecesOpt (Γ : Scopes) : Option Expr → List Piece
  | some e => [.eval Γ e]
  | none => []

/-- The pieces of the initialiser of a `for`. -/
def piecesInit (Γ : Scopes) : Option ForInit → List Piece
  | some (.expr e) => [.eval Γ e]
  | some (.decl t f v) => [.decl Γ t f (some v)]
  | none => []

/-- The pieces of an expression statement of a file. -/
def piecesExprStmt (file : String) (Γ : Scopes) : Expr → List Piece
  | .call pos f args =>
    if isIdent f "panic" then
      [.say Γ [ESem.str "*** panic at %s ***\\n", ESem.str (file ++ ":" ++ (expressionPos f).fmt)],
       .say Γ args, .say Γ [ESem.str "\\n"], .exit]
    else [.eval Γ (.call pos f args)]
  | e => [.eval Γ e]

mutual
/-- The pieces of a statement of a file. -/
def piecesS (file : String) (Γ : Scopes) : Stmt → List Piece
  | .brk => []
  | .cont => []
  | .expr e => piecesExprStmt file Γ e
  | .varDecl d => [.decl (declare [(d.form.name, false)] Γ) d.typename d.form d.value]
  | .ret e => piecesOpt Γ e
  | .ifS c b els => .eval Γ c :: (piecesSs file ([] :: Γ) b ++ piecesOptB file Γ els)
  | .whileS c b => .eval Γ c :: piecesSs file ([] :: Γ) b
  | .forS i c a b =>
    let Γ' := declInit i :: Γ
    piecesInit Γ' i ++ piecesOpt Γ' c ++ piecesOpt Γ' a ++ piecesSs file ([] :: Γ') b
  | .switchS isStr v cs d =>
    (if isStr then piecesStr file Γ v d cs else .eval Γ v :: piecesCases file Γ cs) ++
    piecesOptB file Γ d
/-- The pieces of a list of statements. -/
def piecesSs (file : String) (Γ : Scopes) : List Stmt → List Piece
  | [] => []
  | s :: ss => piecesS file Γ s ++ piecesSs file (declare (declS s) Γ) ss
/-- The pieces of an optional block. -/
def piecesOptB (file : String) (Γ : Scopes) : Option (List Stmt) → List Piece
  | some b => piecesSs file ([] :: Γ) b
  | none => []
/-- The pieces of the cases of a switch. -/
def piecesCases (file : String) (Γ : Scopes) : List SwitchCase → List Piece
  | [] => []
  | .mk ls b :: cs => ls.map (.label Γ) ++ piecesSs file ([] :: Γ) b ++ piecesCases file Γ cs
/-- The pieces of the cases of a `switch str`. -/
def piecesStr (file : String) (Γ : Scopes) (v : Expr) (d : Option (List Stmt)) :
    List SwitchCase → List Piece
  | [] => [.strBody (d.getD [])]
  | .mk ls b :: cs =>
    .strBody b :: (ls.map (.str Γ v) ++ piecesSs file ([] :: Γ) b ++ piecesStr file Γ v d cs)
end

/-- `fprintf(stderr, …)`. -/
def printCall (args : List CExpr) : CExpr := .call (.ident "fprintf") (.ident "stderr" :: args)

/-- `exit(1)`. -/
def exitCall : CExpr := .call (.ident "exit") [.lit (.number "1")]

section
variable {m : Type → Type} [Monad m] {V : Type}

/-- The value expression of a `switch str` can be evaluated again, at once or after
a comparison, with the same result and without effect. -/
structure Steady (E : ESem m V) (Γ : Scopes) (v : Expr) (l : CaseValue) : Prop where
  again : ∀ k : V → V → m (Out V),
    (do let x ← E.eval Γ v
        let y ← E.eval Γ v
        k x y) =
    (do let x ← E.eval Γ v
        k x x)
  after : ∀ k : Bool → V → m (Out V),
    (do let x ← E.eval Γ v
        let b ← E.same Γ x l
        let y ← E.eval Γ v
        k b y) =
    (do let x ← E.eval Γ v
        let b ← E.same Γ x l
        k b x)

/-- The meaning of the C code for a piece is the meaning of the piece. -/
def Agree (M : ModEnv) (E : ESem m V) (S : CSem m V) : Piece → Prop
  | .eval Γ e => S.eval (emitE M Γ e) = E.eval Γ e
  | .decl Γ t f v => S.declare (emitTypename M t) (emitForm M Γ f) (emitOptE M Γ v) = E.declare Γ t f v
  | .label Γ l => ∀ x, S.hit x (emitCaseValue M Γ l) = E.hit Γ x l
  | .say Γ args => S.effect (printCall (emitArgs M Γ args)) = E.say Γ args
  | .exit => S.effect exitCall = E.exit 1
  | .str Γ v l =>
    S.test (emitStrTest M Γ (emitE M Γ v) l) = (do
      let x ← E.eval Γ v
      E.same Γ x l) ∧
    Steady E Γ v l
  | .strBody b => breaksIn b = false

/-- The C meaning respects the Che meaning on all the pieces of a list of
statements. -/
structure Respects (M : ModEnv) (E : ESem m V) (S : CSem m V) (Γ : Scopes) (ss : List Stmt) :
    Prop where
  truth : S.truth = E.truth
  scope : ∀ {α : Type} (x : m α), S.scope x = E.scope x
  pieces : ∀ p ∈ piecesSs M.file Γ ss, Agree M E S p

end

end Che.Spec
