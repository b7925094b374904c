import Verif.Spec.Exec
import Verif.Spec.Ends
/-!
# A small meaning for C expressions, for the examples

Integers and strings, variables, a few operators and library functions.  Programs
write lines and may stop with a status.
-/
namespace Che.Spec.Demo
open Che Spec

/-- Values. -/
inductive Val where
  | int (i : Int)
  | str (s : String)
deriving DecidableEq, Repr

/-- Variables' contents and the lines written so far. -/
structure Mem where
  cells : List Val
  out : List String
deriving DecidableEq, Repr

/-- Where the names in scope are kept, and the memory. -/
structure World where
  env : List (String × Nat)
  mem : Mem
deriving DecidableEq, Repr

/-- A stopped program: status and lines written. -/
abbrev Stop := Nat × List String

/-- Programs that change the world or stop. -/
abbrev Toy := StateT World (Except Stop)

/-- The value of a decimal number. -/
def number (s : String) : Int := s.toList.foldl (fun n c => 10 * n + (c.toNat - 48 : Nat)) 0

/-- The address of a name. -/
def addr (ρ : List (String × Nat)) (x : String) : Option Nat := (ρ.find? (·.1 == x)).map (·.2)

/-- Truth of a value. -/
def truth : Val → Bool
  | .int i => i != 0
  | .str _ => true

/-- Truth as a value. -/
def ofBool (b : Bool) : Val := .int (if b then 1 else 0)

/-- The text of a value. -/
def text : Val → String
  | .int i => toString i
  | .str s => s

/-- Strict binary operators. -/
def binary (op : String) : Val → Val → Val
  | .int a, .int b =>
    if op = "+" then .int (a + b) else if op = "-" then .int (a - b)
    else if op = "<" then ofBool (a < b) else if op = "==" then ofBool (a == b) else .int 0
  | _, _ => .int 0

/-- Store a value. -/
def store (ρ : List (String × Nat)) (x : String) (v : Val) (μ : Mem) : Mem :=
  match addr ρ x with
  | some a => { μ with cells := μ.cells.set a v }
  | none => μ

/-- Library functions.  `next` gives `"a"` the first time and `"b"` afterwards;
`calloc` fails when asked for nothing. -/
def library (f : String) (args : List Val) (μ : Mem) : Except Stop (Val × Mem) :=
  if f = "fprintf" then .ok (.int 0, { μ with out := μ.out ++ [String.intercalate " " (args.map text)] })
  else if f = "exit" then .error (match args with | [.int n] => n.toNat | _ => 0, μ.out)
  else if f = "strcmp" then
    .ok (match args with | [a, b] => ofBool (text a != text b) | _ => .int 0, μ)
  else if f = "next" then
    .ok (.str (if μ.out.contains "next" then "b" else "a"), { μ with out := μ.out ++ ["next"] })
  else if f = "calloc" then
    .ok (match args with | [.int 0, _] => .int 0 | _ => .int 64, μ)
  else .ok (.int 0, μ)

mutual
/-- Evaluate an expression; the names in scope do not change. -/
def evalIn (ρ : List (String × Nat)) : CExpr → Mem → Except Stop (Val × Mem)
  | .lit (.number s), μ => .ok (.int (number s), μ)
  | .lit (.string s), μ => .ok (.str s, μ)
  | .ident x, μ =>
    .ok (if x = "true" then .int 1
      else match addr ρ x with | some a => μ.cells.getD a (.int 0) | none => .str x, μ)
  | .binaryOp op a b, μ =>
    if op = "=" then
      match a with
      | .ident x => do
        let (v, μ) ← evalIn ρ b μ
        pure (v, store ρ x v μ)
      | _ => .ok (.int 0, μ)
    else do
      let (x, μ) ← evalIn ρ a μ
      if op = "||" then
        if truth x then pure (.int 1, μ)
        else do
          let (y, μ) ← evalIn ρ b μ
          pure (ofBool (truth y), μ)
      else do
        let (y, μ) ← evalIn ρ b μ
        pure (binary op x y, μ)
  | .prefixOp "!" a, μ => do
    let (x, μ) ← evalIn ρ a μ
    pure (ofBool (!truth x), μ)
  | .postfixOp "++" (.ident x), μ =>
    match addr ρ x with
    | some a => .ok (μ.cells.getD a (.int 0), store ρ x (binary "+" (μ.cells.getD a (.int 0)) (.int 1)) μ)
    | none => .ok (.int 0, μ)
  | .call (.ident f) args, μ => do
    let (vs, μ) ← evalArgs ρ args μ
    library f vs μ
  | _, μ => .ok (.int 0, μ)
/-- Evaluate arguments, left to right. -/
def evalArgs (ρ : List (String × Nat)) : List CExpr → Mem → Except Stop (List Val × Mem)
  | [], μ => .ok ([], μ)
  | e :: es, μ => do
    let (v, μ) ← evalIn ρ e μ
    let (vs, μ) ← evalArgs ρ es μ
    pure (v :: vs, μ)
end

/-- Evaluate in the world. -/
def eval (e : CExpr) : Toy Val := fun w =>
  match evalIn w.env e w.mem with
  | .ok (v, μ) => .ok (v, { w with mem := μ })
  | .error s => .error s

/-- Names declared inside are forgotten at the end. -/
def scope {α : Type} (x : Toy α) : Toy α := fun w =>
  match x w with
  | .ok (r, w') => .ok (r, { w' with env := w.env })
  | .error s => .error s

/-- A new variable. -/
def declareAs (x : String) (v : Val) : Toy Unit := fun w =>
  .ok ((), { env := (x, w.mem.cells.length) :: w.env, mem := { w.mem with cells := w.mem.cells ++ [v] } })

/-- The meaning. -/
def sem : CSem Toy Val where
  eval := eval
  truth := truth
  hit v l := match v, l with
    | .int i, .literal (.number s) => i == number s
    | .int i, .literal (.char s) => s.toList.map (fun c => (c.toNat : Int)) == [i]
    | _, _ => false
  scope := scope
  declare _ f v := do
    let x ← match v with
      | some e => eval e
      | none => pure (.int 0)
    declareAs f.name x

/-- The Che meaning that goes with it: an expression means what its C code means. -/
def source (M : ModEnv) : ESem Toy Val where
  eval Γ e := eval (emitE M Γ e)
  truth := truth
  hit Γ v l := sem.hit v (emitCaseValue M Γ l)
  same _ v l := pure (match l with | .literal (.string s) => text v == s | _ => false)
  scope := scope
  declare Γ t f v := sem.declare (emitTypename M t) (emitForm M Γ f) (emitOptE M Γ v)
  say Γ args := sem.effect (printCall (emitArgs M Γ args))
  exit n := sem.effect (.call (.ident "exit") [.lit (.number (toString n))])

/-- A world without variables. -/
def world : World := { env := [], mem := { cells := [], out := [] } }

/-- How a run from the empty world ends, and the lines it has written. -/
def ending (x : Toy (Out Val)) : String :=
  match x world with
  | .ok (r, w) =>
    (match r with
      | .normal => "end"
      | .brk => "break"
      | .cont => "continue"
      | .ret (some v) => "return " ++ text v
      | .ret none => "return"
      | .timeout => "timeout") ++ ": " ++ String.intercalate "; " w.mem.out
  | .error (n, out) => "exit " ++ toString n ++ ": " ++ String.intercalate "; " out

theorem eval_scope {α : Type} (e : CExpr) (k : Val → Toy α) :
    scope (eval e >>= k) = eval e >>= fun v => scope (k v) := by
  funext w
  simp only [scope, bind, StateT.bind, eval]
  cases evalIn w.env e w.mem with
  | error s => rfl
  | ok r => rfl

/-- The small meaning has the laws asked for. -/
theorem lawful : sem.Lawful where
  nest x := by
    funext w
    simp only [sem, scope]
    cases x w <;> rfl
  nothing r := rfl
  eval e k := eval_scope e k
  map x f := by
    funext w
    simp only [sem, scope, bind, StateT.bind]
    cases x w <;> rfl
  or a b := by
    funext w
    have h1 : ("||" : String) ≠ "=" := by decide
    simp only [CSem.test, sem, eval, bind, StateT.bind, evalIn, if_neg h1]
    cases h : evalIn w.env a w.mem with
    | error s => rfl
    | ok r =>
      obtain ⟨x, μ⟩ := r
      simp only [Except.bind, pure, StateT.pure, Except.pure]
      cases hx : truth x with
      | true => rfl
      | false =>
        simp only [if_true, Bool.false_eq_true, if_false, bind, StateT.bind, Except.bind, eval]
        cases evalIn w.env b μ with
        | error s => rfl
        | ok r =>
          obtain ⟨y, μ'⟩ := r
          cases hy : truth y <;> simp [hy, ofBool, StateT.pure, pure, Except.pure] <;> decide

/-- `exit(1)` does not return. -/
theorem exit_stops : NoReturn (sem.eval exitCall) := by
  intro β k k'
  funext w
  simp [sem, eval, exitCall, evalIn, evalArgs, library, bind, StateT.bind, Except.bind, pure,
    Except.pure]

/-- A variable `x` keeps its value. -/
theorem pointer_read {β : Type} (v : Val) (k : Val → Toy β) :
    (declareAs "x" v >>= fun _ => eval (.ident "x") >>= k) = declareAs "x" v >>= fun _ => k v := by
  funext w
  simp [declareAs, eval, evalIn, addr, bind, StateT.bind, Except.bind]

end Che.Spec.Demo
