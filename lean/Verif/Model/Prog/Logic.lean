import Verif.Model.Lib.Tokenizer
import Verif.Model.Lib.Strings

/-!
Model of `prog/logic/logic.c`: unification of terms.

A term is a value: terms are never changed after they are read.  The substitution is a
`clip/map`, of which C52 says that it is a map that keeps the order in which its keys were
added; here it is the list of its entries in this order.  Calls that need not return carry
fuel.  The number of arguments (10) and the length of a name (10 with the terminator) are
checked where terms are read; going past them, and using an argument that is not there,
is a panic whose text begins with "undefined".
-/
namespace Che.Prog.Logic
open Che.Lib

/-- `term_t`, prog/logic/logic.c:5-12. -/
inductive Term
  | var (name : Bytes)
  | const (name : Bytes)
  | func (name : Bytes) (args : List Term)

/-- The map from names to terms. -/
abbrev Subst := List (Bytes × Term)

/-- `map.gets`. -/
def get : Subst → Bytes → Option Term
  | [], _ => none
  | (w, t) :: s, v => if w = v then some t else get s v

/-- `map.sets`, for a name that has no entry. -/
def sets (s : Subst) (v : Bytes) (x : Term) : Subst := s ++ [(v, x)]

mutual
/-- `eq`, prog/logic/logic.c:122-137. -/
def eq : Term → Term → Res Empty Bool
  | .var x, .var y => .ok (decide (x = y))
  | .const x, .const y => .ok (decide (x = y))
  | .func f as, .func g bs => if f ≠ g then .ok false else eqArgs as bs
  | .var _, .const _ => .ok false
  | .var _, .func _ _ => .ok false
  | .const _, .var _ => .ok false
  | .const _, .func _ _ => .ok false
  | .func _ _, .var _ => .ok false
  | .func _ _, .const _ => .ok false
/-- The loop of `eq`, prog/logic/logic.c:130-134: up to the number of arguments of the first. -/
def eqArgs : List Term → List Term → Res Empty Bool
  | [], _ => .ok true
  | _ :: _, [] => .panic "undefined: NULL is used as a term"
  | a :: as, b :: bs => (eq a b).bind fun r => if r then eqArgs as bs else .ok false
end

mutual
/-- `term_has_var`, prog/logic/logic.c:103-120. -/
def term_has_var : Nat → Term → Term → Subst → Res Empty Bool
  | 0, _, _, _ => .diverge
  | n + 1, t, v, s =>
    (eq v t).bind fun e =>
    if e then .ok true else
    match t with
    | .var w => match get s w with
      | some d => term_has_var n d v s
      | none => .ok false
    | .const _ => .ok false
    | .func _ as => hasVarArgs n as v s
/-- The loop of `term_has_var`, prog/logic/logic.c:112-116. -/
def hasVarArgs : Nat → List Term → Term → Subst → Res Empty Bool
  | 0, _, _, _ => .diverge
  | _ + 1, [], _, _ => .ok false
  | n + 1, a :: as, v, s =>
    (term_has_var n a v s).bind fun r => if r then .ok true else hasVarArgs n as v s
end

/-- The end of `unify_variable`, prog/logic/logic.c:73-78. -/
def extend (n : Nat) (v : Bytes) (x : Term) (s : Subst) : Res Empty (Option Subst) :=
  (term_has_var n (.var v) x s).bind fun h => .ok (if h then none else some (sets s v x))

/-- `x->type == VAR && map.gets(subst, x->name, &deref)`. -/
def bound (x : Term) (s : Subst) : Option Term :=
  match x with
  | .var w => get s w
  | _ => none

mutual
/-- `unify`, prog/logic/logic.c:38-62. -/
def unify : Nat → Term → Term → Subst → Res Empty (Option Subst)
  | 0, _, _, _ => .diverge
  | n + 1, x, y, s =>
    (eq x y).bind fun e =>
    if e then .ok (some s) else
    match x with
    | .var v => unify_variable n v y s
    | .const c => match y with
      | .var v => unify_variable n v (.const c) s
      | _ => .ok none
    | .func f as => match y with
      | .var v => unify_variable n v (.func f as) s
      | .const _ => .ok none
      | .func g bs =>
        if f ≠ g ∨ as.length ≠ bs.length then .ok none else unifyArgs n as bs s
/-- The loop of `unify`, prog/logic/logic.c:53-58. -/
def unifyArgs : Nat → List Term → List Term → Subst → Res Empty (Option Subst)
  | 0, _, _, _ => .diverge
  | _ + 1, [], _, s => .ok (some s)
  | _ + 1, _ :: _, [], _ => .panic "undefined: NULL is used as a term"
  | n + 1, a :: as, b :: bs, s =>
    (unify n a b s).bind fun r =>
    match r with
    | none => .ok none
    | some s => unifyArgs n as bs s
/-- `unify_variable`, prog/logic/logic.c:65-79. -/
def unify_variable : Nat → Bytes → Term → Subst → Res Empty (Option Subst)
  | 0, _, _, _ => .diverge
  | n + 1, v, x, s =>
    match get s v with
    | some d => unify n d x s
    | none => match bound x s with
      | some d => unify n (.var v) d s
      | none => extend n v x s
end

/-! ## Text -/

mutual
/-- `print_term`, prog/logic/logic.c:81-95. -/
def print_term : Term → Bytes
  | .func f as => f ++ [40] ++ printArgs as ++ [41]
  | .var v => v
  | .const c => c
/-- The loop of `print_term`, prog/logic/logic.c:85-90. -/
def printArgs : List Term → Bytes
  | [] => []
  | [t] => print_term t
  | t :: t' :: ts => print_term t ++ [44, 32] ++ printArgs (t' :: ts)
end

/-- The loop that reads a name, prog/logic/logic.c:143-145.  The last place of `name` must
remain zero. -/
def nameLoop : Nat → Tok.T → Bytes → Res String (Tok.T × Bytes)
  | 0, _, _ => .diverge
  | n + 1, b, name =>
    let (b, c) := Tok.peek b
    if Tok.isalpha c then
      if name.length ≥ 9 then .panic "undefined: write past the end of name"
      else
        let (b, c) := Tok.get b
        nameLoop n b (name ++ [Tok.toByte c])
    else .ok (b, name)

mutual
/-- `parse_term1`, prog/logic/logic.c:139-170. -/
def parse_term1 : Nat → Tok.T → Res String (Tok.T × Term)
  | 0, _ => .diverge
  | n + 1, b =>
    (nameLoop (Tok.rounds b) b []).bind fun (b, name) =>
    if Strings.allupper name then .ok (b, .var name) else
    let (b, open_) := Tok.buf_skip b 40
    if open_ then
      (parseArgs n b []).bind fun (b, args) =>
      let (b, close) := Tok.buf_skip b 41
      if close then .ok (b, .func name args)
      else .panic "logic.c:164: missing closing brace"
    else .ok (b, .const name)
/-- The loop of `parse_term1`, prog/logic/logic.c:154-161. -/
def parseArgs : Nat → Tok.T → List Term → Res String (Tok.T × List Term)
  | 0, _, _ => .diverge
  | n + 1, b, args =>
    if args.length ≥ 10 then .panic "undefined: write past the end of args" else
    (parse_term1 n b).bind fun (b, t) =>
    let (b, comma) := Tok.buf_skip b 44
    if comma then parseArgs n (Tok.buf_skip_set b [32]) (args ++ [t])
    else .ok (b, args ++ [t])
end

/-- `parse_term`, prog/logic/logic.c:172-174. -/
def parse_term (s : Bytes) : Res String Term :=
  (parse_term1 (2 * s.length + 2) (Tok.from_str s)).bind fun (_, t) => .ok t

/-- `print_map`, prog/logic/logic.c:176-194. -/
def print_map : Subst → Bytes
  | [] => []
  | [(v, t)] => v ++ [61] ++ print_term t
  | (v, t) :: e :: s => v ++ [61] ++ print_term t ++ [32] ++ print_map (e :: s)

/-- The result as a result of the program. -/
def lift {α : Type} : Res Empty α → Res String α
  | .ok x => .ok x
  | .err e => nomatch e
  | .panic m => .panic m
  | .diverge => .diverge

/-- `run`, prog/logic/logic.c:27-36: what it prints. -/
def run (n : Nat) (t1 t2 : Bytes) : Res String Bytes :=
  (parse_term t1).bind fun x => (parse_term t2).bind fun y =>
  (lift (unify n x y [])).bind fun r =>
  match r with
  | some s => .ok (print_map s ++ [10])
  | none => .ok [78, 85, 76, 76, 10]

end Che.Prog.Logic
