import Verif.Model.Prog.Wisp

/-!
What symbols, their values, the pools of objects and quoted texts of `prog/wisp` should be.
-/
namespace Che.Spec.Wisp
open Che Che.Lib

/-- The value that was given last to a key. -/
def lastOf (ops : List (Bytes × Nat)) (key : Bytes) : Option Nat := (ops.reverse.find? fun o => o.1 = key).map (·.2)

/-- What can be done with the value of a symbol. -/
inductive Op where
  | set (v : Nat)
  | push (v : Nat)
  | pop
deriving DecidableEq, Repr

/-- Dynamic scope: a new binding hides the old one until it is removed; the first binding stays.  The current value is in front; at most `limit` bindings. -/
def scope (limit : Nat) : List Nat → List Op → Option (List Nat)
  | st, [] => some st
  | _ :: st, .set v :: ops => scope limit (v :: st) ops
  | st, .push v :: ops => if st.length < limit then scope limit (v :: st) ops else none
  | _ :: u :: st, .pop :: ops => scope limit (u :: st) ops
  | _, _ :: _ => none

/-- Text in quotes: quotes and backslashes get a backslash. -/
def escape (s : Bytes) : Bytes := s.flatMap fun b => if b = 92 ∨ b = 34 then [92, b] else [b]

def quoted (s : Bytes) : Bytes := 34 :: escape s ++ [34]

end Che.Spec.Wisp
