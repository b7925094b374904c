import Verif.Model.Lib.Threads

/-!
What a pipe between threads is: a queue of no more than 32 items that can be closed, on which each call has its effect at one moment between its beginning and its end.
-/
namespace Che.Lib.Threads

/-- The effect of an event on a queue and on whether it is closed. -/
inductive QStep {V : Type} : List V × Bool → Event V → List V × Bool → Prop
  | put {q : List V} {c : Bool} {d : V} : q.length < 32 → QStep (q, c) (.put d) (q ++ [d], c)
  | take {q : List V} {c : Bool} {v : V} : QStep (v :: q, c) (.take v) (q, c)
  | eof : QStep ([], true) .eof ([], true)
  | shut {q : List V} {c : Bool} : QStep (q, c) .shut (q, true)
  | call {x : List V × Bool} {op : Op V} : QStep x (.call op) x
  | ret {x : List V × Bool} {v : Option (Option V)} : QStep x (.ret v) x
  | wakeup {x : List V × Bool} : QStep x .wakeup x
  | tau {x : List V × Bool} : QStep x .tau x
  | die {x : List V × Bool} : QStep x .die x

/-- The effect of events one after another, by whichever threads. -/
inductive QRun {V : Type} : List V × Bool → List (Nat × Event V) → List V × Bool → Prop
  | nil {x : List V × Bool} : QRun x [] x
  | snoc {x y z : List V × Bool} {es : List (Nat × Event V)} {i : Nat} {e : Event V} : QRun x es y → QStep y e z → QRun x (es ++ [(i, e)]) z

/-- Where a thread is in a call: it has had no effect yet, or it has and knows what to return. -/
inductive Phase (V : Type) where
  | out
  | reading
  | read (v : Option V)
  | writing (d : V)
  | closing
  | done

/-- What a thread does: each call has its effect once, and returns the item it has taken. -/
inductive Proto {V : Type} : Phase V → Event V → Phase V → Prop
  | callRead : Proto .out (.call .read) .reading
  | callWrite {d : V} : Proto .out (.call (.write d)) (.writing d)
  | callClose : Proto .out (.call .close) .closing
  | take {v : V} : Proto .reading (.take v) (.read (some v))
  | eof : Proto .reading .eof (.read none)
  | put {d : V} : Proto (.writing d) (.put d) .done
  | shut : Proto .closing .shut .done
  | retRead {v : Option V} : Proto (.read v) (.ret (some v)) .out
  | retDone : Proto .done (.ret none) .out
  | wakeup {p : Phase V} : Proto p .wakeup p
  | tau {p : Phase V} : Proto p .tau p
  | die {p : Phase V} : Proto p .die p

/-- The same for its events one after another. -/
inductive Protos {V : Type} : Phase V → List (Event V) → Phase V → Prop
  | nil {p : Phase V} : Protos p [] p
  | snoc {p q r : Phase V} {es : List (Event V)} {e : Event V} : Protos p es q → Proto q e r → Protos p (es ++ [e]) r

/-- The events of thread `i`. -/
def of {V : Type} (i : Nat) (es : List (Nat × Event V)) : List (Event V) := (es.filter fun e => e.1 == i).map (·.2)

/-- The items put into the pipe. -/
def puts {V : Type} (es : List (Nat × Event V)) : List V := es.filterMap fun e => match e.2 with | .put d => some d | _ => none

/-- The items taken out of the pipe. -/
def takes {V : Type} (es : List (Nat × Event V)) : List V := es.filterMap fun e => match e.2 with | .take d => some d | _ => none
end Che.Lib.Threads
