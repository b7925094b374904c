import Verif.Spec.Lib.Threads

/-!
Model of how the threads of `prog/exab` share the requests: the main thread and its workers use one pipe of `lib/os/threads.c`.

The requests themselves are not modelled: a worker makes a request when it has read from the pipe.  An item of the pipe has no value.
-/
namespace Che.Prog.Exab
open Che.Lib.Threads

/-- What a thread calls next, when its calls until now have returned this. -/
abbrev Script (V : Type) := List (Option (Option V)) → Option (Op V)

/-- What the calls of a thread have returned. -/
def rets {V : Type} (es : List (Event V)) : List (Option (Option V)) := es.filterMap fun | .ret v => some v | _ => none

/-- An execution of threads that call what their scripts say. -/
inductive PRun {V : Type} (f : Nat → Script V) (s : State V) : List (Nat × Event V) → State V → Prop
  | nil : PRun f s [] s
  | snoc {t u : State V} {es : List (Nat × Event V)} {i : Nat} {e : Event V} : PRun f s es t → Step t i e u → (∀ op, e = .call op → f i (rets (of i es)) = some op) →
    PRun f s (es ++ [(i, e)]) u

/-- The main thread: writes for each of `n` requests, then closes the pipe (prog/exab/exab.c:87-92). -/
def main (n : Nat) : Script Unit := fun rs => if rs.length < n then some (.write ()) else if rs.length = n then some .close else none

/-- A worker: reads until there is nothing more (prog/exab/exab.c:115-118). -/
def worker : Script Unit := fun rs => if rs.getLast? = some (some none) then none else some .read

/-- A worker that cannot connect: it ends after its first read (prog/exab/exab.c:121-125). -/
def failing : Script Unit := fun rs => if rs.length = 0 then some .read else none

/-- The number of workers (prog/exab/exab.c:71-74). -/
def workers (c n : Nat) : Nat := if c > n then n else c

/-- Thread 0 is the main thread; the others are its workers (prog/exab/exab.c:81-85). -/
def scripts (n : Nat) (i : Nat) : Script Unit := if i = 0 then main n else worker

/-- Nothing happens any more, whatever may wake threads that wait. -/
def Stuck {V : Type} (f : Nat → Script V) (es : List (Nat × Event V)) (s : State V) : Prop :=
  ∀ i e s', Step s i e s' → (∀ op, e = .call op → f i (rets (of i es)) = some op) → e = .wakeup
end Che.Prog.Exab
