/-!
What collections should do, in terms of the history of calls.
-/
namespace Che.Spec.Lib

/-- The value of the last assignment to the key. -/
def lastValue {K V : Type} [DecidableEq K] (history : List (K × V)) (k : K) : Option V :=
  (history.reverse.find? fun op => op.1 = k).map (·.2)

/-- The keys in the order of their first assignment. -/
def keysInOrder {K V : Type} [DecidableEq K] (history : List (K × V)) : List K :=
  history.foldl (fun ks op => if op.1 ∈ ks then ks else ks ++ [op.1]) []

end Che.Spec.Lib

namespace Che.Spec.Lib

/-- Calls on a byte queue. -/
inductive QueueOp
  | put (bytes : List UInt8)
  | take (n : Nat)

/-- What a queue holding `q` returns for each of the calls: for a `take` the first `n`
bytes (or as many as there are), for a `put` nothing. -/
def queueResults : List UInt8 → List QueueOp → List (List UInt8)
  | _, [] => []
  | q, .put bs :: ops => [] :: queueResults (q ++ bs) ops
  | q, .take n :: ops => q.take n :: queueResults (q.drop n) ops

end Che.Spec.Lib
