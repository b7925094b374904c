import Verif.Spec.Lib.Json
import Verif.Model.Lib.Json

/-!
What value a JSON text stands for, and which values have a JSON text.  Of
`lib/formats/json.c` only the type of its values is used here.
-/
namespace Che.Spec.Lib
open Che.Lib Che.Lib.Json

/-- The elements in the order of their first appearance. -/
def firsts : List Bytes → List Bytes
  | [] => []
  | k :: ks => k :: (firsts ks).filter (fun x => x ≠ k)

/-- The last value given for a name. -/
def lastFor {V : Type} (k : Bytes) (es : List (Bytes × V)) : Option V := (es.reverse.find? (fun e => e.1 = k)).map Prod.snd

/-- Every name once, where it first appears, with the value given for it last. -/
def lastWins {V : Type} (es : List (Bytes × V)) : List (Bytes × V) :=
  (firsts (es.map Prod.fst)).filterMap fun k => (lastFor k es).map fun v => (k, v)

mutual
/-- The value of a JSON value; `num` is the value of the text of a number. -/
def JVal.value {D : Type} (num : Bytes → D) : JVal → Val D
  | .null => .null
  | .bool b => .bool b
  | .num t => .num (num t)
  | .str s => .str s
  | .arr vs => .arr (JVal.values num vs)
  | .obj es => .obj (lastWins (JVal.members num es))

def JVal.values {D : Type} (num : Bytes → D) : List JVal → List (Val D)
  | [] => []
  | v :: vs => v.value num :: JVal.values num vs

def JVal.members {D : Type} (num : Bytes → D) : List (Bytes × JVal) → List (Bytes × Val D)
  | [] => []
  | (k, v) :: es => (k, v.value num) :: JVal.members num es
end

/-- No null inside. -/
inductive NoNull {D : Type} : Val D → Prop
  | bool (b : Bool) : NoNull (.bool b)
  | num (d : D) : NoNull (.num d)
  | str (s : Bytes) : NoNull (.str s)
  | arr {vs : List (Val D)} : (∀ v ∈ vs, NoNull v) → NoNull (.arr vs)
  | obj {es : List (Bytes × Val D)} : (∀ e ∈ es, NoNull e.2) → NoNull (.obj es)

/-- In every object the names differ. -/
inductive Distinct {D : Type} : Val D → Prop
  | null : Distinct .null
  | bool (b : Bool) : Distinct (.bool b)
  | num (d : D) : Distinct (.num d)
  | str (s : Bytes) : Distinct (.str s)
  | arr {vs : List (Val D)} : (∀ v ∈ vs, Distinct v) → Distinct (.arr vs)
  | obj {es : List (Bytes × Val D)} : (es.map Prod.fst).Nodup → (∀ e ∈ es, Distinct e.2) → Distinct (.obj es)

/-- Every string, name and number inside is such. -/
inductive Within {D : Type} (str name : Bytes → Prop) (num : D → Prop) : Val D → Prop
  | null : Within str name num .null
  | bool (b : Bool) : Within str name num (.bool b)
  | num {d : D} : num d → Within str name num (.num d)
  | str {s : Bytes} : str s → Within str name num (.str s)
  | arr {vs : List (Val D)} : (∀ v ∈ vs, Within str name num v) → Within str name num (.arr vs)
  | obj {es : List (Bytes × Val D)} : (∀ e ∈ es, name e.1) → (∀ e ∈ es, Within str name num e.2) →
      Within str name num (.obj es)

end Che.Spec.Lib
