import Verif.Spec.Lib.JsonValue
import Verif.Spec.Lib.Cursor
import Verif.Model.Lib.Enc

/-!
What jsonl2csv prints: a record for every object, with the values of the keys of the first object.
-/
namespace Che.Spec.Jsonl2csv
open Che.Lib Che.Spec.Lib

/-- A line of the input: an object with its members, or something else. -/
abbrev Item := Bytes × Option (List (Bytes × JVal))

/-- What a value is in a record, for values without others inside. -/
def field : Option JVal → Bytes
  | some (.str s) => s
  | some (.num t) => t
  | some (.bool true) => cstr "true"
  | some (.bool false) => cstr "false"
  | _ => []

/-- The record of an object: what is given for a name last. -/
def record (header : List Bytes) (es : List (Bytes × JVal)) : List Bytes := header.map fun k => field (lastFor k es)

/-- The objects. -/
def objects (items : List Item) : List (List (Bytes × JVal)) := items.filterMap Prod.snd

/-- Values without others inside. -/
inductive Flat : JVal → Prop
  | null : Flat .null
  | bool (b : Bool) : Flat (.bool b)
  | num (t : Bytes) : t.length < 100 → Flat (.num t)
  | str (s : Bytes) : Flat (.str s)

/-- A line that fits: the text of an object, or a text that does not begin with a value. -/
def Good (i : Item) : Prop :=
  (10 : UInt8) ∉ i.1 ∧ (0 : UInt8) ∉ i.1 ∧ i.1.length < 4095 ∧
  match i.2 with
  | some es => JDoc simple (.obj es) i.1 ∧ ∀ e ∈ es, Flat e.2
  | none => (∀ u, u <:+ i.1 ++ [10] → (numberAt u).1.length < 100) ∧ ∀ a t rest j, i.1 ++ [10] = a ++ t ++ rest → Blanks lax a → ¬ JText lax j t

/-- The input. -/
def text (items : List Item) : Bytes := items.flatMap fun i => i.1 ++ [10]

/-- A message for each line that is not an object. -/
def complaints (items : List Item) : Bytes :=
  items.flatMap fun i => match i.2 with
    | some _ => []
    | none => cstr "failed to parse line as json: \"" ++ i.1 ++ cstr "\n\"\n"
end Che.Spec.Jsonl2csv
