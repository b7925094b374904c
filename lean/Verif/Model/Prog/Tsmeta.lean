import Verif.Model.Basic
import Verif.Model.Lib.Enc

/-!
Model of the evaluation of `prog/tsmeta/tsmeta.c`.

Trees are as `read.c` makes them, which is not modelled; a call of a type has its arguments, and a name without arguments is a call without any.
`read.c` makes no nodes of the kind `ID`, so the case for them (lines 90-97) is not modelled.
The array of types is long enough (it has room for 100), and names fit (they have room for 10 bytes).
A missing argument that is used is a panic that begins with "undefined".
-/
namespace Che.Prog.Tsmeta
open Che.Lib

/-- `node_t`, prog/tsmeta/nodes.c:1-3, 20-40, without definitions. -/
inductive E
  | t
  | f
  | num (s : Bytes)
  | str (s : Bytes)
  | list (items : List E)
  | union (items : List E)
  | call (name : Bytes) (args : List E)

/-- `tdef_t`, prog/tsmeta/nodes.c:29-34; the expression may be missing. -/
structure Def where
  name : Bytes
  args : List Bytes
  expr : Option E

/-- `get_tdef`, prog/tsmeta/tsmeta.c:105-114; the newest type is the first one. -/
def get_tdef (types : List Def) (name : Bytes) : Option Def :=
  match types with
  | [] => none
  | d :: types => if d.name = name then some d else get_tdef types name

/-- The loop that adds the arguments, prog/tsmeta/tsmeta.c:77-83. -/
def push : List Bytes → List E → List Def → List Def
  | [], _, types => types
  | p :: ps, args, types => push ps args.tail ({ name := p, args := [], expr := args.head? } :: types)

/-- The loops for lists and unions, prog/tsmeta/tsmeta.c:53-55 and 65-67. -/
def evalAll (ev : E → Res String E) : List E → Res String (List E)
  | [] => .ok []
  | e :: es => (ev e).bind fun r => (evalAll ev es).bind fun rs => .ok (r :: rs)

/-- `eval` of expressions, prog/tsmeta/tsmeta.c:45-103, with a bound on the depth; the types are again as before after a call (lines 85-87). -/
def eval : Nat → List Def → E → Res String E
  | 0, _, _ => .diverge
  | _ + 1, _, .t => .ok .t
  | _ + 1, _, .f => .ok .f
  | _ + 1, _, .num s => .ok (.num s)
  | _ + 1, _, .str s => .ok (.str s)
  | k + 1, types, .list items => (evalAll (eval k types) items).bind fun r => .ok (.list r)
  | k + 1, types, .union items => (evalAll (eval k types) items).bind fun r => .ok (.union r)
  | k + 1, types, .call name args =>
    match get_tdef types name with
    | none => .panic "unknown identifier"
    | some d =>
      match d.expr with
      | none => .panic "undefined: no expression"
      | some e => eval k (push d.args args types) e

end Che.Prog.Tsmeta
