import Verif.Model.Nodes
/-!
# `src/types.rs`: types of expressions
-/
namespace Che

mutual
/-- `src/types.rs:3-8` `TypeOp`. -/
inductive TypeOp where
  | deref
  | index
  | call (args : List Ty)
/-- `src/types.rs:10-19` `Type`. -/
inductive Ty where
  | mk (base : NsName) (ops : List TypeOp)
end

deriving instance Repr for TypeOp, Ty

namespace Ty

instance : Inhabited Ty := ⟨.mk default []⟩

/-- `src/types.rs:14` field `base`. -/
def base : Ty → NsName
  | .mk b _ => b

/-- `src/types.rs:18` field `ops`. -/
def ops : Ty → List TypeOp
  | .mk _ o => o

mutual
/-- `src/types.rs:22-44` `Type::fmt`. -/
def fmt : Ty → String
  | .mk base ops =>
    fmtOps ops ++ (if base.ns ≠ "" then base.ns ++ "." ++ base.name else base.name)
/-- The loop of `src/types.rs:24-36`. -/
def fmtOps : List TypeOp → String
  | [] => ""
  | o :: os => fmtOp o ++ fmtOps os
/-- One arm of `src/types.rs:25-35`. -/
def fmtOp : TypeOp → String
  | .deref => "pointer to "
  | .index => "array of "
  | .call args => "func (" ++ RStr.join ", " (fmtArgs args) ++ ") -> "
/-- `args.iter().map(|x| x.fmt())`, `src/types.rs:29-32`. -/
def fmtArgs : List Ty → List String
  | [] => []
  | t :: ts => fmt t :: fmtArgs ts
end

end Ty

/-- `src/types.rs:342-348` `nsname`. -/
def nsname (ns name : String) : NsName := { pos := ⟨0, 0⟩, ns := ns, name := name }

/-- `src/types.rs:317-322` `just`. -/
def tJust (name : String) : Ty := .mk (nsname "" name) []

/-- `src/types.rs:324-329` `justp`. -/
def tJustp (name : String) : Ty := .mk (nsname "" name) [.deref]

/-- `src/types.rs:305-307` `ellipsis`. -/
def tEllipsis : Ty := tJust "..."

/-- `src/types.rs:309-311` `number`. -/
def tNumber : Ty := tJust "number"

/-- `src/types.rs:313-315` `complit`. -/
def tComplit : Ty := tJust "::complit"

/-- `src/types.rs:331-333` `todo`. -/
def tTodo : Ty := tJust "*** TODO *** "

/-- `src/types.rs:335-340` `mk`. -/
def tMk (ops : List TypeOp) (ns name : String) : Ty := .mk (nsname ns name) ops

/-- `src/types.rs:47-58` `Class`. -/
inductive Class where
  | constnum | ptr | sint | uint | char | arr | unk | flt | bool | none
deriving DecidableEq, Repr

/-- `src/types.rs:139-141` `is_ellipsis`. -/
def isEllipsis (t : Ty) : Bool := t.fmt == "..."

/-- `src/types.rs:143-145` `is_todo`. -/
def isTodo (t : Ty) : Bool := t.fmt == "*** TODO *** "

/-- `src/types.rs:60-98` `classify`. -/
def classify (x : Ty) : Class :=
  match x.ops with
  | .deref :: _ => .ptr
  | .index :: _ => .arr
  | _ =>
    if ["int", "int16_t", "int32_t", "int64_t", "int8_t", "ptrdiff_t"].contains x.fmt then .sint
    else if ["size_t", "uint16_t", "uint32_t", "uint64_t", "uint8_t"].contains x.fmt then .uint
    else if x.fmt = "float" ∨ x.fmt = "double" then .flt
    else if x.fmt = "number" then .constnum
    else if x.fmt = "char" then .char
    else if isTodo x then .unk
    else if x.fmt = "bool" then .bool
    else .none

/-- `src/types.rs:100-120` `typesize`; `none` is the `todo!()` panic. -/
def typesize (x : Ty) : Option Nat :=
  match x.fmt with
  | "size_t" => some 64
  | "uint64_t" => some 64
  | "int64_t" => some 64
  | "uint32_t" => some 32
  | "int32_t" => some 32
  | "uint16_t" => some 16
  | "int16_t" => some 16
  | "uint8_t" => some 8
  | "int8_t" => some 8
  | "int" => some 32
  | "char" => some 8
  | "double" => some 64
  | "float" => some 32
  | "time_t" => some 32
  | "ptrdiff_t" => some 64
  | _ => none

/-- `src/types.rs:122-128` `widest_type`. -/
def widestType (x y : Ty) : Res String Ty :=
  match typesize x, typesize y with
  | some a, some b => .ok (if a > b then x else y)
  | _, _ => .panic "types.rs:118"

/-- `src/types.rs:131-137` `is_booly`. -/
def isBooly (t : Ty) : Bool :=
  match classify t with
  | .ptr | .sint | .uint | .bool => true
  | .unk => true
  | _ => false

/-- `src/types.rs:147-154` `typeof_addr`. -/
def typeofAddr (t : Ty) : Ty := .mk (nsname t.base.ns t.base.name) (t.ops ++ [.deref])

/-- `src/types.rs:156-167` `typeof_deref`. -/
def typeofDeref (t : Ty) : Res String Ty :=
  if isTodo t then .ok t
  else
    match t.ops with
    | .deref :: rest => .ok (.mk t.base rest)
    | _ => .err ("dereference of a non-pointer (" ++ t.fmt ++ ")")

/-- `src/types.rs:169-196` `typeof_arith`. -/
def typeofArith (a b : Ty) : Res String Ty :=
  match classify a, classify b with
  | .constnum, .constnum => .ok a
  | .flt, .flt => widestType a b
  | .sint, .sint => widestType a b
  | .uint, .uint => widestType a b
  | .char, .constnum => .ok (tJust "int")
  | .constnum, .char => .ok (tJust "int")
  | .constnum, .flt | .constnum, .sint | .constnum, .uint => .ok b
  | .flt, .constnum | .sint, .constnum | .uint, .constnum => .ok a
  | _, .unk => .ok b
  | .unk, _ => .ok a
  | .uint, .sint => widestType a b
  | .sint, .uint => widestType a b
  | .sint, .flt | .uint, .flt => .ok b
  | .flt, .sint | .flt, .uint => .ok a
  | _, _ => .err ("arith on " ++ a.fmt ++ ", " ++ b.fmt)

/-- `src/types.rs:198-228` `typeof_plusminus`. -/
def typeofPlusminus (op : String) (a b : Ty) : Res String Ty :=
  match classify a, classify b with
  | .constnum, .constnum => .ok a
  | .sint, .sint => widestType a b
  | .uint, .uint => widestType a b
  | .flt, .flt => widestType a b
  | .constnum, .sint | .constnum, .uint | .constnum, .flt => .ok b
  | .sint, .constnum | .uint, .constnum | .flt, .constnum => .ok b
  | .unk, _ => .ok a
  | _, .unk => .ok b
  | .ptr, .ptr =>
    if op = "-" then .ok (tJust "ptrdiff_t")
    else .err ("'" ++ op ++ "' operation between " ++ a.fmt ++ " and " ++ b.fmt)
  | .ptr, .constnum | .ptr, .sint | .ptr, .uint
  | .arr, .constnum | .arr, .sint | .arr, .uint => .ok a
  | .constnum, .ptr | .sint, .ptr | .uint, .ptr
  | .constnum, .arr | .sint, .arr | .uint, .arr => .ok a
  | _, _ => .err ("'" ++ op ++ "' operation between " ++ a.fmt ++ " and " ++ b.fmt)

/-- `src/types.rs:231-264` `typeof_cmp`. -/
def typeofCmp (a b : Ty) : Res String Ty :=
  match classify a, classify b with
  | .flt, .flt => .ok (tJust "bool")
  | .sint, .sint => .ok (tJust "bool")
  | .uint, .uint => .ok (tJust "bool")
  | .char, .char => .ok (tJust "bool")
  | .bool, .bool => .ok (tJust "boo")
  | .flt, .constnum | .sint, .constnum | .uint, .constnum => .ok (tJust "bool")
  | .constnum, .flt | .constnum, .sint | .constnum, .uint => .ok (tJust "bool")
  | .char, .constnum => .ok (tJust "bool")
  | .constnum, .char => .ok (tJust "bool")
  | .char, .sint => .ok (tJust "bool")
  | .sint, .char => .ok (tJust "bool")
  | .unk, _ => .ok (tJust "bool")
  | _, .unk => .ok (tJust "bool")
  | .ptr, .ptr => .ok (tJust "bool")
  | .constnum, .constnum => .ok (tJust "bool")
  | _, _ => .err ("comparison between " ++ a.fmt ++ " and " ++ b.fmt)

/-- `src/types.rs:266-274` `typeof_boolcomp`. -/
def typeofBoolcomp (a b : Ty) : Res String Ty :=
  if !isBooly a then .err (a.fmt ++ " used as boolean")
  else if !isBooly b then .err (b.fmt ++ " used as boolean")
  else .ok (tJust "bool")

/-- `src/types.rs:276-299` `typeof_index`. -/
def typeofIndex (arr ind : Ty) : Res String Ty :=
  if isTodo arr then .ok arr
  else
    match arr.ops with
    | [] => .ok tTodo
    | .index :: rest => .ok (.mk arr.base rest)
    | .deref :: rest => .ok (.mk arr.base rest)
    | _ => .err ("index: (" ++ arr.fmt ++ ")[" ++ ind.fmt ++ "]")

end Che
