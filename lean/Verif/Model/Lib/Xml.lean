import Verif.Model.Basic
import Verif.Model.Lib.Tokenizer

/-!
Model of `lib/formats/xml.c`.

The file and the character in `nextchar` are one list: what has not been taken by `get`.  `feof` is asked after
`peek` only, and is true if nothing is left.  Names and values are what has been put into the arrays, up to the
terminating zero for names, which have letters only.  Error messages, `line` and `col` are not modelled, only
whether there is an error.  `calloc!` succeeds and the file is there.
-/
namespace Che.Lib.Xml
open Che.Lib

/-- The types of tags, lib/formats/xml.c:17-22. -/
inductive Ty | null | opening | close | mono
deriving DecidableEq, Repr

/-- `__tag`, lib/formats/xml.c:29-34, with the attributes up to `nattrs`. -/
structure Tag where
  name : Bytes
  ty : Ty
  attrs : List (Bytes × Bytes)
deriving DecidableEq, Repr

/-- `xml`, lib/formats/xml.c:36-54.  `path` has the innermost parent first. -/
structure X where
  rest : Bytes
  node : Tag
  next : Tag
  path : List Bytes
  error : Bool
deriving DecidableEq, Repr

/-- `isalpha` of a byte. -/
def isalpha (c : UInt8) : Bool := (65 ≤ c && c ≤ 90) || (97 ≤ c && c ≤ 122)

/-- `isspace` of a byte. -/
def isspace (c : UInt8) : Bool := c = 32 || (9 ≤ c && c ≤ 13)

/-- `discard_spaces`, lib/formats/xml.c:432-436. -/
def discard_spaces (x : X) : X := { x with rest := x.rest.dropWhile isspace }

/-- `expect`, lib/formats/xml.c:438-444 with `get`, lib/formats/xml.c:411-430. -/
def expect (x : X) (ch : UInt8) : X :=
  { x with rest := x.rest.tail, error := x.error || decide (x.rest.head? ≠ some ch) }

/-- `if(peek(x) == '/')`, lib/formats/xml.c:329-332 and 392-398. -/
def mark (x : X) (yes no : Ty) : X :=
  if x.rest.head? = some 47 then { x with rest := x.rest.tail, next := { x.next with ty := yes } }
  else { x with next := { x.next with ty := no } }

/-- The name of a tag, lib/formats/xml.c:334-346: the second result is false where the function returns. -/
def readName (x : X) : X × Bool :=
  let name := x.rest.takeWhile isalpha
  if name.length > 15 then
    ({ x with rest := x.rest.drop 15, next := { x.next with name := name.take 15 }, error := true }, false)
  else
    let x := { x with rest := x.rest.dropWhile isalpha, next := { x.next with name := name } }
    if name = [] then ({ x with error := true }, false) else (x, true)

/-- The value of an attribute, lib/formats/xml.c:376-389. -/
def readValue (x : X) : Res String (Bytes × X) :=
  let x := expect (expect x 61) 34
  let value := x.rest.takeWhile (· ≠ 34)
  if value.length > 4095 then .panic "attrvalue too long"
  else .ok (value, expect { x with rest := x.rest.dropWhile (· ≠ 34) } 34)

/-- An attribute, lib/formats/xml.c:360-389, after the check of line 356. -/
def readAttr (x : X) : Res String X :=
  if x.next.attrs.length ≥ 64 then .panic "too many attributes"
  else
    let name := x.rest.takeWhile isalpha
    if name.length > 15 then .panic "attrname too long"
    else
      (readValue { x with rest := x.rest.dropWhile isalpha }).bind fun (value, x) =>
        .ok { x with next := { x.next with attrs := x.next.attrs ++ [(name, value)] } }

/-- Whether a name begins. -/
def atName (x : X) : Bool := (x.rest.head?.map isalpha).getD false

/-- The loop over the attributes, lib/formats/xml.c:354-390.  Every round takes a letter. -/
def readAttrs : Nat → X → Res String X
  | 0, _ => .diverge
  | n + 1, x =>
    let x := discard_spaces x
    if !atName x then .ok x else (readAttr x).bind fun x => readAttrs n x

/-- The rest of a tag that is not a closing one, lib/formats/xml.c:353-400. -/
def readRest (x : X) : Res String X :=
  (readAttrs (x.rest.length + 1) { x with next := { x.next with attrs := [] } }).bind fun x =>
    .ok (expect (mark x .mono .opening) 62)

/-- `read_tag`, lib/formats/xml.c:315-401. -/
def read_tag (x : X) : Res String X :=
  if x.next.ty ≠ .null then .ok x
  else
    let x := discard_spaces x
    if x.rest = [] then .ok x
    else
      let (x, ok) := readName (mark (expect x 60) .close .null)
      if !ok then .ok x
      else if x.next.ty = .close then .ok (expect x 62)
      else readRest x

/-- `shift`, lib/formats/xml.c:294-301. -/
def shift (x : X) : Res String X :=
  (read_tag x).bind fun x => .ok { x with node := x.next, next := { x.next with ty := .null } }

/-- `pushparent`, lib/formats/xml.c:282-289. -/
def pushparent (x : X) : Res String X :=
  if x.path.length ≥ 4 then .panic "Reached max stack depth" else .ok { x with path := x.node.name :: x.path }

/-- The header, lib/formats/xml.c:72-79. -/
def header (x : X) : X :=
  let x := expect (expect (discard_spaces x) 60) 63
  expect { x with rest := x.rest.dropWhile (· ≠ 62) } 62

/-- `xml_open`, lib/formats/xml.c:59-95, with what is in the file. -/
def xml_open (file : Bytes) : Res String X :=
  let x : X := { rest := file, node := ⟨[], .null, []⟩, next := ⟨[], .null, []⟩, path := [], error := false }
  (read_tag (header x)).bind fun x =>
    if x.next.ty ≠ .opening ∧ x.next.ty ≠ .mono then .ok { x with error := true } else shift x

/-- `xml_nodename`, lib/formats/xml.c:109-118. -/
def xml_nodename (x : X) : Option Bytes := if x.error then none else if x.node.ty = .null then none else some x.node.name

/-- `xml_attr`, lib/formats/xml.c:124-141: the string at the pointer that is returned. -/
def xml_attr (x : X) (name : Bytes) : Option Bytes :=
  if x.error then none
  else if x.node.ty = .null then none
  else (x.node.attrs.find? (·.1 = name)).map fun a => a.2.takeWhile (· ≠ 0)

/-- `xml_enter`, lib/formats/xml.c:146-185. -/
def xml_enter (x : X) : Res String (X × Bool) :=
  if x.error then .ok (x, false)
  else if x.node.ty = .null ∨ x.node.ty = .mono then .ok (x, false)
  else
    (read_tag x).bind fun x =>
      match x.next.ty with
      | .opening | .mono => (pushparent x).bind fun x => (shift x).bind fun x => .ok (x, true)
      | .close =>
        if x.next.name ≠ x.node.name then .ok ({ x with error := true }, false)
        else (pushparent x).bind fun x => .ok ({ x with node := { x.node with ty := .null } }, true)
      | .null => .panic "xml error 0152"

/-- The end of `xml_next` and of `xml_leave`: lib/formats/xml.c:206-220 and 265-271. -/
def sibling (x : X) : Res String X :=
  (read_tag x).bind fun x =>
    if x.next.ty = .opening ∨ x.next.ty = .mono then shift x else .ok { x with node := { x.node with ty := .null } }

/-- The part of `xml_leave` after the loop, lib/formats/xml.c:249-271. -/
def leaveEnd (x : X) : Res String X :=
  (read_tag x).bind fun x =>
    match x.path with
    | [] => .panic "undefined: read outside of an array"
    | pname :: path =>
      if x.next.ty ≠ .close ∨ x.next.name ≠ pname then .ok { x with error := true }
      else sibling { x with next := { x.next with ty := .null }, path := path }

mutual
/-- `xml_next`, lib/formats/xml.c:190-228, with at most `n` nested rounds and calls. -/
def xml_next : Nat → X → Res String X
  | 0, _ => .diverge
  | n + 1, x =>
    if x.error then .ok x
    else
      match x.node.ty with
      | .null => .ok x
      | .opening => (xml_enter x).bind fun r => xml_leave n r.1
      | .mono => sibling x
      | .close => .panic "xml: error 0209"

/-- `xml_leave`, lib/formats/xml.c:233-272. -/
def xml_leave : Nat → X → Res String X
  | 0, _ => .diverge
  | n + 1, x => if x.error then .ok x else (skip n x).bind leaveEnd

/-- The loop of `xml_leave`, lib/formats/xml.c:242-244. -/
def skip : Nat → X → Res String X
  | 0, _ => .diverge
  | n + 1, x => if x.node.ty = .null then .ok x else (xml_next n x).bind fun x => skip n x
end
end Che.Lib.Xml
