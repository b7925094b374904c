import Verif.Model.Lib.Tokenizer

/-!
Model of `lib/formats/json.c`.

`double` is a type `D` with the library's printing and reading, which are not modelled.
A value owns its parts, so freeing is not modelled; nor are the texts of errors.  The
recursion has a budget; it is the depth of the C stack that bounds it in C.
`strbuilder` is taken to append (C58); `grow_if_needed` to make room.
-/
namespace Che.Lib.Json
open Che.Lib

/-- `sscanf("%lf")`, `v == round(v)`, `sprintf("%.0f")` and `sprintf("%f")`. -/
structure Dbl (D : Type) where
  scan : Bytes → D
  round : D → Bool
  fmt0 : D → Bytes
  fmt6 : D → Bytes

/-- `val_t`, lib/formats/json.c:9-31. -/
inductive Val (D : Type)
  | null
  | bool (b : Bool)
  | num (d : D)
  | str (s : Bytes)
  | arr (vals : List (Val D))
  | obj (entries : List (Bytes × Val D))

variable {D : Type}

/-- `json_put` on the entries of an object, lib/formats/json.c:102-126. -/
def put {V : Type} (k : Bytes) (v : V) : List (Bytes × V) → List (Bytes × V)
  | [] => [(k, v)]
  | e :: es => if e.1 = k then (e.1, v) :: es else e :: put k v es

/-- `get` on the entries of an object, lib/formats/json.c:196-206. -/
def get {V : Type} (k : Bytes) : List (Bytes × V) → Option V
  | [] => none
  | e :: es => if e.1 = k then some e.2 else get k es

/-- `json_push` on the values of an array, lib/formats/json.c:129-137. -/
def push (v : Val D) (vals : List (Val D)) : List (Val D) := vals ++ [v]

mutual
/-- `clone`, lib/formats/json.c:64-100. -/
def clone : Val D → Res Unit (Val D)
  | .obj es => do .ok (.obj (← cloneEntries es []))
  | .arr vs => do .ok (.arr (← cloneVals vs []))
  | .str s => .ok (.str s)
  | .num d => .ok (.num d)
  | .bool b => .ok (.bool b)
  | .null => .panic "json.clone: forgot case 1"

/-- The loop over the entries, lib/formats/json.c:73-77. -/
def cloneEntries : List (Bytes × Val D) → List (Bytes × Val D) → Res Unit (List (Bytes × Val D))
  | [], copy => .ok copy
  | (k, v) :: es, copy => do
    let v ← clone v
    cloneEntries es (put k v copy)

/-- The loop over the values, lib/formats/json.c:81-84. -/
def cloneVals : List (Val D) → List (Val D) → Res Unit (List (Val D))
  | [], copy => .ok copy
  | v :: vs, copy => do
    let v ← clone v
    cloneVals vs (push v copy)
end

/-- `tok_more`, lib/formats/json.c:401-404. -/
def tok_more (p : Tok.T) : Tok.T × Bool := Tok.more (Tok.spaces p).1

/-- `tok_peek`, lib/formats/json.c:407-410. -/
def tok_peek (p : Tok.T) : Tok.T × Int := Tok.peek (Tok.spaces p).1

/-- `eat`, lib/formats/json.c:414-420. -/
def eat (p : Tok.T) (c : Int) : Tok.T × Bool :=
  let (p, x) := tok_peek p
  if x = c then ((Tok.get p).1, true) else (p, false)

/-- `expect`, lib/formats/json.c:422-432. -/
def expect (p : Tok.T) (c : Int) : Res Unit Tok.T :=
  let (p, m) := Tok.more p
  if !m then .err ()
  else
    let (p, ok) := eat p c
    if !ok then .err () else .ok p

/-- The loop of `readstr`, lib/formats/json.c:373-392. -/
def readstrLoop : Nat → Tok.T → Bytes → Res Unit (Tok.T × Bytes)
  | 0, _, _ => .diverge
  | n + 1, p, s =>
    let (p, m) := Tok.more p
    if !m then .ok (p, s)
    else
      let (p, c) := Tok.peek p
      if c = 34 then .ok (p, s)
      else
        let (p, c) := Tok.get p
        if c = 92 then
          let (p, c) := Tok.get p
          if c = -1 then .err () else readstrLoop n p (s ++ [Tok.toByte c])
        else readstrLoop n p (s ++ [Tok.toByte c])

/-- `readstr`, lib/formats/json.c:366-398. -/
def readstr (p : Tok.T) : Res Unit (Tok.T × Bytes) := do
  let p ← expect p 34
  let (p, s) ← readstrLoop (Tok.rounds p) p []
  let p ← expect p 34
  .ok (p, s)

/-- `read_str`, lib/formats/json.c:322-330. -/
def read_str (p : Tok.T) : Res Unit (Tok.T × Val D) := do
  let (p, s) ← readstr p
  .ok (p, .str s)

/-- `read_num`, lib/formats/json.c:332-346. -/
def read_num (dbl : Dbl D) (p : Tok.T) : Res Unit (Tok.T × Val D) :=
  match Tok.num p 100 with
  | (_, none) => .err ()
  | (p, some text) => .ok (p, .num (dbl.scan text))

/-- `read_kw`, lib/formats/json.c:348-364. -/
def read_kw (p : Tok.T) : Res Unit (Tok.T × Val D) :=
  let (p, f) := Tok.skip_literal p [116, 114, 117, 101]
  if f then .ok (p, .bool true)
  else
    let (p, f) := Tok.skip_literal p [102, 97, 108, 115, 101]
    if f then .ok (p, .bool false)
    else
      let (p, f) := Tok.skip_literal p [110, 117, 108, 108]
      if f then .ok (p, .null) else .err ()

mutual
/-- `read_node`, lib/formats/json.c:241-259. -/
def read_node (dbl : Dbl D) : Nat → Tok.T → Res Unit (Tok.T × Val D)
  | 0, _ => .diverge
  | n + 1, p =>
    let (p, m) := tok_more p
    if !m then .err ()
    else
      let (p, c) := tok_peek p
      if c = 91 then read_array dbl n p
      else
        let (p, c) := tok_peek p
        if c = 123 then read_dict dbl n p
        else
          let (p, c) := tok_peek p
          if c = 34 then read_str p
          else
            let (p, c) := tok_peek p
            if Tok.isdigit c then read_num dbl p
            else
              let (p, c) := tok_peek p
              if c = 45 then read_num dbl p else read_kw p

/-- `read_array`, lib/formats/json.c:261-285. -/
def read_array (dbl : Dbl D) : Nat → Tok.T → Res Unit (Tok.T × Val D)
  | 0, _ => .diverge
  | n + 1, p => do
    let p ← expect p 91
    let (p, closed) := eat p 93
    if closed then .ok (p, .arr [])
    else
      let (p, vals) ← arrayLoop dbl n p []
      let p ← expect p 93
      .ok (p, .arr vals)

/-- The loop of `read_array`, lib/formats/json.c:269-279. -/
def arrayLoop (dbl : Dbl D) : Nat → Tok.T → List (Val D) → Res Unit (Tok.T × List (Val D))
  | 0, _, _ => .diverge
  | n + 1, p, a =>
    let (p, m) := tok_more p
    if !m then .ok (p, a)
    else do
      let (p, x) ← read_node dbl n p
      let a := push x a
      let (p, comma) := eat p 44
      if !comma then .ok (p, a) else arrayLoop dbl n p a

/-- `read_dict`, lib/formats/json.c:287-320. -/
def read_dict (dbl : Dbl D) : Nat → Tok.T → Res Unit (Tok.T × Val D)
  | 0, _ => .diverge
  | n + 1, p => do
    let p ← expect p 123
    let (p, closed) := eat p 125
    if closed then .ok (p, .obj [])
    else
      let (p, es) ← dictLoop dbl n p []
      let p ← expect p 125
      .ok (p, .obj es)

/-- The loop of `read_dict`, lib/formats/json.c:295-314. -/
def dictLoop (dbl : Dbl D) : Nat → Tok.T → List (Bytes × Val D) → Res Unit (Tok.T × List (Bytes × Val D))
  | 0, _, _ => .diverge
  | n + 1, p, o =>
    let (p, m) := tok_more p
    if !m then .ok (p, o)
    else do
      let (p, key) ← readstr p
      let p ← expect p 58
      let (p, val) ← read_node dbl n p
      let o := put key val o
      let (p, comma) := eat p 44
      if !comma then .ok (p, o) else dictLoop dbl n p o
end

/-- The budget: of three calls inside one another at least one takes a character. -/
def budget (s : Bytes) : Nat := 3 * s.length + 1

/-- `parse`, lib/formats/json.c:232-237, with the state in which it leaves the tokenizer. -/
def parse (dbl : Dbl D) (s : Bytes) : Res Unit (Tok.T × Val D) := read_node dbl (budget s) (Tok.from_str s)

/-- The text of one character, lib/formats/json.c:511-523. -/
def writechar (c : UInt8) : Bytes :=
  if c = 10 then [92, 92, 110]
  else if c = 9 then [92, 92, 116]
  else if c = 92 || c = 34 || c = 47 then [92, c]
  else [c]

/-- `writestr`, lib/formats/json.c:506-529. -/
def writestr (s : Bytes) : Bytes := [34] ++ s.flatMap writechar ++ [34]

/-- The text of a number, lib/formats/json.c:532-538.  The buffer has 100 bytes. -/
def numText (dbl : Dbl D) (v : D) : Bytes := if dbl.round v then dbl.fmt0 v else dbl.fmt6 v

/-- `writenum`, lib/formats/json.c:531-540: `none` when `sprintf` writes past the buffer. -/
def writenum (dbl : Dbl D) (v : D) : Option Bytes :=
  if (numText dbl v).length < 100 then some (numText dbl v) else none

mutual
/-- `writenode` and `writebool`, lib/formats/json.c:464-474, 542-548. -/
def writenode (dbl : Dbl D) : Val D → Option Bytes
  | .obj es => do some ([123] ++ (← writeentries dbl es) ++ [125])
  | .arr vs => do some ([91] ++ (← writevals dbl vs) ++ [93])
  | .str s => some (writestr s)
  | .num d => writenum dbl d
  | .bool true => some [116, 114, 117, 101]
  | .bool false => some [102, 97, 108, 115, 101]
  | .null => some [110, 117, 108, 108]

/-- The loop of `writeobj`, lib/formats/json.c:479-488. -/
def writeentries (dbl : Dbl D) : List (Bytes × Val D) → Option Bytes
  | [] => some []
  | [(k, v)] => do some ([34] ++ k ++ [34, 58] ++ (← writenode dbl v))
  | (k, v) :: es => do
    let t ← writenode dbl v
    some ([34] ++ k ++ [34, 58] ++ t ++ [44] ++ (← writeentries dbl es))

/-- The loop of `writearr`, lib/formats/json.c:496-501. -/
def writevals (dbl : Dbl D) : List (Val D) → Option Bytes
  | [] => some []
  | [v] => writenode dbl v
  | v :: vs => do
    let t ← writenode dbl v
    some (t ++ [44] ++ (← writevals dbl vs))
end

/-- `format`, lib/formats/json.c:455-462. -/
def format (dbl : Dbl D) (v : Val D) : Option Bytes := writenode dbl v

/-- One round of the loop of `write_string`, lib/formats/json.c:559-566. -/
def write_char (c : UInt8) : Bytes :=
  if c = 10 then [92, 110]
  else if c = 13 then [92, 114]
  else if c = 9 then [92, 116]
  else if c = 92 then [92, 92]
  else if c = 34 then [92, 34]
  else [c]

/-- `write_string`, lib/formats/json.c:556-570. -/
def write_string (s : Bytes) : Bytes := [34] ++ s.flatMap write_char ++ [34]

end Che.Lib.Json
