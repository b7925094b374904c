import Verif.Model.Prog.Wisp

/-!
Model of the reader of `prog/wisp`: `eater.c` and the reader in `eval.c`, and of `obj_print`.

Characters are `int`s: -1 is `EOF`; bytes of a file are 0 to 255, bytes of a string are -128 to 127.  Counting references, line numbers, prompts and what is printed to `stderr` are not modelled.
-/
namespace Che.Prog.Wisp
open Che Che.Lib

/-! ### `eater.c` -/

/-- Where characters come from. -/
inductive Src where
  | file (rest : Bytes)
  | str (rest : Bytes)
deriving DecidableEq, Repr

/-- `t`, prog/wisp/eater.c:7-19: `buf` is what is before `bufp`, `back` is what is in `readbuf`, last first. -/
structure Eater where
  src : Src
  buf : Bytes
  buflen : Nat
  back : List Int
  readbuflen : Nat
deriving DecidableEq, Repr

/-- `init`, prog/wisp/eater.c:21-32. -/
def Eater.init (src : Src) : Eater := { src, buf := [], buflen := 1024, back := [], readbuflen := 8 }

/-- An `int` that becomes a `char`, as a byte. -/
def toByte (c : Int) : UInt8 := UInt8.ofNat (c % 256).toNat

/-- A `char` that becomes an `int`. -/
def toChar (b : UInt8) : Int := if b < 128 then b.toNat else (b.toNat : Int) - 256

/-- `getc`, prog/wisp/eater.c:35-54. -/
def getc (e : Eater) : Int × Eater :=
  match e.back with
  | c :: back => (c, { e with back })
  | [] =>
    match e.src with
    | .str [] => (-1, e)
    | .str (b :: rest) => (toChar b, { e with src := .str rest })
    | .file [] => (-1, e)
    | .file (b :: rest) => (b.toNat, { e with src := .file rest })

/-- `putc`, prog/wisp/eater.c:57-66: `readbufp` is `back.length`; position 0 of the array is not used. -/
def putc (e : Eater) (c : Int) : Res Unit Eater :=
  let p := e.back.length + 1
  let e := if p = e.readbuflen then { e with readbuflen := e.readbuflen * 2 } else e
  if p < e.readbuflen then .ok { e with back := c :: e.back } else .panic "undefined: write outside of an array"

/-- `strchr(s, c) != NULL`: the zero at the end is found too. -/
def strchr (s : Bytes) (c : Int) : Bool := toByte c = 0 ∨ toByte c ∈ s

/-- More than the number of characters that are left. -/
def Eater.left (e : Eater) : Nat :=
  e.back.length + (match e.src with | .str r => r.length | .file r => r.length) + 2

/-- The loop of `consume_whitespace`, prog/wisp/eater.c:71-72. -/
def skipLoop : Nat → Eater → Int → Res Unit (Eater × Int)
  | 0, _, _ => .diverge
  | k + 1, e, c =>
    if strchr (cstr " \t\r") c then
      let (c, e) := getc e
      skipLoop k e c
    else .ok (e, c)

/-- `consume_whitespace`, prog/wisp/eater.c:69-75. -/
def consume_whitespace (e : Eater) : Res Unit Eater := do
  let (c, e1) := getc e
  let (e, c) ← skipLoop e.left e1 c
  if c ≠ 10 then putc e c else .ok e

/-- The loop of `consume_line`, prog/wisp/eater.c:80-81. -/
def lineLoop : Nat → Eater → Int → Res Unit (Eater × Int)
  | 0, _, _ => .diverge
  | k + 1, e, c =>
    if c ≠ 10 ∧ c ≠ -1 then
      let (c, e) := getc e
      lineLoop k e c
    else .ok (e, c)

/-- `consume_line`, prog/wisp/eater.c:78-84. -/
def consume_line (e : Eater) : Res Unit Eater := do
  let (c, e1) := getc e
  let (e, c) ← lineLoop e.left e1 c
  if c ≠ 10 then putc e c else .ok e

/-- `buf_append`, prog/wisp/eater.c:87-96: the array has `buflen + 1` bytes. -/
def buf_append (e : Eater) (c : Int) : Res Unit Eater :=
  let p := e.buf.length
  let e := if p = e.buflen then { e with buflen := e.buflen * 2 } else e
  if p + 1 < e.buflen + 1 then .ok { e with buf := e.buf ++ [toByte c] } else .panic "undefined: write outside of an array"

/-- The next character and if it is escaped, prog/wisp/eater.c:100-105 and 108-113. -/
def getesc (e : Eater) : Int × Bool × Eater :=
  let (c, e) := getc e
  if c = 92 then
    let (c, e) := getc e
    (c, true, e)
  else (c, false, e)

/-- The loop of `buf_read`, prog/wisp/eater.c:106-114. -/
def readLoop (halt : Bytes) : Nat → Eater → Int → Bool → Res Unit (Eater × Int)
  | 0, _, _, _ => .diverge
  | k + 1, e, c, esc =>
    if (esc ∨ strchr halt c = false) ∧ c ≠ -1 then do
      let e ← buf_append e c
      let (c, esc, e) := getesc e
      readLoop halt k e c esc
    else .ok (e, c)

/-- `buf_read`, prog/wisp/eater.c:99-117. -/
def buf_read (e : Eater) (halt : Bytes) : Res Unit Eater := do
  let (c, esc, e1) := getesc e
  let (e, c) ← readLoop halt e.left e1 c esc
  putc e c

/-! ### Values -/

/-- `val_t` of values that have a text, prog/wisp/eval.c:9-16: an integer is an `int` (prog/wisp/mp.c:2-4), a float is the text that `sscanf` gets, a symbol is its name (see `symbol`),
a vector is given by the list of its elements. -/
inductive Val where
  | int (n : Int)
  | float (text : Bytes)
  | str (raw : Bytes)
  | sym (name : Bytes)
  | cons (car cdr : Val)
  | vec (items : Val)
deriving DecidableEq, Repr

/-- `NIL`, prog/wisp/eval.c:629. -/
def nil : Val := .sym (cstr "nil")

/-- `%d`. -/
def decimal (n : Int) : Bytes := if n < 0 then 45 :: (Nat.toDigits 10 n.natAbs).map (fun c => UInt8.ofNat c.toNat) else (Nat.toDigits 10 n.natAbs).map fun c => UInt8.ofNat c.toNat

/-- The text of an array of `char`. -/
def textOf (a : Bytes) : Bytes := a.takeWhile (· ≠ 0)

/-- What `printf("%s", addslashes(raw))` prints; `addslashes` reads `raw` up to the first zero. -/
def printStr (raw : Bytes) : Bytes :=
  match addslashes (textOf raw) with
  | .ok a => textOf a
  | _ => []

mutual

/-- `obj_print` of an object, prog/wisp/eval.c:489-541. `%g` of floats is not modelled: they are printed as they were read. -/
def print : Val → Bytes
  | .int n => decimal n
  | .float t => t
  | .str raw => printStr raw
  | .sym name => name
  | .cons a d => 40 :: print a ++ printTail d ++ [41]
  | .vec items => 91 :: printItems true items ++ [93]

/-- The loop over a list after its first element, and what comes after it, prog/wisp/eval.c:494-502. -/
def printTail : Val → Bytes
  | .cons a d => 32 :: print a ++ printTail d
  | .int n => [32, 46, 32] ++ decimal n
  | .float t => [32, 46, 32] ++ t
  | .str raw => [32, 46, 32] ++ printStr raw
  | .sym name => if Val.sym name = nil then [] else [32, 46, 32] ++ name
  | .vec items => [32, 46, 32] ++ (91 :: printItems true items ++ [93])

/-- The loop over a vector, prog/wisp/eval.c:525-528. -/
def printItems (first : Bool) : Val → Bytes
  | .cons a d => (if first then [] else [32]) ++ print a ++ printItems false d
  | _ => []

end

/-! ### Atoms -/

def isSpace (b : UInt8) : Bool := b = 32 ∨ (9 ≤ b ∧ b ≤ 13)
def isDigit (b : UInt8) : Bool := 48 ≤ b ∧ b ≤ 57
def isHex (b : UInt8) : Bool := isDigit b ∨ (65 ≤ b ∧ b ≤ 70) ∨ (97 ≤ b ∧ b ≤ 102)
def isAlnum (b : UInt8) : Bool := isDigit b ∨ (65 ≤ b ∧ b ≤ 90) ∨ (97 ≤ b ∧ b ≤ 122) ∨ b = 95

def lower (b : UInt8) : UInt8 := if 65 ≤ b ∧ b ≤ 90 then b + 32 else b

/-- White space and a sign in front of a number; says if the sign is a minus. -/
def sign (s : Bytes) : Bool × Bytes :=
  match s.dropWhile isSpace with
  | 45 :: r => (true, r)
  | 43 :: r => (false, r)
  | r => (false, r)

/-- `strtol` (base 10) takes the whole text. -/
def intText (s : Bytes) : Bool := (sign s).2 ≠ [] ∧ (sign s).2.all isDigit

/-- Digits, perhaps with a point, at least one digit; gives the rest. -/
def mantissa (digit : UInt8 → Bool) (s : Bytes) : Option Bytes :=
  match s.span digit with
  | (d, 46 :: r) => if d = [] ∧ (r.takeWhile digit) = [] then none else some (r.dropWhile digit)
  | (d, r) => if d = [] then none else some r

/-- An exponent that takes the whole text. -/
def exponent (mark : UInt8) (s : Bytes) : Bool :=
  match s with
  | [] => true
  | e :: r => lower e = mark ∧ (let r := match r with | 45 :: r => r | 43 :: r => r | r => r; r ≠ [] ∧ r.all isDigit)

/-- Digits and an exponent that take the whole text. -/
def floatDigits (digit : UInt8 → Bool) (mark : UInt8) (s : Bytes) : Bool :=
  match mantissa digit s with
  | some r => exponent mark r
  | none => false

/-- `strtod` takes the whole text. -/
def floatText (s : Bytes) : Bool :=
  let r := (sign s).2
  let l := r.map lower
  decide (l = cstr "inf" ∨ l = cstr "infinity" ∨ l = cstr "nan" ∨ (l.take 4 = cstr "nan(" ∧ l.getLast? = some 41 ∧ 5 ≤ l.length ∧ ((l.drop 4).dropLast).all isAlnum)) ||
    floatDigits isDigit 101 r || (decide (l.take 2 = cstr "0x") && floatDigits isHex 112 (r.drop 2))

/-- The value of digits. -/
def digitsValue (s : Bytes) : Nat := s.foldl (fun n b => n * 10 + (b.toNat - 48)) 0

/-- `sscanf(s, "%d")` of a text of digits, prog/wisp/mp.c:42: the behaviour is undefined if the number does not fit. -/
def intValue (s : Bytes) : Res Unit Int :=
  let (neg, d) := sign s
  let n : Int := if neg then -(digitsValue d) else digitsValue d
  if -2 ^ 31 ≤ n ∧ n < 2 ^ 31 then .ok n else .panic "undefined: number out of range"

/-- `atom_chars`, prog/wisp/eval.c:130-132. -/
def atom_chars : Bytes := cstr "ABCDEFGHIJKLMNOPQRSTUVWXYZabcdefghijklmnopqrstuvwxyz0123456789!#$%^&*-_=+|\\/?.~<>"

/-! ### The reader -/

/-- `rstate_t`, prog/wisp/eval.c:1106-1111: the list that is being read (its elements and what is after the point). -/
structure State where
  items : List Val
  tail : Val
  quote_mode : Bool
  dotpair_mode : Nat
  vector_mode : Bool
deriving DecidableEq, Repr

/-- `reader_t`, prog/wisp/eval.c:1113-1127: `stack` has the states above `base`, the last first. -/
structure Reader where
  eater : Eater
  stack : List State
  eof : Bool
  error : Bool
  shebang : Int
deriving DecidableEq, Repr

/-- `reader_create`, prog/wisp/eval.c:1137-1155; `interactive` is 0 or 1. -/
def reader_create (src : Src) (interactive : Bool) : Reader :=
  { eater := Eater.init src, stack := [], eof := false, error := false, shebang := if interactive then 0 else -1 }

/-- `push`, prog/wisp/eval.c:1171-1184.  At height 32 (`ssize`) the array gets `sizeof(rstate_t *) * 64` = 512 bytes, less than it had (32 states of 32 bytes), and the new state is outside. -/
def push (r : Reader) : Res Unit Reader :=
  if r.stack.length + 1 = 32 then .panic "undefined: write outside of an array"
  else .ok { r with stack := { items := [], tail := nil, quote_mode := false, dotpair_mode := 0, vector_mode := false } :: r.stack }

/-- `cdr(r->state->head)`. -/
def State.list (s : State) : Val := s.items.foldr .cons s.tail

/-- What `pop` returns if there is no error, prog/wisp/eval.c:1196-1206. -/
def State.value (s : State) : Val := if s.vector_mode then .vec s.list else s.list

/-- `read_error` and `reset`, prog/wisp/eval.c:1209-1233. -/
def read_error (r : Reader) : Res Unit Reader := do
  let e ← consume_line r.eater
  .ok { r with eater := { e with buf := [], back := [] }, stack := [], error := true }

/-- `pop` and `add` on the stack of states, prog/wisp/eval.c:1187-1207 and 1248-1270; an error is a call of `read_error`. -/
def addTo : List State → Val → Res String (List State)
  | [], _ => .panic "undefined: null pointer"
  | s :: rest, o =>
    if s.dotpair_mode = 2 then .err "invalid dotted pair syntax - too many objects"
    else
      let s := if s.dotpair_mode = 0 then { s with items := s.items ++ [o] } else { s with tail := o, dotpair_mode := 2 }
      if s.quote_mode then
        match rest with
        | [] => .err "unbalanced parenthesis"
        | _ :: _ => addTo rest s.value
      else .ok (s :: rest)

/-- The result of `addTo` as the state of the reader. -/
def settle (r : Reader) (x : Res String (List State)) : Res Unit Reader :=
  match x with
  | .ok stack => .ok { r with stack }
  | .err _ => read_error r
  | .panic m => .panic m
  | .diverge => .diverge

/-- `add`, prog/wisp/eval.c:1248-1264. -/
def add (r : Reader) (o : Val) : Res Unit Reader := settle r (addTo r.stack o)

/-- `addpop`, prog/wisp/eval.c:1267-1270, with `pop`, prog/wisp/eval.c:1187-1207. -/
def addpop (r : Reader) : Res Unit Reader :=
  match r.stack with
  | [] => read_error r
  | [_] => read_error r
  | s :: rest => if s.dotpair_mode = 1 then read_error r else settle r (addTo rest s.value)

/-- `parse_str`, prog/wisp/eval.c:1273-1279. -/
def parse_str (r : Reader) : Reader × Val := ({ r with eater := { r.eater with buf := [] } }, .str (textOf r.eater.buf))

/-- `parse_atom`, prog/wisp/eval.c:1282-1322. -/
def parse_atom (r : Reader) : Res Unit (Reader × Val) :=
  let str := textOf r.eater.buf
  let r' := { r with eater := { r.eater with buf := [] } }
  if intText str then do
    let n ← intValue str
    .ok (r', .int n)
  else if floatText str then .ok (r', .float str)
  else if r.eater.buf.all fun b => strchr atom_chars (toChar b) then .ok (r', .sym str)
  else do
    let r ← read_error r
    .ok (r, nil)

/-- A change of the top state. -/
def setTop (r : Reader) (f : State → State) : Res Unit Reader :=
  match r.stack with
  | [] => .panic "undefined: null pointer"
  | s :: rest => .ok { r with stack := f s :: rest }

/-- The top state; the state at `base` is all zero and has no list. -/
def topOf (r : Reader) : State :=
  match r.stack with
  | [] => { items := [], tail := nil, quote_mode := false, dotpair_mode := 0, vector_mode := false }
  | s :: _ => s

/-- A point, prog/wisp/eval.c:1360-1385. -/
def readDot (r : Reader) : Res Unit Reader := do
  let (nc, e) := getc r.eater
  let r := { r with eater := e }
  if strchr (cstr " \t\r\n()") nc then
    if (topOf r).dotpair_mode > 0 then read_error r
    else if (topOf r).vector_mode then read_error r
    else do
      let r ← setTop r fun s => { s with dotpair_mode := 1 }
      let e ← putc r.eater nc
      .ok { r with eater := e }
  else do
    let e ← putc r.eater nc
    let e ← putc e 46
    let e ← putc e 48
    .ok { r with eater := e }

/-- A text in quotes, prog/wisp/eval.c:1419-1428. -/
def readStr (r : Reader) : Res Unit Reader := do
  let e ← buf_read r.eater (cstr "\"")
  let (r, o) := parse_str { r with eater := e }
  let r ← add r o
  let (_, e) := getc r.eater
  .ok { r with eater := e }

/-- Numbers and symbols, prog/wisp/eval.c:1429-1439. -/
def readAtom (r : Reader) (c : Int) : Res Unit Reader := do
  let e ← buf_append r.eater c
  let e ← buf_read e (cstr " \t\r\n()[];")
  let (r, o) ← parse_atom { r with eater := e }
  if r.error then .ok r else add r o

/-- The body of the loop of `read_sexp`, prog/wisp/eval.c:1349-1440. -/
def step (r : Reader) : Res Unit Reader :=
  let (c, e) := getc r.eater
  let r := { r with eater := e }
  if c = -1 then .ok { r with eof := true }
  else if c = 59 then do
    let e ← consume_line r.eater
    .ok { r with eater := e }
  else if c = 46 then readDot r
  else if c = 10 ∨ c = 32 ∨ c = 9 ∨ c = 13 then .ok r
  else if c = 40 then push r
  else if c = 41 then
    if (topOf r).quote_mode then read_error r
    else if (topOf r).vector_mode then read_error r
    else addpop r
  else if c = 91 then do
    let r ← push r
    setTop r fun s => { s with vector_mode := true }
  else if c = 93 then
    if (topOf r).quote_mode then read_error r
    else if (topOf r).vector_mode = false then read_error r
    else addpop r
  else if c = 39 then do
    let r ← push r
    let r ← add r (.sym (cstr "quote"))
    if r.error then .ok r else setTop r fun s => { s with quote_mode := true }
  else if c = 34 then readStr r
  else readAtom r c

/-- The condition of the loop, prog/wisp/eval.c:1348. -/
def goes (r : Reader) : Bool := r.eof = false ∧ r.error = false ∧ ((topOf r).list = nil ∨ r.stack.length > 1)

/-- The loop of `read_sexp`, prog/wisp/eval.c:1348-1441. -/
def loop : Nat → Reader → Res Unit Reader
  | 0, _ => .diverge
  | k + 1, r =>
    if r.eof = false ∧ r.error = false ∧ r.stack = [] then .panic "undefined: null pointer"
    else if goes r then do
      let r ← step r
      loop k r
    else .ok r

/-- The first line, prog/wisp/eval.c:1328-1343: `str` is of `char`s. -/
def shebang (r : Reader) : Res Unit Reader :=
  if r.shebang = -1 then do
    let (c0, e) := getc r.eater
    let (c1, e) := getc e
    let s0 := toChar (toByte c0)
    let s1 := toChar (toByte c1)
    if s0 = 35 ∧ s1 = 33 then do
      let e ← consume_line e
      .ok { r with eater := e, shebang := 1 }
    else do
      let e ← putc e s1
      let e ← putc e s0
      .ok { r with eater := e, shebang := 0 }
  else .ok r

/-- After the loop, prog/wisp/eval.c:1442-1463. -/
def finish (r : Reader) : Res Unit (Reader × Val) := do
  let r ← if r.eof = false ∧ r.error = false then do
      let e ← consume_whitespace r.eater
      .ok { r with eater := e }
    else .ok r
  if r.error then .ok (r, .sym (cstr "wisp-error"))
  else if r.stack = [] then .panic "undefined: null pointer"
  else if r.stack.length > 1 ∨ (topOf r).quote_mode ∨ (topOf r).dotpair_mode = 1 then do
    let r ← read_error r
    .ok (r, .sym (cstr "wisp-error"))
  else if (topOf r).list = nil then .ok ({ r with stack := r.stack.tail }, nil)
  else
    match (topOf r).list with
    | .cons a _ => .ok ({ r with stack := r.stack.tail }, a)
    | _ => .panic "undefined: not a pair"

/-- `read_sexp`, prog/wisp/eval.c:1325-1464. -/
def read_sexp (r : Reader) : Res Unit (Reader × Val) := do
  let r ← shebang r
  let r ← push { r with error := false }
  let r ← loop (2 * r.eater.left) r
  finish r

end Che.Prog.Wisp
