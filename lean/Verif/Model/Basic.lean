/-!
# Shared vocabulary of the model

Positions and errors of the compiler, the outcomes of Rust code (value, `Err`,
panic, divergence) and the handful of Rust standard library string functions
the compiler calls.
-/

namespace Che

/-- `src/buf.rs:11-15` `struct Pos`.  `usize` is modelled by `Nat`: a source
text has far fewer than 2^64 characters, so the counters cannot wrap. -/
structure Pos where
  line : Nat
  col : Nat
deriving DecidableEq, Repr, Inhabited

/-- `src/buf.rs:17-21` `Pos::fmt`. -/
def Pos.fmt (p : Pos) : String := toString p.line ++ ":" ++ toString p.col

/-- `src/errors.rs:9-12` `struct Error`. -/
structure Error where
  message : String
  pos : Pos
deriving DecidableEq, Repr, Inhabited

/-- `src/errors.rs:3-7` `struct BuildError`. -/
structure BuildError where
  path : String
  pos : String
  message : String
deriving DecidableEq, Repr, Inhabited

/-- Outcome of a Rust function returning `Result<α, ε>`: a value, an `Err`, a
panic (`unwrap` on `None`, `todo!`, `panic!`, index out of range), or
`diverge` - the recursion budget of the model ran out.  A call that diverges
for every budget is a call that never returns (or overflows the stack) in the
code. -/
inductive Res (ε α : Type) where
  | ok (a : α)
  | err (e : ε)
  | panic (msg : String)
  | diverge
deriving DecidableEq, Repr

namespace Res
variable {ε α β : Type}

/-- Sequencing: the `?` operator of Rust. -/
def bind : Res ε α → (α → Res ε β) → Res ε β
  | .ok a, f => f a
  | .err e, _ => .err e
  | .panic m, _ => .panic m
  | .diverge, _ => .diverge

instance : Monad (Res ε) where
  pure := .ok
  bind := bind

/-- `Result::map_err`. -/
def mapErr {ε'} (f : ε → ε') : Res ε α → Res ε' α
  | .ok a => .ok a
  | .err e => .err (f e)
  | .panic m => .panic m
  | .diverge => .diverge

/-- `Option::unwrap`. -/
def ofOption (msg : String) : Option α → Res ε α
  | some a => .ok a
  | none => .panic msg

end Res

/-! ## Rust standard library -/

/-- The part of Unicode that the lexer consults and that has no closed form:
`char::is_alphanumeric` on non-ASCII characters (Rust core tables).  Every
theorem holds for all such tables. -/
class Unicode where
  nonAsciiAlnum : Char → Bool

/-- Rust `char::is_alphanumeric`. -/
def isAlphanumeric [Unicode] (c : Char) : Bool :=
  if c.toNat < 128 then c.isAlphanum else Unicode.nonAsciiAlnum c

/-- Rust `char::is_whitespace` (Unicode White_Space). -/
def isWhitespace (c : Char) : Bool :=
  let n := c.toNat
  (9 ≤ n && n ≤ 13) || n == 0x20 || n == 0x85 || n == 0xA0 || n == 0x1680 ||
  (0x2000 ≤ n && n ≤ 0x200A) || n == 0x2028 || n == 0x2029 || n == 0x202F ||
  n == 0x205F || n == 0x3000

namespace RStr

/-- Rust `str::trim_start`, on characters. -/
def trimStart (s : List Char) : List Char := s.dropWhile isWhitespace

/-- Rust `str::trim_end`, on characters. -/
def trimEnd (s : List Char) : List Char := (s.reverse.dropWhile isWhitespace).reverse

/-- Rust `str::trim`. -/
def trim (s : String) : String := String.ofList (trimEnd (trimStart s.toList))

/-- Rust `str::split(sep)` for a one-character separator: always at least one
piece. -/
def splitL (sep : Char) : List Char → List (List Char)
  | [] => [[]]
  | c :: cs =>
    if c = sep then [] :: splitL sep cs
    else
      match splitL sep cs with
      | [] => [[c]]
      | p :: ps => (c :: p) :: ps

/-- Rust `str::split(sep)` for a one-character separator, on strings. -/
def split (sep : Char) (s : String) : List String := (splitL sep s.toList).map String.ofList

/-- Rust `[String]::join(sep)`. -/
def join (sep : String) : List String → String
  | [] => ""
  | [s] => s
  | s :: ss => s ++ sep ++ join sep ss

/-- Rust `str::split_whitespace`. -/
def splitWs (s : String) : List String :=
  go s.toList []
where
  go : List Char → List Char → List String
    | [], acc => if acc.isEmpty then [] else [String.ofList acc.reverse]
    | c :: cs, acc =>
      if isWhitespace c then
        if acc.isEmpty then go cs [] else String.ofList acc.reverse :: go cs []
      else go cs (c :: acc)

/-- Rust `str::replace(pat, to)` for a non-empty pattern: leftmost
non-overlapping occurrences. The first argument bounds the number of steps; the
length of the text is enough. -/
def replaceL (pat to : List Char) : Nat → List Char → List Char
  | 0, s => s
  | _ + 1, [] => []
  | n + 1, c :: cs =>
    if pat.isPrefixOf (c :: cs) then to ++ replaceL pat to n ((c :: cs).drop pat.length)
    else c :: replaceL pat to n cs

/-- Rust `str::replace`. -/
def replace (s pat to : String) : String :=
  String.ofList (replaceL pat.toList to.toList s.length s.toList)

/-- Rust `str::starts_with`. -/
def startsWith (s p : String) : Bool := p.toList.isPrefixOf s.toList

/-- Rust `str::ends_with`. -/
def endsWith (s p : String) : Bool := p.toList.isSuffixOf s.toList

/-- Rust `str::repeat`. -/
def rep (s : String) : Nat → String
  | 0 => ""
  | n + 1 => s ++ rep s n

end RStr

/-! ## Maps and sets

`HashMap`/`HashSet` are only ever inserted into and looked up in the compiler,
never iterated, so an association list with newest-first lookup is the same
thing. -/

/-- `HashMap::insert` (newest binding shadows). -/
def mapInsert {β} (m : List (String × β)) (k : String) (v : β) : List (String × β) := (k, v) :: m

/-- `HashMap::get`. -/
def mapGet {β} (m : List (String × β)) (k : String) : Option β :=
  match m with
  | [] => none
  | (k', v) :: rest => if k' = k then some v else mapGet rest k

end Che
