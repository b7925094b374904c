import Verif.Model.Basic
/-!
# `src/buf.rs`: the source buffer
-/
namespace Che

/-- `src/buf.rs:2-9` `struct Buf`.

The code keeps the whole text `s` and an index `pos`; the model keeps the text
split at that index: `past` is `s[..pos]` (most recently read first) and `rest`
is `s[pos..]`.  `linelengths` is dropped: the only code that reads it is
commented out. -/
structure Buf where
  past : List Char
  rest : List Char
  line : Nat
  col : Nat
deriving DecidableEq, Repr

namespace Buf

/-- `src/buf.rs:23-32` `buf::new`. -/
def new (s : List Char) : Buf := { past := [], rest := s, line := 1, col := 1 }

/-- The whole text the buffer was created with (field `s` of the code). -/
def text (b : Buf) : List Char := b.past.reverse ++ b.rest

/-- `src/buf.rs:39-41` `more`. -/
def more (b : Buf) : Bool := !b.rest.isEmpty

/-- `src/buf.rs:35-37` `ended`. -/
def ended (b : Buf) : Bool := !b.more

/-- `src/buf.rs:43-48` `pos`. -/
def pos (b : Buf) : Pos := { line := b.line, col := b.col }

/-- `src/buf.rs:50-56` `peek`. -/
def peek (b : Buf) : Option Char := b.rest.head?

/-- `src/buf.rs:62-77` `get`. -/
def get (b : Buf) : Option (Char × Buf) :=
  match b.rest with
  | [] => none
  | c :: cs =>
    if c = '\n' then
      some (c, { past := c :: b.past, rest := cs, line := b.line + 1, col := 1 })
    else
      some (c, { past := c :: b.past, rest := cs, line := b.line, col := b.col + 1 })

/-- The loop of `src/buf.rs:93-106` `read_set`; the first argument bounds the
iterations. -/
def readSetLoop (set : List Char) : Nat → Buf → List Char × Buf
  | 0, b => ([], b)
  | n + 1, b =>
    match b.peek with
    | none => ([], b)
    | some next =>
      if set.contains next then
        match b.get with
        | none => ([], b)
        | some (c, b') =>
          let (s, b'') := readSetLoop set n b'
          (c :: s, b'')
      else ([], b)

/-- `src/buf.rs:93-106` `read_set`. -/
def readSet (set : List Char) (b : Buf) : List Char × Buf := readSetLoop set b.rest.length b

/-- `src/buf.rs:126-138` `literal_follows`.  The code compares the bytes of the
literal; every literal passed in the compiler is ASCII, so bytes are
characters. -/
def literalFollows (b : Buf) (lit : List Char) : Bool := lit.isPrefixOf b.rest

/-- The loop `for _ in 0..n { self.get(); }` of `src/buf.rs:112-114`. -/
def skipN : Nat → Buf → Buf
  | 0, b => b
  | n + 1, b =>
    match b.get with
    | none => skipN n b
    | some (_, b') => skipN n b'

/-- `src/buf.rs:108-116` `skip_literal`: the new buffer if the literal was
there, `none` (buffer unchanged) if not. -/
def skipLiteral (b : Buf) (lit : List Char) : Option Buf :=
  if b.literalFollows lit then some (skipN lit.length b) else none

/-- The loop of `src/buf.rs:118-124` `until_literal`. -/
def untilLiteralLoop (lit : List Char) : Nat → Buf → List Char × Buf
  | 0, b => ([], b)
  | n + 1, b =>
    if b.more && !b.literalFollows lit then
      match b.get with
      | none => ([], b)
      | some (c, b') =>
        let (s, b'') := untilLiteralLoop lit n b'
        (c :: s, b'')
    else ([], b)

/-- `src/buf.rs:118-124` `until_literal`. -/
def untilLiteral (lit : List Char) (b : Buf) : List Char × Buf :=
  untilLiteralLoop lit b.rest.length b

/-- The loop of `src/buf.rs:143-149` `skip_until`. -/
def skipUntilLoop (ch : Char) : Nat → Buf → List Char × Buf
  | 0, b => ([], b)
  | n + 1, b =>
    match b.peek with
    | none => ([], b)
    | some next =>
      if next = ch then ([], b)
      else
        match b.get with
        | none => ([], b)
        | some (c, b') =>
          let (s, b'') := skipUntilLoop ch n b'
          (c :: s, b'')

/-- `src/buf.rs:143-149` `skip_until`. -/
def skipUntil (ch : Char) (b : Buf) : List Char × Buf := skipUntilLoop ch b.rest.length b

end Buf
end Che
