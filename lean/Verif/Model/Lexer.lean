import Verif.Model.Buf
/-!
# `src/lexer.rs`: tokens and the lexer with its lookahead queue
-/
namespace Che

/-- `src/lexer.rs:8-13` `struct Token`. -/
structure Token where
  kind : String
  content : String
  pos : Pos
deriving DecidableEq, Repr, Inhabited

/-- `src/lexer.rs:15-20` `impl Display for Token`; `substring(0, 40)` takes the
first 40 characters. -/
def Token.display (t : Token) : String :=
  "[" ++ t.kind ++ " " ++ String.ofList (t.content.toList.take 40) ++ "]"

/-- `src/lexer.rs:22` `SPACES`. -/
def SPACES : List Char := ['\r', '\n', '\t', ' ']

/-- `src/lexer.rs:24-27` `KEYWORDS`. -/
def KEYWORDS : List String :=
  ["break", "case", "const", "continue", "default", "else", "enum", "for", "if", "pub", "return",
   "sizeof", "struct", "switch", "typedef", "union", "while"]

/-- `src/lexer.rs:84-88` the symbol table, "sorted by length, longest first". -/
def SYMBOLS : List String :=
  ["<<=", ">>=", "...", "++", "--", "->", "<<", ">>", "<=", ">=", "&&", "||", "+=", "-=",
   "*=", "/=", "%=", "&=", "^=", "|=", "==", "!=", "!", "~", "&", "^", "*", "/", "%", "=",
   "|", ":", ",", "<", ">", "+", "-", "{", "}", ";", "[", "]", "(", ")", ".", "?"]

/-- `src/lexer.rs:112` the digits. -/
def DIGITS : List Char := ['0', '1', '2', '3', '4', '5', '6', '7', '8', '9']

/-- `src/lexer.rs:154` the hexadecimal digits. -/
def HEXDIGITS : List Char :=
  ['0', '1', '2', '3', '4', '5', '6', '7', '8', '9', 'A', 'B', 'C', 'D', 'E', 'F',
   'a', 'b', 'c', 'd', 'e', 'f']

/-- Result of `read_token`: end of input, a token, or a crash. -/
inductive TokRes where
  | eof (b : Buf)
  | tok (t : Token) (b : Buf)
  | panic (msg : String)
deriving DecidableEq, Repr

/-- `format!("Unexpected character: '{}'", c)`, `src/lexer.rs:101,136`. -/
def unexpectedChar (c : Char) : String := "Unexpected character: '" ++ String.ofList [c] ++ "'"

/-- `src/lexer.rs:147-161` `read_hex`. -/
def readHex (b : Buf) : TokRes :=
  let pos := b.pos
  let b := b.skipN 2
  let (num, b) := b.readSet HEXDIGITS
  let (suf, b) := b.readSet ['U', 'L']
  .tok { kind := "num", content := String.ofList (['0', 'x'] ++ (num ++ suf)), pos := pos } b

/-- `src/lexer.rs:114-120`: integer digits and, if a dot follows, the dot and
the fraction digits; also the allowed suffix letters. -/
def readMantissa (b : Buf) : List Char × List Char × Buf :=
  let modifiers := ['U', 'L']
  let (num, b) := b.readSet DIGITS
  if b.peek = some '.' then
    match b.get with
    | none => (num, modifiers, b)
    | some (dot, b) =>
      let (frac, b) := b.readSet DIGITS
      (num ++ [dot] ++ frac, modifiers ++ ['f'], b)
  else (num, modifiers, b)

/-- `src/lexer.rs:122-128`: the exponent; `none` is the `unwrap` panic when the
text ends right after the `e`. -/
def readExponent (num : List Char) (b : Buf) : Option (List Char × Buf) :=
  if b.peek = some 'e' ∨ b.peek = some 'E' then
    match b.get with
    | none => some (num, b)
    | some (e, b) =>
      match b.peek with
      | none => none
      | some '-' =>
        match b.get with
        | none => none
        | some (m, b) =>
          let (ds, b) := b.readSet DIGITS
          some (num ++ [e] ++ [m] ++ ds, b)
      | some _ =>
        let (ds, b) := b.readSet DIGITS
        some (num ++ [e] ++ ds, b)
  else some (num, b)

/-- `src/lexer.rs:106-145` `read_number`. -/
def readNumber (b : Buf) : TokRes :=
  if b.literalFollows ['0', 'x'] then readHex b
  else
    let pos := b.pos
    let (num, modifiers, b) := readMantissa b
    match readExponent num b with
    | none => .panic "lexer.rs:124"
    | some (num, b) =>
      let (suf, b) := b.readSet modifiers
      match b.peek with
      | some c =>
        if c.isAlpha then
          .tok { kind := "error", content := unexpectedChar c, pos := b.pos } b
        else .tok { kind := "num", content := String.ofList (num ++ suf), pos := pos } b
      | none => .tok { kind := "num", content := String.ofList (num ++ suf), pos := pos } b

/-- `src/lexer.rs:170-176`: the characters of one part of a string literal, up
to the closing quote or the end of the text.  `none` is the `unwrap` panic on a
backslash at the very end. -/
def readStrPart : Nat → Buf → Option (List Char × Buf)
  | 0, b => some ([], b)
  | n + 1, b =>
    match b.get with
    | none => some ([], b)
    | some (ch, b') =>
      if ch = '"' then some ([], b)
      else if ch = '\\' then
        match b'.get with
        | none => none
        | some (ch2, b'') =>
          match readStrPart n b'' with
          | none => none
          | some (s, bf) => some (ch :: ch2 :: s, bf)
      else
        match readStrPart n b' with
        | none => none
        | some (s, bf) => some (ch :: s, bf)

/-- `src/lexer.rs:167-186`: the parts of a string literal.  The accumulated
content is `s`. -/
def readStrParts (pos : Pos) : Nat → List Char → Buf → TokRes
  | 0, s, b => .tok { kind := "string", content := String.ofList s, pos := pos } b
  | n + 1, s, b =>
    if b.peek = some '"' then
      match b.get with
      | none => .tok { kind := "string", content := String.ofList s, pos := pos } b
      | some (_, b) =>
        match readStrPart b.rest.length b with
        | none => .panic "lexer.rs:174"
        | some (substr, b) =>
          match b.get with
          | none => .tok { kind := "error", content := "Double quote expected", pos := pos } b
          | some (q, b) =>
            if q ≠ '"' then
              .tok { kind := "error", content := "Double quote expected", pos := pos } b
            else
              let (_, b) := b.readSet SPACES
              readStrParts pos n (s ++ substr) b
    else .tok { kind := "string", content := String.ofList s, pos := pos } b

/-- `src/lexer.rs:163-192` `read_string_literal`. -/
def readStringLiteral (b : Buf) : TokRes := readStrParts b.pos b.rest.length [] b

/-- The loop of `src/lexer.rs:197-210`. -/
def readWordLoop [Unicode] : Nat → List Char → Buf → List Char × Buf
  | 0, word, b => (word, b)
  | n + 1, word, b =>
    match b.get with
    | none => (word, b)
    | some (ch, b') =>
      if word = ['c', 'a', 'l', 'l', 'o', 'c'] ∧ ch = '!' then (word ++ [ch], b')
      else if !isAlphanumeric ch && ch != '_' then (word, b)
      else readWordLoop n (word ++ [ch]) b'

/-- `src/lexer.rs:194-224` `read_word`. -/
def readWord [Unicode] (b : Buf) : TokRes :=
  let pos := b.pos
  let (word, b) := readWordLoop b.rest.length [] b
  let w := String.ofList word
  if KEYWORDS.contains w then .tok { kind := w, content := "", pos := pos } b
  else .tok { kind := "word", content := w, pos := pos } b

/-- `src/lexer.rs:226-248` `read_char_literal`. -/
def readCharLiteral (b : Buf) : TokRes :=
  let pos := b.pos
  let b := b.skipN 1
  let (s, b) :=
    if b.peek = some '\\' then (['\\'], b.skipN 1) else ([], b)
  match b.get with
  | none => .panic "lexer.rs:235"
  | some (c, b) =>
    match b.get with
    | none => .panic "lexer.rs:236"
    | some (q, b) =>
      if q ≠ '\'' then .tok { kind := "error", content := "Single quote expected", pos := pos } b
      else .tok { kind := "char", content := String.ofList (s ++ [c]), pos := pos } b

/-- `src/lexer.rs:250-266` `read_multiline_comment`. -/
def readMultilineComment (b : Buf) : TokRes :=
  let pos := b.pos
  let b := b.skipN 2
  let (comment, b) := b.untilLiteral ['*', '/']
  match b.skipLiteral ['*', '/'] with
  | none => .tok { kind := "error", content := "*/ expected", pos := pos } b
  | some b => .tok { kind := "comment", content := String.ofList comment, pos := pos } b

/-- `src/lexer.rs:89-97`: try the symbols in table order. -/
def readSymbol : List String → Buf → Option (String × Buf)
  | [], _ => none
  | sym :: rest, b =>
    match b.skipLiteral sym.toList with
    | some b' => some (sym, b')
    | none => readSymbol rest b

/-- `src/lexer.rs:29-104` `read_token`. -/
def readToken [Unicode] (b : Buf) : TokRes :=
  let (_, b) := b.readSet SPACES
  match b.peek with
  | none => .eof b
  | some next =>
    let pos := b.pos
    match b.skipLiteral ['#', 'i', 'm', 'p', 'o', 'r', 't'] with
    | some b =>
      let (_, b) := b.readSet SPACES
      let (s, b) := b.skipUntil '\n'
      .tok { kind := "import", content := RStr.trim (String.ofList s), pos := pos } b
    | none =>
      if next = '#' then
        let (s, b) := b.skipUntil '\n'
        .tok { kind := "macro", content := String.ofList s, pos := pos } b
      else if b.literalFollows ['/', '*'] then readMultilineComment b
      else
        match b.skipLiteral ['/', '/'] with
        | some b =>
          let (s, b) := b.skipUntil '\n'
          .tok { kind := "comment", content := String.ofList s, pos := pos } b
        | none =>
          if next.isAlpha || next = '_' then readWord b
          else if next.isDigit then readNumber b
          else if next = '"' then readStringLiteral b
          else if next = '\'' then readCharLiteral b
          else
            match readSymbol SYMBOLS b with
            | some (sym, b) => .tok { kind := sym, content := "", pos := pos } b
            | none => .tok { kind := "error", content := unexpectedChar next, pos := pos } b

/-- `src/lexer.rs:428-433` `struct Lexer`. -/
structure Lexer where
  buf : Buf
  next : List Token
deriving DecidableEq, Repr

namespace Lexer

/-- `src/lexer.rs:418-426` `for_file`, given the file's text. -/
def ofText (s : List Char) : Lexer := { buf := Buf.new s, next := [] }

/-- Result of a lexer call: a value and the new state, a crash, or no return
within the iteration bound. -/
inductive Out (α : Type) where
  | ok (a : α) (l : Lexer)
  | panic (msg : String)
  | diverge
deriving DecidableEq, Repr

/-- The loop of `src/lexer.rs:453-462`: read tokens until one is not a
comment. -/
def getLoop [Unicode] : Nat → Buf → TokRes
  | 0, _ => .panic "diverge"
  | n + 1, b =>
    match readToken b with
    | .eof b => .eof b
    | .panic m => .panic m
    | .tok t b => if t.kind = "comment" then getLoop n b else .tok t b

/-- `src/lexer.rs:449-463` `get`. -/
def get [Unicode] (l : Lexer) : Out (Option Token) :=
  match l.next with
  | t :: ts => .ok (some t) { l with next := ts }
  | [] =>
    match getLoop (l.buf.rest.length + 1) l.buf with
    | .eof b => .ok none { l with buf := b }
    | .tok t b => .ok (some t) { l with buf := b }
    | .panic m => .panic m

/-- `src/lexer.rs:465-467` `unget`. -/
def unget (l : Lexer) (t : Token) : Lexer := { l with next := t :: l.next }

/-- `src/lexer.rs:436-443` `more`. -/
def more [Unicode] (l : Lexer) : Out Bool :=
  match l.get with
  | .ok none l => .ok false l
  | .ok (some t) l => .ok true (l.unget t)
  | .panic m => .panic m
  | .diverge => .diverge

/-- The loop of `src/lexer.rs:478-487`. -/
def fill [Unicode] (n : Nat) : Nat → Lexer → Out Bool
  | 0, _ => .diverge
  | k + 1, l =>
    if l.next.length < n then
      match readToken l.buf with
      | .eof b => .ok false { l with buf := b }
      | .panic m => .panic m
      | .tok t b =>
        if t.kind = "comment" then fill n k { l with buf := b }
        else fill n k { buf := b, next := l.next ++ [t] }
    else .ok true l

/-- `src/lexer.rs:476-493` `peekn`.  The loop bound is the number of characters
left plus the number of tokens wanted: each round either eats a character or
adds a token. -/
def peekn [Unicode] (l : Lexer) (n : Nat) : Out (Option (List Token)) :=
  match fill n (l.buf.rest.length + n + 1) l with
  | .ok true l => .ok (some (l.next.take n)) l
  | .ok false l => .ok none l
  | .panic m => .panic m
  | .diverge => .diverge

/-- `src/lexer.rs:470-472` `peek`. -/
def peek [Unicode] (l : Lexer) : Out (Option Token) :=
  match l.peekn 1 with
  | .ok (some ts) l => .ok ts.head? l
  | .ok none l => .ok none l
  | .panic m => .panic m
  | .diverge => .diverge

/-- `src/lexer.rs:495-497` `follows`. -/
def follows [Unicode] (l : Lexer) (kind : String) : Out Bool :=
  match l.more with
  | .ok false l => .ok false l
  | .ok true l =>
    match l.peek with
    | .ok (some t) l => .ok (t.kind == kind) l
    | .ok none _ => .panic "lexer.rs:496"
    | .panic m => .panic m
    | .diverge => .diverge
  | .panic m => .panic m
  | .diverge => .diverge

/-- `src/lexer.rs:499-505` `eat`. -/
def eat [Unicode] (l : Lexer) (kind : String) : Out Bool :=
  match l.follows kind with
  | .ok true l =>
    match l.get with
    | .ok _ l => .ok true l
    | .panic m => .panic m
    | .diverge => .diverge
  | .ok false l => .ok false l
  | .panic m => .panic m
  | .diverge => .diverge

/-- `src/lexer.rs:445-447` `pos`. -/
def pos (l : Lexer) : Pos := l.buf.pos

end Lexer

/-- All tokens of a text as the lexer delivers them (comments dropped), and the
position at the end of the text: the token sequence the parser consumes. -/
inductive LexAll where
  | ok (ts : List Token) (eof : Pos)
  | panic (msg : String)
  | diverge
deriving DecidableEq, Repr

/-- Repeated `Lexer::get` until the end of the text (`src/lexer.rs:449-463`
called in a loop, as `src/preparser.rs:23-49` does). -/
def lexAllLoop [Unicode] : Nat → Buf → List Token → LexAll
  | 0, _, _ => .diverge
  | n + 1, b, acc =>
    match readToken b with
    | .eof b => .ok acc.reverse b.pos
    | .panic m => .panic m
    | .tok t b => lexAllLoop n b (if t.kind = "comment" then acc else t :: acc)

/-- The token sequence of a text.  `diverge` means the tokens never end: the
text contains a character no token starts with. -/
def lexAll [Unicode] (s : List Char) : LexAll := lexAllLoop (s.length + 1) (Buf.new s) []

end Che
