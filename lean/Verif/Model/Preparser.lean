import Verif.Model.Lexer
import Verif.Model.Resolve
/-!
# `src/preparser.rs`: imports and type names of a file
-/
namespace Che

/-- `src/preparser.rs:4-17` `ModuleInfo`. -/
structure ModuleInfo where
  imports : List ModuleRef
  typedefs : List String
  filepath : String
  uniqid : String
deriving DecidableEq, Repr, Inhabited

/-- `s[n..]` on a Rust string (byte offset); `none` is the panic (out of range
or not at a character boundary). -/
def dropBytes (n : Nat) (s : List Char) : Option (List Char) := go s n
where
  go : List Char → Nat → Option (List Char)
    | s, 0 => some s
    | [], _ + 1 => none
    | c :: cs, n + 1 => if c.utf8Size ≤ n + 1 then go cs (n + 1 - c.utf8Size) else none

/-- Computations of the pre-parser: lexer state plus Rust outcome. -/
def Pre (α : Type) := Lexer → Res String (α × Lexer)

namespace Pre

instance : Monad Pre where
  pure a := fun l => .ok (a, l)
  bind m f := fun l =>
    match m l with
    | .ok (a, l') => f a l'
    | .err e => .err e
    | .panic s => .panic s
    | .diverge => .diverge

/-- Run a lexer operation. -/
def lift {α} (f : Lexer → Lexer.Out α) : Pre α := fun l =>
  match f l with
  | .ok a l' => .ok (a, l')
  | .panic s => .panic s
  | .diverge => .diverge

/-- Return an `Err`. -/
def err {α} (e : String) : Pre α := fun _ => .err e

/-- Panic. -/
def panic {α} (e : String) : Pre α := fun _ => .panic e

end Pre

variable [Unicode]

/-- `src/preparser.rs:134-153` `expect` (always called without a comment, so
`with_comment` `:155-160` is the identity). -/
def preExpect (kind : String) : Pre Token := do
  let more ← Pre.lift Lexer.more
  if !more then Pre.err ("expected '" ++ kind ++ "', got end of file")
  else
    match ← Pre.lift Lexer.peek with
    | none => Pre.panic "preparser.rs:141"
    | some next =>
      if next.kind ≠ kind then
        Pre.err ("expected '" ++ kind ++ "', got '" ++ next.kind ++ "' at " ++ next.pos.fmt)
      else
        match ← Pre.lift Lexer.get with
        | none => Pre.panic "preparser.rs:152"
        | some t => pure t

/-- `Result::unwrap`. -/
def preUnwrap {α} (m : Pre α) (msg : String) : Pre α := fun l =>
  match m l with
  | .err _ => .panic msg
  | r => r

mutual
/-- `src/preparser.rs:119-132` `skip_brackets`. -/
def skipBrackets : Nat → Pre Unit
  | 0 => fun _ => .diverge
  | n + 1 => do
    let _ ← preUnwrap (preExpect "{") "preparser.rs:120"
    skipBracketsLoop n
    let _ ← preUnwrap (preExpect "}") "preparser.rs:131"
    pure ()
/-- The loop of `src/preparser.rs:121-130`. -/
def skipBracketsLoop : Nat → Pre Unit
  | 0 => fun _ => .diverge
  | n + 1 => do
    if ← Pre.lift Lexer.more then
      if ← Pre.lift (Lexer.follows · "{") then
        skipBrackets n
        skipBracketsLoop n
      else if ← Pre.lift (Lexer.follows · "}") then pure ()
      else
        let _ ← Pre.lift Lexer.get
        skipBracketsLoop n
    else pure ()
end

/-- The loop of `src/preparser.rs:74-80`: all tokens up to the semicolon. -/
def tokensToSemi : Nat → List Token → Pre (List Token)
  | 0, _ => fun _ => .diverge
  | n + 1, acc => do
    if ← Pre.lift Lexer.more then
      match ← Pre.lift Lexer.get with
      | none => Pre.panic "preparser.rs:75"
      | some t => if t.kind = ";" then pure acc.reverse else tokensToSemi n (t :: acc)
    else pure acc.reverse

/-- The loop of `src/preparser.rs:91-96`: drop tokens up to and including the
opening parenthesis. -/
def dropParens : List Token → List Token
  | [] => []
  | t :: ts => if t.kind = "(" then ts else dropParens ts

/-- The loop of `src/preparser.rs:102-108`: content of the first word. -/
def firstWord : List Token → Option String
  | [] => none
  | t :: ts => if t.kind = "word" then some t.content else firstWord ts

/-- `src/preparser.rs:82-114`: the type name in the tokens of a typedef. -/
def nameOfTypedef (buf : List Token) : Res String String :=
  match buf.reverse with
  | [] => .err "No tokens after 'typedef'"
  | t :: ts =>
    let rest := if t.kind = ")" then dropParens (t :: ts) else t :: ts
    match firstWord rest with
    | none => .err "Type name expected in the typedef"
    | some n => .ok n

/-- `src/preparser.rs:61-117` `get_typename`. -/
def getTypename (fuel : Nat) : Pre String := do
  if ← Pre.lift (Lexer.follows · "{") then
    skipBrackets fuel
    let t ← preUnwrap (preExpect "word") "preparser.rs:69"
    let _ ← preExpect ";"
    pure t.content
  else
    let buf ← tokensToSemi fuel []
    fun l =>
      match nameOfTypedef buf with
      | .ok n => .ok (n, l)
      | .err e => .err e
      | .panic m => .panic m
      | .diverge => .diverge

/-- The main loop of `src/preparser.rs:23-49`. -/
def preparseLoop (fs : FS) (path : String) :
    Nat → List ModuleRef → List String → Lexer → Res String (List ModuleRef × List String)
  | 0, _, _, _ => .diverge
  | n + 1, imports, typenames, l =>
    match l.get with
    | .panic m => .panic m
    | .diverge => .diverge
    | .ok none _ => .ok (imports, typenames)
    | .ok (some t) l =>
      match t.kind with
      | "error" => .err (t.content ++ " at " ++ path ++ ":" ++ t.pos.fmt)
      | "import" =>
        match resolveImport fs path t.content with
        | .ok r => preparseLoop fs path n (imports ++ [r]) typenames l
        | .err e => .err e
        | .panic m => .panic m
        | .diverge => .diverge
      | "typedef" =>
        match getTypename n l with
        | .ok (name, l) => preparseLoop fs path n imports (typenames ++ [name]) l
        | .err e => .err e
        | .panic m => .panic m
        | .diverge => .diverge
      | _ =>
        if t.kind = "macro" && RStr.startsWith t.content "#type" then
          match dropBytes 6 t.content.toList with
          | none => .panic "preparser.rs:43"
          | some s => preparseLoop fs path n imports (typenames ++ [RStr.trim (String.ofList s)]) l
        else preparseLoop fs path n imports typenames l

/-- `src/preparser.rs:19-58` `preparse`. -/
def preparse (fs : FS) (fuel : Nat) (path : String) : Res String ModuleInfo :=
  match fs.read path with
  | .error e => .err ("could not read " ++ path ++ ": " ++ e)
  | .ok text =>
    match preparseLoop fs path fuel [] [] (Lexer.ofText text.toList) with
    | .ok (imports, typenames) =>
      .ok { imports := imports, typedefs := typenames, filepath := path,
            uniqid := "ns_" ++
              RStr.replace (RStr.replace (RStr.replace path "/" "_") "." "_") "-" "_" }
    | .err e => .err e
    | .panic m => .panic m
    | .diverge => .diverge

end Che
