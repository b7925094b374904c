import Verif.Model.Lexer
import Verif.Model.Cspec
import Verif.Model.Preparser
/-!
# `src/parser.rs`: the parser

The parser reads the token sequence of the file: its state is the list of the
tokens not yet consumed.  (That reading through `Lexer` with its lookahead queue
is the same thing is a theorem about the lexer, `Verif/Props/Lookahead.lean`.)
`Err` keeps the state, because `read_body` and parenthesised expressions go on
after an error.

Every loop and recursion is bounded by a budget; running out of it is the
outcome `diverge`.
-/
namespace Che

/-- Outcome of a parser call. -/
inductive PR (α : Type) where
  | ok (a : α) (ts : List Token)
  | err (e : Error) (ts : List Token)
  | panic (msg : String)
  | diverge
deriving Repr

/-- A parser call: consumes tokens. -/
def P (α : Type) := List Token → PR α

namespace P
variable {α β : Type}

/-- Sequencing with `?`. -/
def bind (m : P α) (f : α → P β) : P β := fun ts =>
  match m ts with
  | .ok a ts' => f a ts'
  | .err e ts' => .err e ts'
  | .panic s => .panic s
  | .diverge => .diverge

instance : Monad P where
  pure a := fun ts => .ok a ts
  bind := bind

/-- Return an `Err`. -/
def err (message : String) (pos : Pos) : P α := fun ts => .err { message := message, pos := pos } ts

/-- Panic. -/
def panic (m : String) : P α := fun _ => .panic m

/-- The budget is exhausted. -/
def diverge : P α := fun _ => .diverge

/-- `Lexer::peek` (`src/lexer.rs:470-472`) on the token sequence. -/
def peek : P (Option Token) := fun ts => .ok ts.head? ts

/-- `Lexer::get` (`src/lexer.rs:449-463`) on the token sequence. -/
def get : P (Option Token) := fun ts => .ok ts.head? ts.tail

/-- `l.peek().unwrap()`. -/
def peekU (msg : String) : P Token := fun ts =>
  match ts with
  | [] => .panic msg
  | t :: _ => .ok t ts

/-- `l.get().unwrap()`. -/
def getU (msg : String) : P Token := fun ts =>
  match ts with
  | [] => .panic msg
  | t :: ts' => .ok t ts'

/-- `Lexer::more` (`src/lexer.rs:436-443`) on the token sequence. -/
def more : P Bool := fun ts => .ok (!ts.isEmpty) ts

/-- `Lexer::unget` (`src/lexer.rs:465-467`) on the token sequence. -/
def unget (t : Token) : P Unit := fun ts => .ok () (t :: ts)

/-- `Lexer::follows` (`src/lexer.rs:495-497`) on the token sequence. -/
def follows (kind : String) : P Bool := fun ts =>
  match ts with
  | [] => .ok false ts
  | t :: _ => .ok (t.kind == kind) ts

/-- `Lexer::eat` (`src/lexer.rs:499-505`) on the token sequence. -/
def eat (kind : String) : P Bool := fun ts =>
  match ts with
  | [] => .ok false ts
  | t :: ts' => if t.kind == kind then .ok true ts' else .ok false ts

end P

/-- `src/parser.rs:8-12` `ParseCtx`; `eof` is what `l.pos()` returns once all
tokens are read. -/
structure ParseCtx where
  thismod : ModuleInfo
  allmods : List ModuleInfo
  eof : Pos
deriving Repr, Inhabited

/-- `src/parser.rs:14-26` `is_imported_ns`. -/
def ParseCtx.isImportedNs (ctx : ParseCtx) (ns : String) : Bool :=
  if ns = "OS" then true else ctx.thismod.imports.any (fun x => x.ns == ns)

/-- `src/parser.rs:433-440` `is_op`. -/
def isOpTok (k : String) : Bool :=
  ["+", "-", "*", "/", "=", "|", "&", "~", "^", "<", ">", "%", "+=", "-=", "*=", "/=", "%=",
   "&=", "^=", "|=", "++", "--", "->", ".", ">>", "<<", "<=", ">=", "&&", "||", "==", "!=",
   "<<=", ">>="].contains k

/-- `src/parser.rs:445-463` the strength table. -/
def strengthTable : List (List String) :=
  [[","],
   ["=", "+=", "-=", "*=", "/=", "%=", "<<=", ">>=", "&=", "^=", "|="],
   ["||"],
   ["&&"],
   ["|"],
   ["^"],
   ["&"],
   ["!=", "=="],
   [">", "<", ">=", "<="],
   ["<<", ">>"],
   ["+", "-"],
   ["*", "/", "%"],
   ["prefix", "unary", "cast", "deref", "sizeof", "address"],
   ["->", ".", "index", "call", "suffix"]]

/-- The loop of `src/parser.rs:464-468`. -/
def strengthLoop (op : String) : Nat → List (List String) → Option Nat
  | _, [] => none
  | i, ops :: rest => if ops.contains op then some (i + 1) else strengthLoop op (i + 1) rest

/-- `src/parser.rs:442-470` `operator_strength`; `none` is the panic. -/
def operatorStrength (op : String) : Option Nat := strengthLoop op 0 strengthTable

/-- `src/parser.rs:472-477` `is_postfix_op`. -/
def isPostfixOp (k : String) : Bool := ["++", "--"].contains k

/-- `src/parser.rs:479-482` `is_prefix_op`. -/
def isPrefixOp (k : String) : Bool := ["!", "--", "++", "*", "~", "&", "-"].contains k

/-- `src/parser.rs:484-489` `is_type`. -/
def isType (name : String) (typenames : List String) : Bool :=
  Cspec.hasType name || ["struct", "enum", "union"].contains name || typenames.contains name

/-- `src/parser.rs:491-496` `with_comment`. -/
def withComment (comment : Option String) (message : String) : String :=
  match comment with
  | some s => s ++ ": " ++ message
  | none => message

/-- `s[0..n]` on a Rust string (byte offset); `none` is the panic. -/
def takeBytes (n : Nat) (s : List Char) : Option (List Char) := go s n
where
  go : List Char → Nat → Option (List Char)
    | _, 0 => some []
    | [], _ + 1 => none
    | c :: cs, n + 1 =>
      if c.utf8Size ≤ n + 1 then (go cs (n + 1 - c.utf8Size)).map (c :: ·) else none

/-- `src/parser.rs:1221-1237` `token_to_string`; `none` is the panic when byte 37
of a long content is inside a character. -/
def tokenToString (t : Token) : Option String :=
  if t.content = "" then some ("[" ++ t.kind ++ "]")
  else
    let c :=
      if t.content.utf8ByteSize > 40 then
        (takeBytes 37 t.content.toList).map (fun s => String.ofList s ++ "...")
      else some t.content
    c.map fun c =>
      let c := RStr.replace c "\r" "\\r"
      let c := RStr.replace c "\n" "\\n"
      let c := RStr.replace c "\t" "\\t"
      "[" ++ t.kind ++ ", " ++ c ++ "]"

/-- `src/parser.rs:498-516` `expect`. -/
def expect (ctx : ParseCtx) (kind : String) (comment : Option String := none) : P Token := fun ts =>
  match ts with
  | [] =>
    .err { message := withComment comment ("expected '" ++ kind ++ "', got end of file"),
           pos := ctx.eof } []
  | next :: ts' =>
    if next.kind ≠ kind then
      match tokenToString next with
      | none => .panic "parser.rs:1229"
      | some s =>
        .err { message := withComment comment ("expected '" ++ kind ++ "', got '" ++ s ++ "'"),
               pos := next.pos } ts
    else .ok next ts'

/-- `src/parser.rs:329-343`: does the namespace name an imported module that
declares this type? -/
def nsType (ctx : ParseCtx) (ns typename : String) : Bool :=
  match ctx.thismod.imports.find? (fun x => x.ns == ns) with
  | none => false
  | some imp =>
    match ctx.allmods.find? (fun x => x.filepath == imp.path) with
    | none => false
    | some m => m.typedefs.contains typename

/-- `src/parser.rs:313-350` `type_follows`, on the tokens ahead. -/
def typeFollowsL (ctx : ParseCtx) (ts : List Token) : Bool :=
  match ts with
  | [] => false
  | t :: rest =>
    if t.kind = "const" then true
    else if t.kind ≠ "word" then false
    else
      (match rest with
       | b :: c :: _ => b.kind == "." && c.kind == "word" && nsType ctx t.content c.content
       | _ => false) ||
      isType t.content ctx.thismod.typedefs

/-- `src/parser.rs:313-350` `type_follows`. -/
def typeFollows (ctx : ParseCtx) : P Bool := fun ts => .ok (typeFollowsL ctx ts) ts

/-- `src/parser.rs:352-361` `ns_follows`. -/
def nsFollows (ctx : ParseCtx) : P Bool := fun ts =>
  match ts with
  | [] => .ok false ts
  | t :: _ => .ok (t.kind == "word" && ctx.isImportedNs t.content) ts

/-- `src/parser.rs:365-389` `read_ns_id`. -/
def readNsId (ctx : ParseCtx) : P NsName := do
  let a ← expect ctx "word" (some "nsid")
  fun ts =>
    match ctx.isImportedNs a.content, ts with
    | true, dot :: b :: rest =>
      if dot.kind = "." ∧ b.kind = "word" then
        .ok { ns := a.content, name := b.content, pos := a.pos } rest
      else .ok { ns := "", name := a.content, pos := a.pos } ts
    | _, _ => .ok { ns := "", name := a.content, pos := a.pos } ts

/-- `src/parser.rs:518-522` `parse_typename`. -/
def parseTypename (ctx : ParseCtx) : P Typename := do
  let isConst ← P.eat "const"
  let name ← readNsId ctx
  pure { isConst := isConst, name := name }

/-- The loop `while l.follows("*") { l.get(); hops += 1 }` of
`src/parser.rs:527-530`, `:813-816`, `:1167-1170`. -/
def eatStars : P Nat := fun ts => go ts 0
where
  go : List Token → Nat → PR Nat
    | [], n => .ok n []
    | t :: ts, n => if t.kind = "*" then go ts (n + 1) else .ok n (t :: ts)

/-- `src/parser.rs:524-535` `parse_bare_typeform`. -/
def parseBareTypeform (ctx : ParseCtx) : P BareTypeform := do
  let t ← parseTypename ctx
  let hops ← eatStars
  pure { typename := t, hops := hops }

/-- The loop of `src/parser.rs:545-553`. -/
def anonParamsLoop (ctx : ParseCtx) : Nat → AnonParams → P AnonParams
  | 0, _ => P.diverge
  | n + 1, ps => do
    if ← P.eat "," then
      if ← P.eat "..." then pure { ps with ellipsis := true }
      else
        let f ← parseBareTypeform ctx
        anonParamsLoop ctx n { ps with forms := ps.forms ++ [f] }
    else pure ps

/-- `src/parser.rs:537-557` `parse_anonymous_parameters`. -/
def parseAnonParams (n : Nat) (ctx : ParseCtx) : P AnonParams := do
  let _ ← expect ctx "(" (some "anonymous function parameters")
  let ps : AnonParams := { ellipsis := false, forms := [] }
  let ps ←
    if ← P.follows ")" then pure ps
    else do
      let f ← parseBareTypeform ctx
      anonParamsLoop ctx n { ps with forms := [f] }
  let _ ← expect ctx ")" (some "anonymous function parameters")
  pure ps

/-- `src/parser.rs:559-581` `parse_literal`. -/
def parseLiteral : P Literal := do
  let next ← P.peekU "parser.rs:560"
  if next.kind = "string" then
    let _ ← P.get
    pure (.string next.content)
  else if next.kind = "num" then
    let _ ← P.get
    pure (.number next.content)
  else if next.kind = "char" then
    let _ ← P.get
    pure (.char next.content)
  else if next.kind = "word" ∧ next.content = "NULL" then
    let _ ← P.get
    pure .null
  else P.err ("literal expected, got " ++ next.display) next.pos

/-- The two lines of `src/parser.rs:418-420`: parse an expression, expect the
closing parenthesis whatever came out, and only then look at the result. -/
def closeParen (ctx : ParseCtx) (m : P Expr) : P Expr := fun ts =>
  match m ts with
  | .panic s => .panic s
  | .diverge => .diverge
  | .ok e ts' => (expect ctx ")" (some "parenthesized expression") >>= fun _ => pure e) ts'
  | .err e ts' =>
    (expect ctx ")" (some "parenthesized expression") >>= fun _ => P.err e.message e.pos) ts'

mutual

/-- `src/parser.rs:193-205` `parse_expr`. -/
def parseExpr : Nat → ParseCtx → Nat → P Expr
  | 0, _, _ => P.diverge
  | n + 1, ctx, s =>
    if s < 13 then parseSeq n ctx s
    else if s = 13 then parsePrefix n ctx
    else if s = 14 then parseBase n ctx
    else P.panic "parser.rs:204"

/-- `src/parser.rs:207-226` `parse_seq_expr`. -/
def parseSeq : Nat → ParseCtx → Nat → P Expr
  | 0, _, _ => P.diverge
  | n + 1, ctx, s => do
    let r ← parseExpr n ctx (s + 1)
    seqLoop n ctx s r

/-- The loop of `src/parser.rs:209-224`. -/
def seqLoop : Nat → ParseCtx → Nat → Expr → P Expr
  | 0, _, _, _ => P.diverge
  | n + 1, ctx, s, r => do
    match ← P.peek with
    | none => pure r
    | some next =>
      if !isOpTok next.kind then pure r
      else
        match operatorStrength next.kind with
        | none => P.panic "parser.rs:469"
        | some k =>
          if k ≠ s then pure r
          else do
            let tok ← P.getU "parser.rs:215"
            let r2 ← parseExpr n ctx (s + 1)
            seqLoop n ctx s (.binaryOp tok.pos tok.kind r r2)

/-- `src/parser.rs:228-263` `parse_prefix_expr`. -/
def parsePrefix : Nat → ParseCtx → P Expr
  | 0, _ => P.diverge
  | n + 1, ctx => do
    let token ← P.getU "parser.rs:229"
    if isPrefixOp token.kind then
      let r ← parsePrefix n ctx
      pure (.prefixOp token.pos token.kind r)
    else do
      let isCast ←
        if token.kind = "(" then do
          let next ← P.peekU "parser.rs:245"
          pure (next.kind == "word" && isType next.content ctx.thismod.typedefs)
        else pure false
      if isCast then
        let typeform ← parseBareTypeform ctx
        let _ ← expect ctx ")" (some "typecast")
        let operand ← parsePrefix n ctx
        pure (.cast typeform operand)
      else if token.kind = "sizeof" then
        P.unget token
        parseSizeof n ctx
      else
        P.unget token
        parseBase n ctx

/-- `src/parser.rs:265-311` `base`. -/
def parseBase : Nat → ParseCtx → P Expr
  | 0, _ => P.diverge
  | n + 1, ctx => do
    let r ← parseAtom n ctx
    baseLoop n ctx r

/-- The loop of `src/parser.rs:268-309`. -/
def baseLoop : Nat → ParseCtx → Expr → P Expr
  | 0, _, _ => P.diverge
  | n + 1, ctx, r => do
    match ← P.peek with
    | none => pure r
    | some next =>
      if next.kind = "(" then
        let r ← parseCall n ctx r
        baseLoop n ctx r
      else if next.kind = "[" then
        let _ ← expect ctx "[" (some "array index")
        let index ← parseExpr n ctx 0
        let _ ← expect ctx "]" (some "array index")
        baseLoop n ctx (.arrIndex r index)
      else if isPostfixOp next.kind then
        let op ← P.getU "parser.rs:290"
        baseLoop n ctx (.postfixOp op.kind r)
      else if next.kind = "->" ∨ next.kind = "." then
        let optok ← P.getU "parser.rs:297"
        let tok ← expect ctx "word" (some "field access field name - identifier")
        baseLoop n ctx (.fieldAccess optok.pos optok.kind r tok.content)
      else pure r

/-- `src/parser.rs:391-431` `read_expression_atom`. -/
def parseAtom : Nat → ParseCtx → P Expr
  | 0, _ => P.diverge
  | n + 1, ctx => do
    if !(← P.more) then P.err "id: unexpected end of input" ctx.eof
    else if ← nsFollows ctx then
      let id ← readNsId ctx
      pure (.name id)
    else
      let next ← P.getU "parser.rs:402"
      match next.kind with
      | "word" => pure (.name { pos := next.pos, ns := "", name := next.content })
      | "num" | "string" | "char" => do
        P.unget next
        let l ← parseLiteral
        pure (.lit l)
      | "(" => closeParen ctx (parseExpr n ctx 0)
      | "{" => do
        P.unget next
        parseCompLit n ctx
      | _ => P.err ("id: unexpected token " ++ next.display) next.pos

/-- `src/parser.rs:615-633` `parse_composite_literal`. -/
def parseCompLit : Nat → ParseCtx → P Expr
  | 0, _ => P.diverge
  | n + 1, ctx => do
    let _ ← expect ctx "{" (some "composite literal")
    let entries ← compLitLoop n ctx []
    let _ ← expect ctx "}" (some "struct literal")
    pure (.compLit entries)

/-- The loop of `src/parser.rs:620-630`. -/
def compLitLoop : Nat → ParseCtx → List Entry → P (List Entry)
  | 0, _, _ => P.diverge
  | n + 1, ctx, entries => do
    let t ← P.peekU "parser.rs:621"
    if t.kind = "}" then pure entries
    else do
      let e ← parseEntry n ctx
      let t ← P.peekU "parser.rs:625"
      if t.kind = "," then
        let _ ← P.get
        compLitLoop n ctx (entries ++ [e])
      else pure (entries ++ [e])

/-- `src/parser.rs:635-671` `parse_composite_literal_entry`. -/
def parseEntry : Nat → ParseCtx → P Entry
  | 0, _ => P.diverge
  | n + 1, ctx => do
    let t ← P.peekU "parser.rs:639"
    if t.kind = "." then
      let _ ← expect ctx "." (some "struct literal member")
      let tok ← expect ctx "word" (some "struct literal entry - identifier")
      let _ ← expect ctx "=" (some "struct literal member")
      let value ← parseExpr n ctx 0
      pure (.mk false (some (.name { pos := tok.pos, ns := "", name := tok.content })) value)
    else if ← P.follows "[" then
      let _ ← P.get
      let key ← parseExpr n ctx 0
      let _ ← expect ctx "]" (some "array literal index")
      let _ ← expect ctx "=" (some "array literal index")
      let value ← parseExpr n ctx 0
      pure (.mk true (some key) value)
    else
      let value ← parseExpr n ctx 0
      pure (.mk false none value)

/-- `src/parser.rs:673-685` `parse_sizeof`. -/
def parseSizeof : Nat → ParseCtx → P Expr
  | 0, _ => P.diverge
  | n + 1, ctx => do
    let _ ← expect ctx "sizeof"
    let _ ← expect ctx "("
    let r ←
      if ← typeFollows ctx then do
        let t ← parseBareTypeform ctx
        pure (Expr.sizeofType t)
      else do
        let e ← parseExpr n ctx 0
        pure (Expr.sizeofExpr e)
    let _ ← expect ctx ")"
    pure r

/-- `src/parser.rs:687-703` `parse_call`. -/
def parseCall : Nat → ParseCtx → Expr → P Expr
  | 0, _, _ => P.diverge
  | n + 1, ctx, func => do
    let tok ← expect ctx "("
    let next ← P.peek
    let args ←
      match next with
      | none => pure []
      | some t =>
        if t.kind ≠ ")" then do
          let a ← parseExpr n ctx 0
          argsLoop n ctx [a]
        else pure []
    let _ ← expect ctx ")"
    pure (.call tok.pos func args)

/-- The loop of `src/parser.rs:692-695`. -/
def argsLoop : Nat → ParseCtx → List Expr → P (List Expr)
  | 0, _, _ => P.diverge
  | n + 1, ctx, args => do
    if ← P.eat "," then
      let a ← parseExpr n ctx 0
      argsLoop n ctx (args ++ [a])
    else pure args

end

/-- `src/parser.rs:583-613` loop `:588-605`: the entries of an enum. -/
def enumLoop (ctx : ParseCtx) : Nat → List EnumEntry → P (List EnumEntry)
  | 0, _ => P.diverge
  | n + 1, entries => do
    let name ← expect ctx "word" (some "enum entry - identifier")
    let val ←
      if ← P.eat "=" then do
        let e ← parseExpr n ctx 0
        pure (some e)
      else pure none
    let entries := entries ++ [{ name := name.content, val := val }]
    if !(← P.eat ",") then pure entries
    else if ← P.follows "}" then pure entries
    else enumLoop ctx n entries

/-- `src/parser.rs:583-613` `parse_enum`. -/
def parseEnum (n : Nat) (ctx : ParseCtx) (isPub : Bool) : P ModElem := do
  let t ← P.peekU "parser.rs:584"
  let _ ← expect ctx "enum" (some "enum definition")
  let _ ← expect ctx "{" (some "enum definition")
  let entries ← enumLoop ctx n []
  let _ ← expect ctx "}" (some "enum definition")
  let _ ← P.eat ";"
  pure (.enum { isPub := isPub, entries := entries, pos := t.pos })

/-- The loop of `src/parser.rs:827-837`. -/
def formLoop (ctx : ParseCtx) : Nat → Form → P Form
  | 0, _ => P.diverge
  | n + 1, node => do
    if ← P.eat "[" then
      let next ← P.peek
      let e ←
        match next with
        | none => pure none
        | some t =>
          if t.kind ≠ "]" then do
            let e ← parseExpr n ctx 0
            pure (some e)
          else pure none
      let _ ← expect ctx "]"
      formLoop ctx n { node with indexes := node.indexes ++ [e] }
    else pure node

/-- `src/parser.rs:802-839` `parse_form`. -/
def parseForm (n : Nat) (ctx : ParseCtx) : P Form := do
  let t ← P.peekU "parser.rs:810"
  let hops ← eatStars
  let tok ← expect ctx "word" (some "form")
  if tok.content = "" then P.err "missing word content" tok.pos
  else formLoop ctx n { pos := t.pos, name := tok.content, hops := hops, indexes := [] }

/-- `src/parser.rs:771-787` `parse_variable_declaration`. -/
def parseVarDecl (n : Nat) (ctx : ParseCtx) : P Stmt := do
  let t ← P.peekU "parser.rs:772"
  let typename ← parseTypename ctx
  let form ← parseForm n ctx
  let value ←
    if ← P.eat "=" then do
      let e ← parseExpr n ctx 0
      pure (some e)
    else pure none
  let _ ← expect ctx ";"
  pure (.varDecl { pos := t.pos, typename := typename, form := form, value := value })

/-- `src/parser.rs:789-800` `parse_return`. -/
def parseReturn (n : Nat) (ctx : ParseCtx) : P Stmt := do
  let _ ← expect ctx "return"
  let t ← P.peekU "parser.rs:791"
  if t.kind = ";" then
    let _ ← P.get
    pure (.ret none)
  else
    let e ← parseExpr n ctx 0
    let _ ← expect ctx ";"
    pure (.ret (some e))

/-- `src/parser.rs:877-894`: the initialiser of a `for`. -/
def parseForInit (n : Nat) (ctx : ParseCtx) : P (Option ForInit) := do
  if ← P.follows ";" then pure none
  else
    let t ← P.peekU "parser.rs:880"
    if t.kind = "word" && isType t.content ctx.thismod.typedefs then
      let typename ← parseTypename ctx
      let form ← parseForm n ctx
      let _ ← expect ctx "="
      let value ← parseExpr n ctx 0
      pure (some (.decl typename form value))
    else
      let e ← parseExpr n ctx 0
      pure (some (.expr e))

/-- `src/parser.rs:897-901` and `:904-908`: an expression unless the given token
follows. -/
def parseOptExpr (n : Nat) (ctx : ParseCtx) (stop : String) : P (Option Expr) := do
  if ← P.follows stop then pure none
  else
    let e ← parseExpr n ctx 0
    pure (some e)

/-- The loop of `src/parser.rs:974-986`: the values of a switch case. -/
def caseValuesLoop (ctx : ParseCtx) : Nat → List CaseValue → P (List CaseValue)
  | 0, _ => P.diverge
  | n + 1, values => do
    let v ←
      if ← P.follows "word" then do
        let id ← readNsId ctx
        pure (CaseValue.ident id)
      else do
        let l ← parseLiteral
        pure (CaseValue.literal l)
    let values := values ++ [v]
    if ← P.eat "," then caseValuesLoop ctx n values
    else pure values

/-- The loop of `src/parser.rs:1090-1092`: skip to the next `}` or `;`. -/
def skipToEnd : List Token → List Token
  | [] => []
  | t :: ts => if t.kind = "}" ∨ t.kind = ";" then t :: ts else skipToEnd ts

/-- `src/parser.rs:1090-1095`: recovery after a bad statement. -/
def recover (ts : List Token) : List Token :=
  match skipToEnd ts with
  | t :: rest => if t.kind = ";" then rest else t :: rest
  | [] => []

mutual

/-- `src/parser.rs:720-769` `parse_statement`. -/
def parseStatement : Nat → ParseCtx → P (Stmt × List Error)
  | 0, _ => P.diverge
  | n + 1, ctx => do
    if !(← P.more) then P.err "reached end of file while parsing statement" ctx.eof
    else if ← typeFollows ctx then
      let s ← parseVarDecl n ctx
      pure (s, [])
    else
      let next ← P.peekU "parser.rs:734"
      match next.kind with
      | "break" => do
        let _ ← P.getU "parser.rs:737"
        let _ ← expect ctx ";" (some "break statement")
        pure (.brk, [])
      | "continue" => do
        let _ ← P.getU "parser.rs:745"
        let _ ← expect ctx ";" (some "continue statement")
        pure (.cont, [])
      | "for" => parseFor n ctx
      | "if" => parseIf n ctx
      | "return" => do
        let s ← parseReturn n ctx
        pure (s, [])
      | "switch" => parseSwitch n ctx
      | "while" => parseWhile n ctx
      | _ => do
        let e ← parseExpr n ctx 0
        let _ ← expect ctx ";" (some "parsing statement")
        pure (.expr e, [])

/-- `src/parser.rs:705-718` `parse_while`. -/
def parseWhile : Nat → ParseCtx → P (Stmt × List Error)
  | 0, _ => P.diverge
  | n + 1, ctx => do
    let _ ← expect ctx "while"
    let _ ← expect ctx "("
    let cond ← parseExpr n ctx 0
    let _ ← expect ctx ")"
    let (body, errs) ← parseBlock n ctx
    pure (.whileS cond body, errs)

/-- `src/parser.rs:841-871` `parse_if`. -/
def parseIf : Nat → ParseCtx → P (Stmt × List Error)
  | 0, _ => P.diverge
  | n + 1, ctx => do
    let _ ← expect ctx "if" (some "if statement")
    let _ ← expect ctx "(" (some "if statement")
    let cond ← parseExpr n ctx 0
    let _ ← expect ctx ")" (some "if statement")
    let (body, errs) ← parseBlock n ctx
    if ← P.eat "else" then
      let (els, errs2) ← parseBlock n ctx
      pure (.ifS cond body (some els), errs ++ errs2)
    else pure (.ifS cond body none, errs)

/-- `src/parser.rs:873-922` `parse_for`. -/
def parseFor : Nat → ParseCtx → P (Stmt × List Error)
  | 0, _ => P.diverge
  | n + 1, ctx => do
    let _ ← expect ctx "for"
    let _ ← expect ctx "("
    let init ← parseForInit n ctx
    let _ ← expect ctx ";" (some "for loop initializer")
    let cond ← parseOptExpr n ctx ";"
    let _ ← expect ctx ";" (some "for loop condition")
    let act ← parseOptExpr n ctx ")"
    let _ ← expect ctx ")" (some "for loop postaction")
    let (body, errs) ← parseBlock n ctx
    pure (.forS init cond act body, errs)

/-- `src/parser.rs:924-969` `read_switch`. -/
def parseSwitch : Nat → ParseCtx → P (Stmt × List Error)
  | 0, _ => P.diverge
  | n + 1, ctx => do
    let _ ← expect ctx "switch"
    let next ← P.peek
    let isStr ←
      match next with
      | some t =>
        if t.kind = "word" ∧ t.content = "str" then do
          let _ ← P.get
          pure true
        else pure false
      | none => pure false
    let _ ← expect ctx "("
    let value ← parseExpr n ctx 0
    let _ ← expect ctx ")"
    let _ ← expect ctx "{"
    let (cases, errs) ← casesLoop n ctx [] []
    let (dflt, errs) ←
      if ← P.follows "default" then do
        let _ ← expect ctx "default"
        let _ ← expect ctx ":"
        let (b, errs2) ← readBody n ctx
        pure (some b, errs ++ errs2)
      else pure (none, errs)
    let _ ← expect ctx "}"
    pure (.switchS isStr value cases dflt, errs)

/-- The loop of `src/parser.rs:942-948`. -/
def casesLoop : Nat → ParseCtx → List SwitchCase → List Error →
    P (List SwitchCase × List Error)
  | 0, _, _, _ => P.diverge
  | n + 1, ctx, cases, errs => do
    if ← P.follows "case" then
      let (c, errs2) ← parseCase n ctx
      casesLoop n ctx (cases ++ [c]) (errs ++ errs2)
    else pure (cases, errs)

/-- `src/parser.rs:971-996` `read_switch_case`. -/
def parseCase : Nat → ParseCtx → P (SwitchCase × List Error)
  | 0, _ => P.diverge
  | n + 1, ctx => do
    let _ ← expect ctx "case"
    let values ← caseValuesLoop ctx n []
    let _ ← expect ctx ":"
    let (body, errs) ← readBody n ctx
    pure (.mk values body, errs)

/-- `src/parser.rs:1064-1075` `parse_statements_block`. -/
def parseBlock : Nat → ParseCtx → P (Body × List Error)
  | 0, _ => P.diverge
  | n + 1, ctx => do
    if ← P.follows "{" then readBody n ctx
    else
      let (s, errs) ← parseStatement n ctx
      pure ([s], errs)

/-- `src/parser.rs:1077-1105` `read_body`. -/
def readBody : Nat → ParseCtx → P (Body × List Error)
  | 0, _ => P.diverge
  | n + 1, ctx => do
    let _ ← expect ctx "{"
    let r ← bodyLoop n ctx [] []
    let _ ← expect ctx "}"
    pure r

/-- The loop of `src/parser.rs:1081-1099`. -/
def bodyLoop : Nat → ParseCtx → List Stmt → List Error → P (Body × List Error)
  | 0, _, _, _ => P.diverge
  | n + 1, ctx, stmts, errs => do
    if ← P.follows "}" then pure (stmts, errs)
    else fun ts =>
      match parseStatement n ctx ts with
      | .ok (s, es) ts' => bodyLoop n ctx (stmts ++ [s]) (errs ++ es) ts'
      | .err e ts' => bodyLoop n ctx stmts (errs ++ [e]) (recover ts')
      | .panic m => .panic m
      | .diverge => .diverge

end

/-- The loop of `src/parser.rs:1049-1056`. -/
def paramFormsLoop (ctx : ParseCtx) : Nat → List Form → P (List Form)
  | 0, _ => P.diverge
  | n + 1, forms => do
    if ← P.follows "," then
      let t ← P.getU "parser.rs:1050"
      if (← typeFollows ctx) || (← P.follows "...") then
        P.unget t
        pure forms
      else
        let f ← parseForm n ctx
        paramFormsLoop ctx n (forms ++ [f])
    else pure forms

/-- `src/parser.rs:1042-1062` `parse_function_parameter`. -/
def parseFuncParam (n : Nat) (ctx : ParseCtx) : P TypeAndForms := do
  let typename ← parseTypename ctx
  let f ← parseForm n ctx
  let forms ← paramFormsLoop ctx n [f]
  pure { typename := typename, forms := forms }

/-- The loop of `src/parser.rs:1013-1018`. -/
def paramsLoop (ctx : ParseCtx) : Nat → List TypeAndForms → P (List TypeAndForms)
  | 0, _ => P.diverge
  | n + 1, ps => do
    if ← typeFollows ctx then
      let p ← parseFuncParam n ctx
      if !(← P.eat ",") then pure (ps ++ [p])
      else paramsLoop ctx n (ps ++ [p])
    else pure ps

/-- `src/parser.rs:998-1040` `parse_function_declaration`. -/
def parseFuncDecl (n : Nat) (ctx : ParseCtx) (isPub : Bool) (typename : Typename) (form : Form)
    (pos : Pos) : P (ModElem × List Error) := do
  let _ ← expect ctx "("
  let params ← paramsLoop ctx n []
  let variadic ← P.eat "..."
  let _ ← expect ctx ")" (some "parse_function_declaration")
  let (body, errs) ← parseBlock n ctx
  pure (.funcDecl { ispub := isPub, typename := typename, form := form,
                    params := { list := params, ellipsis := variadic }, body := body, pos := pos },
        errs)

/-- The loop of `src/parser.rs:1111-1116`. -/
def unionLoop (ctx : ParseCtx) : Nat → List UnionField → P (List UnionField)
  | 0, _ => P.diverge
  | n + 1, fields => do
    if ← P.follows "}" then pure fields
    else
      let typename ← parseTypename ctx
      let form ← parseForm n ctx
      let _ ← expect ctx ";"
      unionLoop ctx n (fields ++ [{ typename := typename, form := form }])

/-- `src/parser.rs:1107-1121` `parse_union`. -/
def parseUnion (n : Nat) (ctx : ParseCtx) : P UnionDef := do
  let _ ← expect ctx "union"
  let _ ← expect ctx "{"
  let fields ← unionLoop ctx n []
  let _ ← expect ctx "}"
  let form ← parseForm n ctx
  let _ ← expect ctx ";"
  pure { form := form, fields := fields }

/-- The loop of `src/parser.rs:1208-1211`. -/
def formsLoop (ctx : ParseCtx) : Nat → List Form → P (List Form)
  | 0, _ => P.diverge
  | n + 1, forms => do
    if ← P.eat "," then
      let f ← parseForm n ctx
      formsLoop ctx n (forms ++ [f])
    else pure forms

/-- `src/parser.rs:1195-1219` `parse_type_and_forms`. -/
def parseTypeAndForms (n : Nat) (ctx : ParseCtx) : P TypeAndForms := do
  if ← P.follows "struct" then
    let t ← P.peekU "parser.rs:1199"
    P.err "Unexpected struct" t.pos
  else
    let typename ← parseTypename ctx
    let f ← parseForm n ctx
    let forms ← formsLoop ctx n [f]
    let _ ← expect ctx ";"
    pure { typename := typename, forms := forms }

/-- The loop of `src/parser.rs:1131-1137`. -/
def structLoop (ctx : ParseCtx) : Nat → List StructEntry → P (List StructEntry)
  | 0, _ => P.diverge
  | n + 1, fields => do
    match ← P.peek with
    | none => pure fields
    | some t =>
      match t.kind with
      | "}" => pure fields
      | "union" => do
        let u ← parseUnion n ctx
        structLoop ctx n (fields ++ [.union u])
      | _ => do
        let f ← parseTypeAndForms n ctx
        structLoop ctx n (fields ++ [.plain f])

/-- Rust `str::parse::<usize>()` (64 bit): decimal digits with an optional plus
sign, below 2^64; `none` is the parse error. -/
def parseUsize (s : String) : Option Nat :=
  let ds := match s.toList with
    | '+' :: rest => rest
    | l => l
  if ds = [] ∨ !ds.all Char.isDigit then none
  else
    let n := ds.foldl (fun a c => a * 10 + (c.toNat - 48)) 0
    if n < 2 ^ 64 then some n else none

/-- `src/parser.rs:1177-1183`: the array size of a typedef. -/
def parseTypedefSize (ctx : ParseCtx) : P Nat := do
  if ← P.eat "[" then
    let num ← expect ctx "num"
    match parseUsize num.content with
    | none => P.panic "parser.rs:1181"
    | some n => do
      let _ ← expect ctx "]"
      pure n
  else pure 0

/-- `src/parser.rs:1123-1193` `parse_typedef`. -/
def parseTypedef (n : Nat) (ctx : ParseCtx) (isPub : Bool) : P ModElem := do
  let _ ← expect ctx "typedef"
  if ← P.follows "{" then
    let _ ← expect ctx "{" (some "struct type definition")
    let fields ← structLoop ctx n []
    let _ ← expect ctx "}"
    let tok ← expect ctx "word" (some "typedef typename - identifier")
    let _ ← expect ctx ";" (some "typedef")
    pure (.structTypedef { ispub := isPub, entries := fields, name := tok.content })
  else if ← P.eat "struct" then
    let sname ← expect ctx "word" (some "struct name")
    let alias ← expect ctx "word" (some "struct type alias")
    let _ ← expect ctx ";" (some "typedef")
    pure (.structAlias { ispub := isPub, structname := sname.content, typename := alias.content })
  else
    let typename ← parseTypename ctx
    let stars ← eatStars
    let tok ← expect ctx "word" (some "typedef alias - identifier")
    let params ←
      if ← P.follows "(" then do
        let ps ← parseAnonParams n ctx
        pure (some ps)
      else pure none
    let size ← parseTypedefSize ctx
    let _ ← expect ctx ";" (some "typedef")
    pure (.typedef { ispub := isPub, typename := typename, derefs := stars, funcParams := params,
                     arraySize := size, alias := tok.content })

/-- `src/parser.rs:144-191` `parse_module_object`. -/
def parseModuleObject (n : Nat) (ctx : ParseCtx) : P (ModElem × List Error) := do
  let t ← P.peekU "parser.rs:146"
  let isPub ← P.eat "pub"
  if ← P.follows "enum" then
    let e ← parseEnum n ctx isPub
    pure (e, [])
  else if ← P.follows "typedef" then
    let e ← parseTypedef n ctx isPub
    pure (e, [])
  else
    let typename ← parseTypename ctx
    let form ← parseForm n ctx
    let next ← P.peekU "parser.rs:165"
    if next.kind = "(" then parseFuncDecl n ctx isPub typename form t.pos
    else
      let _ ← expect ctx "=" (some "module variable")
      if isPub then P.err "module variables can't be exported" t.pos
      else
        let value ← parseExpr n ctx 0
        let _ ← expect ctx ";" (some "module variable declaration")
        pure (.modVar { typename := typename, form := form, value := some value, pos := t.pos }, [])

/-- `content.find(" ")` then `split_at`, `src/parser.rs:128-135`. -/
def splitAtSpace : List Char → Option (List Char × List Char)
  | [] => none
  | c :: cs =>
    if c = ' ' then some ([], c :: cs)
    else (splitAtSpace cs).map (fun (a, b) => (c :: a, b))

/-- `src/parser.rs:125-142` `parse_compat_macro`.  `name[1..]` drops the `#`
every macro token starts with (one byte). -/
def parseCompatMacro (ctx : ParseCtx) : P ModElem := do
  let tok ← expect ctx "macro"
  match splitAtSpace tok.content.toList with
  | none => P.err ("can't get macro name from '" ++ tok.content ++ "'") tok.pos
  | some (name, value) =>
    match dropBytes 1 name with
    | none => P.panic "parser.rs:138"
    | some name =>
      pure (.macro { name := String.ofList name, value := String.ofList value, pos := tok.pos })

/-- `src/parser.rs:74-123` `get_exports`: one element. -/
def addExports (ex : Exports) (e : ModElem) : Exports :=
  match e with
  | .enum x => if x.isPub then { ex with consts := ex.consts ++ x.entries } else ex
  | .typedef x => if x.ispub then { ex with types := ex.types ++ [x.alias] } else ex
  | .structTypedef x =>
    if x.ispub then { ex with types := ex.types ++ [x.name], structs := ex.structs ++ [x] } else ex
  | .funcDecl f => if f.ispub then { ex with fns := ex.fns ++ [f] } else ex
  | _ => ex

/-- `src/parser.rs:74-123` `get_exports`. -/
def getExports (elems : List ModElem) : Exports :=
  elems.foldl addExports { consts := [], fns := [], types := [], structs := [] }

/-- Outcome of `parse_module`. -/
inductive ModRes where
  | ok (m : Module)
  | errs (es : List Error)
  | panic (msg : String)
  | diverge
deriving Repr

/-- The end of `parse_module`, `src/parser.rs:64-71`. -/
def finishModule (objs : List ModElem) (errs : List Error) : ModRes :=
  if errs.length > 0 then .errs errs
  else .ok { elements := objs, exports := getExports objs }

/-- The loop of `src/parser.rs:31-63`. -/
def moduleLoop (ctx : ParseCtx) : Nat → List ModElem → List Error → List Token → ModRes
  | 0, _, _, _ => .diverge
  | _ + 1, objs, errs, [] => finishModule objs errs
  | n + 1, objs, errs, t :: ts =>
    match t.kind with
    | "import" => moduleLoop ctx n objs errs ts
    | "macro" =>
      match parseCompatMacro ctx (t :: ts) with
      | .ok r ts' => moduleLoop ctx n (objs ++ [r]) errs ts'
      | .err e _ => finishModule objs (errs ++ [e])
      | .panic m => .panic m
      | .diverge => .diverge
    | _ =>
      match parseModuleObject n ctx (t :: ts) with
      | .ok (r, es) ts' => moduleLoop ctx n (objs ++ [r]) (errs ++ es) ts'
      | .err e _ => finishModule objs (errs ++ [e])
      | .panic m => .panic m
      | .diverge => .diverge

/-- `src/parser.rs:28-72` `parse_module`, on the tokens of the file. -/
def parseModule (n : Nat) (ctx : ParseCtx) (ts : List Token) : ModRes := moduleLoop ctx n [] [] ts

end Che
