import Verif.Model.Lexer
/-!
# A fixed token sequence and a cursor: what lookahead should look like
-/
namespace Che.Spec

/-- An entry of a token sequence. -/
inductive Item where
  | tok (t : Token)
  | eof
  | abort (msg : String)
deriving DecidableEq, Repr

/-- The calls a program makes on a lexer. `unget` puts back the token before the
cursor. -/
inductive Call where
  | get
  | peek
  | peekn (n : Nat)
  | more
  | follows (kind : String)
  | eat (kind : String)
  | unget
deriving DecidableEq, Repr

/-- What a call returns. -/
inductive Seen where
  | token (t : Option Token)
  | tokens (ts : Option (List Token))
  | flag (b : Bool)
  | unit
deriving DecidableEq, Repr

/-- Result of a call on the sequence: what is seen and the new cursor, or an
abort. -/
inductive Ideal where
  | ok (seen : Seen) (low cursor : Nat)
  | abort (msg : String)
  | illegal
deriving DecidableEq, Repr

/-- The next `n` tokens: none if the sequence ends before. -/
inductive Ahead where
  | ok (ts : Option (List Token))
  | abort (msg : String)
deriving DecidableEq, Repr

def ahead (S : Nat → Item) : Nat → Nat → Ahead
  | _, 0 => .ok (some [])
  | k, n + 1 =>
    match S k with
    | .eof => .ok none
    | .abort m => .abort m
    | .tok t =>
      match ahead S (k + 1) n with
      | .ok (some ts) => .ok (some (t :: ts))
      | .ok none => .ok none
      | .abort m => .abort m

/-- The calls on a sequence `S` with the cursor at `k`: only `get`, a successful
`eat` and `unget` move it. A caller can put back only tokens it has been given by
`get`: those from place `low` on, as `eat` gives it none. -/
def ideal (S : Nat → Item) (low k : Nat) : Call → Ideal
  | .get =>
    match S k with
    | .tok t => .ok (.token (some t)) low (k + 1)
    | .eof => .ok (.token none) low k
    | .abort m => .abort m
  | .peek =>
    match S k with
    | .tok t => .ok (.token (some t)) low k
    | .eof => .ok (.token none) low k
    | .abort m => .abort m
  | .peekn n =>
    match ahead S k n with
    | .ok ts => .ok (.tokens ts) low k
    | .abort m => .abort m
  | .more =>
    match S k with
    | .tok _ => .ok (.flag true) low k
    | .eof => .ok (.flag false) low k
    | .abort m => .abort m
  | .follows kind =>
    match S k with
    | .tok t => .ok (.flag (t.kind == kind)) low k
    | .eof => .ok (.flag false) low k
    | .abort m => .abort m
  | .eat kind =>
    match S k with
    | .tok t =>
      if t.kind == kind then .ok (.flag true) (k + 1) (k + 1) else .ok (.flag false) low k
    | .eof => .ok (.flag false) low k
    | .abort m => .abort m
  | .unget => if low < k then .ok .unit low (k - 1) else .illegal

/-- How a history of calls ends. -/
inductive End where
  | open_
  | abort (msg : String)
  | illegal
  | hang
deriving DecidableEq, Repr

/-- All that is seen in a history of calls. -/
def idealTrace (S : Nat → Item) : Nat → Nat → List Call → List Seen × End
  | _, _, [] => ([], .open_)
  | low, k, c :: cs =>
    match ideal S low k c with
    | .ok s low' k' => let (ss, e) := idealTrace S low' k' cs; (s :: ss, e)
    | .abort m => ([], .abort m)
    | .illegal => ([], .illegal)

end Che.Spec
