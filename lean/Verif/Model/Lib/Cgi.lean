import Verif.Model.Basic
import Verif.Model.Lib.Tokenizer

/-!
Model of `lib/protocols/cgi.c`.  `data` and `pos` are one list: what is left.  `isspace` of a negative
`char` is taken to be false, as it is in the GNU library.
-/
namespace Che.Lib.Cgi
open Che.Lib

/-- `if (data[pos] == c) pos++;`, lib/protocols/cgi.c:42. -/
def skip1 (c : UInt8) (s : Bytes) : Bytes := if s.head? = some c then s.tail else s

/-- The end of a line, lib/protocols/cgi.c:42-43 and 48-49. -/
def skipEol (s : Bytes) : Bytes := skip1 10 (skip1 13 s)

/-- A line, lib/protocols/cgi.c:14-46: the header and what is left, or `none` for `return false`.
A name or value of exactly 1000 bytes has no terminator, and `strcpy` reads on; the model stops for it earlier, also
where the text ends before `strcpy` and the code returns false. -/
def line (s : Bytes) : Res String (Option ((Bytes × Bytes) × Bytes)) :=
  let name := s.takeWhile (· ≠ 58)
  if name.length ≥ 1000 then .panic "undefined: write outside of an array"
  else
    match s.dropWhile (· ≠ 58) with
    | [] => .ok none
    | _ :: s =>
      let s := s.dropWhile fun c => Tok.isspace c.toNat
      if s = [] then .ok none
      else
        let value := s.takeWhile fun c => c ≠ 10 && c ≠ 13
        if value.length ≥ 1000 then .panic "undefined: write outside of an array"
        else
          match s.dropWhile fun c => c ≠ 10 && c ≠ 13 with
          | [] => .ok none
          | s => .ok (some ((name.takeWhile (· ≠ 0), value.takeWhile (· ≠ 0)), skipEol s))

/-- The loop of `parse_head`, lib/protocols/cgi.c:13-52. -/
def loop : Nat → Bytes → List (Bytes × Bytes) → Res String (Option (List (Bytes × Bytes) × Bytes))
  | 0, _, _ => .diverge
  | n + 1, s, hs =>
    (line s).bind fun r =>
      match r with
      | none => .ok none
      | some (h, s) =>
        if hs.length ≥ 100 then .panic "undefined: write outside of an array"
        else if s.head? = some 13 ∨ s.head? = some 10 then .ok (some (hs ++ [h], skipEol s))
        else loop n s (hs ++ [h])

/-- `parse_head`, lib/protocols/cgi.c:11-53: the headers and the position, or `none` for zero. -/
def parse_head (data : Bytes) : Res String (Option (List (Bytes × Bytes) × Nat)) :=
  (loop (data.length + 1) data []).bind fun r =>
    match r with
    | none => .ok none
    | some (hs, s) => .ok (some (hs, data.length - s.length))
end Che.Lib.Cgi
