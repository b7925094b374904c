import Verif.Model.Lib.Vtt
import Verif.Model.Lib.Json

/-!
`prog/vtt2jsonl/vtt2jsonl.c`: WebVTT subtitles as lines of JSON.

Simplification: what is printed is a list of bytes, and printing does not fail.  When the reader stops the program,
nothing is said about what was printed before.
-/
namespace Che.Prog.Vtt2jsonl
open Che.Lib

/-- `print_block`, prog/vtt2jsonl/vtt2jsonl.c:18-31, of the times and the text. -/
def print_block (b : Bytes × Bytes) : Bytes :=
  cstr "{" ++ Json.write_string (cstr "range") ++ cstr ":" ++ Json.write_string b.1 ++ cstr "," ++ Json.write_string (cstr "text") ++ cstr ":" ++ Json.write_string b.2 ++ cstr "}\n"

/-- What the program leaves. -/
structure Result where
  stdout : Bytes
  stderr : Bytes
  status : Nat
deriving DecidableEq, Repr

/-- `main`, prog/vtt2jsonl/vtt2jsonl.c:4-16. -/
def main (n : Nat) (file : Bytes) : Res String Result :=
  (Vtt.readAll n file).bind fun (bs, err) =>
    .ok (match err with
      | some e => ⟨bs.flatMap print_block, e ++ [10], 1⟩
      | none => ⟨bs.flatMap print_block, [], 0⟩)

end Che.Prog.Vtt2jsonl
