import Verif.Model.Lib.Srt
import Verif.Model.Lib.Json

/-!
`prog/srt2jsonl/srt2jsonl.c`: subtitles as lines of JSON.

Simplification: what is printed is a list of bytes, and printing does not fail.  When the reader stops the program,
nothing is said about what was printed before.
-/
namespace Che.Prog.Srt2jsonl
open Che.Lib Che.Lib.Srt

/-- `print_block`, prog/srt2jsonl/srt2jsonl.c:13-29. -/
def print_block (b : Block) : Bytes :=
  cstr "{" ++ Json.write_string (cstr "n") ++ (cstr ":" ++ Time.fmtInt 0 b.index ++ cstr ",") ++ Json.write_string (cstr "range") ++ cstr ":" ++
    Json.write_string b.range ++ cstr "," ++ Json.write_string (cstr "text") ++ cstr ":" ++ Json.write_string b.text ++ cstr "}\n"

/-- `main`, prog/srt2jsonl/srt2jsonl.c:4-11. -/
def main (n : Nat) (file : Bytes) : Res String Bytes := (readAll n file).bind fun bs => .ok (bs.flatMap print_block)

end Che.Prog.Srt2jsonl
