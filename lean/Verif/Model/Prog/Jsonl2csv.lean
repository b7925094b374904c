import Verif.Model.Lib.Vtt
import Verif.Model.Lib.Json
import Verif.Model.Lib.Csv

/-!
Model of `prog/jsonl2csv/jsonl2csv.c`, from the bytes of the input to what is printed.

Printing does not fail, and there is enough memory.
-/
namespace Che.Prog.Jsonl2csv
open Che.Lib Che.Lib.Json

variable {D : Type}

/-- The message for a line that is not JSON, prog/jsonl2csv/jsonl2csv.c:38. -/
def message (line : Bytes) : Bytes := cstr "failed to parse line as json: \"" ++ line ++ cstr "\"\n"

/-- The loop of `readobj`, prog/jsonl2csv/jsonl2csv.c:35-43, with a bound on the rounds: the value, if there is one, what is left, and the messages. -/
def readLoop (dbl : Dbl D) : Nat → Bytes → Res String (Option (Val D) × Bytes × Bytes)
  | 0, file => .ok (none, file, [])
  | k + 1, file =>
    if file = [] then .ok (none, [], [])
    else
      let (line, file) := Vtt.fgets 4095 file
      match Json.parse dbl (Vtt.str line) with
      | .ok (p, v) => if p.sound then .ok (some v, file, []) else .panic "undefined: number does not fit"
      | .err _ => (readLoop dbl k file).bind fun (v, file, e) => .ok (v, file, message (Vtt.str line) ++ e)
      | .panic s => .panic s
      | .diverge => .diverge

/-- `readobj`, prog/jsonl2csv/jsonl2csv.c:32-45. -/
def readobj (dbl : Dbl D) (file : Bytes) : Res String (Option (Val D) × Bytes × Bytes) := readLoop dbl file.length file

/-- `json.get`, lib/formats/json.c:196-206. -/
def lookup (v : Val D) (k : Bytes) : Option (Val D) :=
  match v with
  | .obj es => Json.get k es
  | _ => none

/-- The switch of `printobj`, prog/jsonl2csv/jsonl2csv.c:53-61: what is written, or nothing if a number does not fit. -/
def cell (dbl : Dbl D) : Option (Val D) → Option Bytes
  | none => some []
  | some .null => some []
  | some (.str s) => some s
  | some v => Json.format dbl v

/-- The values that `printobj` writes, prog/jsonl2csv/jsonl2csv.c:51-62. -/
def row (dbl : Dbl D) (v : Val D) : List Bytes → Option (List Bytes)
  | [] => some []
  | k :: header => (cell dbl (lookup v k)).bind fun x => (row dbl v header).map (x :: ·)

/-- The keys of the first value, prog/jsonl2csv/jsonl2csv.c:16-23; items of arrays have none. -/
def keys : Val D → Option (List Bytes)
  | .obj es => some (es.map Prod.fst)
  | .arr (_ :: _) => none
  | _ => some []

/-- The loop of `main`, prog/jsonl2csv/jsonl2csv.c:25-28, with `printobj` (47-65) and a bound on the rounds: what is printed to the two outputs. -/
def loop (dbl : Dbl D) (header : List Bytes) : Nat → Val D → Bytes → Res String (Bytes × Bytes)
  | 0, _, _ => .diverge
  | k + 1, v, file =>
    match row dbl v header with
    | none => .panic "undefined: number does not fit"
    | some r => (readobj dbl file).bind fun (next, file, e) =>
      match next with
      | none => .ok (Csv.writeline r, e)
      | some v => (loop dbl header k v file).bind fun (out, e') => .ok (Csv.writeline r ++ out, e ++ e')

/-- The rest of `main`, prog/jsonl2csv/jsonl2csv.c:11-30, after the first value. -/
def start (dbl : Dbl D) (k : Nat) : Option (Val D) × Bytes × Bytes → Res String (Bytes × Bytes × Nat)
  | (none, _, e) => .ok ([], e ++ cstr "no objects read\n", 1)
  | (some v, file, e) =>
    match keys v with
    | none => .panic "undefined: item without a key"
    | some header =>
      if header.length > 100 then .ok ([], e ++ cstr "reached max header size (100)\n", 1)
      else (loop dbl header k v file).bind fun (out, e') => .ok (out, e ++ e', 0)

/-- `main`, prog/jsonl2csv/jsonl2csv.c:9-30: what is printed to the two outputs, and the status. -/
def main (dbl : Dbl D) (file : Bytes) : Res String (Bytes × Bytes × Nat) := (readobj dbl file).bind (start dbl (file.length + 1))

end Che.Prog.Jsonl2csv
