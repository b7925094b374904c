import Verif.Model.Lib.Csv
import Verif.Model.Lib.Json

/-!
Model of `prog/csv2json`.  The arguments are given by the value of the flag `-n`.
-/
namespace Che.Prog.Csv2json
open Che.Lib

/-- What `"col%d"` gives for numbers below 100. -/
def colname (i : Nat) : Bytes :=
  [99, 111, 108] ++ (if i < 10 then [UInt8.ofNat (48 + i)] else [UInt8.ofNat (48 + i / 10), UInt8.ofNat (48 + i % 10)])

/-- What has been printed, whether a line is started, and whether only memory of the
program was used. -/
structure Out where
  text : Bytes
  started : Bool
  sound : Bool

/-- `write_kv`, prog/csv2json/csv2json.c:61-65. -/
def write_kv (k v : Bytes) : Bytes := Json.write_string k ++ [58] ++ Json.write_string v

/-- `val`, prog/csv2json/csv2json.c:45-54, called as in line 30. -/
def Out.val (o : Out) (names : List Bytes) (i : Nat) (v : Bytes) : Out :=
  match names[i]? with
  | none => { o with sound := false }
  | some k => { o with text := o.text ++ (if o.started then [44] else [123]) ++ write_kv k v, started := true }

/-- `end`, prog/csv2json/csv2json.c:55-59. -/
def Out.finish (o : Out) : Out := if !o.started then o else { o with text := o.text ++ [125, 10], started := false }

/-- The loop at prog/csv2json/csv2json.c:29-32. -/
def valsLoop (names : List Bytes) : Nat → Csv.R → Nat → Out → Res Unit (Csv.R × Out)
  | 0, _, _, _ => .diverge
  | n + 1, r, i, o => do
    let (r, ok) ← Csv.readval r
    if !ok then .ok (r, o) else valsLoop names n r (i + 1) (o.val names i (Csv.val r))

/-- The loop at prog/csv2json/csv2json.c:27-37. -/
def rowsLoop (names : List Bytes) : Nat → Csv.R → Out → Res Unit (Csv.R × Out)
  | 0, _, _ => .diverge
  | n + 1, r, o => do
    let (r, o) ← valsLoop names (Tok.rounds r.b) r 0 o
    let o := o.finish
    let (r, ok) ← Csv.nextline r
    if !ok then .ok (r, o) else rowsLoop names n r o

/-- The loop at prog/csv2json/csv2json.c:20-23.  A name is copied to where `"col%d"` was; the
flag says whether there was room. -/
def headLoop : Nat → Csv.R → Nat → List Bytes → Bool → Res Unit (Csv.R × List Bytes × Bool)
  | 0, _, _, _, _ => .diverge
  | n + 1, r, i, names, sound => do
    let (r, ok) ← Csv.readval r
    if !ok then .ok (r, names, sound)
    else headLoop n r (i + 1) (names.set i (Csv.val r)) (sound && i < 100 && (Csv.val r).length ≤ (colname i).length)

/-- `main`, prog/csv2json/csv2json.c:6-41: what it prints, and whether only memory of the
program was used. -/
def main (noheader : Bool) (input : Bytes) : Res Unit (Bytes × Bool) := do
  let names := (List.range 100).map colname
  let r := Csv.newreader input
  let (r, names, sound) ←
    if !noheader then do
      let (r, names, sound) ← headLoop (Tok.rounds r.b) r 0 names true
      let (r, _) ← Csv.nextline r
      (.ok (r, names, sound) : Res Unit _)
    else .ok (r, names, true)
  let (r, o) ← rowsLoop names (Tok.rounds r.b) r { text := [], started := false, sound := sound }
  .ok (o.text, o.sound && r.sound)

end Che.Prog.Csv2json
