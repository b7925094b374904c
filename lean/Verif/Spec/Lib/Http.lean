import Verif.Model.Lib.Http
import Verif.Spec.Lib.Enc

/-!
HTTP requests as texts.
-/
namespace Che.Spec.Http
open Che.Lib Che.Lib.Http

/-- A header line: the name has no colon and does not begin with the end of a line, the value has no
carriage return, and both fit. -/
def Header (h : Bytes × Bytes) : Prop :=
  58 ∉ h.1 ∧ 13 ∉ h.2 ∧ ¬ [13, 10] <+: h.1 ++ [58] ∧ h.1.length < 1024 ∧ h.2.length < 1024

/-- The header lines. -/
def lines (hs : List (Bytes × Bytes)) : Bytes := hs.flatMap fun h => h.1 ++ [58, 32] ++ h.2 ++ [13, 10]

/-- A request: the line with the method, the address and the version, header lines and an empty line. -/
structure IsRequest (s : Bytes) (method uri version : Bytes) (hs : List (Bytes × Bytes)) (rest : Bytes) : Prop where
  text : s = method ++ [32] ++ uri ++ [32] ++ version ++ [13, 10] ++ lines hs ++ [13, 10] ++ rest
  method : 32 ∉ method ∧ method.length < 10
  uri : 32 ∉ uri ∧ uri.length < 1024
  version : 13 ∉ version ∧ version.length < 10
  headers : ∀ h ∈ hs, Header h

/-- The address of a request: the path, and the query after a question mark. -/
def Address (uri path query : Bytes) : Prop :=
  63 ∉ path ∧ (uri = path ∧ query = [] ∨ uri = path ++ [63] ++ query)

/-- The name of the file is the part of the path after the last slash. -/
def FileName (path filename : Bytes) : Prop :=
  (47 ∉ path ∧ filename = []) ∨ ∃ dir, path = dir ++ [47] ++ filename ∧ 47 ∉ filename

/-- The percent-encoded text. -/
def percent (c : UInt8) : Bytes :=
  if (48 ≤ c ∧ c ≤ 57) ∨ (65 ≤ c ∧ c ≤ 90) ∨ (97 ≤ c ∧ c ≤ 122) then [c]
  else 37 :: ((Nat.toDigits 16 (c.toNat + 256)).drop 1).map fun d => UInt8.ofNat d.toUpper.toNat

/-- What is written after the address: `?name=value&name=value`, with the values percent-encoded. -/
def query (ps : List (Bytes × Bytes)) : Bytes :=
  match ps with
  | [] => []
  | ps => 63 :: [38].intercalate (ps.map fun p => p.1 ++ [61] ++ p.2.flatMap percent)

/-- The text of a request. -/
def text (r : Request) : Bytes :=
  r.method ++ [32] ++ r.uri ++ query r.params ++ [32] ++ r.version ++ [13, 10] ++ lines r.headers ++ [13, 10]
end Che.Spec.Http
