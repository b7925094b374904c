import Verif.Model.Lib.Url
import Verif.Model.Lib.Table

/-!
What URLs, lines and tables are.
-/
namespace Che.Spec.Text
open Che.Lib

/-- `schema://hostname:port/path`; the port may be missing, the path may be missing and is a
slash then. -/
inductive IsUrl : Bytes → Url.Url → Prop where
  | mk (schema hostname port path portText pathText : Bytes) :
      (58 : UInt8) ∉ schema → (58 : UInt8) ∉ hostname → (47 : UInt8) ∉ hostname →
      (portText = [] ∧ port = [] ∨ portText = 58 :: port ∧ (47 : UInt8) ∉ port) →
      (pathText = [] ∧ path = [47] ∨ pathText = path ∧ ∃ p, path = 47 :: p) →
      IsUrl (schema ++ [58, 47, 47] ++ hostname ++ portText ++ pathText) ⟨schema, hostname, port, path⟩

/-- The parts of a URL have room in the arrays. -/
def Fits (u : Url.Url) : Prop :=
  u.schema.length ≤ 10 ∧ u.hostname.length ≤ 100 ∧ u.port.length ≤ 10 ∧ u.path.length ≤ 100

/-- The lines of a file, each with its newline; the last one may have none. -/
inductive Lines : Bytes → List Bytes → Prop where
  | none : Lines [] []
  | last (l : Bytes) : l ≠ [] → (10 : UInt8) ∉ l → Lines l [l]
  | line (l s : Bytes) (ls : List Bytes) : (10 : UInt8) ∉ l → Lines s ls → Lines (l ++ [10] ++ s) ((l ++ [10]) :: ls)

/-- A text with spaces after it. -/
def Padded (s : Bytes) (w : Nat) (out : Bytes) : Prop := out.length = w ∧ ∃ k, out = s ++ List.replicate k 32

/-- `Laid ncols width i values out`: the values, the first of them with number `i`, one after
another, each padded to the width of its column, and a newline after the last column. -/
inductive Laid (ncols : Nat) (width : Nat → Nat) : Nat → List Bytes → Bytes → Prop where
  | nil (i : Nat) : Laid ncols width i [] []
  | cell (i : Nat) (v cell : Bytes) (vs : List Bytes) (out : Bytes) : Padded v (width (i % ncols)) cell →
      i % ncols + 1 < ncols → Laid ncols width (i + 1) vs out → Laid ncols width i (v :: vs) (cell ++ out)
  | last (i : Nat) (v cell : Bytes) (vs : List Bytes) (out : Bytes) : Padded v (width (i % ncols)) cell →
      i % ncols + 1 = ncols → Laid ncols width (i + 1) vs out → Laid ncols width i (v :: vs) (cell ++ [10] ++ out)
end Che.Spec.Text
