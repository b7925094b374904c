import Verif.Model.Basic
import Verif.Model.Lib.Enc

/-!
What MIME types are.
-/
namespace Che.Spec.Mime
open Che.Lib

/-- The kinds of media of the types. -/
def kinds : List Bytes := [cstr "application", cstr "audio", cstr "font", cstr "image", cstr "text", cstr "video"]

/-- A character of a subtype: a letter, a digit, a dot, a plus or a minus. -/
def Char (c : UInt8) : Prop := (97 ≤ c ∧ c ≤ 122) ∨ (48 ≤ c ∧ c ≤ 57) ∨ c = 46 ∨ c = 43 ∨ c = 45

/-- A type is a kind, a slash and a subtype. -/
def Type' (v : Bytes) : Prop := ∃ kind sub, v = kind ++ [47] ++ sub ∧ kind ∈ kinds ∧ sub ≠ [] ∧ ∀ c ∈ sub, Char c

end Che.Spec.Mime
