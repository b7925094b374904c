import Verif.Model.Lib.Tiff

/-!
What TIFF files are: a mark for the order of bytes, the number 42, and directories, each with the place of the next one after it.
-/
namespace Che.Spec.Tiff
open Che.Lib Che.Lib.Tiff

/-- The number that bytes are, in one order or the other. -/
def number : Bool → Bytes → Nat
  | true, bs => bs.foldl (fun v c => 256 * v + c.toNat) 0
  | false, bs => bs.foldr (fun c v => c.toNat + 256 * v) 0

/-- At a place of the data there are so many bytes with a number. -/
def At (data : Bytes) (big : Bool) (pos n v : Nat) : Prop := ∃ a bs c, data = a ++ bs ++ c ∧ a.length = pos ∧ bs.length = n ∧ number big bs = v

/-- An entry at a place: 12 bytes. -/
def EntryAt (data : Bytes) (big : Bool) (pos : Nat) (e : Entry) : Prop :=
  At data big pos 2 e.tag ∧ At data big (pos + 2) 2 e.type ∧ At data big (pos + 4) 4 e.count ∧ At data big (pos + 8) 4 e.value

/-- The directories from a place on where the place of the first one is. -/
inductive Dirs (data : Bytes) (big : Bool) : Nat → List (List Entry) → Prop
  | nil (pos : Nat) : At data big pos 4 0 → Dirs data big pos []
  | cons (pos p : Nat) (es : List Entry) (ds : List (List Entry)) : At data big pos 4 p → p ≠ 0 → At data big p 2 es.length →
      (∀ i e, es[i]? = some e → EntryAt data big (p + 2 + 12 * i) e) → Dirs data big (p + 2 + 12 * es.length) ds → Dirs data big pos (es :: ds)

/-- A file: `II` or `MM`, 42, and the directories. -/
def Tiff (data : Bytes) (big : Bool) (ds : List (List Entry)) : Prop :=
  (if big then [77, 77] else [73, 73]) <+: data ∧ At data big 2 2 42 ∧ Dirs data big 4 ds
end Che.Spec.Tiff
