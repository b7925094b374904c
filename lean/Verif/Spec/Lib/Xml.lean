import Verif.Model.Lib.IO

/-!
XML files without texts and comments, and cursors in them.

A tag is written as the XML standard says (productions 40 to 44), with names of letters only, values in double quotes
without references, no spaces around the sign "=" nor at the end of a closing tag; a space between a value and the
next name may be missing, which the standard does not allow.
-/
namespace Che.Spec.Lib.Xml
open Che.Lib

/-- An element: an empty one such as `<a x="1"/>`, or one between two tags. -/
inductive Elem where
  | empty (name : Bytes) (attrs : List (Bytes × Bytes))
  | tree (name : Bytes) (attrs : List (Bytes × Bytes)) (kids : List Elem)

def Elem.name : Elem → Bytes
  | .empty n _ => n
  | .tree n _ _ => n

def Elem.attrs : Elem → List (Bytes × Bytes)
  | .empty _ a => a
  | .tree _ a _ => a

/-- White space. -/
def Space (s : Bytes) : Prop := ∀ c ∈ s, c = 32 ∨ (9 ≤ c ∧ c ≤ 13)

/-- A letter. -/
def Letter (c : UInt8) : Prop := (65 ≤ c ∧ c ≤ 90) ∨ (97 ≤ c ∧ c ≤ 122)

/-- A name. -/
def Name (n : Bytes) : Prop := n ≠ [] ∧ n.length ≤ 15 ∧ ∀ c ∈ n, Letter c

/-- What is after the name in a tag: attributes and spaces.  The flag says that a letter would go on a name. -/
inductive Attrs : Bool → List (Bytes × Bytes) → Bytes → Prop
  | nil {b s} : Space s → Attrs b [] s
  | cons {b sp n v as s} : Space sp → (b = true → sp ≠ []) → Name n → (∀ c ∈ v, c ≠ 34) → v.length ≤ 4095 →
      Attrs false as s → Attrs b ((n, v) :: as) (sp ++ n ++ [61, 34] ++ v ++ [34] ++ s)

mutual
/-- The texts of an element. -/
inductive Text : Elem → Bytes → Prop
  | empty {n as s} : Name n → as.length ≤ 64 → Attrs true as s → Text (.empty n as) ([60] ++ n ++ s ++ [47, 62])
  | tree {n as s kids k sp} : Name n → as.length ≤ 64 → Attrs true as s → Texts kids k → Space sp →
      Text (.tree n as kids) ([60] ++ n ++ s ++ [62] ++ k ++ sp ++ [60, 47] ++ n ++ [62])

/-- The texts of elements one after another. -/
inductive Texts : List Elem → Bytes → Prop
  | nil : Texts [] []
  | cons {sp e s es t} : Space sp → Text e s → Texts es t → Texts (e :: es) (sp ++ s ++ t)
end

/-- The header of a file, `<?xml … ?>`. -/
def Header (s : Bytes) : Prop := ∃ sp h, Space sp ∧ (∀ c ∈ h, c ≠ 62) ∧ s = sp ++ [60, 63] ++ h ++ [62]

/-- A file: the header, an element and spaces. -/
def File (root : Elem) (s : Bytes) : Prop :=
  ∃ h sp t sp', Header h ∧ Space sp ∧ Text root t ∧ Space sp' ∧ s = h ++ sp ++ t ++ sp'

mutual
/-- At most `d` elements with two tags are inside each other. -/
def Elem.Depth : Nat → Elem → Prop
  | _, .empty _ _ => True
  | d, .tree _ _ kids => 0 < d ∧ Elem.Depths (d - 1) kids

def Elem.Depths : Nat → List Elem → Prop
  | _, [] => True
  | d, e :: es => Elem.Depth d e ∧ Elem.Depths d es
end

/-- A place in a tree: the element with those that follow it, and for all parents those that follow them.  There may
be no element. -/
structure Cursor where
  here : List Elem
  up : List (List Elem)

/-- What a program can ask for. -/
inductive Op | enter | next | leave

/-- Where an operation leads, and what it returns. -/
def Cursor.move (c : Cursor) : Op → Cursor × Bool
  | .enter =>
    match c.here with
    | .tree _ _ kids :: rest => (⟨kids, rest :: c.up⟩, true)
    | _ => (c, false)
  | .next => (⟨c.here.tail, c.up⟩, false)
  | .leave =>
    match c.up with
    | rest :: up => (⟨rest, up⟩, false)
    | [] => (c, false)

/-- The root cannot be left. -/
def Cursor.can (c : Cursor) : Op → Prop
  | .leave => c.up ≠ []
  | _ => True

/-- What a program sees. -/
def Cursor.name (c : Cursor) : Option Bytes := c.here.head?.map Elem.name

/-- The value of an attribute. -/
def Cursor.attr (c : Cursor) (name : Bytes) : Option Bytes :=
  c.here.head?.bind fun e => (e.attrs.find? (·.1 = name)).map (·.2)
end Che.Spec.Lib.Xml
