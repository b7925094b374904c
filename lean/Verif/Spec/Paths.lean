/-!
# Specification: what a Unix path denotes

A path is either absolute or relative and names a sequence of components; empty
components and `.` do not count, `..` is kept as it is.
-/
namespace Che.Spec

/-- The pieces between slashes. -/
def pieces : List Char → List (List Char)
  | [] => [[]]
  | c :: cs =>
    if c = '/' then [] :: pieces cs
    else match pieces cs with
      | p :: ps => (c :: p) :: ps
      | [] => [[c]]

/-- The components of a path. -/
def comps (p : List Char) : List (List Char) := (pieces p).filter (fun x => x != [] && x != ['.'])

/-- Is the path absolute? -/
def isAbs (p : List Char) : Bool := p.head? == some '/'

/-- Two paths that denote the same file (without following `..` or links). -/
def SamePath (p q : List Char) : Prop := isAbs p = isAbs q ∧ comps p = comps q

end Che.Spec
