import Verif.Model.Preparser
/-!
# Specification: the tree of imports of a file
-/
namespace Che.Spec
open Che

/-- A tree of file paths. -/
inductive Tree where
  | node (path : String) (kids : List Tree)

/-- The file at the root. -/
def Tree.path : Tree → String
  | .node p _ => p

/-- Every node has one child for each import of its file, in the order of the
text; `imports` gives the paths a file imports. -/
inductive ImportTree (imports : String → Option (List String)) : Tree → Prop
  | node {p : String} {kids : List Tree} (h : imports p = some (kids.map Tree.path))
      (hk : ∀ k ∈ kids, ImportTree imports k) : ImportTree imports (.node p kids)

/-- The line of a file at depth `d`: two blanks for each level, and a dash
below the root. -/
def treeLine (d : Nat) (p : String) : String :=
  String.ofList (List.replicate (2 * d) ' ') ++ (if d = 0 then "" else "- ") ++ p ++ "\n"

mutual
/-- The text of a tree: its line, then its children one level deeper. -/
def Tree.text (d : Nat) : Tree → String
  | .node p kids => treeLine d p ++ Tree.texts (d + 1) kids
/-- The text of trees one after another. -/
def Tree.texts (d : Nat) : List Tree → String
  | [] => ""
  | t :: ts => Tree.text d t ++ Tree.texts d ts
end

/-- The paths a file imports, in the order of its text. -/
def importsOf [Unicode] (fs : FS) (fuel : Nat) (p : String) : Option (List String) :=
  match preparse fs fuel p with
  | .ok m => some (m.imports.map (·.path))
  | _ => none

end Che.Spec
