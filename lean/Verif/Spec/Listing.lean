import Verif.Model.FormatChe
/-!
# Specification: the listing of what a module exports
-/
namespace Che.Spec
open Che

/-- A heading with its indented lines; nothing if there are none. -/
def block (title : String) (lines : List String) : String :=
  if lines = [] then "" else title ++ "\n" ++ String.join (lines.map fun l => "\t" ++ l ++ "\n")

/-- Texts with commas between them. -/
def commas : List String → String
  | [] => ""
  | [a] => a
  | a :: b :: r => a ++ ", " ++ commas (b :: r)

/-- How one parameter group is written by `che exports`: the type and all forms
run together. -/
def groupText (p : TypeAndForms) : String :=
  FormatChe.fmtTypename p.typename ++ " " ++ String.join (p.forms.map FormatChe.fmtForm)

/-- A function without its type: the form, the parameter groups and `...`. -/
def declText (f : FuncDecl) : String :=
  FormatChe.fmtForm f.form ++ " (" ++ commas (f.params.list.map groupText) ++
    (if f.params.ellipsis then ", ..." else "") ++ ")"

/-- The same in Che syntax: commas between the forms of a group, between the groups
and before `...`. -/
def cheText (f : FuncDecl) : String :=
  FormatChe.fmtForm f.form ++ " (" ++ commas ((f.params.list.map fun p =>
    FormatChe.fmtTypename p.typename ++ " " ++ commas (p.forms.map FormatChe.fmtForm)) ++
      (if f.params.ellipsis then ["..."] else [])) ++ ")"

/-- The line of a function when the types have a column of `w` bytes: stars stand
in the column before the names. -/
def fnText (decl : FuncDecl → String) (w : Nat) (f : FuncDecl) : String :=
  let t := FormatChe.fmtTypename f.typename
  t ++ String.ofList (List.replicate (w - t.utf8ByteSize) ' ') ++
    (if 0 < f.form.hops then "  " else "   ") ++ decl f

/-- The bytes the widest type takes. -/
def widest (fs : List FuncDecl) : Nat :=
  (fs.map fun f => (FormatChe.fmtTypename f.typename).utf8ByteSize).foldr max 0

/-- The listing of a module; `decl` writes a function without its type. -/
def listing (decl : FuncDecl → String) (path : String) (consts types : List String) (fns : List FuncDecl) : String :=
  "mod " ++ path ++ "\n" ++ block "constants" consts ++ block "types" types ++
    block "functions" (fns.map (fnText decl (widest fns)))

end Che.Spec
