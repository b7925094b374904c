import Verif.Model.Resolve
/-!
# Sample inputs for the examples beside the theorems
-/
namespace Che

/-- No letters outside ASCII: the `Unicode` parameter of the examples. -/
@[instance_reducible] def asciiOnly : Unicode where
  nonAsciiAlnum _ := false

/-- A small file system for the examples: `/m.c` imports `/b.c` and `/a.c`, and
`/b.c` imports `/a.c`; `/x.c` and `/y.c` import each other. -/
def demoFiles : List (String × String) :=
  [("/m.c", "#import b.c\n#import a.c\n"),
   ("/b.c", "#import a.c\n"),
   ("/a.c", "typedef int a_t;\n"),
   ("/x.c", "#import y.c\n"),
   ("/y.c", "#import x.c\n")]

/-- A file system holding exactly the given files. -/
def memFS (files : List (String × String)) : FS where
  home := "/home"
  metaOk p := (mapGet files p).isSome
  read p := match mapGet files p with
    | some s => .ok s
    | none => .error "not found"

@[inherit_doc demoFiles] def demoFS : FS := memFS demoFiles

end Che
