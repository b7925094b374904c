import Verif.Spec.Emit
import Verif.Model.Preparser
/-!
# Specification: what is fixed while a module is translated

Computed from the source: the list of modules of the project, the elements of
the module at hand, and the symbols of the C library.
-/
namespace Che.Spec
open Che

/-- The structs declared by the elements: name and "is exported". -/
def structDecls (es : List ModElem) : List (String × Bool) :=
  es.filterMap fun
    | .structTypedef x => some (x.name, x.ispub)
    | _ => none

/-- The other types declared by the elements. -/
def aliasDecls (es : List ModElem) : List (String × Bool) :=
  es.filterMap fun
    | .typedef x => some (x.alias, x.ispub)
    | .structAlias x => some (x.typename, x.ispub)
    | _ => none

/-- The last declaration of a name. -/
def lastDecl (ds : List (String × Bool)) (x : String) : Option Bool :=
  (ds.reverse.find? (fun d => d.1 == x)).map (·.2)

/-- The place in the module list of the module a namespace stands for: the first
import with that namespace, the first module with that path. -/
def nsIndex (heads : List ModuleInfo) (this : ModuleInfo) (ns : String) : Option Nat :=
  match this.imports.find? (fun i => i.ns == ns) with
  | none => none
  | some imp => heads.findIdx? (fun h => h.filepath == imp.path)

/-- What is fixed while module `m`, with head `this`, is translated in a project
with the given heads and modules; `ctype` and `csym` describe the C library. -/
def moduleEnv (ctype csym : String → Bool) (heads : List ModuleInfo) (mods : List Module)
    (this : ModuleInfo) (m : Module) : ModEnv where
  uid := this.uniqid
  file := this.filepath
  typeKnown x := ctype x || (structDecls m.elements).any (fun d => d.1 == x) ||
    (aliasDecls m.elements).any (fun d => d.1 == x) || this.typedefs.contains x
  typePub x := !ctype x &&
    (match lastDecl (structDecls m.elements) x with
     | some b => b
     | none => lastDecl (aliasDecls m.elements) x == some true)
  nsUid ns := (nsIndex heads this ns).bind (fun i => (heads[i]?).map (·.uniqid))
  nsExports ns x := match (nsIndex heads this ns).bind (fun i => mods[i]?) with
    | some m' => exportsHas m'.exports x
    | none => false
  builtin := csym

end Che.Spec
