import Verif.Spec.Leaves
import Verif.Spec.ModuleEnv
import Verif.Model.Build
/-!
# Specification: projects that can be written in C

Conditions on the modules of a project as they were parsed (`Verif.Spec.Leaves`), so
that the C file of a module can be spelt: the elements of the module itself, and what
its imports show of theirs.
-/
namespace Che.Spec
open Che

/-- What a module that imports an element gets to see of it. -/
def shownElem : ModElem → Option ModElem
  | .macro x => some (.macro x)
  | .enum x => if x.isPub then some (.enum x) else none
  | .structAlias x => if x.ispub then some (.structAlias x) else none
  | .typedef x => if x.ispub then some (.typedef x) else none
  | .structTypedef x => if x.ispub then some (.structTypedef x) else none
  | .modVar _ => none
  | .funcDecl f => if f.ispub then some (.funcDecl { f with body := [] }) else none

/-- Module `i` imports module `j`. -/
def ImportsMod (p : Project) (i j : Nat) : Prop :=
  ∃ h h' : ModuleInfo, p.modheads[i]? = some h ∧ p.modheads[j]? = some h' ∧ ∃ imp ∈ h.imports, imp.path = h'.filepath

/-- Module `i` imports module `j`, maybe through others. -/
inductive Needs (p : Project) : Nat → Nat → Prop
  | one {i j} : ImportsMod p i j → Needs p i j
  | more {i j k} : ImportsMod p i j → Needs p j k → Needs p i k

/-- What is known about module `i` while it is translated. -/
def EnvAt (p : Project) (i : Nat) (mo : Module) (M : ModEnv) : Prop :=
  ∃ h, p.modheads[i]? = some h ∧ p.modules[i]? = some mo ∧ 
    M = moduleEnv Cspec.hasType (fun x => (Cspec.findSym x).isSome) p.modheads p.modules h mo

/-- An element of a module has names and literals that C can spell. -/
def SpeltElem (M : ModEnv) (ty : String → Bool) (e : ModElem) : Prop :=
  (∀ l ∈ leavesElem e, LeafFine M ty l) ∧ NeatElem e

/-- File names: letters, digits and `_` before `.c`, no quote and no backslash in the path. -/
def FilesFine (p : Project) : Prop :=
  ∀ h ∈ p.modheads, (∀ c ∈ (RStr.replace (basename h.filepath) ".c" "").toList, cIdChar c = true) ∧
    '"' ∉ h.filepath.toList ∧ '\\' ∉ h.filepath.toList

/-- The C file of module `i` can be spelt, if `ty` are the type names in it. -/
structure Writable (p : Project) (i : Nat) (ty : String → Bool) : Prop where
  words : UnitNames ty
  helpers : HelperNames ty
  files : FilesFine p
  own : ∀ mo M, EnvAt p i mo M → ∀ e ∈ mo.elements, SpeltElem M ty e
  shown : ∀ j, Needs p i j → ∀ mo M, EnvAt p j mo M → ∀ e ∈ mo.elements.filterMap shownElem, SpeltElem M ty e

/-- Module `i` and what it sees of its imports need no parentheses but those printed. -/
structure Bracketed (p : Project) (i : Nat) : Prop where
  own : ∀ mo, p.modules[i]? = some mo → ∀ e ∈ mo.elements, faithElem e = true
  shown : ∀ j, Needs p i j → ∀ mo, p.modules[j]? = some mo → ∀ e ∈ mo.elements.filterMap shownElem, faithElem e = true

end Che.Spec
