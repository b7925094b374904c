import Mathlib.Logic.Relation
import Verif.Model.Preparser
/-!
# Specification: the import graph

Independent of `build.rs`: the edges are what the pre-parser reports for a
single file.
-/
namespace Che.Spec

/-- `p` can be read and imports `q`. -/
def Imports (pre : String → Res String ModuleInfo) (p q : String) : Prop :=
  ∃ m, pre p = .ok m ∧ q ∈ m.imports.map (·.path)

/-- `q` is reachable from `p` by following imports (in zero or more steps). -/
def Reach (pre : String → Res String ModuleInfo) : String → String → Prop :=
  Relation.ReflTransGen (Imports pre)

/-- `p` imports itself, directly or through others. -/
def OnCycle (pre : String → Res String ModuleInfo) (p : String) : Prop :=
  Relation.TransGen (Imports pre) p p

/-- Following imports from `p` can run into a cycle. -/
def CycleReachable (pre : String → Res String ModuleInfo) (p : String) : Prop :=
  ∃ c, Reach pre p c ∧ OnCycle pre c

/-- Finitely many files can be reached from `p`, and all of them can be
pre-parsed. -/
def FiniteReadable (pre : String → Res String ModuleInfo) (p : String) : Prop :=
  ∃ nodes : List String, ∀ q, Reach pre p q → q ∈ nodes ∧ ∃ m, pre q = .ok m

end Che.Spec
