import Verif.Proofs.Project
import Verif.Spec.Demo
/-!
# C21: what a module exports
-/
namespace Che.Props
open Che

/-- The names a declaration marked `pub` makes importable. -/
def pubNames : ModElem → List String
  | .enum x => if x.isPub then x.entries.map (·.name) else []
  | .typedef x => if x.ispub then [x.alias] else []
  | .structTypedef x => if x.ispub then [x.name] else []
  | .funcDecl x => if x.ispub then [x.form.name] else []
  | _ => []

theorem exportsHas_addExports (ex : Exports) (e : ModElem) (x : String) :
    exportsHas (addExports ex e) x = true ↔ exportsHas ex x = true ∨ x ∈ pubNames e := by
  cases e with
  | enum d =>
    simp only [addExports, pubNames]
    split <;> simp [exportsHas, @eq_comm _ x, or_assoc, or_comm, or_left_comm]
  | typedef d =>
    simp only [addExports, pubNames]
    split <;> simp [exportsHas, @eq_comm _ x, or_assoc, or_comm, or_left_comm]
  | structTypedef d =>
    simp only [addExports, pubNames]
    split <;> simp [exportsHas, @eq_comm _ x, or_assoc, or_comm, or_left_comm]
  | funcDecl d =>
    simp only [addExports, pubNames]
    split <;> simp [exportsHas, @eq_comm _ x, or_assoc, or_comm, or_left_comm]
  | «macro» d => simp [addExports, pubNames]
  | structAlias d => simp [addExports, pubNames]
  | modVar d => simp [addExports, pubNames]

theorem exportsHas_foldl (x : String) : ∀ (es : List ModElem) (ex : Exports),
    exportsHas (es.foldl addExports ex) x = true ↔
      exportsHas ex x = true ∨ ∃ e ∈ es, x ∈ pubNames e
  | [], ex => by simp
  | e :: es, ex => by
    rw [List.foldl_cons, exportsHas_foldl x es, exportsHas_addExports]
    simp only [List.mem_cons, exists_eq_or_imp, or_assoc]

theorem exportsHas_getExports (es : List ModElem) (x : String) :
    exportsHas (getExports es) x = true ↔ ∃ e ∈ es, x ∈ pubNames e := by
  rw [getExports, exportsHas_foldl]
  simp [exportsHas]

theorem finishModule_ok {objs : List ModElem} {errs : List Error} {m : Module}
    (h : finishModule objs errs = .ok m) :
    errs = [] ∧ m = { elements := objs, exports := getExports objs } := by
  unfold finishModule at h
  split at h
  · cases h
  · cases h
    refine ⟨?_, rfl⟩
    cases errs <;> simp_all

theorem moduleLoop_exports {ctx : ParseCtx} : ∀ {n : Nat} {objs : List ModElem} {errs : List Error}
    {ts : List Token} {m : Module}, moduleLoop ctx n objs errs ts = .ok m →
    m.exports = getExports m.elements := by
  intro n
  induction n with
  | zero => intro _ _ _ _ h; simp [moduleLoop] at h
  | succ n ih =>
    intro objs errs ts m h
    cases ts with
    | nil =>
      obtain ⟨_, rfl⟩ := finishModule_ok h
      rfl
    | cons t ts =>
      unfold moduleLoop at h
      split at h
      · exact ih h
      · split at h
        · exact ih h
        · obtain ⟨_, rfl⟩ := finishModule_ok h
          rfl
        · cases h
        · cases h
      · split at h
        · exact ih h
        · obtain ⟨_, rfl⟩ := finishModule_ok h
          rfl
        · cases h
        · cases h

theorem parseMod_exports [Unicode] {fs : FS} {fuel : Nat} {heads : List ModuleInfo} {h : ModuleInfo}
    {m : Module} (hm : parseMod fs fuel heads h = .ok m) : m.exports = getExports m.elements := by
  unfold parseMod at hm
  split at hm
  · cases hm
  · split at hm
    · cases hm
    · cases hm
    · split at hm <;> cases hm
      rename_i hp
      exact moduleLoop_exports hp

/-- C21: the names importable from a parsed module are exactly its `pub` enum
constants, functions, typedefs and struct typedefs.  What is missing: a
`pub typedef struct x y` declares a type that is not importable
(`C21_counterexample`). -/
theorem C21_partial {n : Nat} {ctx : ParseCtx} {ts : List Token} {m : Module}
    (h : parseModule n ctx ts = .ok m) (x : String) :
    exportsHas m.exports x = true ↔ ∃ e ∈ m.elements, x ∈ pubNames e := by
  rw [moduleLoop_exports h]
  exact exportsHas_getExports _ _

/-- The `pub` constants of a module, in the order of the text. -/
def pubConsts (es : List ModElem) : List EnumEntry :=
  es.flatMap fun | .enum x => if x.isPub then x.entries else [] | _ => []

/-- The `pub` functions of a module. -/
def pubFns (es : List ModElem) : List FuncDecl :=
  es.filterMap fun | .funcDecl x => if x.ispub then some x else none | _ => none

/-- The `pub` struct typedefs of a module. -/
def pubStructs (es : List ModElem) : List StructTypedef :=
  es.filterMap fun | .structTypedef x => if x.ispub then some x else none | _ => none

/-- The names of the `pub` types of a module. -/
def pubTypes (es : List ModElem) : List String :=
  es.filterMap fun
    | .typedef x => if x.ispub then some x.alias else none
    | .structTypedef x => if x.ispub then some x.name else none
    | _ => none

theorem foldl_exports : ∀ (es : List ModElem) (ex : Exports),
    es.foldl addExports ex = ⟨ex.consts ++ pubConsts es, ex.fns ++ pubFns es,
      ex.types ++ pubTypes es, ex.structs ++ pubStructs es⟩
  | [], ex => by simp [pubConsts, pubFns, pubTypes, pubStructs]
  | e :: es, ex => by
    rw [List.foldl_cons, foldl_exports es]
    cases e with
    | enum d => cases h : d.isPub <;> simp [addExports, pubConsts, pubFns, pubTypes, pubStructs, h]
    | typedef d => cases h : d.ispub <;> simp [addExports, pubConsts, pubFns, pubTypes, pubStructs, h]
    | structTypedef d =>
      cases h : d.ispub <;> simp [addExports, pubConsts, pubFns, pubTypes, pubStructs, h]
    | funcDecl d => cases h : d.ispub <;> simp [addExports, pubConsts, pubFns, pubTypes, pubStructs, h]
    | «macro» d => simp [addExports, pubConsts, pubFns, pubTypes, pubStructs]
    | structAlias d => simp [addExports, pubConsts, pubFns, pubTypes, pubStructs]
    | modVar d => simp [addExports, pubConsts, pubFns, pubTypes, pubStructs]

/-- C21: each kind of declaration comes out as its own kind, with its whole
declaration, in the order of the text.  What is missing: as in `C21_partial`. -/
theorem C21_kinds_partial {n : Nat} {ctx : ParseCtx} {ts : List Token} {m : Module}
    (h : parseModule n ctx ts = .ok m) :
    m.exports.consts = pubConsts m.elements ∧ m.exports.fns = pubFns m.elements ∧
    m.exports.types = pubTypes m.elements ∧ m.exports.structs = pubStructs m.elements := by
  rw [moduleLoop_exports h, getExports, foldl_exports]
  simp

/-- C21 is false of `pub typedef struct x y`: it is marked `pub` and exports
nothing. -/
theorem C21_counterexample (d : StructAlias) (x : String) :
    exportsHas (getExports [.structAlias { d with ispub := true }]) x = false := by
  simp [getExports, addExports, exportsHas]

section Examples
attribute [local instance] asciiOnly

/-- A module with one exported and one private function, exported constants and
an exported alias of a C struct. -/
def exportDemo : FS := memFS [("/a.c",
  "pub enum { A, B = 2 }\npub typedef struct tm tm_t;\npub int f() { return g(); }\nint g() { return 1; }\n")]

def exportDemoHas (x : String) : Option Bool :=
  match projectHeads exportDemo 2000 "/a.c" with
  | .ok [h] => match parseMod exportDemo 2000 [h] h with
    | .ok m => some (exportsHas m.exports x)
    | _ => none
  | _ => none

example : exportDemoHas "A" = some true := by decide +kernel
example : exportDemoHas "f" = some true := by decide +kernel
example : exportDemoHas "g" = some false := by decide +kernel
/-- The counterexample in a real file. -/
example : exportDemoHas "tm_t" = some false := by decide +kernel

end Examples
end Che.Props
