import Verif.Proofs.CrashProject
import Verif.Props.Loading
import Verif.Spec.Demo
/-!
# C62, C63: crashes of the translator and of the printer
-/
namespace Che.Props
open Che Spec

theorem parseMod_good [Unicode] {fs : FS} {fuel : Nat} {heads : List ModuleInfo} {h : ModuleInfo}
    {m : Module} (hm : parseMod fs fuel heads h = .ok m) :
    ∀ e ∈ m.elements, GoodElem (fun ns => h.imports.any (fun x => x.ns == ns) = true) e := by
  unfold parseMod at hm
  split at hm
  · cases hm
  · split at hm
    · cases hm
    · cases hm
    · split at hm
      · rename_i hp
        cases hm
        exact ModG.good (parseModule_ok hp).1
      all_goals cases hm

/-- What loading and parsing give the translator. -/
theorem loaded [Unicode] {fs : FS} {fuel : Nat} {main : String} {heads : List ModuleInfo}
    {mods : List Module} (hh : projectHeads fs fuel main = .ok heads)
    (hm : parseMods fs fuel heads heads = .ok mods) : Loaded heads mods := by
  have hf := parseMods_ok hm
  refine ⟨hf.length_eq.symm, (C12_dependencies_first hh).1, fun i hd m hi hmi => ?_⟩
  obtain ⟨h1, rfl⟩ := List.getElem?_eq_some_iff.1 hi
  obtain ⟨h2, rfl⟩ := List.getElem?_eq_some_iff.1 hmi
  exact parseMod_good (forall₂_get hf i h1 h2)

/-- Full statement of C62, which the code does not satisfy: files that load and
parse never make the translator crash. -/
def C62_full [Unicode] : Prop :=
  ∀ (fs : FS) (fuel : Nat) (main : String) (heads : List ModuleInfo) (mods : List Module),
    projectHeads fs fuel main = .ok heads → parseMods fs fuel heads heads = .ok mods →
    ∀ s, translateMods mods heads ≠ .panic s

/-- **C62 (what holds instead).**  Once the files are loaded and parsed, the
compiler crashes only if one of the modules is not fine. -/
theorem C62_partial [Unicode] {fs : FS} {fuel : Nat} {main : String} {heads : List ModuleInfo}
    {mods : List Module} (hh : projectHeads fs fuel main = .ok heads)
    (hm : parseMods fs fuel heads heads = .ok mods) {s : String}
    (h : parseProject fs fuel main = .panic s) :
    ∃ (i : Nat) (hd : ModuleInfo) (m : Module), heads[i]? = some hd ∧ mods[i]? = some m ∧
      ¬ FineModule heads mods hd m := by
  have ho := translateLoop_out (loaded hh hm) (rest := heads.zip mods) (cmods := []) rfl (by simp)
  have e : parseProject fs fuel main =
      Res.bind ((translateMods mods heads).mapErr (fun e => [e])) (fun cmods =>
        .ok { modheads := heads, modules := mods, cmodules := cmods }) := by
    unfold parseProject
    rw [hh]
    show Res.bind (parseMods fs fuel heads heads) _ = _
    rw [hm]
    rfl
  rw [e] at h
  unfold translateMods at h
  cases ht : translateLoop mods heads [] (heads.zip mods) with
  | ok out => rw [ht] at h; cases h
  | err e => rw [ht] at h; cases h
  | diverge => rw [ht] at h; cases h
  | panic s =>
    rw [ht] at ho
    obtain ⟨⟨hd, m⟩, hx, hn⟩ := ho
    obtain ⟨i, hi⟩ := List.mem_iff_getElem?.1 hx
    obtain ⟨h1, h2⟩ := List.getElem?_zip_eq_some.1 hi
    exact ⟨i, hd, m, h1, h2, hn⟩

/-- **C62 (the list is exact).**  A project with a module that is not fine is
never compiled. -/
theorem C62_accepted_partial [Unicode] {fs : FS} {fuel : Nat} {main : String} {p : Project}
    (h : parseProject fs fuel main = .ok p) {i : Nat} {hd : ModuleInfo} {m : Module}
    (hi : p.modheads[i]? = some hd) (hm : p.modules[i]? = some m) :
    FineModule p.modheads p.modules hd m := by
  simp only [parseProject, Res.bind_eq_ok, Res.mapErr_eq_ok] at h
  obtain ⟨heads, hh, mods, hm', cmods, hc, e⟩ := h
  simp only [pure, Res.ok.injEq] at e
  subst e
  have ho := translateLoop_out (loaded hh hm') (rest := heads.zip mods) (cmods := []) rfl (by simp)
  unfold translateMods at hc
  rw [hc] at ho
  exact ho.1 (hd, m) (List.mem_iff_getElem?.2 ⟨i, List.getElem?_zip_eq_some.2 ⟨hi, hm⟩⟩)

theorem formatModule_printable {cm : CModule} (h : Printable cm.elements) :
    FormatC.formatModule cm = .ok (FormatC.formatElems cm) := by
  unfold FormatC.formatModule
  rw [if_neg]
  rw [Bool.not_eq_true, List.any_eq_false]
  exact fun e he => by simp [h e he]

theorem writeLoop_printable {hash : String → String} {dir : String} :
    ∀ {l : List (ModuleInfo × CModule)}, (∀ x ∈ l, Printable x.2.elements) →
      writeLoop hash dir l = .ok (l.map fun x =>
        { path := dir ++ "/" ++ hash x.1.filepath ++ ".c", id := x.1.filepath,
          text := FormatC.formatElems x.2 })
  | [], _ => rfl
  | (h, cm) :: l, hp => by
    rw [writeLoop, formatModule_printable (hp (h, cm) (by simp))]
    simp only
    rw [writeLoop_printable (fun x hx => hp x (by simp [hx]))]
    rfl

/-- **C63**: a project that is translated is printed, every module of it. -/
theorem C63_printed [Unicode] {fs : FS} {fuel : Nat} {main : String} {p : Project}
    (h : parseProject fs fuel main = .ok p) (hash : String → String) (dir : String) :
    writeC99 hash dir p = .ok ((p.modheads.zip p.cmodules).map fun x =>
      { path := dir ++ "/" ++ hash x.1.filepath ++ ".c", id := x.1.filepath,
        text := FormatC.formatElems x.2 }) := by
  simp only [parseProject, Res.bind_eq_ok, Res.mapErr_eq_ok] at h
  obtain ⟨heads, hh, mods, hm', cmods, hc, e⟩ := h
  simp only [pure, Res.ok.injEq] at e
  subst e
  have ho := translateLoop_out (loaded hh hm') (rest := heads.zip mods) (cmods := []) rfl (by simp)
  unfold translateMods at hc
  rw [hc] at ho
  exact writeLoop_printable (fun x hx => ho.2 x.2 (List.of_mem_zip hx).2)

/-- **C63 (build).**  The steps after translation, up to running `c99`, never
crash and report no errors. -/
theorem C63_build [Unicode] (fs : FS) (hash : String → String) (macos : Bool) (fuel : Nat)
    (source output : String) :
    (∀ s, buildPlan fs hash macos fuel source output = .panic s → parseProject fs fuel source = .panic s) ∧
    (∀ es, buildPlan fs hash macos fuel source output = .err es → parseProject fs fuel source = .err es) ∧
    (∀ p, parseProject fs fuel source = .ok p →
      ∃ plan, buildPlan fs hash macos fuel source output = .ok plan ∧
        plan.files.map (·.id) = p.modheads.map (·.filepath)) := by
  have hb : buildPlan fs hash macos fuel source output =
      Res.bind (parseProject fs fuel source) (fun proj =>
        Res.bind (writeC99 hash (fs.home ++ "/tmp") proj) (fun files =>
          .ok { files := files,
                args := ccArgs macos (files.map (·.path)) output (linkLibs proj.cmodules) })) := rfl
  rw [hb]
  cases hp : parseProject fs fuel source with
  | err e => simp [Res.bind]
  | panic e => simp [Res.bind]
  | diverge => simp [Res.bind]
  | ok p =>
    simp only [Res.bind, C63_printed hp]
    refine ⟨by simp, by simp, ?_⟩
    intro q hq
    cases hq
    refine ⟨_, rfl, ?_⟩
    have hl : p.modheads.length ≤ p.cmodules.length := by rw [(parseProject_ok hp).cmods_len]
    simp only [List.map_map]
    have : ((fun x : COutput => x.id) ∘ fun x : ModuleInfo × CModule =>
        ({ path := fs.home ++ "/tmp" ++ "/" ++ hash x.1.filepath ++ ".c", id := x.1.filepath,
           text := FormatC.formatElems x.2 } : COutput)) = (fun h : ModuleInfo => h.filepath) ∘ Prod.fst := rfl
    rw [this, ← List.map_map, List.map_fst_zip hl]

section Examples
attribute [local instance] asciiOnly

/-- How compiling `/m.c` ends. -/
def ending (files : List (String × String)) : String :=
  match parseProject (memFS files) 2000 "/m.c" with
  | .ok _ => "ok"
  | .panic s => "panic " ++ s
  | .err es => RStr.join "; " (es.map (·.message))
  | .diverge => "diverge"

/-- **C62 counterexamples**: a crash for every line of the list. -/
theorem C62_counterexample :
    ending [("/m.c", "int main() { int a = 1; int a = 2; return a; }\n")] = "panic translator.rs:190" ∧
    ending [("/m.c", "#import x.c\nint main() { return x.t; }\n"), ("/x.c", "pub typedef int t;\n")] =
      "panic translator.rs:1172" ∧
    ending [("/m.c", "int main() { int a[] = {[0] = 1}; return a[0]; }\n")] = "panic translator.rs:912" ∧
    ending [("/m.c", "#import x.c\nint main() { int a[] = {[x.A] = 1}; return a[0]; }\n"),
      ("/x.c", "pub enum { A };\n")] = "panic translator.rs:906" ∧
    ending [("/m.c", "int main() { int a = 1; a <<= 1; return a; }\n")] = "panic translator.rs:754" ∧
    ending [("/m.c", "int main() { switch str (\"a\") { } return 0; }\n")] = "panic translator.rs:1367" ∧
    ending [("/m.c", "#define X\nint main() { return 0; }\n")] = "panic translator.rs:244-245" := by
  refine ⟨?_, ?_, ?_, ?_, ?_, ?_, ?_⟩ <;> decide +kernel

/-- A project with an import, a constant, keys, a switch, a loop and a `panic`. -/
def crashDemo : List (String × String) :=
  [("/m.c", "#import x.c\n#define N 3\nint sum(int a, b) { int c = a + b; return c; }\n" ++
     "int main() { int a[N] = {[N] = 1}; for (int i = 0; i < N; i++) { sum(i, 1); }\n" ++
     "switch (a[0]) { case x.A, 2: { a[0]++; } default: { panic(\"no\"); } }\nreturn sum(a[0], x.A); }\n"),
   ("/x.c", "pub enum { A };\n")]

/-- The theorems apply: it is compiled. -/
example : ending crashDemo = "ok" := by decide +kernel

end Examples
end Che.Props
