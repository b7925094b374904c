import Verif.Proofs.WritableCheck
import Verif.Props.CFiles
import Verif.Props.Crashing
/-!
# C80, C41 and C31 for accepted projects and the files written for them

`Verif.Props.CFiles` asks that the C module can be spelt.  Here the conditions are on the
Che modules: `Writable` and `Bracketed` of `Verif.Spec.Writable`.
-/
namespace Che.Props
open Che Spec FormatC Proofs.LeavesPlain Proofs.WritableProject Proofs.WritableCheck

section
variable [Unicode] {fs : FS} {fuel : Nat} {main : String} {p : Project} {ty : String → Bool}
  {hash : String → String} {dir : String} {files : List COutput}

/-- The file written for a module. -/
theorem written (hp : parseProject fs fuel main = .ok p) (hw : writeC99 hash dir p = .ok files) {i : Nat} {o : COutput}
    (ho : files[i]? = some o) : ∃ h mo cm, p.modheads[i]? = some h ∧ p.modules[i]? = some mo ∧ p.cmodules[i]? = some cm ∧
      translate mo { cmods := p.cmodules.take i, allModHeads := p.modheads, thisModHead := h, mods := p.modules } = .ok cm ∧
      o.id = h.filepath ∧ formatModule cm = .ok o.text := by
  have hP := parseProject_ok hp
  have hw2 := hw
  rw [C63_printed hp hash dir] at hw
  injection hw with hw
  subst hw
  rw [List.getElem?_map, Option.map_eq_some_iff] at ho
  obtain ⟨⟨h, cm⟩, hz, rfl⟩ := ho
  rw [List.getElem?_zip_eq_some] at hz
  obtain ⟨mo, hmo, _⟩ := hP.parsed i h hz.1
  obtain ⟨cm', hcm', ht⟩ := hP.translated i h mo hz.1 hmo
  have hz2 : p.cmodules[i]? = some cm := hz.2
  rw [hz2] at hcm'
  cases hcm'
  refine ⟨h, mo, cm, hz.1, hmo, hz.2, ht, rfl, ?_⟩
  unfold formatModule
  split
  · rename_i hx
    exfalso
    have key : ∀ (l : List (ModuleInfo × CModule)) {out}, writeLoop hash dir l = .ok out →
        ∀ x ∈ l, ∃ s, formatModule x.2 = .ok s := by
      intro l
      induction l with
      | nil => simp
      | cons a l ih =>
        intro out h x hx
        rw [writeLoop] at h
        cases hs : formatModule a.2 with
        | err e => cases e
        | panic s => simp [hs] at h
        | diverge => simp [hs] at h
        | ok s =>
          rcases List.mem_cons.mp hx with rfl | hx
          · exact ⟨s, hs⟩
          · simp only [hs] at h
            obtain ⟨xs, h1, _⟩ := Res.bind_eq_ok.mp h
            exact ih h1 x hx
    have hmem : (h, cm) ∈ p.modheads.zip p.cmodules :=
      List.mem_of_getElem? (i := i) (List.getElem?_zip_eq_some.mpr hz)
    obtain ⟨s, hs⟩ := key _ (by unfold writeC99 at hw2; exact hw2) _ hmem
    unfold formatModule at hs
    rw [if_pos hx] at hs
    cases hs
  · rfl

/-- C80 for the files of an accepted project: however C reads the file written for
module `i`, it finds the declarations of the C module, as many, in the same order,
each with its directives, names, types, parameters, members and statements.
Asked for: the names and literals of the module, and of what it sees of its imports, are
such that C can spell them (`Writable`). -/
theorem C80_project_declarations_partial (hp : parseProject fs fuel main = .ok p)
    (hw : writeC99 hash dir p = .ok files) {i : Nat} {o : COutput} (ho : files[i]? = some o) (hW : Writable p i ty)
    {ks : List KExt} (hk : FileReads ty o.text ks) : ∃ cm, p.cmodules[i]? = some cm ∧
      ListAlike (ExtAlike (TextOf ty) (TextOfInit ty)) (cm.elements.map kElem) ks := by
  obtain ⟨h, mo, cm, a1, a2, a3, a4, a5, a6⟩ := written hp hw ho
  exact ⟨cm, a3, C80_declarations_partial hW.words a6 (project_plain hp a3 hW) hk⟩

/-- C80 for the files of an accepted project: if no parentheses are missing either
(`Bracketed`), the file written for module `i` is C and its one reading is the C module. -/
theorem C80_project_partial (hp : parseProject fs fuel main = .ok p)
    (hw : writeC99 hash dir p = .ok files) {i : Nat} {o : COutput} (ho : files[i]? = some o) (hW : Writable p i ty)
    (hB : Bracketed p i) :
    (∃ ks, FileReads ty o.text ks) ∧
    ∀ ks, FileReads ty o.text ks → ∃ cm, p.cmodules[i]? = some cm ∧
      ListAlike (ExtAlike (fun e e' => e' = canon e) (fun e e' => e' = canon e)) (cm.elements.map kElem) ks := by
  obtain ⟨h, mo, cm, a1, a2, a3, a4, a5, a6⟩ := written hp hw ho
  obtain ⟨b1, b2⟩ := C80_reads_back_partial hW.words a6 (project_plain hp a3 hW) (project_faithful hp a3 hB)
  exact ⟨b1, fun ks hk => ⟨cm, a3, b2 ks hk⟩⟩

/-- C31 for the files of an accepted project: whatever function C finds in the file of
module `i`, other than `main` and the helper for `calloc!`, has a prototype in it
with the same linkage, type, name and parameters; and all prototypes come before all functions. -/
theorem C31_project_partial (hp : parseProject fs fuel main = .ok p)
    (hw : writeC99 hash dir p = .ok files) {i : Nat} {o : COutput} (ho : files[i]? = some o) (hW : Writable p i ty)
    {ks : List KExt} (hk : FileReads ty o.text ks) :
    (∀ {b t f ps dots ss}, .func b t f ps dots ss ∈ ks → f.name ≠ "main" → f.name ≠ "calloc_or_panic" →
      .proto b t f ps dots ∈ ks) ∧
    ∃ decls bodies, ks = decls ++ bodies ∧ (∀ k ∈ decls, isBody k = false) ∧ ∀ k ∈ bodies, isBody k = true := by
  obtain ⟨h, mo, cm, a1, a2, a3, a4, a5, a6⟩ := written hp hw ho
  have hpl := project_plain hp a3 hW
  refine ⟨fun hf h1 h2 => C31_file_partial a4 a6 hW.words hpl hk hf h1 ?_, C31_file_order_partial a4 a6 hW.words hpl hk⟩
  intro d hd
  unfold mkCallocOrPanic at hd
  injection hd with hd
  subst hd
  exact h2

variable {m : Type → Type} [Monad m] [LawfulMonad m] {V : Type}

/-- C41 for the files of an accepted project: the file written for module `i`, read as C,
has each function of the module under its name in C, and the body found there does what the
source of the function does.  Asked for: `Writable` and `Bracketed`, and that C's meaning
of the expressions respects Che's (`Respects`; what is missing in it is listed at
`C41_function_partial`). -/
theorem C41_project_partial (hp : parseProject fs fuel main = .ok p)
    (hw : writeC99 hash dir p = .ok files) {i : Nat} {o : COutput} (ho : files[i]? = some o) (hW : Writable p i ty)
    (hB : Bracketed p i) {E : ESem m V} {S : CSem m V} (hS : S.Lawful) (hT : S.Textual) {mo : Module} {M : ModEnv}
    (hM : EnvAt p i mo M) {f : FuncDecl} (hf : .funcDecl f ∈ mo.elements)
    (hr : Respects M E S ([] :: declParams f.params :: moduleScope mo) f.body) :
    (∃ ks, FileReads ty o.text ks) ∧
    ∀ ks, FileReads ty o.text ks → ∃ b t g ps dots ss, .func b t g ps dots ss ∈ ks ∧
      g.name = (emitFunc M (moduleScope mo) f).form.name ∧
      ∀ N, S.run N (.block ss) =
        E.scope (E.runs M.file N ([] :: declParams f.params :: moduleScope mo) f.body) := by
  obtain ⟨h, mo', cm, a1, a2, a3, a4, a5, a6⟩ := written hp hw ho
  obtain ⟨h', b1, b2, rfl⟩ := hM
  rw [a1] at b1
  cases b1
  rw [a2] at b2
  cases b2
  exact C41_file_partial hS hT a4 a6 hW.words (project_plain hp a3 hW) (project_faithful hp a3 hB) hf hr

end

/-! ## Examples -/

section Examples
attribute [local instance] asciiOnly

/-- The conditions hold of the module. -/
def demoWritable (fs : FS) (main : String) (i : Nat) (tys : List String) : Bool :=
  match parseProject fs 2000 main with
  | .ok p => writableB p i tys
  | _ => false

/-- The type names in `main.c` of `moduleDemo`. -/
def demoTys : List String := ["void", "size_t", "int", "char", "mod0_a__t"]

/-- Both modules of `moduleDemo` are such. -/
theorem moduleDemo_writable : demoWritable moduleDemo "/main.c" 0 demoTys = true ∧
    demoWritable moduleDemo "/main.c" 1 demoTys = true := by
  constructor <;> decide +kernel

/-- So `main.c` of `moduleDemo` is written as C that reads as it must. -/
example (hash : String → String) (dir : String) : ∃ p files o, parseProject moduleDemo 2000 "/main.c" = .ok p ∧
    writeC99 hash dir p = .ok files ∧ files[1]? = some o ∧ (∃ ks, FileReads (among demoTys) o.text ks) ∧
    ∀ ks, FileReads (among demoTys) o.text ks → ∃ cm, p.cmodules[1]? = some cm ∧
      ListAlike (ExtAlike (fun e e' => e' = canon e) (fun e e' => e' = canon e)) (cm.elements.map kElem) ks := by
  have h := moduleDemo_writable.2
  unfold demoWritable at h
  split at h
  · rename_i p hp
    obtain ⟨hW, hB⟩ := writableB_spec h
    have hP := parseProject_ok hp
    have hl : 1 < p.modheads.length := by
      unfold writableB at h
      simp only [Bool.and_eq_true] at h
      have h := h.1.1.2
      split at h
      · rename_i he
        have := (List.getElem?_eq_some_iff.1 he).1
        simp only [envs, List.length_map, List.length_zip] at this
        omega
      · cases h
    have hl2 : 1 < p.cmodules.length := by rw [hP.cmods_len]; exact hl
    have hw := C63_printed hp hash dir
    have ho : ((p.modheads.zip p.cmodules).map fun x =>
        ({ path := dir ++ "/" ++ hash x.1.filepath ++ ".c", id := x.1.filepath, text := formatElems x.2 } : COutput))[1]? =
        some { path := dir ++ "/" ++ hash p.modheads[1].filepath ++ ".c", id := p.modheads[1].filepath,
               text := formatElems p.cmodules[1] } := by
      rw [List.getElem?_map, (List.getElem?_zip_eq_some (z := (p.modheads[1], p.cmodules[1]))).mpr ⟨by simp [hl], by simp [hl2]⟩]
      rfl
    exact ⟨p, _, _, hp, hw, ho, C80_project_partial hp hw ho hW hB⟩
  · cases h

/-- Not so if a variable is called like a type of C, or parentheses are left out. -/
example : demoWritable (memFS [("/main.c", "int main() { int x = 1; return x; }\n")]) "/main.c" 0 ["void", "size_t", "int"] = true ∧
    demoWritable (memFS [("/main.c", "int main() { int size_t = 1; return size_t; }\n")]) "/main.c" 0 ["void", "size_t", "int"] = false ∧
    demoWritable (memFS [("/main.c", "int main() { int x = 1; return x == 1 & 2; }\n")]) "/main.c" 0 ["void", "size_t", "int"] = false := by
  refine ⟨?_, ?_, ?_⟩ <;> decide +kernel

end Examples

end Che.Props
