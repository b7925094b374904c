import Verif.Proofs.CUnitDerive
import Verif.Props.Pairing
/-!
# C80: the printed C file and its declarations

The grammar of C files is in `Verif.Spec.CUnit`.
-/
namespace Che.Props
open Che Spec FormatC Proofs.CLexing Proofs.CPrintToks Proofs.CPrintRead Proofs.CStmtToks
  Proofs.CStmtBack Proofs.CStmtDerive Proofs.CUnitToks Proofs.CUnitLines Proofs.CUnitBack Proofs.CUnitDerive

variable {ty : String → Bool}

/-- `ks` is a reading of the C file `s`. -/
def FileReads (ty : String → Bool) (s : String) (ks : List KExt) : Prop :=
  ∃ is, CFile s.toList is ∧ CUnit ty ks is

theorem module_text {cm : CModule} {s : String} (h : formatModule cm = .ok s) : s = formatElems cm := by
  unfold formatModule at h
  split at h
  · cases h
  · injection h with h; exact h.symm

theorem file_reads {cm : CModule} {s : String} (hs : formatModule cm = .ok s) (hp : ∀ e ∈ cm.elements, PlainElem ty e)
    {ks} : FileReads ty s ks ↔ CUnit ty ks (cm.elements.flatMap elemItems) := by
  rw [module_text hs]
  have h := file_elems hp
  constructor
  · rintro ⟨is, h1, h2⟩
    rwa [cfile_det h1 h] at h2
  · exact fun h2 => ⟨_, h, h2⟩

/-- C80: however C reads the file printed for a module, it finds the declarations of
the module: as many, in the same order, each with its directives, names, types,
parameters, members and statements.  The expressions in them are what C makes of the
text of the expressions (C39 says when that is the expression printed).

Asked for (`PlainElem`): names are C words that are not keywords, type names are type
names, directives fit on their line, structures, unions and enumerations are not empty,
and `...` follows a parameter. -/
theorem C80_declarations_partial (hty : UnitNames ty) {cm : CModule} {s : String} (hs : formatModule cm = .ok s)
    (hp : ∀ e ∈ cm.elements, PlainElem ty e) {ks : List KExt} (hk : FileReads ty s ks) :
    ListAlike (ExtAlike (TextOf ty) (TextOfInit ty)) (cm.elements.map kElem) ks :=
  list_mono (fun _ _ => ext_mono (fun _ _ k => ⟨_, reads_expr k.1, k.2⟩) (fun _ _ k => ⟨_, reads_expr k.1, k.2⟩))
    (unit_back hty hp ((file_reads hs hp).1 hk))

/-- C80: there is at most one reading. -/
theorem C80_one_reading_partial (hty : UnitNames ty) {cm : CModule} {s : String} (hs : formatModule cm = .ok s)
    (hp : ∀ e ∈ cm.elements, PlainElem ty e) {ks ks' : List KExt} (hk : FileReads ty s ks)
    (hk' : FileReads ty s ks') : ks = ks' :=
  list_fun (R := ExtAlike (Rd ty) (RdI ty)) (fun _ _ _ => ext_fun rd_fun rdI_fun)
    (unit_back hty hp ((file_reads hs hp).1 hk)) (unit_back hty hp ((file_reads hs hp).1 hk'))

/-- C80: if all expressions have their parentheses, the file is C, and its one reading
is the module. -/
theorem C80_reads_back_partial (hty : UnitNames ty) {cm : CModule} {s : String} (hs : formatModule cm = .ok s)
    (hp : ∀ e ∈ cm.elements, PlainElem ty e) (hf : cm.elements.all FaithfulElem = true) :
    (∃ ks, FileReads ty s ks) ∧
    ∀ ks, FileReads ty s ks →
      ListAlike (ExtAlike (fun e e' => e' = canon e) (fun e e' => e' = canon e)) (cm.elements.map kElem) ks := by
  obtain ⟨ks, h1, h2⟩ := derive_unit hp hf
  refine ⟨⟨ks, (file_reads hs hp).2 h1⟩, fun ks' hk => ?_⟩
  rw [C80_one_reading_partial hty hs hp hk ((file_reads hs hp).2 h1)]
  exact h2

/-! ## With the translation -/

theorem alike_split {α : Type} {R : α → α → Prop} : ∀ {l l' : List α} {x}, ListAlike R l l' → x ∈ l → ∃ y ∈ l', R x y
  | _, _, _, .cons h _, .head _ => ⟨_, by simp, h⟩
  | _, _, _, .cons _ h, .tail _ hx => by
    obtain ⟨y, hy, hr⟩ := alike_split h hx
    exact ⟨y, by simp [hy], hr⟩

theorem alike_split' {α : Type} {R : α → α → Prop} : ∀ {l l' : List α} {y}, ListAlike R l l' → y ∈ l' → ∃ x ∈ l, R x y
  | _, _, _, .cons h _, .head _ => ⟨_, by simp, h⟩
  | _, _, _, .cons _ h, .tail _ hx => by
    obtain ⟨y, hy, hr⟩ := alike_split' h hx
    exact ⟨y, by simp [hy], hr⟩

section
variable {m : Type → Type} [Monad m] [LawfulMonad m] {V : Type}

/-- C41 down to the file: the file printed for an accepted module, read as C, has each
function of the module under its name in C, and the body found there does what the source of the
function does.  What is missing is listed at `C41_function_partial`; the file must have
the parentheses that C needs and be spelt properly. -/
theorem C41_file_partial {E : ESem m V} {S : CSem m V} (hS : S.Lawful) (hT : S.Textual) {mo : Module}
    {p : TrParams} {cm : CModule} (h : translate mo p = .ok cm) {s : String} (hs : formatModule cm = .ok s)
    (hty : UnitNames ty) (hp : ∀ e ∈ cm.elements, PlainElem ty e) (hF : cm.elements.all FaithfulElem = true)
    {f : FuncDecl} (hf : .funcDecl f ∈ mo.elements)
    (hr : Respects (envFor mo p) E S ([] :: declParams f.params :: moduleScope mo) f.body) :
    (∃ ks, FileReads ty s ks) ∧
    ∀ ks, FileReads ty s ks → ∃ b t g ps dots ss, .func b t g ps dots ss ∈ ks ∧
      g.name = (emitFunc (envFor mo p) (moduleScope mo) f).form.name ∧
      ∀ N, S.run N (.block ss) =
        E.scope (E.runs (envFor mo p).file N ([] :: declParams f.params :: moduleScope mo) f.body) := by
  obtain ⟨h1, h2⟩ := C80_reads_back_partial hty hs hp hF
  refine ⟨h1, fun ks hk => ?_⟩
  have hm := (C41_function_partial hS h hf hr 0).1
  obtain ⟨k, hk1, hk2⟩ := alike_split (h2 ks hk) (List.mem_map_of_mem (f := kElem) hm)
  cases hk2 with
  | func a1 a2 a3 =>
    refine ⟨_, _, _, _, _, _, hk1, a1.name.symm, fun N => ?_⟩
    rw [Proofs.AlikeRun.run_alike hT N (.block a3), CSem.run, hr.scope, (C41_function_partial hS h hf hr N).2]

end

/-- C31 in the file: whatever function C finds in the file of an accepted module, other
than `main` and the helper for `calloc!`, has a prototype in it with the same linkage,
type, name and parameters. -/
theorem C31_file_partial {mo : Module} {p : TrParams} {cm : CModule} (h : translate mo p = .ok cm) {s : String}
    (hs : formatModule cm = .ok s) (hty : UnitNames ty) (hp : ∀ e ∈ cm.elements, PlainElem ty e)
    {ks : List KExt} (hk : FileReads ty s ks) {b t f ps dots ss} (hf : .func b t f ps dots ss ∈ ks)
    (hmain : f.name ≠ "main")
    (hc : ∀ d, mkCallocOrPanic = .funcDef d → f.name ≠ d.form.name) : .proto b t f ps dots ∈ ks := by
  have hu := unit_back hty hp ((file_reads hs hp).1 hk)
  obtain ⟨e, he, hr⟩ := alike_split' hu hf
  obtain ⟨e, he2, rfl⟩ := List.mem_map.mp he
  cases e with
  | funcDef d =>
    generalize hx : kElem (.funcDef d) = x at hr
    cases hr with
    | @func b t g g' ps ps' dots ss ss' a1 a2 a3 =>
      injection hx with x1 x2 x3 x4 x5 x6
      subst x1 x2 x3 x4 x5 x6
      obtain ⟨f', f1, f2, f3, f4, f5, _⟩ := C31_partial h he2 (by rw [a1.name]; exact hmain)
        (fun hd => hc d hd.symm a1.name.symm)
      obtain ⟨k, k1, k2⟩ := alike_split hu (List.mem_map_of_mem (f := kElem) f1)
      generalize hx : kElem (.forwardFunc f') = x at k2
      cases k2 with
      | proto b1 b2 =>
        injection hx with x1 x2 x3 x4 x5
        subst x1 x2 x3 x4 x5
        rw [f2, f3, f4, f5] at *
        rw [form_fun rd_fun a1 b1, list_fun (R := FieldAlike (Rd ty)) (fun _ _ _ => field_fun rd_fun) a2 b2]
        exact k1
      | _ => cases hx
    | _ => cases hx
  | _ => cases hr

theorem alike_append {α : Type} {R : α → α → Prop} : ∀ {l1 l2 l' : List α}, ListAlike R (l1 ++ l2) l' →
    ∃ a b, l' = a ++ b ∧ ListAlike R l1 a ∧ ListAlike R l2 b
  | [], _, l', h => ⟨[], l', rfl, .nil, h⟩
  | x :: l1, _, _, .cons h1 h => by
    obtain ⟨a, b, rfl, h2, h3⟩ := alike_append h
    exact ⟨_ :: a, b, rfl, .cons h1 h2, h3⟩

/-- The definition of a function. -/
def isBody : KExt → Bool
  | .func .. => true
  | _ => false

/-- C31 in the file: the functions come after all declarations and directives. -/
theorem C31_file_order_partial {mo : Module} {p : TrParams} {cm : CModule} (h : translate mo p = .ok cm) {s : String}
    (hs : formatModule cm = .ok s) (hty : UnitNames ty) (hp : ∀ e ∈ cm.elements, PlainElem ty e)
    {ks : List KExt} (hk : FileReads ty s ks) :
    ∃ decls bodies, ks = decls ++ bodies ∧ (∀ k ∈ decls, isBody k = false) ∧ ∀ k ∈ bodies, isBody k = true := by
  have hu := unit_back hty hp ((file_reads hs hp).1 hk)
  obtain ⟨a, b, hab, ha, hb⟩ := C31_bodies_last h
  rw [hab, List.map_append] at hu
  obtain ⟨ka, kb, rfl, h1, h2⟩ := alike_append hu
  refine ⟨ka, kb, rfl, fun k hk => ?_, fun k hk => ?_⟩
  · obtain ⟨x, hx, hr⟩ := alike_split' h1 hk
    obtain ⟨e, he, rfl⟩ := List.mem_map.mp hx
    have := ha e he
    cases e <;> first | (cases hr <;> rfl) | cases this
  · obtain ⟨x, hx, hr⟩ := alike_split' h2 hk
    obtain ⟨e, he, rfl⟩ := List.mem_map.mp hx
    have := hb e he
    cases e <;> first | (cases hr <;> rfl) | cases this

/-! ## A file that is not C

`f(...)` is accepted by the parser (`src/parser.rs:1009-1025`), and printed with
parameters that C has no rule for. -/

theorem cfile_line {l s : List Char} {ts is} (h : CFile (l ++ '\n' :: s) is) (hl : '\n' ∉ l) (hr : CReads l ts [])
    (hh : ¬ StartsHash ts) : ∃ is', is = ts.map .tok ++ is' ∧ CFile s is' := by
  generalize hs : l ++ '\n' :: s = u at h
  cases h with
  | nil => simp at hs
  | @dir b' l' s' is' hb' hl' h2 =>
    exfalso
    have e : l ++ '\n' :: s = (b' ++ '#' :: l') ++ '\n' :: s' := by simpa using hs
    obtain ⟨rfl, rfl⟩ := line_inj hl (dir_noline hb' hl'.one) e
    exact hh (hash_head hb' hl'.hash hr)
  | @line l' ts' s' is' hl' hr' hh' h2 =>
    obtain ⟨rfl, rfl⟩ := line_inj hl hl' hs
    rw [creads_det hr hr']
    exact ⟨_, rfl, h2⟩

theorem cfile_lines : ∀ (n : Nat) {s ts}, s.length = n → CReads s ts [] → (s = [] ∨ s.getLast? = some '\n') → Calm ts →
    ∀ {s' is}, CFile (s ++ s') is → ∃ is', is = ts.map .tok ++ is' ∧ CFile s' is' := by
  intro n
  induction n using Nat.strongRecOn with
  | _ n ih =>
    intro s ts hn h hl hc s' is hf
    obtain rfl | hl := hl
    · rw [← creads_det CReads.nil h]
      exact ⟨is, rfl, hf⟩
    · obtain ⟨l, u, rfl, hl2⟩ := cut_newline (List.mem_of_mem_getLast? (by rw [hl]; rfl))
      obtain ⟨t1, t2, rfl, h1, h2⟩ := cut_line h rfl hl2
      have hc1 : Calm t1 ∧ Calm t2 := by
        unfold Calm at hc ⊢
        rwa [List.all_append, Bool.and_eq_true] at hc
      have hu : u = [] ∨ u.getLast? = some '\n' := by
        cases u with
        | nil => exact .inl rfl
        | cons c u =>
          right
          rw [← hl, List.getLast?_append, List.getLast?_cons_cons, List.getLast?_cons]
          rfl
      obtain ⟨i1, rfl, hf2⟩ := cfile_line (s := u ++ s') (by simpa using hf) hl2 h1 (calm_starts hc1.1)
      obtain ⟨i2, rfl, hf3⟩ := ih u.length (by simp at hn; omega) rfl h2 hu hc1.2 hf2
      exact ⟨i2, by simp, hf3⟩

theorem cfile_dir {l s : List Char} {is} (h : CFile ('#' :: (l ++ '\n' :: s)) is) (hl : DirLine l) :
    ∃ is', is = .dir (String.ofList l) :: is' ∧ CFile s is' := by
  generalize hs : '#' :: (l ++ '\n' :: s) = u at h
  have e0 : ('#' :: l) ++ '\n' :: s = u := by simpa using hs
  have hn : '\n' ∉ '#' :: l := dir_noline (b := []) (by simp) hl.one
  cases h with
  | nil => simp at hs
  | @dir b' l' s' is' hb' hl' h2 =>
    have e : ('#' :: l) ++ '\n' :: s = (b' ++ '#' :: l') ++ '\n' :: s' := by simpa using hs
    obtain ⟨e1, rfl⟩ := line_inj hn (dir_noline hb' hl'.one) e
    rw [blanks_inj (b := []) (by simp) hb' e1]
    exact ⟨_, rfl, h2⟩
  | @line l' ts' s' is' hl' hr' hh' h2 =>
    exfalso
    obtain ⟨rfl, rfl⟩ := line_inj hn hl' e0
    exact hh' (hash_head (b := []) (by simp) hl.hash hr')

/-- The tokens printed for `...` alone. -/
def loneDots (R : List CTok) : List CTok :=
  .punct "(" :: .punct "," :: .punct "..." :: .word "void" :: .punct ")" :: R

theorem lone_params {ps b c R R'} (h : CParams ty ps b c) : c ++ R' ≠ loneDots R := by
  intro he
  cases h with
  | void => injection he with _ he; injection he with he _; exact absurd he (by decide)
  | some h =>
    obtain ⟨w, r, rfl⟩ := paramList_head h
    injection he with _ he; injection he with he _; cases he
  | dots h =>
    obtain ⟨w, r, rfl⟩ := paramList_head h
    injection he with _ he; injection he with he _; cases he

theorem lone_decl (hu : UnitNames ty) {b t f k c R R'} (p1 : PlainTypename ty t) (p2 : PlainForm ty f)
    (h : CExtDecl ty k c) (he : staticToks b ++ (specToks t ++ (formToks f ++ loneDots R)) = c ++ R') : False := by
  have nb : NoBrk (loneDots R) := noBrk_punct (by decide)
  cases h with
  | typedef => exact (printed_not hu p1 (by simp) he).elim
  | enum => exact (printed_not hu p1 (by simp) he).elim
  | structDecl hw => exact (printed_not hu p1 (by simp) he).elim
  | structDef => exact (printed_not hu p1 (by simp) he).elim
  | @var b c0 t c1 d' c2 h0 h1 h2 =>
    obtain ⟨j1, j2, j3, j4, j5⟩ := static_cut hu p1 h0 h1 (R' := c2 ++ .punct ";" :: R') (by simpa using he)
    exact initDecl_par p2 h2 j3
  | @proto b c0 t c1 f c2 ps dots c3 h0 h1 h2 h3 =>
    obtain ⟨j1, j2, j3, j4, j5⟩ := static_cut hu p1 h0 h1 (R' := c2 ++ (c3 ++ .punct ";" :: R')) (by simpa using he)
    obtain ⟨k1, k2, k3⟩ := form_cut p2 h2 nb (by obtain ⟨r, rfl⟩ := params_par h3; exact noBrk_punct (by decide)) j3
    exact lone_params h3 k2.symm
  | @func b c0 t c1 f c2 ps dots c3 ss c4 h0 h1 h2 h3 h4 =>
    obtain ⟨j1, j2, j3, j4, j5⟩ := static_cut hu p1 h0 h1 (R' := c2 ++ (c3 ++ (c4 ++ R'))) (by simpa using he)
    obtain ⟨k1, k2, k3⟩ := form_cut p2 h2 nb (by obtain ⟨r, rfl⟩ := params_par h3; exact noBrk_punct (by decide)) j3
    exact lone_params h3 k2.symm

theorem lone_line {f : CForwardFunc} (p1 : PlainTypename ty f.typename) (p2 : PlainForm ty f.form)
    (hv : f.params = ⟨[], true⟩) :
    CReads (formatElem (.forwardFunc f)).toList (staticToks (kStatic f.isStatic f.form) ++ (specToks f.typename ++
      (formToks f.form ++ loneDots [.punct ";"]))) [] := by
  have k0 : CReads "...void);\n".toList (.punct "..." :: .word "void" :: .punct ")" :: [.punct ";"]) [] := by
    refine punctTok (p := "...") (s := "void);\n".toList) (by decide) ?_ ?_ ?_
    · intro c y hy
      have hy : 'v' :: _ = c :: y := hy
      injection hy with hy _
      subst hy
      exact ⟨by decide +kernel, fun h => absurd h (by decide)⟩
    · rintro (h | h) <;> exact absurd h (by decide)
    · exact keyword (w := "void") (word_of (by decide)) rfl (c := ')') (by simp [EndCh]) (rpar (semi (nl .nil)))
  have k2 := reads_form p2 (sep_of (by simp) _) (sp (lpar (comma (sp k0))))
  have := reads_static (b := f.isStatic) p2 (reads_spec p1.1 k2)
  simpa [formatElem, fmtForwardFunc, fmtFuncParams, hv, RStr.join, String.toList_append, loneDots] using this

/-- C80, the other way: a module that starts with directives and the prototype of a
function whose parameters are `...` alone is not C, whatever comes next. -/
theorem C80_lone_dots (hu : UnitNames ty) {ds es : List CModElem} {f : CForwardFunc}
    (hd : ∀ e ∈ ds, isDir e = true ∧ PlainElem ty e) (p1 : PlainTypename ty f.typename) (p2 : PlainForm ty f.form)
    (hv : f.params = ⟨[], true⟩) {cm : CModule} (hcm : cm.elements = ds ++ .forwardFunc f :: es) {s : String}
    (hs : formatModule cm = .ok s) (ks : List KExt) : ¬ FileReads ty s ks := by
  rintro ⟨is, h1, h2⟩
  rw [module_text hs, formatElems, hcm] at h1
  clear hs hcm
  induction ds generalizing is ks with
  | nil =>
    rw [List.nil_append, List.map_cons, String.join_cons, String.toList_append] at h1
    have hc : Calm (staticToks (kStatic f.isStatic f.form) ++ (specToks f.typename ++ (formToks f.form ++
        loneDots [.punct ";"]))) := by
      have := calm_form p2
      simp only [Calm, List.all_append, Bool.and_eq_true]
      exact ⟨calm_static _, calm_spec _, calm_form p2, rfl⟩
    obtain ⟨is', rfl, _⟩ := cfile_lines _ rfl (lone_line p1 p2 hv) (.inr (elem_line _)) hc h1
    generalize hi : List.map CItem.tok (staticToks (kStatic f.isStatic f.form) ++ (specToks f.typename ++ (formToks f.form ++
        loneDots [.punct ";"]))) ++ is' = it at h2
    cases h2 with
    | nil => have := congrArg front hi; rw [front_append] at this; simp [front, loneDots] at this
    | dir _ => have := congrArg front hi; rw [front_append] at this; simp [front, loneDots] at this
    | decl h _ =>
      have := congrArg front hi
      rw [front_append, front_append] at this
      exact lone_decl hu p1 p2 h (R := .punct ";" :: front is') (by simpa [loneDots] using this)
  | cons d ds ih =>
    obtain ⟨d1, d2⟩ := hd d (by simp)
    rw [List.cons_append, List.map_cons, String.join_cons, String.toList_append] at h1
    have key : ∃ l is', is = .dir l :: is' ∧
        CFile (String.join ((ds ++ .forwardFunc f :: es).map formatElem)).toList is' := by
      cases d with
      | «include» x =>
        obtain ⟨is', h3, h4⟩ := cfile_dir (by simpa [formatElem, String.toList_append] using h1) d2
        exact ⟨_, is', h3, by simpa [formatElem, String.toList_append] using h4⟩
      | «macro» x =>
        obtain ⟨is', h3, h4⟩ := cfile_dir (by simpa [formatElem, String.toList_append] using h1) d2
        exact ⟨_, is', h3, by simpa [formatElem, String.toList_append] using h4⟩
      | _ => cases d1
    obtain ⟨l, is', rfl, h4⟩ := key
    generalize hi : CItem.dir l :: is' = it at h2
    cases h2 with
    | nil => cases hi
    | dir h2 =>
      injection hi with _ hi
      subst hi
      exact ih (fun e he => hd e (by simp [he])) _ _ h4 h2
    | @decl k c _ _ h _ =>
      cases c with
      | nil => exact absurd rfl (ext_ne h)
      | cons t c => cases hi

/-- C80 is false of a function with the parameters `...` alone: the compiler prints this,
and by `C80_lone_dots` it is not C. -/
theorem C80_counterexample :
    projectTexts (memFS [("/main.c", "int f(...) { return 1; }\nint main() { return f(2); }\n")]) "/main.c" =
      some [["static int f (, ...void);\n", "static int f (, ...void) {\n\treturn 1;\n}\n",
        "int main (void) {\n\treturn f(2);\n}\n"]] := by decide +kernel

/-! ## An example -/

/-- A module with every kind of element. -/
def demoModule : CModule where
  link := []
  elements := [
    .macro ⟨"define", "_XOPEN_SOURCE 700"⟩,
    .include "<stdio.h>",
    .forwardStruct "s",
    .typedef ⟨true, ⟨false, "struct s"⟩, ⟨"*", none, 0, "T"⟩⟩,
    .structDef ⟨"s", [.field ⟨⟨false, "int"⟩, ⟨"", "a", [some (.lit (.number "8"))]⟩⟩,
      .union ⟨⟨"", "b", []⟩, [⟨⟨false, "T"⟩, ⟨"*", "p", []⟩⟩, ⟨⟨true, "int"⟩, ⟨"", "i", []⟩⟩]⟩], true⟩,
    .defEnum ⟨true, [⟨"c", some (.lit (.number "1"))⟩, ⟨"x", none⟩]⟩,
    .forwardFunc ⟨true, ⟨false, "int"⟩, ⟨"", "f", []⟩, ⟨[⟨⟨true, "T"⟩, ⟨"*", "p", []⟩⟩], true⟩⟩,
    .varDecl ⟨⟨false, "int"⟩, ⟨"", "i", []⟩, .binaryOp "-" (.ident "c") (.ident "x")⟩,
    .funcDef ⟨true, ⟨false, "int"⟩, ⟨"", "f", []⟩, ⟨[⟨⟨true, "T"⟩, ⟨"*", "p", []⟩⟩], true⟩,
      [.ifS (.ident "p") [.ret (some (.ident "i"))] none, .ret (some (.ident "c"))]⟩]

example : (match formatModule demoModule with | .ok s => s == "#define _XOPEN_SOURCE 700\n#include <stdio.h>\n" ++
    "struct s;\ntypedef struct s *T;\nstruct s {\n\tint a[8];\n\tunion {\n\t\tT *p;\n\t\tconst int i;\n\t\n\t} b;\n\n};\n" ++
    "enum {\n\tc = 1,\n\tx\n};\nstatic int f (const T *p, ...);\nstatic int i = c - x;\n" ++
    "static int f (const T *p, ...) {\n\tif (p) {\n\t\treturn i;\n\t}\n\t\n\treturn c;\n}\n" | _ => false) = true := by
  decide +kernel

theorem demo_unitNames : UnitNames demoTypes := ⟨demo_typeNames, by decide⟩

theorem demo_plain : ∀ e ∈ demoModule.elements, PlainElem demoTypes e := by
  have h : ∀ w ∈ ["a", "b", "c", "p", "i", "x", "f"], PlainWord demoTypes w := fun w h => plain_demo h
  simp only [List.forall_mem_cons] at h
  obtain ⟨ha, hb, hc, hp, hi, hx, hf, _⟩ := h
  have st : PlainTag "s" := ⟨word_of (by decide), by decide⟩
  have tt : PlainTag "T" := ⟨word_of (by decide), by decide⟩
  have ti : ∀ b, PlainTypename demoTypes ⟨b, "int"⟩ := fun b => ⟨word_of (by cases b <;> decide), by simp only [CTypeWord]; cases b <;> decide⟩
  have tT : ∀ b, PlainTypename demoTypes ⟨b, "T"⟩ := fun b => ⟨word_of (by cases b <;> decide), by simp only [CTypeWord]; cases b <;> decide⟩
  have n : ∀ d, cDigit d = true → Plain demoTypes (.lit (.number (String.ofList [d]))) :=
    fun d h => ⟨d, [], by simp, h, trivial⟩
  have f0 : ∀ w, PlainWord demoTypes w → PlainForm demoTypes ⟨"", w, []⟩ := fun w h => ⟨⟨0, rfl⟩, h, by simp⟩
  have f1 : ∀ w, PlainWord demoTypes w → PlainForm demoTypes ⟨"*", w, []⟩ := fun w h => ⟨⟨1, rfl⟩, h, by simp⟩
  have ps : PlainParams demoTypes ⟨[⟨⟨true, "T"⟩, ⟨"*", "p", []⟩⟩], true⟩ := by
    refine ⟨?_, by simp⟩
    simp only [List.forall_mem_cons]
    exact ⟨⟨tT _, f1 _ hp⟩, by simp⟩
  simp only [demoModule, List.forall_mem_cons]
  refine ⟨?_, ?_, st, ?_, ⟨st, by simp, ?_⟩, ⟨by simp, ?_⟩, ⟨ti _, f0 _ hf, ps⟩, ⟨ti _, f0 _ hi, ?_⟩,
    ⟨ti _, f0 _ hf, ps, ?_⟩, by simp⟩
  · exact ⟨by decide +kernel, by decide +kernel, by decide +kernel, by decide +kernel⟩
  · exact ⟨by decide +kernel, by decide +kernel, by decide +kernel, by decide +kernel⟩
  · exact ⟨st, ⟨1, rfl⟩, tt, by simp⟩
  · simp only [List.forall_mem_cons]
    refine ⟨⟨ti _, ⟨0, rfl⟩, ha, ?_⟩, ⟨by simp, ?_, f0 _ hb⟩, by simp⟩
    · simp only [List.forall_mem_cons]
      exact ⟨n '8' (by decide), by simp⟩
    · simp only [List.forall_mem_cons]
      exact ⟨⟨tT _, f1 _ hp⟩, ⟨ti _, f0 _ hi⟩, by simp⟩
  · simp only [List.forall_mem_cons]
    exact ⟨⟨hc, n '1' (by decide)⟩, ⟨hx, trivial⟩, by simp⟩
  · exact ⟨.inl ⟨11, by decide +kernel⟩, hc, hx⟩
  · simp only [PlainSs, PlainS, PlainB, Plain, PlainOpt, and_true]
    simp [hp, hi, hc]

/-- The example is C, has one reading, and that is the module. -/
example {s : String} (hs : formatModule demoModule = .ok s) :
    (∃ ks, FileReads demoTypes s ks) ∧
    ∀ ks, FileReads demoTypes s ks →
      ListAlike (ExtAlike (fun e e' => e' = canon e) (fun e e' => e' = canon e)) (demoModule.elements.map kElem) ks :=
  C80_reads_back_partial demo_unitNames hs demo_plain (by decide +kernel)

end Che.Props
