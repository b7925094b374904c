import Verif.Model.Commands
import Verif.Spec.Listing
import Verif.Proofs.Project
import Verif.Props.Exports
import Verif.Props.Crashing
import Verif.Props.Lexing
/-!
# C65: the listing of exports
-/
namespace Che.Props
open Che Spec

theorem rep_blank (n : Nat) : RStr.rep " " n = String.ofList (List.replicate n ' ') := by
  induction n with
  | zero => rfl
  | succ n ih =>
    rw [RStr.rep, ih, show n + 1 = 1 + n by omega, List.replicate_add, String.ofList_append]
    rfl

theorem exportParams_eq : ∀ (i : Nat) (ps : List TypeAndForms), ps ≠ [] →
    fmtExportParams i ps = (if i > 0 then ", " else "") ++ commas (ps.map groupText)
  | i, [], h => absurd rfl h
  | i, [p], _ => by simp [fmtExportParams, commas, groupText, String.append_assoc]
  | i, p :: q :: r, _ => by
    rw [fmtExportParams, exportParams_eq (i + 1) (q :: r) (by simp)]
    simp [commas, groupText, String.append_assoc]

theorem exportSig_eq (f : FuncDecl) :
    FormatChe.fmtForm f.form ++ " " ++ fmtExportSig f.params = declText f := by
  unfold fmtExportSig declText
  have : fmtExportParams 0 f.params.list = commas (f.params.list.map groupText) := by
    cases h : f.params.list with
    | nil => simp [fmtExportParams, commas]
    | cons p ps => rw [exportParams_eq 0 (p :: ps) (by simp)]; simp
  rw [this]
  have e : " (" = " " ++ "(" := rfl
  rw [e]
  simp only [String.append_assoc]

theorem exportCols_eq : ∀ (fns : List FuncDecl) (w : Nat) (ts gs : List String),
    exportCols w ts gs fns = (max w (widest fns),
      ts ++ fns.map (fun f => FormatChe.fmtTypename f.typename), gs ++ fns.map declText)
  | [], w, ts, gs => by simp [exportCols, widest]
  | f :: fns, w, ts, gs => by
    simp only [exportCols]
    rw [exportCols_eq fns, exportSig_eq]
    simp only [List.map_cons, List.append_assoc, List.singleton_append, Prod.mk.injEq, and_true, widest,
      List.foldr_cons]
    split <;> omega

/-- The form of a declared function begins with a star exactly if it has hops: its
name is a word. -/
theorem startsWith_star {f : FuncDecl} (h : RStr.startsWith f.form.name "*" = false)
    (hne : f.form.name ≠ "") :
    RStr.startsWith (declText f) "*" = decide (0 < f.form.hops) := by
  unfold RStr.startsWith at *
  have e : "*".toList = ['*'] := rfl
  rw [e] at *
  cases hh : f.form.hops with
  | zero =>
    simp only [declText, FormatChe.fmtForm, hh, RStr.rep, String.toList_append]
    cases hn : f.form.name.toList with
    | nil => exact absurd (String.toList_eq_nil_iff.1 hn) hne
    | cons c cs =>
      rw [hn] at h
      simpa [List.isPrefixOf] using h
  | succ n =>
    simp [declText, FormatChe.fmtForm, hh, RStr.rep, List.isPrefixOf]

theorem exportRows_eq (w : Nat) : ∀ (fns : List FuncDecl),
    (∀ f ∈ fns, RStr.startsWith f.form.name "*" = false ∧ f.form.name ≠ "") →
    exportRows w ((fns.map (fun f => FormatChe.fmtTypename f.typename)).zip (fns.map declText)) =
      String.join ((fns.map (fnText declText w)).map fun l => "\t" ++ l ++ "\n")
  | [], _ => by simp [exportRows]
  | f :: fns, h => by
    have hf := h f (by simp)
    simp only [List.map_cons, List.zip_cons_cons, exportRows, String.join_cons]
    rw [exportRows_eq w fns (fun g hg => h g (by simp [hg])), startsWith_star hf.1 hf.2, rep_blank]
    congr 1
    simp only [fnText]
    have hr : ∀ k, String.ofList (List.replicate (k + 2) ' ') =
        String.ofList (List.replicate k ' ') ++ "  " := by
      intro k; rw [List.replicate_add, String.ofList_append]; rfl
    rw [hr]
    by_cases h0 : 0 < f.form.hops
    · simp [h0, String.append_assoc]
    · have e : "   " = "  " ++ " " := rfl
      simp [h0, e, String.append_assoc]

/-- A word of a file begins with a letter or an underscore. -/
theorem lexAll_word [Unicode] {text : List Char} {ts : List Token} {eof : Pos}
    (h : lexAll text = .ok ts eof) {t : Token} (ht : t ∈ ts) (hk : t.kind = "word") :
    ∃ c cs, t.content = String.ofList (c :: cs) ∧ WordStart c := by
  obtain ⟨all, hall, rfl, -⟩ := (C02_file text ts eof).1 h
  have hm : t ∈ all := (List.mem_filter.1 ht).1
  obtain ⟨before, after, e⟩ := List.append_of_mem hm
  obtain ⟨pre, lx, rest, -, h⟩ := C01_token hall e
  rcases h with ⟨h, -⟩ | ⟨h, -⟩
  · rw [hk] at h
    generalize hc : t.content = content at h
    generalize hkk : "word" = k at h
    cases h with
    | word hs _ _ _ _ => exact ⟨_, _, rfl, hs⟩
    | calloc => exact ⟨'c', "alloc!".toList, rfl, by unfold WordStart Letter; decide⟩
    | keyword hs ha hst hr =>
      rw [← hkk] at hr
      exact absurd hr (by decide)
    | op ho => rw [← hkk] at ho; exact absurd ho (by decide)
    | _ => simp at hkk
  · rw [hk] at h; simp at h

theorem FormG.word {ctx : ParseCtx} {f : Form} {c : List Token} (h : FormG ctx f c) :
    ∃ w ∈ c, w.kind = "word" ∧ w.content = f.name := by
  cases h with
  | @mk t n c c1 w is c2 _ hw _ _ he => exact ⟨w, by rw [← he]; simp, hw, rfl⟩

theorem ModG.fnNames {ctx : ParseCtx} {es : List ModElem} {c : List Token} (h : ModG ctx es c) :
    ∀ f, .funcDecl f ∈ es → ∃ w ∈ c, w.kind = "word" ∧ w.content = f.form.name := by
  induction h with
  | nil => simp
  | skip _ _ ih => intro f hf; obtain ⟨w, h, r⟩ := ih f hf; exact ⟨w, by simp [h], r⟩
  | @cons e c es c' h _ ih =>
    intro f hf
    rcases List.mem_cons.1 hf with rfl | hf
    · cases h with
      | obj h1 h he =>
        cases h with
        | func h1 h2 _ h3 _ h4 =>
          obtain ⟨w, hw, r⟩ := FormG.word h2
          refine ⟨w, ?_, r⟩
          rw [← he]
          simp [hw]
    · obtain ⟨w, h, r⟩ := ih f hf; exact ⟨w, by simp [h], r⟩

theorem fnName_word [Unicode] {fs : FS} {fuel : Nat} {heads : List ModuleInfo} {h : ModuleInfo}
    {m : Module} (hm : parseMod fs fuel heads h = .ok m) {f : FuncDecl} (hf : .funcDecl f ∈ m.elements) :
    RStr.startsWith f.form.name "*" = false ∧ f.form.name ≠ "" := by
  unfold parseMod at hm
  split at hm
  · cases hm
  · split at hm
    · cases hm
    · cases hm
    · rename_i ts eof hl
      split at hm
      · rename_i hp
        cases hm
        obtain ⟨w, hw, hk, hc⟩ := ModG.fnNames (parseModule_ok hp).1 f hf
        obtain ⟨c, cs, e, hs⟩ := lexAll_word hl hw hk
        rw [← hc, e]
        have hne : c ≠ '*' := by rintro rfl; revert hs; unfold WordStart Letter; decide
        constructor
        · unfold RStr.startsWith
          rw [String.toList_ofList]
          simpa [List.isPrefixOf] using fun h => hne h.symm
        · intro h
          have := congrArg String.toList h
          simp at this
      all_goals cases hm

theorem printExports_eq {ex : Exports}
    (h : ∀ f ∈ ex.fns, RStr.startsWith f.form.name "*" = false ∧ f.form.name ≠ "") :
    printExports ex = block "constants" (ex.consts.map (·.name)) ++ block "types" ex.types ++
      block "functions" (ex.fns.map (fnText declText (widest ex.fns))) := by
  unfold printExports
  rw [exportCols_eq]
  simp only [List.nil_append, Nat.zero_max, List.isEmpty_iff, block, List.map_eq_nil_iff, List.map_map]
  have := exportRows_eq (widest ex.fns) ex.fns h
  rw [List.map_map] at this
  rw [this]
  rfl

theorem GoodForm.che {K : String → Prop} {f : Form} (h : GoodForm K f) : panicsForm f = false := by
  unfold panicsForm
  rw [List.any_eq_false]
  intro i hi
  cases i with
  | none => simp
  | some e => simpa using GoodE.che (h _ hi)

/-- What one file adds to the output. -/
theorem exports_one [Unicode] {fs : FS} {fuel : Nat} {path : String} {b : Project}
    (h : parseProject fs fuel path = .ok b) (out : String) (rest : List String) :
    ∃ m, b.modules.getLast? = some m ∧
      exportsLoop fs fuel out (path :: rest) =
        exportsLoop fs fuel (out ++ listing declText path ((pubConsts m.elements).map (·.name))
          (pubTypes m.elements) (pubFns m.elements)) rest := by
  have P := parseProject_ok h
  obtain ⟨hbefore, hd, hlast, hmain⟩ := C12_dependencies_first P.heads
  rw [List.getLast?_eq_getElem?] at hlast
  obtain ⟨m, hm, hp⟩ := P.parsed _ _ hlast
  have hex := parseMod_exports hp
  rw [getExports, foldl_exports] at hex
  have hfn : ∀ f ∈ m.exports.fns, .funcDecl f ∈ m.elements := by
    intro f hf
    rw [hex] at hf
    simp only [List.nil_append, pubFns, List.mem_filterMap] at hf
    obtain ⟨e, he, hf⟩ := hf
    cases e with
    | funcDecl d =>
      simp only [Option.ite_none_right_eq_some, Option.some.injEq] at hf
      rw [← hf.2]; exact he
    | _ => simp at hf
  have hgood := parseMod_good hp
  have hpan : panicsExports m.exports = false := by
    unfold panicsExports
    rw [List.any_eq_false]
    intro f hf
    have := hgood _ (hfn f hf)
    obtain ⟨_, h1, h2, _⟩ := this
    simp only [GoodForm.che h1, Bool.false_or, Bool.not_eq_true, List.any_eq_false]
    intro p hp g hg
    exact GoodForm.che ((h2 p hp).2 g hg)
  rw [← P.mods_len] at hlast hm
  refine ⟨m, by rw [List.getLast?_eq_getElem?, hm], ?_⟩
  simp only [exportsLoop, h]
  rw [List.getLast?_eq_getElem?, hm, hlast]
  simp only [hpan, Bool.false_eq_true, if_false]
  rw [printExports_eq (fun f hf => fnName_word hp (hfn f hf)), hmain, hex]
  simp [listing, String.append_assoc]

/-- The listing of one file, of which `m` is the parsed text. -/
def fileListing (decl : FuncDecl → String) (path : String) (m : Module) : String :=
  listing decl path ((pubConsts m.elements).map (·.name)) (pubTypes m.elements) (pubFns m.elements)

/-- The listings of files one after another. -/
def listings (decl : FuncDecl → String) (paths : List String) (ms : List Module) : String :=
  String.join ((paths.zip ms).map fun x => fileListing decl x.1 x.2)

/-- `m` is the parsed text of the file at `path`, which is part of no broken
project. -/
def MainOf [Unicode] (fs : FS) (fuel : Nat) (path : String) (m : Module) : Prop :=
  ∃ b, parseProject fs fuel path = .ok b ∧ b.modules.getLast? = some m

theorem exportsLoop_append [Unicode] {fs : FS} {fuel : Nat} {rest : List String} :
    ∀ {paths : List String} {ms : List Module} (out : String),
      List.Forall₂ (MainOf fs fuel) paths ms →
      exportsLoop fs fuel out (paths ++ rest) = exportsLoop fs fuel
        (out ++ listings declText paths ms) rest := by
  intro paths
  induction paths with
  | nil => intro ms out h; cases h; simp [listings]
  | cons p ps ih =>
    intro ms out h
    cases h with
    | cons h hr =>
      obtain ⟨b, hb, hm⟩ := h
      obtain ⟨m', hm', e⟩ := exports_one hb out (ps ++ rest)
      rw [hm] at hm'
      cases hm'
      rw [List.cons_append, e, ih _ hr]
      simp [listings, fileListing, String.append_assoc]

/-- Full statement of C65, which the code does not satisfy: the listing writes
functions in Che syntax. -/
def C65_full [Unicode] : Prop :=
  ∀ (fs : FS) (fuel : Nat) (paths : List String) (ms : List Module),
    List.Forall₂ (MainOf fs fuel) paths ms →
    cmdExports fs fuel paths = .ok { status := 0, out := listings cheText paths ms }

/-- **C65, exactly.**  For files that load, parse and translate, `che exports`
prints for each file its path, its `pub` constants, types and functions in the
order of the text, and ends with status 0.  The functions are printed as
`declText` says. -/
theorem C65_printed [Unicode] {fs : FS} {fuel : Nat} {paths : List String} {ms : List Module}
    (h : List.Forall₂ (MainOf fs fuel) paths ms) :
    cmdExports fs fuel paths = .ok { status := 0, out := listings declText paths ms } := by
  have := exportsLoop_append (rest := []) "" h
  rw [List.append_nil] at this
  rw [cmdExports, this]
  simp [exportsLoop]

/-- **C65, failures.**  The first file with errors ends the listing: the files before
it are listed, its errors are reported, and the status is 1. -/
theorem C65_errors [Unicode] {fs : FS} {fuel : Nat} {paths rest : List String} {ms : List Module}
    {bad : String} {es : List BuildError} (h : List.Forall₂ (MainOf fs fuel) paths ms)
    (hb : parseProject fs fuel bad = .err es) :
    ∃ err, cmdExports fs fuel (paths ++ bad :: rest) =
        .ok { status := 1, out := listings declText paths ms, err := err } ∧
      err = String.join (es.map fun e => e.path ++ ":" ++ e.pos ++ ": " ++ e.message ++ "\n") := by
  refine ⟨_, ?_, rfl⟩
  rw [cmdExports, exportsLoop_append (rest := bad :: rest) "" h]
  simp [exportsLoop, hb, errorLines]

theorem commas_append_last : ∀ (l : List String) (x : String), l ≠ [] →
    commas (l ++ [x]) = commas l ++ ", " ++ x
  | [], _, h => absurd rfl h
  | [a], x, _ => by simp [commas]
  | a :: b :: r, x, _ => by
    have := commas_append_last (b :: r) x (by simp)
    simp only [List.cons_append] at this ⊢
    rw [commas, this, commas]
    simp [String.append_assoc]

theorem declText_che {f : FuncDecl} (h1 : ∀ p ∈ f.params.list, p.forms.length = 1)
    (h2 : f.params.ellipsis = true → f.params.list ≠ []) : declText f = cheText f := by
  unfold declText cheText
  have e : f.params.list.map groupText = f.params.list.map (fun p =>
      FormatChe.fmtTypename p.typename ++ " " ++ commas (p.forms.map FormatChe.fmtForm)) := by
    refine List.map_congr_left fun p hp => ?_
    obtain ⟨a, ha⟩ := List.length_eq_one_iff.1 (h1 p hp)
    simp [groupText, ha, commas]
  rw [e]
  cases he : f.params.ellipsis with
  | false => simp
  | true =>
    simp only [if_true]
    rw [commas_append_last _ _ (by simpa using h2 he)]
    have : ", ..." = ", " ++ "..." := rfl
    rw [this]
    simp [String.append_assoc]

/-- **C65 (what holds).**  If every parameter has its own type and `...` does not
stand alone, the functions are printed in Che syntax.  Missing: `int f(int a, b)`
and `int f(...)`, see the counterexample. -/
theorem C65_partial [Unicode] {fs : FS} {fuel : Nat} {paths : List String} {ms : List Module}
    (h : List.Forall₂ (MainOf fs fuel) paths ms)
    (h1 : ∀ m ∈ ms, ∀ f ∈ pubFns m.elements, (∀ p ∈ f.params.list, p.forms.length = 1) ∧
      (f.params.ellipsis = true → f.params.list ≠ [])) :
    cmdExports fs fuel paths = .ok { status := 0, out := listings cheText paths ms } := by
  rw [C65_printed h]
  congr 2
  unfold listings
  congr 1
  refine List.map_congr_left fun x hx => ?_
  have hm := (List.of_mem_zip hx).2
  unfold fileListing listing
  congr 2
  refine List.map_congr_left fun f hf => ?_
  unfold fnText
  rw [declText_che (h1 _ hm f hf).1 (h1 _ hm f hf).2]

section Examples
attribute [local instance] asciiOnly

/-- Three exported functions, a private one, a constant and a type. -/
def listingDemo : FS := memFS [("/a.c",
  "pub enum { A, B = 2 }\npub typedef int num_t;\npub int f(int a, char *b, ...) { return g(a, b); }\n" ++
  "pub const char *s() { return NULL; }\nint g(int a, char *b) { if (b) { return a; } return 2; }\n"),
  ("/b.c", "pub int f(int a, b) { return a + b; }\n"),
  ("/c.c", "pub int f(int ab) { return ab; }\n"),
  ("/d.c", "pub int f(...) { return 1; }\n")]

/-- What is printed for a path. -/
def listingOf (path : String) : String :=
  match cmdExports listingDemo 2000 [path] with
  | .ok r => r.out
  | _ => "-"

example : listingOf "/a.c" = "mod /a.c\nconstants\n\tA\n\tB\ntypes\n\tnum_t\nfunctions\n" ++
    "\tint          f (int a, char *b, ...)\n\tconst char  *s ()\n" := by decide +kernel

/-- C65 is false of the code: two parameters and one parameter are printed alike up
to the path, and `...` alone gets a comma. -/
theorem C65_counterexample :
    listingOf "/b.c" = "mod /b.c\nfunctions\n\tint   f (int ab)\n" ∧
    listingOf "/c.c" = "mod /c.c\nfunctions\n\tint   f (int ab)\n" ∧
    listingOf "/d.c" = "mod /d.c\nfunctions\n\tint   f (, ...)\n" := by decide +kernel

end Examples
end Che.Props
