import Verif.Proofs.Project
import Verif.Props.Preparsing
/-!
# C43: unrelated files do not matter
-/
namespace Che.Props
open Spec

/-- The path that an import line with the text `name` in the file `base` refers to
(C10 says which file it denotes). -/
def target (home base name : String) : Option String :=
  if ".c".toList.isSuffixOf name.toList then
    (Path.parent base.toList).map fun d => String.ofList (Path.join d name.toList)
  else some (home ++ "/lib/" ++ name ++ ".c")

/-- The file `p` has a line that imports the path `q`. -/
def Refers [Unicode] (fs : FS) (p q : String) : Prop :=
  ∃ text i t, fs.read p = .ok text ∧ sequence text.toList i = .tok t ∧ t.kind = "import" ∧
    target fs.home p t.content = some q

/-- The paths that can be reached from a file by following import lines. -/
def Reachable [Unicode] (fs : FS) : String → String → Prop := Relation.ReflTransGen (Refers fs)

/-- Two file systems with the same texts in all files reachable from the main file
and the same existence of all paths imported there. -/
structure Agree [Unicode] (fs fs' : FS) (main : String) : Prop where
  home : fs.home = fs'.home
  read : ∀ p, Reachable fs main p → fs.read p = fs'.read p
  exist : ∀ p q, Reachable fs main p → Refers fs p q → fs.metaOk q = fs'.metaOk q

theorem resolveImport_target (fs : FS) (base name : String) : resolveImport fs base name =
    match target fs.home base name with
    | none => .panic "resolve.rs:25"
    | some path =>
      if !fs.metaOk path then .err ("can't find module '" ++ name ++ "' (looked at " ++ path ++ ")")
      else .ok { path := path, ns := stripExt (basename path) } := by
  unfold resolveImport target RStr.endsWith
  by_cases h : ".c".toList.isSuffixOf name.toList
  · simp only [h, if_true]
    cases Path.parent base.toList <;> rfl
  · simp only [h]
    rfl

theorem resolveImport_congr {fs fs' : FS} (hh : fs.home = fs'.home) {base name : String}
    (h : ∀ q, target fs.home base name = some q → fs.metaOk q = fs'.metaOk q) :
    resolveImport fs base name = resolveImport fs' base name := by
  rw [resolveImport_target, resolveImport_target, ← hh]
  cases ht : target fs.home base name with
  | none => rfl
  | some q => simp only [h q ht]

theorem preparseLoop_congr [Unicode] {fs fs' : FS} {path : String} {S : Nat → Item}
    (hr : ∀ i t, S i = .tok t → t.kind = "import" →
      resolveImport fs path t.content = resolveImport fs' path t.content) :
    ∀ (n : Nat) {k : Nat} {l : Lexer} {is : List ModuleRef} {ns : List String}, At S k l →
    preparseLoop fs path n is ns l = preparseLoop fs' path n is ns l
  | 0, _, _, _, _, _ => rfl
  | n + 1, k, l, is, ns, h => by
    rw [preparseLoop, preparseLoop]
    cases hg : l.get with
    | panic m => rfl
    | diverge => rfl
    | ok o l1 =>
      have h1 := lift_get_ok h hg
      cases o with
      | none => rfl
      | some t =>
        obtain ⟨ht, h1⟩ := h1
        simp only
        split
        · rfl
        · next hk =>
          rw [hr k t ht hk]
          cases resolveImport fs' path t.content with
          | ok r => exact preparseLoop_congr hr n h1
          | _ => rfl
        · cases hg : getTypename n l1 with
          | ok r =>
            obtain ⟨name, l2⟩ := r
            simp only
            rcases getTypename_ok h1 hg with ⟨_, _, _, _, _, _, _, _, _, _, _, _, _, h2⟩ |
              ⟨_, _, _, _, _, _, _, _, h2⟩ | ⟨_, _, _, _, _, _, _, h2⟩ <;>
            exact preparseLoop_congr hr n h2
          | _ => rfl
        · split
          · cases dropBytes 6 t.content.toList with
            | none => rfl
            | some s => exact preparseLoop_congr hr n h1
          · exact preparseLoop_congr hr n h1

theorem preparse_congr [Unicode] {fs fs' : FS} {main p : String} (ha : Agree fs fs' main)
    (hp : Reachable fs main p) (fuel : Nat) : preparse fs fuel p = preparse fs' fuel p := by
  unfold preparse
  rw [← ha.read p hp]
  cases hr : fs.read p with
  | error e => rfl
  | ok text =>
    simp only
    rw [preparseLoop_congr (fs' := fs') (S := sequence text.toList) ?_ fuel (at_ofText text.toList)]
    intro i t ht hk
    exact resolveImport_congr ha.home fun q hq => ha.exist p q hp ⟨text, i, t, hr, ht, hk, hq⟩

theorem heads_imports {ts : List Token} {imps names : List String} (h : Heads ts imps names) :
    ∀ s ∈ imps, ∃ t ∈ ts, t.kind = "import" ∧ t.content = s := by
  induction h with
  | nil => simp
  | importing hk _ ih =>
    intro s hs
    rcases List.mem_cons.1 hs with rfl | hs
    · exact ⟨_, by simp, hk, rfl⟩
    · obtain ⟨t, ht, h1, h2⟩ := ih s hs
      exact ⟨t, by simp [ht], h1, h2⟩
  | struct _ _ _ _ _ _ _ ih =>
    intro s hs
    obtain ⟨t, ht, h1, h2⟩ := ih s hs
    exact ⟨t, by simp [ht], h1, h2⟩
  | named _ _ _ _ _ _ ih =>
    intro s hs
    obtain ⟨t, ht, h1, h2⟩ := ih s hs
    exact ⟨t, by simp [ht], h1, h2⟩
  | unclosed => simp
  | typeLine _ _ _ _ _ ih =>
    intro s hs
    obtain ⟨t, ht, h1, h2⟩ := ih s hs
    exact ⟨t, by simp [ht], h1, h2⟩
  | other _ _ _ _ _ ih =>
    intro s hs
    obtain ⟨t, ht, h1, h2⟩ := ih s hs
    exact ⟨t, by simp [ht], h1, h2⟩

/-- What the pre-parser reports as imported is referred to by the file. -/
theorem imports_refers [Unicode] {fs : FS} {fuel : Nat} {p q : String}
    (h : Imports (preparse fs fuel) p q) : Refers fs p q := by
  obtain ⟨m, hm, hq⟩ := h
  obtain ⟨text, all, imps, hr, hall, hh, hres⟩ := C45_sound hm
  obtain ⟨r, hr1, rfl⟩ := List.mem_map.1 hq
  obtain ⟨s, hs, hsr⟩ := Forall₂.mem_right hres hr1
  obtain ⟨t, ht, hk, rfl⟩ := heads_imports hh s hs
  obtain ⟨i, hi, hti⟩ := List.mem_iff_getElem.1 ht
  refine ⟨text, i, t, hr, ?_, hk, ?_⟩
  · rw [C06_sequence hall, List.getElem?_eq_getElem hi, hti]
  · rw [resolveImport_target] at hsr
    cases htg : target fs.home p t.content with
    | none => simp only [htg] at hsr; cases hsr
    | some q =>
      simp only [htg] at hsr
      split at hsr
      · cases hsr
      · cases hsr; rfl

theorem reach_reachable [Unicode] {fs : FS} {fuel : Nat} {p q : String}
    (h : Reach (preparse fs fuel) p q) : Reachable fs p q := by
  induction h with
  | refl => exact .refl
  | tail _ h ih => exact .tail ih (imports_refers h)

mutual
theorem loadTree_congr {pre pre' : String → Res String ModuleInfo} {R : String → Prop}
    (heq : ∀ p, R p → pre p = pre' p) (hcl : ∀ p q, R p → Imports pre p q → R q) :
    ∀ (n : Nat) {c : Cache} {p : String} {crumbs : List String}, CacheOk pre c → R p →
      loadTree pre n c p crumbs = loadTree pre' n c p crumbs
  | 0, _, _, _, _, _ => rfl
  | n + 1, c, p, crumbs, hc, hp => by
    rw [loadTree, loadTree]
    split
    · rfl
    · have e : cachedPreparse pre c p = cachedPreparse pre' c p := by
        unfold cachedPreparse; rw [heq p hp]
      rw [← e]
      cases h1 : cachedPreparse pre c p with
      | ok r =>
        obtain ⟨head, c1⟩ := r
        obtain ⟨hpre, hc1, _, _⟩ := cachedPreparse_ok hc h1
        simp only
        rw [loadImports_congr heq hcl n hc1 (fun q hq => hcl p q hp ⟨head, hpre, hq⟩)]
      | _ => rfl
theorem loadImports_congr {pre pre' : String → Res String ModuleInfo} {R : String → Prop}
    (heq : ∀ p, R p → pre p = pre' p) (hcl : ∀ p q, R p → Imports pre p q → R q) :
    ∀ (n : Nat) {c : Cache} {ps crumbs : List String}, CacheOk pre c → (∀ p ∈ ps, R p) →
      loadImports pre n c ps crumbs = loadImports pre' n c ps crumbs
  | 0, _, _, _, _, _ => rfl
  | n + 1, c, [], crumbs, hc, hp => rfl
  | n + 1, c, p :: ps, crumbs, hc, hp => by
    rw [loadImports, loadImports, loadTree_congr heq hcl n hc (hp p (by simp))]
    cases h1 : loadTree pre' n c p crumbs with
    | ok r =>
      obtain ⟨l, c1⟩ := r
      rw [← loadTree_congr heq hcl n hc (hp p (by simp))] at h1
      obtain ⟨_, hc1, _⟩ := loadTree_ok n hc h1
      simp only
      rw [loadImports_congr heq hcl n hc1 (fun q hq => hp q (by simp [hq]))]
    | _ => rfl
end

theorem parseMods_congr [Unicode] {fs fs' : FS} {fuel : Nat} {heads : List ModuleInfo} :
    ∀ {hs : List ModuleInfo}, (∀ h ∈ hs, fs.read h.filepath = fs'.read h.filepath) →
      parseMods fs fuel heads hs = parseMods fs' fuel heads hs := by
  intro hs
  induction hs with
  | nil => intro _; rfl
  | cons h hs ih =>
    intro hr
    rw [parseMods, parseMods, ih (fun x hx => hr x (by simp [hx]))]
    have : parseMod fs fuel heads h = parseMod fs' fuel heads h := by
      unfold parseMod; rw [hr h (by simp)]
    rw [this]

/-- **C43.** The project made from a main file depends only on the files reachable
from it and on the existence of the imported paths. -/
theorem C43_project [Unicode] {fs fs' : FS} {main : String} (h : Agree fs fs' main) (fuel : Nat) :
    parseProject fs fuel main = parseProject fs' fuel main := by
  have hcl : ∀ p q, Reachable fs main p → Imports (preparse fs fuel) p q → Reachable fs main q :=
    fun p q hp hi => .tail hp (imports_refers hi)
  have e1 : projectHeads fs fuel main = projectHeads fs' fuel main := by
    unfold projectHeads
    rw [loadTree_congr (fun p hp => preparse_congr h hp fuel) hcl fuel CacheOk.nil .refl]
  unfold parseProject
  rw [← e1]
  cases hh : projectHeads fs fuel main with
  | ok heads =>
    show Res.bind (.ok heads) _ = Res.bind (.ok heads) _
    simp only [Res.bind]
    rw [parseMods_congr (fs' := fs')]
    intro hd hm
    obtain ⟨l, c, hl, hf, _⟩ := projectHeads_get hh
    obtain ⟨hli, _⟩ := loadTree_ok fuel CacheOk.nil hl
    have hmem : hd.filepath ∈ l := by
      have : hd.filepath ∈ modOrder l := by rw [← hf]; exact List.mem_map_of_mem hm
      rw [modOrder, mem_uniq] at this
      simpa using this
    exact h.read _ (reach_reachable (hli.mem_reach _ (Nat.le_refl _) _ hmem))
  | _ => rfl

/-- **C43.** The C files written, the compiler command and the outcome of the build
depend on nothing else either. -/
theorem C43_build [Unicode] {fs fs' : FS} {source : String} (h : Agree fs fs' source)
    (hash : String → String) (macos : Bool) (cc : List COutput → List String → Bool) (fuel : Nat)
    (output : String) :
    buildPlan fs hash macos fuel source output = buildPlan fs' hash macos fuel source output ∧
    buildProg fs hash macos cc fuel source output = buildProg fs' hash macos cc fuel source output := by
  have e : buildPlan fs hash macos fuel source output = buildPlan fs' hash macos fuel source output := by
    unfold buildPlan
    rw [C43_project h, h.home]
  exact ⟨e, by unfold buildProg; rw [e]⟩

/-- Agreement on a set of files that can be lexed and that is closed under imports. -/
theorem agree_closed [Unicode] {fs fs' : FS} {main : String} {R : List String}
    (hh : fs.home = fs'.home) (hm : main ∈ R)
    (hcl : ∀ p ∈ R, ∃ text ts eof, fs.read p = .ok text ∧ lexAll text.toList = .ok ts eof ∧
      ∀ t ∈ ts, t.kind = "import" → ∀ q, target fs.home p t.content = some q → q ∈ R)
    (ha : ∀ p ∈ R, fs.read p = fs'.read p ∧ fs.metaOk p = fs'.metaOk p) : Agree fs fs' main := by
  have href : ∀ p q, p ∈ R → Refers fs p q → q ∈ R := by
    rintro p q hp ⟨text, i, t, hr, hs, hk, ht⟩
    obtain ⟨text', ts, eof, hr', hl, hc⟩ := hcl p hp
    rw [hr] at hr'; cases hr'
    obtain ⟨more, e, hi⟩ := lexAllLoop_stream _ hl
    simp only [List.reverse_nil, List.nil_append] at e
    subst e
    have := hi i
    rw [show stream (Buf.new text.toList) i = _ from hs] at this
    split at this
    · next u hu =>
      cases this
      exact hc _ (List.mem_of_getElem? hu) hk q ht
    · cases this
  have hreach : ∀ p, Reachable fs main p → p ∈ R := by
    intro p h
    induction h with
    | refl => exact hm
    | tail _ h ih => exact href _ _ ih h
  exact ⟨hh, fun p hp => (ha p (hreach p hp)).1,
    fun p q hp hq => (ha q (href p q (hreach p hp) hq)).2⟩

section Examples
attribute [local instance] asciiOnly

/-- Another file system: `/x.c` is broken, `/y.c` is gone and there is a new file. -/
def otherFS : FS := memFS
  [("/new.c", "int x = @;"), ("/x.c", "}}}"), ("/a.c", "typedef int a_t;\n"),
   ("/b.c", "#import a.c\n"), ("/m.c", "#import b.c\n#import a.c\n")]

/-- Is every imported path of every file in the list also there? -/
def closedUnder (fs : FS) (R : List String) : Bool :=
  R.all fun p => match fs.read p with
    | .ok text => match lexAll text.toList with
      | .ok ts _ => ts.all fun t => t.kind != "import" || match target fs.home p t.content with
        | some q => R.contains q
        | none => true
      | _ => false
    | _ => false

theorem closedUnder_spec {fs : FS} {R : List String} (h : closedUnder fs R = true) :
    ∀ p ∈ R, ∃ text ts eof, fs.read p = .ok text ∧ lexAll text.toList = .ok ts eof ∧
      ∀ t ∈ ts, t.kind = "import" → ∀ q, target fs.home p t.content = some q → q ∈ R := by
  intro p hp
  have := List.all_eq_true.1 h p hp
  split at this
  · next text hr =>
    split at this
    · next ts eof hl =>
      refine ⟨text, ts, eof, hr, hl, fun t ht hk q hq => ?_⟩
      have := List.all_eq_true.1 this t ht
      simpa [hk, hq] using this
    · cases this
  · cases this

/-- The demo project does not depend on the other files. -/
example : Agree demoFS otherFS "/m.c" :=
  agree_closed (R := ["/m.c", "/b.c", "/a.c"]) rfl (by simp)
    (closedUnder_spec (by decide +kernel)) (by decide +kernel)

/-- C11 applies to the demo project: its files are finitely many and readable. -/
example : FiniteReadable (preparse demoFS 40) "/m.c" := by
  refine ⟨["/m.c", "/b.c", "/a.c"], fun q hq => ?_⟩
  have hR : q ∈ ["/m.c", "/b.c", "/a.c"] := by
    induction hq with
    | refl => simp
    | @tail p q _ h ih =>
      have h' : ∀ p ∈ ["/m.c", "/b.c", "/a.c"], (match preparse demoFS 40 p with
          | .ok m => m.imports.all (fun r => ["/m.c", "/b.c", "/a.c"].contains r.path)
          | _ => false) = true := by decide +kernel
      obtain ⟨m, hm, hq⟩ := h
      have := h' p ih
      rw [hm] at this
      obtain ⟨r, hr, rfl⟩ := List.mem_map.1 hq
      simpa using List.all_eq_true.1 this r hr
  refine ⟨hR, ?_⟩
  have h' : ∀ p ∈ ["/m.c", "/b.c", "/a.c"], (match preparse demoFS 40 p with
      | .ok _ => true
      | _ => false) = true := by decide +kernel
  have := h' q hR
  split at this
  · next m hm => exact ⟨m, hm⟩
  · cases this

end Examples

end Che.Props
