import Verif.Model.Commands
import Verif.Spec.DepTree
import Verif.Proofs.Project
import Verif.Proofs.CrashProject
import Verif.Props.Loading
/-!
# C64: the printed tree of imports
-/
namespace Che.Props
open Che Spec

/-- A file has at most one tree of imports. -/
theorem importTree_unique {imports : String → Option (List String)} {t : Tree}
    (h : ImportTree imports t) : ∀ {u : Tree}, ImportTree imports u → u.path = t.path → u = t := by
  induction h with
  | @node p kids hp hk ih =>
    intro u hu hpath
    cases hu with
    | @node q ks hq hks =>
      have hpq : q = p := hpath
      subst hpq
      rw [hp] at hq
      have hmap : kids.map Tree.path = ks.map Tree.path := by simpa using hq
      congr 1
      clear hp hq hpath
      induction kids generalizing ks with
      | nil => cases ks with
        | nil => rfl
        | cons _ _ => simp at hmap
      | cons k kids ihk => cases ks with
        | nil => simp at hmap
        | cons k' ks =>
          simp only [List.map_cons, List.cons.injEq] at hmap
          rw [ih k (by simp) (hks k' (by simp)) hmap.1.symm,
            ihk (fun k h => hk k (by simp [h])) (fun k h => ih k (by simp [h]))
              (fun k h => hks k (by simp [h])) hmap.2]

theorem rep_blanks (n : Nat) : RStr.rep "  " n = String.ofList (List.replicate (2 * n) ' ') := by
  induction n with
  | zero => rfl
  | succ n ih =>
    rw [RStr.rep, ih, show 2 * (n + 1) = 2 + 2 * n by omega, List.replicate_add, String.ofList_append]
    rfl

theorem writeline_eq {p : Printer} (hf : p.firstLine = true) (s : String) :
    p.writeline s = ⟨p.indent, false, p.out ++ treeLine p.indent s⟩ := by
  unfold Printer.writeline treeLine
  rw [hf, rep_blanks]
  simp only [Bool.and_true, decide_eq_true_eq, gt_iff_lt, Printer.mk.injEq, true_and]
  rcases Nat.eq_zero_or_pos p.indent with h | h
  · simp [h, String.append_assoc]
  · rw [if_pos h, if_neg (by omega)]; simp [String.append_assoc]

/-- The loop over the imports, if each of them can be printed. -/
theorem renderImports_ok {heads : List ModuleInfo} {imports : String → Option (List String)}
    {ref : List ModuleRef}
    (hb : ∀ imp ∈ ref, ∃ j, heads.findIdx? (fun x => x.filepath == imp.path) = some j ∧
      ∃ t N, ImportTree imports t ∧ t.path = imp.path ∧ ∀ n ≥ N, ∀ p : Printer, p.firstLine = true →
        renderDeps heads n p j = .ok ⟨p.indent, true, p.out ++ t.text p.indent⟩) :
    ∃ ts N, (∀ t ∈ ts, ImportTree imports t) ∧ ts.map Tree.path = ref.map (·.path) ∧
      ∀ n ≥ N, ∀ p : Printer, p.firstLine = true →
        renderImports heads n p ref = .ok ⟨p.indent, true, p.out ++ Tree.texts p.indent ts⟩ := by
  induction ref with
  | nil =>
    refine ⟨[], 1, by simp, rfl, fun n hn p hp => ?_⟩
    obtain ⟨n, rfl⟩ : ∃ k, n = k + 1 := ⟨n - 1, by omega⟩
    obtain ⟨a, b, c⟩ := p
    simp only at hp
    simp [renderImports, Tree.texts, hp]
  | cons imp ref ih =>
    obtain ⟨j, hj, t, N1, ht, htp, hr⟩ := hb imp (by simp)
    obtain ⟨ts, N2, hts, htsp, hrs⟩ := ih (fun x hx => hb x (by simp [hx]))
    refine ⟨t :: ts, N1 + N2 + 1, ?_, by simp [htp, htsp], fun n hn p hp => ?_⟩
    · simpa using ⟨ht, hts⟩
    · obtain ⟨n, rfl⟩ : ∃ k, n = k + 1 := ⟨n - 1, by omega⟩
      rw [renderImports, hj]
      show Res.bind (renderDeps heads n p j) _ = _
      rw [hr n (by omega) p hp]
      show renderImports heads n _ ref = _
      rw [hrs n (by omega) _ rfl]
      simp [Tree.texts, String.append_assoc]

theorem renderDeps_ok {heads : List ModuleInfo} {imports : String → Option (List String)}
    (himp : ∀ (i : Nat) (hd : ModuleInfo), heads[i]? = some hd →
      imports hd.filepath = some (hd.imports.map (·.path)))
    (hbefore : ∀ (i : Nat) (hd : ModuleInfo), heads[i]? = some hd → ∀ imp ∈ hd.imports,
      ∃ (j : Nat) (dep : ModuleInfo), j < i ∧ heads[j]? = some dep ∧ dep.filepath = imp.path) :
    ∀ (i : Nat) (hd : ModuleInfo), heads[i]? = some hd →
      ∃ t N, ImportTree imports t ∧ t.path = hd.filepath ∧ ∀ n ≥ N, ∀ p : Printer,
        p.firstLine = true → renderDeps heads n p i = .ok ⟨p.indent, true, p.out ++ t.text p.indent⟩ := by
  intro i
  induction i using Nat.strongRecOn with
  | ind i ih =>
    intro hd hi
    have hb : ∀ imp ∈ hd.imports, ∃ j, heads.findIdx? (fun x => x.filepath == imp.path) = some j ∧
        ∃ t N, ImportTree imports t ∧ t.path = imp.path ∧ ∀ n ≥ N, ∀ p : Printer,
          p.firstLine = true → renderDeps heads n p j = .ok ⟨p.indent, true, p.out ++ t.text p.indent⟩ := by
      intro imp hm
      obtain ⟨j, dep, hj, hdep, hp⟩ := hbefore i hd hi imp hm
      obtain ⟨k, hk, hkj⟩ := findIdx_before hdep hp
      obtain ⟨hlt, hpk, -⟩ := List.findIdx?_eq_some_iff_getElem.1 hk
      obtain ⟨t, N, h1, h2, h3⟩ := ih k (by omega) heads[k] (List.getElem?_eq_getElem hlt)
      exact ⟨k, hk, t, N, h1, by rw [h2]; simpa using hpk, h3⟩
    obtain ⟨ts, N, hts, htsp, hr⟩ := renderImports_ok hb
    refine ⟨.node hd.filepath ts, N + 1, .node (by rw [himp i hd hi, htsp]) hts, rfl, fun n hn p hp => ?_⟩
    obtain ⟨n, rfl⟩ : ∃ k, n = k + 1 := ⟨n - 1, by omega⟩
    rw [renderDeps, hi]
    show Res.bind (renderImports heads n _ hd.imports) _ = _
    rw [writeline_eq hp, hr n (by omega) _ rfl]
    simp [Printer.deeper, Printer.shallower, Res.bind, pure, Tree.text, String.append_assoc]

/-- **C64.**  For a project that loads, parses and translates, `che deptree` ends
with status 0, and prints nothing but the tree of the imports of the main file. -/
theorem C64_deptree [Unicode] {fs : FS} {fuel : Nat} {main : String} {b : Project}
    (h : parseProject fs fuel main = .ok b) :
    ∃ t, (ImportTree (importsOf fs fuel) t ∧ t.path = main) ∧
      (∀ u, ImportTree (importsOf fs fuel) u ∧ u.path = main → u = t) ∧
      ∃ N, ∀ depth ≥ N, cmdDeptree fs fuel depth [main] = .ok { status := 0, out := t.text 0 } := by
  have P := parseProject_ok h
  obtain ⟨hbefore, hd, hlast, hmain⟩ := C12_dependencies_first P.heads
  obtain ⟨l, c, hl, hmap, hget⟩ := projectHeads_get P.heads
  have himp : ∀ (i : Nat) (hd : ModuleInfo), b.modheads[i]? = some hd →
      importsOf fs fuel hd.filepath = some (hd.imports.map (·.path)) := by
    intro i hd hi
    obtain ⟨m, hm, he⟩ := hget i hd hi
    rw [importsOf, hm, he]
  rw [List.getLast?_eq_getElem?] at hlast
  obtain ⟨t, N, ht, htp, hr⟩ := renderDeps_ok himp hbefore _ _ hlast
  refine ⟨t, ⟨ht, htp.trans hmain⟩, fun u hu => importTree_unique ht hu.1 (by rw [hu.2, htp, hmain]),
    N, fun depth hd => ?_⟩
  simp only [cmdDeptree, h]
  rw [hr depth hd _ rfl]
  simp [pure, bind, Res.bind]

/-- **C64, failures.**  If the project has errors, `che deptree` prints nothing to
the output, one line for each error to the error output, and ends with status 1. -/
theorem C64_errors [Unicode] {fs : FS} {fuel depth : Nat} {main : String} {es : List BuildError}
    (h : parseProject fs fuel main = .err es) :
    ∃ err, cmdDeptree fs fuel depth [main] = .ok { status := 1, err := err } ∧
      err = String.join (es.map fun e => e.path ++ ":" ++ e.pos ++ ": " ++ e.message ++ "\n") :=
  ⟨_, by simp only [cmdDeptree, h]; rfl, rfl⟩

section Examples
attribute [local instance] asciiOnly

/-- `/m.c` imports `/b.c` and `/a.c`, and `/b.c` imports `/a.c`. -/
def treeDemo : FS := memFS
  [("/m.c", "#import b.c\n#import a.c\nint main() { return b.g() + a.f(); }\n"),
   ("/b.c", "#import a.c\npub int g() { return a.f(); }\n"),
   ("/a.c", "pub int f() { return 1; }\n")]

/-- The demo project, as printed: `/a.c` is listed under both files that import it. -/
example : (match cmdDeptree treeDemo 200 40 ["/m.c"] with
    | .ok r => r.out
    | _ => "") = "/m.c\n  - /b.c\n    - /a.c\n  - /a.c\n" := by decide +kernel

end Examples
end Che.Props
