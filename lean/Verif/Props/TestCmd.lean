import Verif.Model.TestCmd
import Verif.Props.Cli
import Verif.Spec.Demo
import Mathlib.Data.List.Forall2
/-!
# C42, C73: the tests that `che test` finds, runs and reports
-/
namespace Che.Props
open Che
variable [Unicode]

/-- A test inside directory entries: an entry named `*.test.c`, or one inside a directory
that is not so named. -/
inductive TestIn : List DirTree → String → Prop
  | file {es : List DirTree} {p : String} : .file p ∈ es → RStr.endsWith p ".test.c" = true → TestIn es p
  | here {es inner : List DirTree} {p : String} : .dir p inner ∈ es → RStr.endsWith p ".test.c" = true → TestIn es p
  | inside {es inner : List DirTree} {d p : String} : .dir d inner ∈ es → RStr.endsWith d ".test.c" = false →
      TestIn inner p → TestIn es p

omit [Unicode] in
theorem findTests_flatMap (es : List DirTree) : findTests es = es.flatMap findTest := by
  induction es with
  | nil => rfl
  | cons e es ih => rw [findTests, ih, List.flatMap_cons]

omit [Unicode] in
/-- C42, C73: the tests found are the entries named `*.test.c` at any depth, and those of
an entry come before those of the entries after it. -/
theorem C73_found (es : List DirTree) :
    (∀ p, p ∈ findTests es ↔ TestIn es p) ∧ ∀ a b, es = a ++ b → findTests es = findTests a ++ findTests b := by
  refine ⟨fun p => ⟨?_, ?_⟩, ?_⟩
  · intro h
    have key : ∀ n, (∀ es : List DirTree, sizeOf es < n → p ∈ findTests es → TestIn es p) := by
      intro n
      induction n with
      | zero => intro es h; omega
      | succ n ih =>
        intro es hn h
        rw [findTests_flatMap, List.mem_flatMap] at h
        obtain ⟨e, he, h⟩ := h
        cases e with
        | file q =>
          rw [findTest] at h
          split at h
          · rename_i hq; simp only [List.mem_singleton] at h; subst h; exact .file he hq
          · simp at h
        | dir d inner =>
          rw [findTest] at h
          split at h
          · rename_i hq; simp only [List.mem_singleton] at h; subst h; exact .here he hq
          · rename_i hq
            have hs := List.sizeOf_lt_of_mem he
            exact .inside he (by simpa using hq) (ih inner (by simp at hs; omega) h)
    exact key _ es (Nat.lt_succ_self _) h
  · intro h
    induction h with
    | file he hp => rw [findTests_flatMap, List.mem_flatMap]; exact ⟨_, he, by rw [findTest, if_pos hp]; simp⟩
    | here he hp => rw [findTests_flatMap, List.mem_flatMap]; exact ⟨_, he, by rw [findTest, if_pos hp]; simp⟩
    | inside he hp _ ih =>
      rw [findTests_flatMap, List.mem_flatMap]; exact ⟨_, he, by rw [findTest, if_neg (by simp [hp])]; exact ih⟩
  · rintro a b rfl
    rw [findTests_flatMap, findTests_flatMap, findTests_flatMap, List.flatMap_append]

/-- How a test went: it did not build, or it was run. -/
inductive Fate
  | unbuilt (errors : List BuildError)
  | ran (p : Program)

variable (fs : FS) (hash : String → String) (macos : Bool) (cc : List COutput → List String → Bool) (fuel : Nat)

/-- The fate of a test file. -/
inductive Goes (prog : String → Option Program) (path : String) : Fate → Prop
  | unbuilt {es : List BuildError} : buildProg fs hash macos cc fuel path "test.out" = .err es → Goes prog path (.unbuilt es)
  | ran {p : Program} : buildProg fs hash macos cc fuel path "test.out" = .ok () → prog path = some p → Goes prog path (.ran p)

/-- A test that was built and succeeded. -/
def Fate.passed : Fate → Bool
  | .unbuilt _ => false
  | .ran p => p.success

/-- A test that was run and did not succeed. -/
def Fate.failedRun : Fate → Bool
  | .unbuilt _ => false
  | .ran p => !p.success

/-- The part of the report for one test. -/
def Fate.report (path : String) : Fate → String
  | .unbuilt _ => "FAIL " ++ path ++ "\n"
  | .ran p =>
    (if p.success then
        "OK " ++ path ++ (if RStr.trimEnd p.out.toList = [] then "" else ": " ++ String.ofList (RStr.trimEnd p.out.toList)) ++ "\n"
      else "FAIL " ++ path ++ "\n" ++ "stdout:\n" ++ String.ofList (RStr.trimEnd p.out.toList) ++ "\n") ++
    (if p.err = "" then "" else "stderr:\n" ++ p.err ++ "\n")

/-- The errors of a test that does not build. -/
def Fate.errors : Fate → List BuildError
  | .unbuilt es => es
  | .ran _ => []

/-- The report for the tests of one argument. -/
def argReport (tests : List (String × Fate)) : String :=
  String.join (tests.map fun t => t.2.report t.1) ++ toString tests.length ++ " tests\n"

/-- The last line. -/
def lastLine (fails total : Nat) : String :=
  if fails = 0 then "OK " ++ toString total ++ " tests\n" else "fails: " ++ toString fails ++ ", total: " ++ toString total ++ "\n"

omit [Unicode] in
theorem ofList_empty (l : List Char) : String.ofList l ≠ "" ↔ l ≠ [] := by
  rw [show ("" : String) = String.ofList [] from rfl, ne_eq, String.ofList_inj]

omit [Unicode] in
theorem errorLines_append (a b : List BuildError) : errorLines (a ++ b) = errorLines a ++ errorLines b := by
  simp [errorLines]

variable {fs hash macos cc fuel}

theorem runTestFile_ok {prog : String → Option Program} {path : String} {r r' : Ran}
    (h : runTestFile fs hash macos cc fuel prog path r = .ok r') :
    ∃ f, Goes fs hash macos cc fuel prog path f ∧
      r' = { r with out := r.out ++ f.report path, err := r.err ++ errorLines f.errors, status := r.status + (if f.failedRun then 1 else 0) } := by
  unfold runTestFile at h
  split at h
  · rename_i es hb
    injection h with h
    exact ⟨.unbuilt es, .unbuilt hb, by rw [← h]; simp [Fate.report, Fate.errors, Fate.failedRun, String.append_assoc]⟩
  · cases h
  · cases h
  · rename_i hb
    split at h
    · cases h
    · rename_i p hp
      refine ⟨.ran p, .ran hb hp, ?_⟩
      injection h with h
      rw [← h]; clear h
      simp only [ofList_empty]
      by_cases h1 : p.success <;> by_cases h2 : RStr.trimEnd p.out.toList = [] <;> by_cases h3 : p.err = "" <;>
        simp [h1, h2, h3, Fate.report, Fate.errors, Fate.failedRun, errorLines, String.append_assoc] <;>
        first
        | rw [show ("\nstderr:\n" : String) = "\n" ++ "stderr:\n" by decide +kernel, String.append_assoc]
        | rw [show ("\nstdout:\n\nstderr:\n" : String) = "\nstdout:\n\n" ++ "stderr:\n" by decide +kernel, String.append_assoc]

/-- The failures among tests. -/
def failures (tests : List (String × Fate)) : Nat := tests.countP fun t => t.2.failedRun

theorem runTestFiles_ok {prog : String → Option Program} {paths : List String} {r r' : Ran}
    (h : runTestFiles fs hash macos cc fuel prog paths r = .ok r') :
    ∃ tests : List (String × Fate), tests.map Prod.fst = paths ∧ (∀ t ∈ tests, Goes fs hash macos cc fuel prog t.1 t.2) ∧
      r' = { r with out := r.out ++ String.join (tests.map fun t => t.2.report t.1),
                    err := r.err ++ errorLines (tests.flatMap fun t => t.2.errors),
                    status := r.status + failures tests } := by
  induction paths generalizing r with
  | nil =>
    rw [runTestFiles] at h; injection h with h
    exact ⟨[], rfl, by simp, by simp [← h, failures, errorLines]⟩
  | cons p ps ih =>
    rw [runTestFiles] at h
    cases h1 : runTestFile fs hash macos cc fuel prog p r with
    | ok r1 =>
      rw [h1] at h
      obtain ⟨f, hf, rfl⟩ := runTestFile_ok h1
      obtain ⟨ts, e, hg, hr⟩ := ih h
      refine ⟨(p, f) :: ts, by simp [e], ?_, ?_⟩
      · intro t ht
        rcases List.mem_cons.mp ht with rfl | ht
        · exact hf
        · exact hg t ht
      · rw [hr]
        simp only [List.map_cons, List.flatMap_cons, errorLines_append, String.join_cons, String.append_assoc, failures,
          List.countP_cons, Ran.mk.injEq, and_true]
        by_cases hfr : f.failedRun <;> simp [hfr]; omega
    | err e => cases e
    | panic s => rw [h1] at h; cases h
    | diverge => rw [h1] at h; cases h

theorem runTestArgs_ok {prog : String → Option Program} {dirs : String → Option (List DirTree)} {args : List String}
    {total total' : Nat} {r r' : Ran} (h : runTestArgs fs hash macos cc fuel prog dirs args total r = .ok (total', r')) :
    ∃ found : List (List (String × Fate)), List.Forall₂ (fun a ts => ∃ es, dirs a = some es ∧ ts.map Prod.fst = findTests es) args found ∧
      (∀ ts ∈ found, ∀ t ∈ ts, Goes fs hash macos cc fuel prog t.1 t.2) ∧
      r' = { r with out := r.out ++ String.join (found.map argReport),
                    err := r.err ++ errorLines (found.flatten.flatMap fun t => t.2.errors),
                    status := r.status + failures found.flatten } ∧
      total' = total + found.flatten.length := by
  induction args generalizing total r with
  | nil =>
    rw [runTestArgs] at h; injection h with h; injection h with h1 h2
    exact ⟨[], .nil, by simp, by simp [← h2, failures, errorLines], by simp [h1]⟩
  | cons a as ih =>
    rw [runTestArgs] at h
    split at h
    · cases h
    · rename_i es hd
      cases h1 : runTestFiles fs hash macos cc fuel prog (findTests es) r with
      | ok r1 =>
        simp only [h1] at h
        obtain ⟨ts, e, hg, rfl⟩ := runTestFiles_ok h1
        obtain ⟨found, hf, hg', hr, ht⟩ := ih h
        refine ⟨ts :: found, .cons ⟨es, hd, e⟩ hf, ?_, ?_, ?_⟩
        · intro x hx
          rcases List.mem_cons.mp hx with rfl | hx
          · exact hg
          · exact hg' x hx
        · rw [hr]
          have hl : (findTests es).length = ts.length := by rw [← e, List.length_map]
          simp only [hl, List.map_cons, List.flatten_cons, List.flatMap_append, errorLines_append, String.join_cons,
            String.append_assoc, failures, List.countP_append, argReport, Ran.mk.injEq, and_true]
          omega
        · rw [ht, ← e]; simp; omega
      | err e => cases e
      | panic s => simp only [h1] at h; cases h
      | diverge => simp only [h1] at h; cases h

/-- C42, C73.  When `che test` ends, the tests of the directories given have been built and
run, each once and in order; the report has a part for each, saying OK exactly of those
that were built and succeeded; the errors are those of the tests that do not build; the
status is the number of tests that were run and failed, and the last line gives it. -/
theorem C73_report {prog : String → Option Program} {dirs : String → Option (List DirTree)} {argv : List String} {r : Ran}
    (h : cmdTest fs hash macos cc fuel prog dirs argv = .ok r) :
    ∃ found : List (List (String × Fate)),
      List.Forall₂ (fun a ts => ∃ es, dirs a = some es ∧ ts.map Prod.fst = findTests es) argv found ∧
      (∀ ts ∈ found, ∀ t ∈ ts, Goes fs hash macos cc fuel prog t.1 t.2) ∧
      r.out = String.join (found.map argReport) ++ lastLine (found.flatten.countP fun t => t.2.failedRun) found.flatten.length ∧
      r.err = errorLines (found.flatten.flatMap fun t => t.2.errors) ∧
      r.status = (found.flatten.countP fun t => t.2.failedRun : Nat) ∧ r.files = [] ∧ r.exec = none := by
  unfold cmdTest at h
  cases h1 : runTestArgs fs hash macos cc fuel prog dirs argv 0 { status := 0 } with
  | ok x =>
    obtain ⟨total, r1⟩ := x
    rw [h1] at h
    obtain ⟨found, hf, hg, rfl, ht⟩ := runTestArgs_ok h1
    refine ⟨found, hf, hg, ?_⟩
    injection h with h
    clear h1
    simp only [Nat.zero_add] at ht
    simp only [failures, Int.zero_add, ht] at h
    rw [← h]; clear h
    simp only [lastLine]
    by_cases h0 : (found.flatten.countP fun t => t.2.failedRun) = 0
    · simp [h0, String.append_assoc]
    · have hp : (0 : Int) < ((found.flatten.countP fun t => t.2.failedRun : Nat) : Int) := by omega
      rw [if_pos hp, if_neg h0]
      generalize (found.flatten.countP fun t => t.2.failedRun) = k
      have hk : toString (k : Int) = toString k := rfl
      simp only [hk, String.append_assoc, String.empty_append, and_self]
  | err e => cases e
  | panic s => rw [h1] at h; cases h
  | diverge => rw [h1] at h; cases h

variable (fs hash macos cc fuel) in
/-- The test builds and succeeds. -/
def Passes (prog : String → Option Program) (path : String) : Prop :=
  buildProg fs hash macos cc fuel path "test.out" = .ok () ∧ ∃ p, prog path = some p ∧ p.success = true

/-- C73, the full claim: the status is 0 and the report ends with OK only if every test
passed. -/
def C73_full : Prop :=
  ∀ (fs : FS) (hash : String → String) (macos : Bool) (cc : List COutput → List String → Bool) (fuel : Nat)
    (prog : String → Option Program) (dirs : String → Option (List DirTree)) (argv : List String) (r : Ran),
    cmdTest fs hash macos cc fuel prog dirs argv = .ok r → r.status = 0 →
    ∀ a ∈ argv, ∀ es, dirs a = some es → ∀ p, TestIn es p → Passes fs hash macos cc fuel prog p

/-- C73, what holds: when all tests build, the status is 0 exactly if all tests passed, and
only then the report ends with OK. -/
theorem C73_partial {prog : String → Option Program} {dirs : String → Option (List DirTree)} {argv : List String} {r : Ran}
    (h : cmdTest fs hash macos cc fuel prog dirs argv = .ok r)
    (hb : ∀ a ∈ argv, ∀ es, dirs a = some es → ∀ p, TestIn es p → buildProg fs hash macos cc fuel p "test.out" = .ok ()) :
    (r.status = 0 ↔ ∀ a ∈ argv, ∀ es, dirs a = some es → ∀ p, TestIn es p → Passes fs hash macos cc fuel prog p) ∧
    ∃ s n, r.out = s ++ (if r.status = 0 then "OK " ++ toString n ++ " tests\n"
      else "fails: " ++ toString r.status ++ ", total: " ++ toString n ++ "\n") ∧ (n : Nat) =
        (argv.flatMap fun a => ((dirs a).map findTests).getD []).length := by
  obtain ⟨found, hf, hg, ho, -, hs, -, -⟩ := C73_report h
  have key : ∀ (argv : List String) (found : List (List (String × Fate))),
      List.Forall₂ (fun a ts => ∃ es, dirs a = some es ∧ ts.map Prod.fst = findTests es) argv found →
      (∀ x, (∃ a ∈ argv, ∃ es, dirs a = some es ∧ TestIn es x) ↔ ∃ t ∈ found.flatten, t.1 = x) ∧
      found.flatten.length = (argv.flatMap fun a => ((dirs a).map findTests).getD []).length := by
    intro argv found hf
    induction hf with
    | nil => simp
    | @cons a ts as fs' hab _ ih =>
      obtain ⟨es, hd, he⟩ := hab
      constructor
      · intro x
        have := ih.1 x
        have hm : TestIn es x ↔ ∃ t ∈ ts, t.1 = x := by
          rw [← (C73_found es).1 x, ← he, List.mem_map]
        constructor
        · rintro ⟨b, hb, es', hd', hx⟩
          rcases List.mem_cons.mp hb with rfl | hb
          · rw [hd] at hd'; injection hd' with hd'; subst hd'
            obtain ⟨t, ht, e⟩ := hm.mp hx
            exact ⟨t, by simp [ht], e⟩
          · obtain ⟨t, ht, e⟩ := this.mp ⟨b, hb, es', hd', hx⟩
            exact ⟨t, by rw [List.flatten_cons]; exact List.mem_append_right _ ht, e⟩
        · rintro ⟨t, ht, e⟩
          rw [List.flatten_cons, List.mem_append] at ht
          rcases ht with ht | ht
          · exact ⟨a, by simp, es, hd, hm.mpr ⟨t, ht, e⟩⟩
          · obtain ⟨b, hb, es', hd', hx⟩ := this.mpr ⟨t, ht, e⟩
            exact ⟨b, by simp [hb], es', hd', hx⟩
      · rw [List.flatten_cons, List.length_append, ih.2, List.flatMap_cons, List.length_append, hd]
        simp [← he]
  obtain ⟨k1, k2⟩ := key argv found hf
  have hall : (∀ t ∈ found.flatten, t.2.failedRun = false) ↔
      ∀ a ∈ argv, ∀ es, dirs a = some es → ∀ p, TestIn es p → Passes fs hash macos cc fuel prog p := by
    constructor
    · intro hh a ha es hd p hp
      obtain ⟨t, ht, e⟩ := (k1 p).mp ⟨a, ha, es, hd, hp⟩
      obtain ⟨ts, hts, ht'⟩ := List.mem_flatten.mp ht
      have hgo := hg ts hts t ht'
      have hb1 := hb a ha es hd p hp
      have hfr := hh t ht
      rw [e] at hgo
      generalize t.2 = f at hgo hfr
      cases hgo with
      | unbuilt h1 => rw [hb1] at h1; cases h1
      | ran h1 h2 => exact ⟨h1, _, h2, by simpa [Fate.failedRun] using hfr⟩
    · intro hh t ht
      obtain ⟨a, ha, es, hd, hp⟩ := (k1 t.1).mpr ⟨t, ht, rfl⟩
      obtain ⟨h1, p, h2, h3⟩ := hh a ha es hd t.1 hp
      obtain ⟨ts, hts, ht'⟩ := List.mem_flatten.mp ht
      have hgo := hg ts hts t ht'
      generalize t.2 = f at hgo
      cases hgo with
      | unbuilt h4 => rfl
      | ran h4 h5 => rw [h2] at h5; injection h5 with h5; subst h5; simp [Fate.failedRun, h3]
  have hz : r.status = 0 ↔ ∀ t ∈ found.flatten, t.2.failedRun = false := by
    rw [hs, Int.natCast_eq_zero, List.countP_eq_zero]; simp
  refine ⟨by rw [hz, hall], String.join (found.map argReport), found.flatten.length, ?_, k2⟩
  rw [ho, hs]
  simp only [lastLine, Int.natCast_eq_zero]
  rfl

omit [Unicode] in
/-- C73 is false of the code: a test that does not build (here there is no such file) is
reported as FAIL, and the status is 0. -/
theorem C73_counterexample : ¬ @C73_full asciiOnly := by
  letI := asciiOnly
  intro h
  have hr : (match cmdTest (memFS []) id false (fun _ _ => true) 9 (fun _ => none) (fun _ => some [.file "/a.test.c"]) ["/"] with
      | .ok r => decide (r.status = 0) && (r.out == "FAIL /a.test.c\n1 tests\nOK 1 tests\n")
      | _ => false) = true := by decide +kernel
  cases e : cmdTest (memFS []) id false (fun _ _ => true) 9 (fun _ => none) (fun _ => some [.file "/a.test.c"]) ["/"] with
  | ok r =>
    rw [e] at hr
    simp only [Bool.and_eq_true, decide_eq_true_eq] at hr
    obtain ⟨-, p, hp, -⟩ := h _ _ _ _ _ _ _ _ r e hr.1 "/" (by simp) _ rfl "/a.test.c" (.file (by simp) (by decide +kernel))
    cases hp
  | err x => cases x
  | panic s => rw [e] at hr; cases hr
  | diverge => rw [e] at hr; cases hr

omit [Unicode] in
/-- `t/a.test.c` and `t/d/b.test.c` are found, `t/c.c` is not. -/
example : findTests [.file "t/a.test.c", .dir "t/d" [.file "t/d/b.test.c"], .file "t/c.c"] = ["t/a.test.c", "t/d/b.test.c"] := by
  decide +kernel

/-- `lastLine` of two tests, one of them failed. -/
example : argReport [("a.test.c", .ran { success := true, out := "hi\n", err := "" }), ("b.test.c", .ran { success := false, out := "", err := "no\n" })] =
    "OK a.test.c: hi\nFAIL b.test.c\nstdout:\n\nstderr:\nno\n\n2 tests\n" := by decide +kernel

end Che.Props
