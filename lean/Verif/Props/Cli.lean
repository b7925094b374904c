import Verif.Model.Cli
/-!
# C42, C44: the test runner and concurrent runs
-/
namespace Che.Props
open Che

/-! ## C42 -/

/-- A test failed: it could not be built, or it ran and did not succeed. -/
def Failed (t : TestOutcome) : Prop := t ≠ .ran true

/-- The number of tests that ran and failed. -/
def ranFailures (args : List (List TestOutcome)) : Nat := args.flatten.count (.ran false)

theorem runTests_fails (s : Stats) (ts : List TestOutcome) :
    (runTests s ts).fails = s.fails + (ts.count (.ran false) : Nat) ∧
    (runTests s ts).total = s.total := by
  induction ts generalizing s with
  | nil => simp [runTests]
  | cons t ts ih =>
    match t with
    | .buildFailed => simp [runTests, ih]
    | .ran true => simp [runTests, ih]
    | .ran false => simp [runTests, ih]; omega

theorem sumArgs_fails (s : Stats) (args : List (List TestOutcome)) :
    (sumArgs s args).fails = s.fails + (ranFailures args : Nat) ∧
    (sumArgs s args).total = s.total + (args.flatten.length : Nat) := by
  induction args generalizing s with
  | nil => simp [sumArgs, ranFailures]
  | cons a as ih =>
    have h1 := runTests_fails { total := a.length, fails := 0 } a
    simp only [sumArgs, ih, ranFailures, List.flatten_cons, List.count_append, List.length_append]
    simp only [runArg, h1, Int.natCast_add]
    omega

/-- The status is the number of tests that ran and failed. -/
theorem C42_status (args : List (List TestOutcome)) :
    testRun args = (ranFailures args : Nat) := by
  simp [testRun, sumArgs_fails]

/-- C42, the part that holds: if every test builds and fewer than 256 fail, the
status seen by the caller is non-zero exactly when some test failed.  Missing:
build failures and multiples of 256, see the two counterexamples. -/
theorem C42_partial (args : List (List TestOutcome))
    (hb : ∀ t ∈ args.flatten, t ≠ .buildFailed) (hn : ranFailures args < 256) :
    osStatus (testRun args) ≠ 0 ↔ ∃ t ∈ args.flatten, Failed t := by
  have h : osStatus (testRun args) = ranFailures args := by
    rw [C42_status]; unfold osStatus; omega
  rw [h, ranFailures, ← Nat.pos_iff_ne_zero, List.count_pos_iff]
  constructor
  · exact fun h => ⟨_, h, by simp [Failed]⟩
  · rintro ⟨t, ht, hf⟩
    match t, hf, hb t ht with
    | .ran false, _, _ => exact ht
    | .ran true, hf, _ => exact absurd rfl hf

/-- Without the two hypotheses: the caller sees zero exactly when the number of
tests that ran and failed is a multiple of 256. -/
theorem C42_exact (args : List (List TestOutcome)) :
    osStatus (testRun args) = 0 ↔ 256 ∣ ranFailures args := by
  rw [C42_status]; unfold osStatus; omega

/-- C42 is false of the code: a test that does not build is a failure with
status 0. -/
theorem C42_counterexample_build :
    (∃ t ∈ [[TestOutcome.buildFailed]].flatten, Failed t) ∧
      osStatus (testRun [[.buildFailed]]) = 0 := by
  refine ⟨⟨.buildFailed, by simp, by simp [Failed]⟩, by decide⟩

theorem ranFailures_replicate (n : Nat) :
    ranFailures [List.replicate n (TestOutcome.ran false)] = n := by
  simp [ranFailures]

/-- ... and so are 256 failing tests. -/
theorem C42_counterexample_wrap :
    ∃ args : List (List TestOutcome), (∀ t ∈ args.flatten, t = .ran false) ∧
      args.flatten.length = 256 ∧ osStatus (testRun args) = 0 := by
  refine ⟨[List.replicate 256 (.ran false)], ?_, ?_, ?_⟩
  · intro t ht
    rw [List.flatten_singleton] at ht
    exact List.eq_of_mem_replicate ht
  · rw [List.flatten_singleton]; exact List.length_replicate
  · rw [C42_exact, ranFailures_replicate]; exact Nat.dvd_refl _

/-- Three tests, one failing, meet the hypotheses of `C42_partial`. -/
example : osStatus (testRun [[.ran true, .ran false], [.ran true]]) = 1 := by decide

/-- `main` reports success for a command it does not know. -/
theorem unknown_command_succeeds (run : String → List String → Int) (cmd : String)
    (rest : List String) (h : cmd ∉ subcommands) : mainStatus run (cmd :: rest) = 0 := by
  simp [mainStatus, h]

/-! ## C44 -/

/-- The events of several `che run` processes: which process, which event. -/
abbrev RunTrace := List (Nat × RunEvent)

/-- The events of process `i`. -/
def eventsOf (i : Nat) (t : RunTrace) : List RunEvent :=
  (t.filter (fun e => e.1 == i)).map (·.2)

/-- What is executed, in a world where `/tmp/chebuild` holds `cur`: pairs of the
process and the program found at that path. -/
def executed : Option String → RunTrace → List (Nat × Option String)
  | _, [] => []
  | _, (_, .compile p) :: t => executed (some p) t
  | cur, (i, .exec) :: t => (i, cur) :: executed cur t

/-- The full statement of C44: in every interleaving of the events of runs
(process `i` runs program `progs i`), a process executes only its own program. -/
def NoInterference (progs : Nat → String) (t : RunTrace) : Prop :=
  ∀ i p, (i, p) ∈ executed none t → p = some (progs i)

/-- C44 is false of the code: two processes that overlap. -/
theorem C44_counterexample :
    let progs := fun i => if i = 0 then "a" else "b"
    let t : RunTrace := [(0, .compile "a"), (1, .compile "b"), (0, .exec), (1, .exec)]
    (∀ i, i = 0 ∨ i = 1 → eventsOf i t = runEvents (progs i)) ∧ ¬ NoInterference progs t := by
  refine ⟨by rintro i (rfl | rfl) <;> decide, fun h => ?_⟩
  have := h 0 (some "b") (by simp [executed])
  simp at this

/-- In general a process executes the program compiled last by anyone. -/
theorem executed_last (pre : RunTrace) (i j : Nat) (p : String) (mid : RunTrace)
    (hmid : ∀ e ∈ mid, e.2 = .exec) (post : RunTrace) (cur : Option String) :
    executed cur (pre ++ (j, .compile p) :: mid ++ (i, .exec) :: post) =
      executed cur pre ++ mid.map (fun e => (e.1, some p)) ++ (i, some p) :: executed (some p) post := by
  have hm : ∀ (mid : RunTrace), (∀ e ∈ mid, e.2 = .exec) → ∀ rest,
      executed (some p) (mid ++ rest) = mid.map (fun e => (e.1, some p)) ++ executed (some p) rest := by
    intro mid
    induction mid with
    | nil => simp
    | cons e mid ih =>
      intro h rest
      obtain ⟨k, ev⟩ := e
      have : ev = .exec := h (k, ev) (by simp)
      subst this
      simp [executed, ih (fun e he => h e (by simp [he]))]
  induction pre generalizing cur with
  | nil => simp [executed, hm mid hmid]
  | cons e pre ih =>
    obtain ⟨k, ev⟩ := e
    cases ev with
    | compile q => simpa [executed] using ih (some q)
    | exec => simpa [executed] using ih cur

/-- C44, the part that holds: runs that do not overlap do not interfere. -/
theorem C44_partial (progs : Nat → String) (order : List Nat) :
    NoInterference progs (order.flatMap (fun i => (runEvents (progs i)).map (i, ·))) := by
  unfold NoInterference
  intro i p
  generalize (none : Option String) = cur
  induction order generalizing cur with
  | nil => simp [executed]
  | cons k order ih =>
    intro h
    simp only [List.flatMap_cons, runEvents, List.map_cons, List.map_nil, List.cons_append,
      List.nil_append, executed, List.mem_cons, Prod.mk.injEq] at h
    rcases h with ⟨rfl, rfl⟩ | h
    · rfl
    · exact ih _ h

/-- Three runs one after the other. -/
example : executed none ([0, 1, 0].flatMap (fun i =>
    (runEvents (if i = 0 then "a" else "b")).map (i, ·))) =
    [(0, some "a"), (1, some "b"), (0, some "a")] := by decide

end Che.Props
