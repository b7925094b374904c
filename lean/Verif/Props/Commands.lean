import Verif.Model.Commands
import Verif.Proofs.Project
import Verif.Spec.Demo
/-!
# C66, C67: the name of the executable, the status of the commands
-/
namespace Che.Props
open Che

/-! ## C66 -/

/-- A path ends in the component `n`: nothing or a slash stands before it. -/
def EndsIn (p n : List Char) : Prop :=
  n ≠ [] ∧ '/' ∉ n ∧ ∃ pre, p = pre ++ n ∧ (pre = [] ∨ pre.getLast? = some '/')

theorem comps_last {p n : List Char} (h : EndsIn p n) (hd : n ≠ ['.']) :
    (Path.comps p).getLast? = some n := by
  obtain ⟨hne, hs, pre, rfl, hp⟩ := h
  have h1 : n.splitOn '/' = [n] := List.splitOn_eq_singleton hs
  have key : ∃ l, (pre ++ n).splitOn '/' = l ++ [n] := by
    rcases hp with rfl | hp
    · exact ⟨[], by simpa using h1⟩
    · obtain ⟨q, rfl⟩ := List.getLast?_eq_some_iff.1 hp
      refine ⟨q.splitOn '/', ?_⟩
      rw [List.append_assoc, List.singleton_append, List.splitOn_append_cons_self, h1]
  obtain ⟨l, hl⟩ := key
  unfold Path.comps
  rw [hl, List.filter_append]
  simp [hne, hd]

/-- The name of a file, cut at its last dot. -/
theorem stem_dot {name ext : List Char} (hn : name ≠ []) (he : '.' ∉ ext) :
    Path.stem (name ++ '.' :: ext) = name := by
  unfold Path.stem
  have : (name ++ '.' :: ext).reverse.dropWhile (· ≠ '.') = '.' :: name.reverse := by
    rw [List.reverse_append, List.reverse_cons, List.append_assoc, List.dropWhile_append_of_pos]
    · simp
    · intro x hx
      simp only [List.mem_reverse] at hx
      simp only [decide_eq_true_eq]
      rintro rfl
      exact he hx
  rw [this]
  simp [hn]

theorem stem_plain {name : List Char} (h : '.' ∉ name) : Path.stem name = name := by
  unfold Path.stem
  have : name.reverse.dropWhile (· ≠ '.') = [] := by
    have e := List.dropWhile_append_of_pos (p := fun x : Char => decide (x ≠ '.'))
      (l₁ := name.reverse) (l₂ := []) ?_
    · simpa using e
    intro x hx
    simp only [List.mem_reverse] at hx
    simp only [decide_eq_true_eq]
    rintro rfl
    exact h hx
  rw [this]

/-- **C66, the name.**  For a source `…/NAME.EXT` the executable is called `NAME`. -/
theorem C66_name {p name ext : List Char} (h : EndsIn p (name ++ '.' :: ext)) (hn : name ≠ [])
    (h1 : name ≠ ['.']) (h2 : name ≠ ['.', '.']) (he : '.' ∉ ext)
    (h0 : name ++ '.' :: ext ≠ ['.', '.']) :
    outputName (String.ofList p) = some (String.ofList name) := by
  have hd : name ++ '.' :: ext ≠ ['.'] := by
    intro h
    have h' := congrArg List.length h
    have hl : name.length ≠ 0 := by simpa using hn
    simp only [List.length_append, List.length_cons, List.length_nil] at h'
    omega
  unfold outputName Path.bareName Path.lastName
  rw [String.toList_ofList, comps_last h hd]
  simp [h0, stem_dot hn he, h1, h2]

/-- **C66, no extension.**  For a source `…/NAME` without a dot the executable is
called `NAME`. -/
theorem C66_bare {p name : List Char} (h : EndsIn p name) (hd : '.' ∉ name) :
    outputName (String.ofList p) = some (String.ofList name) := by
  have h1 : name ≠ ['.'] := by rintro rfl; simp at hd
  have h2 : name ≠ ['.', '.'] := by rintro rfl; simp at hd
  unfold outputName Path.bareName Path.lastName
  rw [String.toList_ofList, comps_last h h1]
  simp [h2, stem_plain hd, h1]

theorem stem_no_slash {n : List Char} (h : '/' ∉ n) : '/' ∉ Path.stem n := by
  unfold Path.stem
  split
  · exact h
  · rename_i c r hr
    split
    · exact h
    · intro hm
      have : '/' ∈ n.reverse.dropWhile (· ≠ '.') := by rw [hr]; simpa using Or.inr hm
      exact h (by simpa using List.dropWhile_subset _ this)

theorem splitOn_no_sep (p : List Char) : ∀ c ∈ p.splitOn '/', '/' ∉ c := by
  have gen : ∀ (k : Nat) (p : List Char), p.length ≤ k → ∀ c ∈ p.splitOn '/', '/' ∉ c := by
    intro k
    induction k with
    | zero =>
      intro p hp c hc
      have : p = [] := List.length_eq_zero_iff.1 (by omega)
      subst this
      rw [List.splitOn_nil] at hc
      simp at hc
      simp [hc]
    | succ k ih =>
      intro p hp c hc
      by_cases hs : '/' ∈ p
      · obtain ⟨as, bs, rfl, hn⟩ := List.eq_append_cons_of_mem hs
        rw [List.splitOn_append_cons_self, List.splitOn_eq_singleton hn] at hc
        simp only [List.singleton_append, List.mem_cons] at hc
        rcases hc with rfl | hc
        · exact hn
        · exact ih bs (by simp at hp; omega) c hc
      · rw [List.splitOn_eq_singleton hs] at hc
        simp at hc
        exact hc ▸ hs
  exact gen p.length p (Nat.le_refl _)

/-- The executable is put in the current directory: its name has no slash. -/
theorem C66_here {path o : String} (h : outputName path = some o) : '/' ∉ o.toList := by
  unfold outputName at h
  obtain ⟨n, hn, rfl⟩ := Option.map_eq_some_iff.1 h
  unfold Path.bareName Path.lastName at hn
  rw [String.toList_ofList]
  split at hn
  · cases hn
  · rename_i m hm
    split at hn
    · cases hn
    · cases hn
      apply stem_no_slash
      split at hm
      · rename_i k hk
        split at hm
        · cases hm
        · cases hm
          have := List.mem_of_getLast? hk
          exact splitOn_no_sep _ _ (List.mem_filter.1 this).1
      · cases hm

/-- Full statement of C66, which the code does not satisfy: `che build SRC` does not
write over `SRC`. -/
def C66_full : Prop := ∀ path o : String, outputName path = some o → o ≠ path

/-- **C66 (what holds).**  The executable does not replace the source if the source
is given with a directory or its name has an extension.  Missing: a name without
extension in the current directory. -/
theorem C66_partial {path o : String} (h : outputName path = some o)
    (hp : '/' ∈ path.toList ∨ ∃ name ext, path.toList = name ++ '.' :: ext ∧ name ≠ [] ∧ '.' ∉ ext) :
    o ≠ path := by
  rintro rfl
  have hs := C66_here h
  rcases hp with hp | ⟨name, ext, he, hn, hx⟩
  · exact hs hp
  · unfold outputName at h
    obtain ⟨n, hb, ho⟩ := Option.map_eq_some_iff.1 h
    have ho' : o.toList = n := by rw [← ho, String.toList_ofList]
    have hne : o.toList ≠ ['.'] := by
      rw [he]
      intro h
      have h' := congrArg List.length h
      have hl : name.length ≠ 0 := by simpa using hn
      simp only [List.length_append, List.length_cons, List.length_nil] at h'
      omega
    have hc := comps_last (p := o.toList) (n := o.toList)
      ⟨by rw [he]; simp, hs, [], rfl, Or.inl rfl⟩ hne
    unfold Path.bareName Path.lastName at hb
    rw [hc] at hb
    simp only at hb
    split at hb
    · cases hb
    · split at hb
      · cases hb
      · cases hb
        rename_i m hm _
        split at hm
        · cases hm
        · simp only [Option.some.injEq] at hm
          subst hm
          rw [he, stem_dot hn hx] at ho'
          have := congrArg List.length ho'
          simp at this

/-- C66 is false of the code: a source in the current directory without an extension
is overwritten by the executable, and `-o` is followed by the path of the source. -/
theorem C66_counterexample [Unicode] (fs : FS) (hash : String → String) (macos : Bool)
    (cc : List COutput → List String → Bool) (fuel : Nat) (name : String) (hne : name ≠ "")
    (h : '/' ∉ name.toList) (hd : '.' ∉ name.toList) :
    cmdBuild fs hash macos cc fuel [name] = cmdBuild fs hash macos cc fuel [name, name] := by
  have := C66_bare (p := name.toList) (name := name.toList)
    ⟨by simpa using hne, h, [], rfl, Or.inl rfl⟩ hd
  rw [String.ofList_toList] at this
  simp only [cmdBuild, this]

theorem C66_not_full : ¬ C66_full := fun h => h "prog" "prog" (by decide +kernel) rfl

example : outputName "src/a.b.c" = some "a.b" := by decide +kernel
example : outputName "prog" = some "prog" := by decide +kernel
/-- The `unwrap` panics. -/
example : outputName "/" = none ∧ outputName ".." = none ∧ outputName "..c" = none := by decide +kernel

/-! ## C67 -/

/-- What the command was asked to do has been done. -/
def Carried [Unicode] (fs : FS) (hash : String → String) (macos : Bool)
    (cc : List COutput → List String → Bool) (fuel : Nat) (source output : String) : Prop :=
  ∃ proj files, parseProject fs fuel source = .ok proj ∧
    writeC99 hash (fs.home ++ "/tmp") proj = .ok files ∧
    cc files (ccArgs macos (files.map (·.path)) output (linkLibs proj.cmodules)) = true

theorem buildProg_carried [Unicode] {fs : FS} {hash : String → String} {macos : Bool}
    {cc : List COutput → List String → Bool} {fuel : Nat} {source output : String} :
    buildProg fs hash macos cc fuel source output = .ok () ↔
      Carried fs hash macos cc fuel source output := by
  simp only [buildProg, buildPlan, Res.bind_eq_ok, Carried, pure, Res.ok.injEq]
  constructor
  · rintro ⟨plan, ⟨proj, hp, files, hf, rfl⟩, h⟩
    refine ⟨proj, files, hp, hf, ?_⟩
    by_contra hc
    simp [hc] at h
  · rintro ⟨proj, files, hp, hf, hc⟩
    exact ⟨_, ⟨proj, hp, files, hf, rfl⟩, by simp [hc]⟩

variable [Unicode] (fs : FS) (hash : String → String) (macos : Bool)
  (cc : List COutput → List String → Bool) (fuel : Nat)

theorem reportBuild_status {fs hash macos cc fuel} {source output : String} {r : Ran}
    (h : reportBuild fs hash macos cc fuel source output = .ok r) :
    r.status = 0 ↔ Carried fs hash macos cc fuel source output := by
  rw [← buildProg_carried]
  unfold reportBuild at h
  split at h <;> cases h
  · rename_i h; simp [h]
  · rename_i h; simp [h]

/-- **C67, build.**  `che build` ends with status 0 exactly if the executable has been
built, to the given output or to the name of C66. -/
theorem C67_build {fs hash macos cc fuel} {argv : List String} {r : Ran}
    (h : cmdBuild fs hash macos cc fuel argv = .ok r) :
    r.status = 0 ↔ ∃ src out, (argv = [src, out] ∨ (argv = [src] ∧ outputName src = some out)) ∧
      Carried fs hash macos cc fuel src out := by
  match argv with
  | [] => simp [cmdBuild] at h; simp [← h]
  | [p] =>
    simp only [cmdBuild] at h
    split at h
    · cases h
    · rename_i o ho
      rw [reportBuild_status h]
      constructor
      · exact fun hc => ⟨p, o, Or.inr ⟨rfl, ho⟩, hc⟩
      · rintro ⟨src, out, he | ⟨he, ho'⟩, hc⟩
        · simp at he
        · simp at he; subst he; rw [ho] at ho'; cases ho'; exact hc
  | [p, o] =>
    simp only [cmdBuild] at h
    rw [reportBuild_status h]
    constructor
    · exact fun hc => ⟨p, o, Or.inl rfl, hc⟩
    · rintro ⟨src, out, he | ⟨he, ho'⟩, hc⟩
      · simp at he; obtain ⟨rfl, rfl⟩ := he; exact hc
      · simp at he
  | _ :: _ :: _ :: _ => simp [cmdBuild] at h; simp [← h]

/-- **C67, install.**  The same for `che install`, with the output in the home. -/
theorem C67_install {fs hash macos cc fuel} {argv : List String} {r : Ran}
    (h : cmdInstall fs hash macos cc fuel argv = .ok r) :
    r.status = 0 ↔ ∃ src name, argv = [src] ∧ outputName src = some name ∧
      Carried fs hash macos cc fuel src (fs.home ++ "/bin/" ++ name) := by
  match argv with
  | [] => simp [cmdInstall] at h; simp [← h]
  | [p] =>
    simp only [cmdInstall] at h
    split at h
    · cases h
    · rename_i o ho
      rw [reportBuild_status h]
      simp [ho]
  | _ :: _ :: _ => simp [cmdInstall] at h; simp [← h]

/-- **C67, run.**  `che run` starts a program exactly if it has been built, and
passes the remaining arguments; otherwise it ends with status 1. -/
theorem C67_run {fs hash macos cc fuel} {execOk : Bool} {argv : List String} {r : Ran}
    (h : cmdRun fs hash macos cc fuel execOk argv = .ok r) :
    (r.exec.isSome ∨ r.status = 1) ∧
    ∀ args, r.exec = some ("/tmp/chebuild", args) ↔ execOk = true ∧ ∃ src, argv = src :: args ∧
      Carried fs hash macos cc fuel src "/tmp/chebuild" := by
  match argv with
  | [] => simp [cmdRun] at h; simp [← h]
  | src :: rest =>
    simp only [cmdRun] at h
    split at h
    · rename_i hb
      have hc := buildProg_carried.1 hb
      cases execOk with
      | true =>
        simp only [if_true, Res.ok.injEq] at h
        subst h
        refine ⟨by simp, fun args => ?_⟩
        simp only [Option.some.injEq, Prod.mk.injEq, true_and, List.cons.injEq]
        exact ⟨fun h => ⟨src, ⟨rfl, h⟩, hc⟩, fun ⟨_, h, _⟩ => h.2⟩
      | false => simp at h; subst h; simp
    · rename_i hb
      cases h
      refine ⟨by simp, fun args => ?_⟩
      simp only [reduceCtorEq, List.cons.injEq, false_iff, not_and, not_exists]
      rintro _ s ⟨rfl, rfl⟩ hc
      rw [buildProg_carried.2 hc] at hb
      cases hb
    all_goals cases h

/-- **C67, errors.**  If the sources have errors then `build`, `install`, `run` and `genc`
end with status 1, print nothing else, and show every error on a line of its own with
its file and place; `build` and `install` add how many there are. -/
theorem C67_errors {fs hash macos cc fuel} {src out : String} {args : List String} {execOk : Bool} {es : List BuildError}
    (h : parseProject fs fuel src = .err es) :
    ∃ err, err = String.join (es.map fun e => e.path ++ ":" ++ e.pos ++ ": " ++ e.message ++ "\n") ∧
      cmdBuild fs hash macos cc fuel [src, out] =
        .ok { status := 1, err := err ++ toString es.length ++ " errors\n" } ∧
      (∀ name, outputName src = some name →
        cmdBuild fs hash macos cc fuel [src] = .ok { status := 1, err := err ++ toString es.length ++ " errors\n" } ∧
        cmdInstall fs hash macos cc fuel [src] = .ok { status := 1, err := err ++ toString es.length ++ " errors\n" }) ∧
      cmdRun fs hash macos cc fuel execOk (src :: args) = .ok { status := 1, err := err } ∧
      cmdGenc fs hash fuel true (src :: out :: args) = .ok { status := 1, err := err } := by
  have hb : ∀ o, buildProg fs hash macos cc fuel src o = .err es := by
    intro o
    simp only [buildProg, buildPlan, h]
    rfl
  refine ⟨_, rfl, ?_, fun name hn => ⟨?_, ?_⟩, ?_, ?_⟩
  · simp only [cmdBuild, reportBuild, hb]; rfl
  · simp only [cmdBuild, hn, reportBuild, hb]; rfl
  · simp only [cmdInstall, hn, reportBuild, hb]; rfl
  · simp only [cmdRun, hb]; rfl
  · simp only [cmdGenc, h]; rfl

/-- **C67, errors of the C compiler.**  If `c99` fails then `build` says so and ends with
status 1. -/
theorem C67_cc_fails {fs hash macos cc fuel} {src out : String} {plan : BuildPlan}
    (h : buildPlan fs hash macos fuel src out = .ok plan) (hc : cc plan.files plan.args = false) :
    cmdBuild fs hash macos cc fuel [src, out] = .ok { status := 1, err := ":: build failed\n1 errors\n" } := by
  have hb : buildProg fs hash macos cc fuel src out = .err [{ message := "build failed", path := "", pos := "" }] := by
    simp only [buildProg, h]
    show (if cc plan.files plan.args then _ else _) = _
    rw [hc]; rfl
  have he : errorLines [{ message := "build failed", path := "", pos := "" }] ++
      toString [({ message := "build failed", path := "", pos := "" } : BuildError)].length ++ " errors\n" =
      ":: build failed\n1 errors\n" := by decide +kernel
  simp only [cmdBuild, reportBuild, hb, he]

/-- Full statement of C67, which the code does not satisfy: `che` ends with status
0 only if it was given a command it knows. -/
def C67_full : Prop := ∀ (run : String → List String → Res Empty Ran) (args : List String) (r : Ran),
  cheMain run args = .ok r → r.status = 0 → ∃ cmd rest, args = cmd :: rest ∧ cmd ∈ subcommands ∧
    run cmd rest = .ok r

omit [Unicode] in
/-- **C67 (what holds).**  A known command decides alone; without a command the
status is 1.  Missing: commands `che` does not know. -/
theorem C67_partial {run : String → List String → Res Empty Ran} {args : List String}
    (h : ∀ cmd ∈ args.head?, cmd ∈ subcommands) :
    (args = [] → ∃ r, cheMain run args = .ok r ∧ r.status = 1) ∧
    ∀ cmd rest, args = cmd :: rest → cheMain run args = run cmd rest := by
  constructor
  · rintro rfl; exact ⟨_, rfl, rfl⟩
  · rintro cmd rest rfl
    simp [cheMain, h cmd (by simp)]

omit [Unicode] in
/-- C67 is false of the code: a mistyped command prints the usage and succeeds. -/
theorem C67_counterexample : ¬ C67_full := by
  intro h
  obtain ⟨cmd, rest, he, hm, -⟩ := h (fun _ _ => .diverge) ["biuld"] _ rfl rfl
  simp only [List.cons.injEq] at he
  rw [← he.1] at hm
  exact absurd hm (by decide)

/-- **C67, genc.**  With a directory that can be used, `che genc` ends with status 0
exactly if the project loads, parses and translates; then it has written the text of
every module. -/
theorem C67_genc {fs hash fuel} {src dir : String} {rest : List String} {r : Ran}
    (h : cmdGenc fs hash fuel true (src :: dir :: rest) = .ok r) :
    (r.status = 0 ↔ ∃ proj, parseProject fs fuel src = .ok proj) ∧
    (∀ proj, parseProject fs fuel src = .ok proj → writeC99 hash dir proj = .ok r.files) := by
  simp only [cmdGenc, Bool.not_true, Bool.false_eq_true, if_false] at h
  split at h
  · rename_i hp; cases h; simp [hp]
  · cases h
  · cases h
  · rename_i hp
    split at h
    · rename_i hw; cases h; simp [hp, hw]
    all_goals cases h

/-- `che genc` needs two arguments: with fewer it crashes. -/
theorem C67_genc_crash (dirOk : Bool) (argv : List String) (h : argv.length < 2) :
    ∃ s, cmdGenc fs hash fuel dirOk argv = .panic s := by
  match argv with
  | [] => exact ⟨_, rfl⟩
  | [_] => exact ⟨_, rfl⟩
  | _ :: _ :: _ => simp at h; omega

end Che.Props
