import Verif.Model.Commands
/-!
# `src/main_test.rs`: `che test` with the text it prints

The directories are trees whose entries come in the order of `read_dir`; what a built
test does when it is run is a parameter.
-/
namespace Che

/-- What a test does when it is run: `output.status.success()`, `stdout`, `stderr`. -/
structure Program where
  success : Bool
  out : String
  err : String

section
variable [Unicode] (fs : FS) (hash : String → String) (macos : Bool)
  (cc : List COutput → List String → Bool) (fuel : Nat)

/-- The body of the loop of `src/main_test.rs:39-67`: what is printed, and the failures
counted.  `none` as the behaviour of the program is output that is not UTF-8. -/
def runTestFile (prog : String → Option Program) (path : String) (r : Ran) : Res Empty Ran :=
  match buildProg fs hash macos cc fuel path "test.out" with
  | .err es => .ok { r with err := r.err ++ errorLines es, out := r.out ++ "FAIL " ++ path ++ "\n" }
  | .panic s => .panic s
  | .diverge => .diverge
  | .ok () =>
    match prog path with
    | none => .panic "main_test.rs:51"
    | some p =>
      let outstr := String.ofList (RStr.trimEnd p.out.toList)
      let r :=
        if p.success then
          if outstr ≠ "" then { r with out := r.out ++ "OK " ++ path ++ ": " ++ outstr ++ "\n" }
          else { r with out := r.out ++ "OK " ++ path ++ "\n" }
        else { r with status := r.status + 1, out := r.out ++ "FAIL " ++ path ++ "\n" ++ "stdout:\n" ++ outstr ++ "\n" }
      .ok (if p.err ≠ "" then { r with out := r.out ++ "stderr:\n" ++ p.err ++ "\n" } else r)

/-- The loop of `src/main_test.rs:39-67`. -/
def runTestFiles (prog : String → Option Program) : List String → Ran → Res Empty Ran
  | [], r => .ok r
  | p :: ps, r => do
    let r ← runTestFile fs hash macos cc fuel prog p r
    runTestFiles prog ps r

/-- `src/main_test.rs:33-70` `run_arg` and the loop of `src/main_test.rs:14-24`; the status
is the failures, with the tests counted so far.  `none` as a directory is the `unwrap` of
`src/main_test.rs:74`. -/
def runTestArgs (prog : String → Option Program) (dirs : String → Option (List DirTree)) :
    List String → Nat → Ran → Res Empty (Nat × Ran)
  | [], total, r => .ok (total, r)
  | a :: as, total, r =>
    match dirs a with
    | none => .panic "main_test.rs:74"
    | some es => do
      let tests := findTests es
      let r ← runTestFiles fs hash macos cc fuel prog tests r
      runTestArgs prog dirs as (total + tests.length) { r with out := r.out ++ toString tests.length ++ " tests\n" }

/-- `src/main_test.rs:12-31` `run`. -/
def cmdTest (prog : String → Option Program) (dirs : String → Option (List DirTree)) (argv : List String) : Res Empty Ran := do
  let (total, r) ← runTestArgs fs hash macos cc fuel prog dirs argv 0 { status := 0 }
  pure (if r.status > 0 then
      { r with out := r.out ++ "fails: " ++ toString r.status ++ ", total: " ++ toString total ++ "\n" }
    else if r.status = 0 then { r with out := r.out ++ "OK " ++ toString total ++ " tests\n" }
    else r)

end

end Che
