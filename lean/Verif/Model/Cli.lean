import Verif.Model.Build
/-!
# `src/main*.rs`: the subcommands

The test runner and the order of the visible events of `che run`: only exit
statuses, events and decisions, not the printed text.  The other subcommands, with
the text they print, are in `Commands.lean`.
-/
namespace Che

/-- `src/main.rs:29-45`: the subcommand names. -/
def subcommands : List String := ["build", "run", "deptree", "exports", "genc", "install", "test"]

/-- `src/main.rs:47-58` `main`: the exit status, given what each subcommand
returns.  An unknown subcommand falls out of `main` with status 0. -/
def mainStatus (run : String → List String → Int) (args : List String) : Int :=
  match args with
  | [] => 1
  | cmd :: rest => if subcommands.contains cmd then run cmd rest else 0

/-- The status the operating system reports for `exit(n)` (Unix keeps 8 bits). -/
def osStatus (n : Int) : Nat := (n % 256).toNat

/-- How one test file fares: it does not build, or it runs and succeeds or not. -/
inductive TestOutcome where
  | buildFailed
  | ran (success : Bool)
deriving DecidableEq, Repr

/-- `src/main_test.rs:7-10` `Stats`. -/
structure Stats where
  total : Int
  fails : Int
deriving DecidableEq, Repr

/-- The loop of `src/main_test.rs:39-67`. -/
def runTests (s : Stats) : List TestOutcome → Stats
  | [] => s
  | .buildFailed :: ts => runTests s ts
  | .ran true :: ts => runTests s ts
  | .ran false :: ts => runTests { s with fails := s.fails + 1 } ts

/-- `src/main_test.rs:33-70` `run_arg` on the outcomes of the tests found. -/
def runArg (ts : List TestOutcome) : Stats := runTests { total := ts.length, fails := 0 } ts

/-- The loop of `src/main_test.rs:14-24`. -/
def sumArgs (s : Stats) : List (List TestOutcome) → Stats
  | [] => s
  | a :: as =>
    let s1 := runArg a
    sumArgs { total := s.total + s1.total, fails := s.fails + s1.fails } as

/-- `src/main_test.rs:12-31` `run`: the returned status. -/
def testRun (args : List (List TestOutcome)) : Int := (sumArgs { total := 0, fails := 0 } args).fails

/-- A directory tree as `find_tests` walks it. -/
inductive DirTree where
  | file (path : String)
  | dir (path : String) (entries : List DirTree)

mutual
/-- `src/main_test.rs:72-84` `find_tests` on the entries of a directory: the
paths of the tests.  A directory whose name ends in `.test.c` is taken as a
test. -/
def findTests : List DirTree → List String
  | [] => []
  | e :: es => findTest e ++ findTests es
/-- One entry of `src/main_test.rs:74-82`. -/
def findTest : DirTree → List String
  | .file p => if RStr.endsWith p ".test.c" then [p] else []
  | .dir p es => if RStr.endsWith p ".test.c" then [p] else findTests es
end

/-- What `che run` does after loading, `src/main_run.rs:13-26`: the compiler
writes `/tmp/chebuild`, then that path is executed. -/
inductive RunEvent where
  | compile (prog : String)
  | exec
deriving DecidableEq, Repr

/-- `src/main_run.rs:13-23`: one `che run` of a program that builds. -/
def runEvents (prog : String) : List RunEvent := [.compile prog, .exec]

end Che
