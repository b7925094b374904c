import Verif.Model.Cli
import Verif.Model.FormatChe
/-!
# `src/main_*.rs`: the subcommands with the text they print

`stdout`, `stderr`, the files written and the program executed are collected in
`Ran`.  Panics are outcomes.  The budget (`fuel`) is that of loading and parsing.
-/
namespace Che

/-- What a subcommand did. -/
structure Ran where
  status : Int
  out : String := ""
  err : String := ""
  /-- the files of `write_c99` -/
  files : List COutput := []
  /-- the program that replaces the process, with its arguments -/
  exec : Option (String × List String) := none
deriving Repr, Inhabited

/-- `eprintln!("{}:{}: {}", err.path, err.pos, err.message)` for each error, as in
`src/main_build.rs:27-29`. -/
def errorLines (es : List BuildError) : String :=
  String.join (es.map fun e => e.path ++ ":" ++ e.pos ++ ": " ++ e.message ++ "\n")

/-! ## `src/main_build.rs`, `src/main_install.rs` -/

namespace Path

/-- The components of a path as Rust's `Components` gives them, without the root
and `.`. -/
def comps (p : List Char) : List (List Char) :=
  (p.splitOn '/').filter (fun c => !(c == [] || c == ['.']))

/-- Rust `Path::file_name` on components. -/
def lastName (cs : List (List Char)) : Option (List Char) :=
  match cs.getLast? with
  | some n => if n = ['.', '.'] then none else some n
  | none => none

/-- Rust `rsplit_file_at_dot` and `Path::file_stem`: the name without what follows
the last dot; a name that begins with its only dot stays. -/
def stem (n : List Char) : List Char :=
  match (n.reverse.dropWhile (· ≠ '.')) with
  | [] => n
  | _ :: r => if r = [] then n else r.reverse

/-- Rust `Path::with_extension("").file_name()`.  A stem of dots is no name (for
`x/..c` as in Rust since 1.75). -/
def bareName (p : List Char) : Option (List Char) :=
  match lastName (comps p) with
  | none => none
  | some n => if stem n = ['.'] ∨ stem n = ['.', '.'] then none else some (stem n)

end Path

/-- `src/main_build.rs:13-19`, `src/main_install.rs:11-17`: the name of the
executable; `none` is the `unwrap` panic. -/
def outputName (path : String) : Option String := (Path.bareName path.toList).map String.ofList

section
variable [Unicode] (fs : FS) (hash : String → String) (macos : Bool)
  (cc : List COutput → List String → Bool) (fuel : Nat)

/-- `src/main_build.rs:21-33`, `src/main_install.rs:19-31`: build and report. -/
def reportBuild (source output : String) : Res Empty Ran :=
  match buildProg fs hash macos cc fuel source output with
  | .ok () => .ok { status := 0 }
  | .err es => .ok { status := 1, err := errorLines es ++ toString es.length ++ " errors\n" }
  | .panic s => .panic s
  | .diverge => .diverge

/-- `src/main_build.rs:4-34` `run`. -/
def cmdBuild (argv : List String) : Res Empty Ran :=
  match argv with
  | [path] =>
    match outputName path with
    | none => .panic "main_build.rs:16"
    | some o => reportBuild fs hash macos cc fuel path o
  | [path, output] => reportBuild fs hash macos cc fuel path output
  | _ => .ok { status := 1, err := "usage: build <source-path> [<output-path>]\n" }

/-- `src/main_install.rs:4-32` `run`. -/
def cmdInstall (argv : List String) : Res Empty Ran :=
  match argv with
  | [path] =>
    match outputName path with
    | none => .panic "main_install.rs:14"
    | some o => reportBuild fs hash macos cc fuel path (fs.home ++ "/bin/" ++ o)
  | _ => .ok { status := 1, err := "usage: install <name>\n" }

/-! ## `src/main_run.rs` -/

/-- `src/main_run.rs:6-27` `run`; `exec` returns only if it fails. -/
def cmdRun (execOk : Bool) (argv : List String) : Res Empty Ran :=
  match argv with
  | [] => .ok { status := 1, err := "usage: che run <source-path> [<args>...]\n" }
  | src :: args =>
    match buildProg fs hash macos cc fuel src "/tmp/chebuild" with
    | .ok () =>
      if execOk then .ok { status := 0, exec := some ("/tmp/chebuild", args) }
      else .ok { status := 1, err := "exec failed" }
    | .err es => .ok { status := 1, err := errorLines es }
    | .panic s => .panic s
    | .diverge => .diverge

/-! ## `src/main_genc.rs` -/

/-- `src/main_genc.rs:4-22` `run`; `dirOk` tells whether the directory is there or
can be made. -/
def cmdGenc (dirOk : Bool) (argv : List String) : Res Empty Ran :=
  match argv with
  | modpath :: dir :: _ =>
    if !dirOk then .panic "main_genc.rs:8"
    else
      match parseProject fs fuel modpath with
      | .err es => .ok { status := 1, err := errorLines es }
      | .panic s => .panic s
      | .diverge => .diverge
      | .ok work =>
        match writeC99 hash dir work with
        | .ok files => .ok { status := 0, files := files }
        | .err _ => .panic "main_genc.rs:20"
        | .panic s => .panic s
        | .diverge => .diverge
  | [_] => .panic "main_genc.rs:6"
  | [] => .panic "main_genc.rs:5"

/-! ## `src/main_deptree.rs` -/

/-- `src/main_deptree.rs:29-32` `Printer`, with what it has printed. -/
structure Printer where
  indent : Nat
  firstLine : Bool
  out : String
deriving Repr, Inhabited

/-- `src/main_deptree.rs:35-44` `writeline`. -/
def Printer.writeline (p : Printer) (s : String) : Printer :=
  { p with
    out := p.out ++ RStr.rep "  " p.indent ++
      (if p.indent > 0 && p.firstLine then "- " else "") ++ s ++ "\n"
    firstLine := false }

/-- `src/main_deptree.rs:45-48` `indent`. -/
def Printer.deeper (p : Printer) : Printer := { p with indent := p.indent + 1, firstLine := true }

/-- `src/main_deptree.rs:49-52` `unindent`. -/
def Printer.shallower (p : Printer) : Printer := { p with indent := p.indent - 1, firstLine := true }

mutual
/-- `src/main_deptree.rs:55-68` `render_tree`. -/
def renderDeps (heads : List ModuleInfo) : Nat → Printer → Nat → Res Empty Printer
  | 0, _, _ => .diverge
  | n + 1, p, pos =>
    match heads[pos]? with
    | none => .panic "main_deptree.rs:56"
    | some h => do
      let p ← renderImports heads n (p.writeline h.filepath).deeper h.imports
      pure p.shallower
/-- The loop of `src/main_deptree.rs:59-66`. -/
def renderImports (heads : List ModuleInfo) : Nat → Printer → List ModuleRef → Res Empty Printer
  | 0, _, _ => .diverge
  | _ + 1, p, [] => .ok p
  | n + 1, p, imp :: rest =>
    match heads.findIdx? (fun x => x.filepath == imp.path) with
    | none => .panic "main_deptree.rs:64"
    | some pos => do
      let p ← renderDeps heads n p pos
      renderImports heads n p rest
end

/-- `src/main_deptree.rs:4-26` `run`; `depth` is the budget of the printing. -/
def cmdDeptree (depth : Nat) (argv : List String) : Res Empty Ran :=
  match argv with
  | [path] =>
    match parseProject fs fuel path with
    | .err es => .ok { status := 1, err := errorLines es }
    | .panic s => .panic s
    | .diverge => .diverge
    | .ok b => do
      let p ← renderDeps b.modheads depth { indent := 0, firstLine := true, out := "" }
        (b.modheads.length - 1)
      pure { status := 0, out := p.out }
  | _ => .ok { status := 1, err := "usage: deptree <source-path>\n" }

/-! ## `src/main_exports.rs` -/

/-- The loop of `src/main_exports.rs:47-56`: the parameters after the first `i`. -/
def fmtExportParams (i : Nat) : List TypeAndForms → String
  | [] => ""
  | p :: ps =>
    (if i > 0 then ", " else "") ++ FormatChe.fmtTypename p.typename ++ " " ++
    String.join (p.forms.map FormatChe.fmtForm) ++ fmtExportParams (i + 1) ps

/-- `src/main_exports.rs:46-60`: the parameters of a function. -/
def fmtExportSig (x : FuncParams) : String :=
  "(" ++ fmtExportParams 0 x.list ++ (if x.ellipsis then ", ..." else "") ++ ")"

/-- The loop of `src/main_exports.rs:45-67`: the width of the widest type so far,
the types and the forms. -/
def exportCols : Nat → List String → List String → List FuncDecl → Nat × List String × List String
  | w, ts, fs, [] => (w, ts, fs)
  | w, ts, fs, f :: rest =>
    let t := FormatChe.fmtTypename f.typename
    exportCols (if t.utf8ByteSize > w then t.utf8ByteSize else w) (ts ++ [t])
      (fs ++ [FormatChe.fmtForm f.form ++ " " ++ fmtExportSig f.params]) rest

/-- The loop of `src/main_exports.rs:69-78`. -/
def exportRows (w : Nat) : List (String × String) → String
  | [] => ""
  | (t, f) :: rest =>
    "\t" ++ t ++ RStr.rep " " (w - t.utf8ByteSize + 2) ++
    (if RStr.startsWith f "*" then "" else " ") ++ f ++ "\n" ++ exportRows w rest

/-- Does `fmt_form` reach `operator_strength` with an unknown operator? -/
def panicsForm (f : Form) : Bool :=
  f.indexes.any fun | some e => FormatChe.panicsExpr e | none => false

/-- Does `print_exports` reach `operator_strength` with an unknown operator? -/
def panicsExports (ex : Exports) : Bool :=
  ex.fns.any fun f => panicsForm f.form || f.params.list.any (fun p => p.forms.any panicsForm)

/-- `src/main_exports.rs:26-81` `print_exports`. -/
def printExports (ex : Exports) : String :=
  (if ex.consts.isEmpty then "" else
    "constants\n" ++ String.join (ex.consts.map fun c => "\t" ++ c.name ++ "\n")) ++
  (if ex.types.isEmpty then "" else
    "types\n" ++ String.join (ex.types.map fun c => "\t" ++ c ++ "\n")) ++
  (if ex.fns.isEmpty then "" else
    let (w, ts, fs) := exportCols 0 [] [] ex.fns
    "functions\n" ++ exportRows w (ts.zip fs))

/-- The loop of `src/main_exports.rs:6-23`; `out` has been printed before.  An empty
list of modules underflows (`:9`). -/
def exportsLoop (out : String) : List String → Res Empty Ran
  | [] => .ok { status := 0, out := out }
  | path :: rest =>
    match parseProject fs fuel path with
    | .err es => .ok { status := 1, out := out, err := errorLines es }
    | .panic s => .panic s
    | .diverge => .diverge
    | .ok b =>
      match b.modules.getLast?, b.modheads[b.modules.length - 1]? with
      | some m, some h =>
        if panicsExports m.exports then .panic "parser.rs:469"
        else exportsLoop (out ++ "mod " ++ h.filepath ++ "\n" ++ printExports m.exports) rest
      | _, _ => .panic "main_exports.rs:9-11"

/-- `src/main_exports.rs:5-24` `run`. -/
def cmdExports (argv : List String) : Res Empty Ran := exportsLoop fs fuel "" argv

end

/-! ## `src/main.rs` -/

/-- `src/main.rs:60-66` `usage`. -/
def usageText : String :=
  "Usage: che <command>\n\nCommands:\n" ++
  String.join ([("build", "Build executable from a source file"),
    ("run", "Build from a source file and run"), ("deptree", "Print dependency tree"),
    ("exports", "Print module exports"), ("genc", "Generate C code"),
    ("install", "Build and install executable in $CHELANG_HOME/bin"),
    ("test", "Run tests")].map fun (n, d) => "\t" ++ n ++ "\t" ++ d ++ "\n")

/-- `src/main.rs:47-58` `main`, given the subcommands. -/
def cheMain (run : String → List String → Res Empty Ran) (args : List String) : Res Empty Ran :=
  match args with
  | [] => .ok { status := 1, err := usageText }
  | cmd :: rest =>
    if subcommands.contains cmd then run cmd rest else .ok { status := 0, err := usageText }

end Che
