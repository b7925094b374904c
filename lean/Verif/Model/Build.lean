import Verif.Model.Preparser
import Verif.Model.Parser
import Verif.Model.Translator
/-!
# `src/build.rs`: from a main file to C files and a compiler command

The file system is the parameter `FS` (it does not change during a build).  MD5
is an abstract function.  Writing the files and running `c99` is the
environment: the model returns the files to write and the command to run.
-/
namespace Che

/-- The cache of `src/build.rs:102-110`. -/
abbrev Cache := List (String × ModuleInfo)

/-- `src/build.rs:102-110` `preparse`, over the pre-parser `pre`. -/
def cachedPreparse (pre : String → Res String ModuleInfo) (cache : Cache) (path : String) :
    Res String (ModuleInfo × Cache) :=
  match mapGet cache path with
  | some m => .ok (m, cache)
  | none =>
    match pre path with
    | .ok m => .ok (m, mapInsert cache path m)
    | .err e => .err e
    | .panic s => .panic s
    | .diverge => .diverge

mutual
/-- `src/build.rs:112-129` `load_tree`, over the pre-parser `pre`. -/
def loadTree (pre : String → Res String ModuleInfo) :
    Nat → Cache → String → List String → Res String (List String × Cache)
  | 0, _, _, _ => .diverge
  | n + 1, cache, path, crumbs =>
    if crumbs.contains path then
      .err ("import loop: " ++ RStr.join " -> " crumbs ++ " -> " ++ path)
    else
      match cachedPreparse pre cache path with
      | .err e => .err e
      | .panic s => .panic s
      | .diverge => .diverge
      | .ok (head, cache) =>
        match loadImports pre n cache (head.imports.map (·.path)) (crumbs ++ [path]) with
        | .ok (r, cache) => .ok (path :: r, cache)
        | .err e => .err e
        | .panic s => .panic s
        | .diverge => .diverge
/-- The loop of `src/build.rs:124-127`. -/
def loadImports (pre : String → Res String ModuleInfo) :
    Nat → Cache → List String → List String → Res String (List String × Cache)
  | 0, _, _, _ => .diverge
  | _ + 1, cache, [], _ => .ok ([], cache)
  | n + 1, cache, p :: ps, crumbs =>
    match loadTree pre n cache p crumbs with
    | .err e => .err e
    | .panic s => .panic s
    | .diverge => .diverge
    | .ok (r, cache) =>
      match loadImports pre n cache ps crumbs with
      | .ok (rs, cache) => .ok (r ++ rs, cache)
      | .err e => .err e
      | .panic s => .panic s
      | .diverge => .diverge
end

/-- The loop of `src/build.rs:131-142`; `seen` has the elements already kept. -/
def uniqLoop (seen : List String) : List String → List String
  | [] => []
  | p :: ps => if seen.contains p then uniqLoop seen ps else p :: uniqLoop (p :: seen) ps

/-- `src/build.rs:131-142` `uniq`. -/
def uniq (ss : List String) : List String := uniqLoop [] ss

/-- `src/build.rs:180-181`: the order of the modules. -/
def modOrder (paths : List String) : List String := uniq paths.reverse

/-- `src/build.rs:183-186`: `none` is the `unwrap` panic. -/
def lookupHeads (cache : Cache) : List String → Option (List ModuleInfo)
  | [] => some []
  | p :: ps =>
    match mapGet cache p, lookupHeads cache ps with
    | some m, some ms => some (m :: ms)
    | _, _ => none

/-- `src/build.rs:191`: the identifier of module number `i`. -/
def modId (i : Nat) (filepath : String) : String :=
  "mod" ++ toString i ++ "_" ++ RStr.replace (basename filepath) ".c" ""

/-- `src/build.rs:190-192`: number the modules from `i` on. -/
def assignIds : Nat → List ModuleInfo → List ModuleInfo
  | _, [] => []
  | i, m :: ms => { m with uniqid := modId i m.filepath } :: assignIds (i + 1) ms

/-- `src/build.rs:153-163`: the errors of a module. -/
def toBuildErrors (path : String) (es : List Error) : List BuildError :=
  es.map fun e => { message := e.message, pos := e.pos.fmt, path := path }

/-- `src/build.rs:147-163`: parse one module. -/
def parseMod [Unicode] (fs : FS) (fuel : Nat) (heads : List ModuleInfo) (m : ModuleInfo) :
    Res (List BuildError) Module :=
  match fs.read m.filepath with
  | .error _ => .panic "build.rs:152"
  | .ok text =>
    match lexAll text.toList with
    | .panic s => .panic s
    | .diverge => .diverge
    | .ok ts eof =>
      match parseModule fuel { thismod := m, allmods := heads, eof := eof } ts with
      | .ok md => .ok md
      | .errs es => .err (toBuildErrors m.filepath es)
      | .panic s => .panic s
      | .diverge => .diverge

/-- `src/build.rs:144-166` `parse_mods`. -/
def parseMods [Unicode] (fs : FS) (fuel : Nat) (heads : List ModuleInfo) :
    List ModuleInfo → Res (List BuildError) (List Module)
  | [] => .ok []
  | m :: ms => do
    let x ← parseMod fs fuel heads m
    let xs ← parseMods fs fuel heads ms
    pure (x :: xs)

/-- The loop of `src/build.rs:210-218`; `cmods` has the C modules made so far. -/
def translateLoop (mods : List Module) (heads : List ModuleInfo) :
    List CModule → List (ModuleInfo × Module) → Res BuildError (List CModule)
  | cmods, [] => .ok cmods
  | cmods, (h, m) :: rest => do
    let c ← translate m { cmods := cmods, allModHeads := heads, thisModHead := h, mods := mods }
    translateLoop mods heads (cmods ++ [c]) rest

/-- `src/build.rs:203-220` `translate_mods`. -/
def translateMods (mods : List Module) (heads : List ModuleInfo) : Res BuildError (List CModule) :=
  translateLoop mods heads [] (heads.zip mods)

/-- `src/build.rs:20-25` `Project`. -/
structure Project where
  modheads : List ModuleInfo
  modules : List Module
  cmodules : List CModule
deriving Repr, Inhabited

/-- `src/build.rs:171-178`: load errors have no position. -/
def loadError (e : String) : List BuildError := [{ message := e, path := "", pos := "" }]

/-- The module heads of a project, `src/build.rs:171-192`. -/
def projectHeads [Unicode] (fs : FS) (fuel : Nat) (mainpath : String) :
    Res (List BuildError) (List ModuleInfo) := do
  let (paths, cache) ← (loadTree (preparse fs fuel) fuel [] mainpath []).mapErr loadError
  match lookupHeads cache (modOrder paths) with
  | none => .panic "build.rs:185"
  | some heads => pure (assignIds 0 heads)

/-- `src/build.rs:170-201` `parse_project`. -/
def parseProject [Unicode] (fs : FS) (fuel : Nat) (mainpath : String) :
    Res (List BuildError) Project := do
  let heads ← projectHeads fs fuel mainpath
  let mods ← parseMods fs fuel heads heads
  let cmods ← (translateMods mods heads).mapErr (fun e => [e])
  pure { modheads := heads, modules := mods, cmodules := cmods }

/-- `src/build.rs:27-30` `PathId`, with the text written to `path`. -/
structure COutput where
  path : String
  id : String
  text : String
deriving Repr, Inhabited, DecidableEq

/-- The loop of `src/build.rs:228-240`.  `hash` stands for `md5::compute` in
hexadecimal. -/
def writeLoop (hash : String → String) (dir : String) :
    List (ModuleInfo × CModule) → Res (List BuildError) (List COutput)
  | [] => .ok []
  | (h, cm) :: rest =>
    match FormatC.formatModule cm with
    | .panic s => .panic s
    | .diverge => .diverge
    | .err e => nomatch e
    | .ok src => do
      let xs ← writeLoop hash dir rest
      pure ({ path := dir ++ "/" ++ hash h.filepath ++ ".c", id := h.filepath, text := src } :: xs)

/-- `src/build.rs:222-242` `write_c99`: the files written, in order. -/
def writeC99 (hash : String → String) (dir : String) (p : Project) :
    Res (List BuildError) (List COutput) :=
  writeLoop hash dir (p.modheads.zip p.cmodules)

/-- The inner step of `src/build.rs:48-55`. -/
def addLink (link : List String) (l : String) : List String :=
  if link.contains l then link else link ++ [l]

/-- `src/build.rs:48-55`: the libraries to link. -/
def linkLibs (cmods : List CModule) : List String :=
  cmods.foldl (fun link c => c.link.foldl addLink link) ["m"]

/-- `src/build.rs:58-71`: the compiler flags. -/
def ccFlags (macos : Bool) : List String :=
  if macos then ["-g"]
  else ["-Wall", "-Wextra", "-Werror", "-pedantic", "-pedantic-errors", "-fmax-errors=1",
        "-Wno-parentheses", "-g"]

/-- `src/build.rs:57-79`: the arguments of `c99`. -/
def ccArgs (macos : Bool) (paths : List String) (output : String) (link : List String) :
    List String :=
  ccFlags macos ++ paths ++ ["-o", output] ++ link.flatMap (fun l => ["-l", RStr.trim l])

/-- What `build_prog` does to the outside world. -/
structure BuildPlan where
  files : List COutput
  args : List String
deriving Repr, Inhabited

/-- `src/build.rs:32-79`: everything up to running the compiler.  The directory
is `<home>/tmp`. -/
def buildPlan [Unicode] (fs : FS) (hash : String → String) (macos : Bool) (fuel : Nat)
    (source output : String) : Res (List BuildError) BuildPlan := do
  let proj ← parseProject fs fuel source
  let files ← writeC99 hash (fs.home ++ "/tmp") proj
  pure { files := files,
         args := ccArgs macos (files.map (·.path)) output (linkLibs proj.cmodules) }

/-- `src/build.rs:32-100` `build_prog`; `cc` tells whether `c99` succeeds on
these files and arguments. -/
def buildProg [Unicode] (fs : FS) (hash : String → String) (macos : Bool)
    (cc : List COutput → List String → Bool) (fuel : Nat) (source output : String) :
    Res (List BuildError) Unit := do
  let plan ← buildPlan fs hash macos fuel source output
  if cc plan.files plan.args then pure ()
  else .err [{ message := "build failed", path := "", pos := "" }]

end Che
