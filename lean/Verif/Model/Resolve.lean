import Verif.Model.Basic
/-!
# `src/resolve.rs`: finding imported modules

The file system is a parameter.  `Path::parent` and `Path::join` of the Rust
standard library (Unix) are modelled on the characters of the path.
-/
namespace Che

/-- What the compiler sees of the outside world: `CHELANG_HOME`
(`src/resolve.rs:16-18`), `fs::metadata(..).is_ok()` and `fs::read_to_string`
(with the text of the operating system's error). -/
structure FS where
  home : String
  metaOk : String → Bool
  read : String → Except String String

namespace Path

/-- Unix path separator test. -/
def isSep (c : Char) : Bool := c == '/'

/-- Rust `Components::has_root` on Unix. -/
def hasRoot (p : List Char) : Bool :=
  match p with
  | c :: _ => isSep c
  | [] => false

/-- Rust `Components::include_cur_dir`: the path starts with a `.` component. -/
def includeCurDir (p : List Char) : Bool :=
  if hasRoot p then false
  else
    match p with
    | ['.'] => true
    | '.' :: c :: _ => isSep c
    | _ => false

/-- Rust `Components::len_before_body` (Unix: no prefix). -/
def lenBeforeBody (p : List Char) : Nat :=
  (if hasRoot p then 1 else 0) + (if includeCurDir p then 1 else 0)

/-- Rust `Components::parse_next_component_back`: the last component of the body
and the number of characters it occupies together with its separator. The flag
tells if the component is a real one (not empty and not `.`). -/
def lastComponent (p : List Char) : Nat × Bool :=
  let start := lenBeforeBody p
  let body := p.drop start
  let comp := (body.reverse.takeWhile (fun c => !isSep c)).reverse
  let extra := if comp.length < body.length then 1 else 0
  (comp.length + extra, !(comp == [] || comp == ['.']))

/-- The loop of Rust `Components::next_back` on the body: drop components from
the end until a real one was dropped. -/
def dropLast : Nat → List Char → Option (List Char)
  | 0, _ => none
  | n + 1, p =>
    if p.length > lenBeforeBody p then
      let (size, real) := lastComponent p
      let p' := p.take (p.length - size)
      if real then some p' else dropLast n p'
    else none

/-- The loop of Rust `Components::trim_right`. -/
def trimRight : Nat → List Char → List Char
  | 0, p => p
  | n + 1, p =>
    if p.length > lenBeforeBody p then
      let (size, real) := lastComponent p
      if real then p else trimRight n (p.take (p.length - size))
    else p

/-- Rust `Path::parent`.  `next_back` on the start of the path yields a
`CurDir` (parent is the empty path) or the root (no parent). -/
def parent (p : List Char) : Option (List Char) :=
  match dropLast p.length p with
  | some p' => some (trimRight p'.length p')
  | none =>
    if hasRoot p then none
    else if includeCurDir p then some []
    else none

/-- Rust `Path::join` (`PathBuf::push`) on Unix. -/
def join (base name : List Char) : List Char :=
  if hasRoot name then name
  else
    match base.getLast? with
    | none => name
    | some c => if isSep c then base ++ name else base ++ ['/'] ++ name

end Path

/-- `src/resolve.rs:5-13` `ModuleRef`. -/
structure ModuleRef where
  path : String
  ns : String
deriving DecidableEq, Repr, Inhabited

/-- `src/resolve.rs:38-40` `basename`. -/
def basename (s : String) : String :=
  match (RStr.split '/' s).getLast? with
  | some b => b
  | none => ""

/-- `bn.substring(0, bn.len() - 2)`, `src/resolve.rs:34`: `len` counts bytes,
`substring` counts characters. -/
def stripExt (bn : String) : String := String.ofList (bn.toList.take (bn.utf8ByteSize - 2))

/-- `src/resolve.rs:20-36` `resolve_import`. -/
def resolveImport (fs : FS) (basePath name : String) : Res String ModuleRef :=
  let path : Option String :=
    if RStr.endsWith name ".c" then
      match Path.parent basePath.toList with
      | none => none
      | some d => some (String.ofList (Path.join d name.toList))
    else some (fs.home ++ "/lib/" ++ name ++ ".c")
  match path with
  | none => .panic "resolve.rs:25"
  | some path =>
    if !fs.metaOk path then
      .err ("can't find module '" ++ name ++ "' (looked at " ++ path ++ ")")
    else .ok { path := path, ns := stripExt (basename path) }

end Che
