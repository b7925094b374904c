import Verif.Model.Lib.Http

/-!
Model of `resolve_path` of `prog/webserver/webserver.c`.  What `realpath` of the system returns is a parameter.
Logging is not modelled.
-/
namespace Che.Prog.Webserver
open Che.Lib

/-- `fs.realpath`, lib/os/fs.c:52-63, with a buffer of `n` bytes. -/
def realpath (real : Bytes → Option Bytes) (path : Bytes) (n : Nat) : Option Bytes :=
  match real path with
  | none => none
  | some tmp => if tmp.length > n - 1 then none else some tmp

/-- `resolve_path`, prog/webserver/webserver.c:108-124. -/
def resolve_path (real : Bytes → Option Bytes) (homedir reqpath : Bytes) : Option Bytes :=
  if homedir.length + reqpath.length + 1 ≥ 4096 then none
  else
    match realpath real (homedir ++ [47] ++ reqpath) 4096 with
    | none => none
    | some p => if !Strings.starts_with p homedir then none else some p

/-- What happens with a request, prog/webserver/webserver.c:68-95. -/
inductive Answer
  | list
  | notFound
  | cgi (path : Bytes)
  | file (path : Bytes)
deriving DecidableEq, Repr

/-- `client_routine` for one request, prog/webserver/webserver.c:68-95. -/
def answer (real : Bytes → Option Bytes) (homedir : Bytes) (req : Http.Request) : Answer :=
  if req.path = cstr "/" then .list
  else
    match resolve_path real homedir req.path with
    | none => .notFound
    | some p => if Strings.starts_with req.path (cstr "/cgi-bin/") then .cgi p else .file p
end Che.Prog.Webserver
