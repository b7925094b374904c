import Verif.Model.Basic
import Verif.Model.Lib.IO

/-!
Model of `lib/opt.c`: options in the arguments of a program.

Strings are their bytes before the terminating zero.  A pointer to a value is the
index of its option: the options are declared with different pointers.  What a call
of `parse` does is the list of the values stored, in order, and the arguments that are
left; a message to `stderr` followed by `exit(1)` is `err` with the message.  The text
that `usage` prints (lines 253-289) is not modelled: its outcome is `err "usage"`.
`sscanf` with `%f` is a parameter: it gives the number that the text begins with, if
any.  `sscanf` with `%d` or `%zu` is undefined for a number that the type does not hold
(C11 7.21.6.2 paragraph 10); that outcome is `panic`.
-/
namespace Che.Lib.Opt
open Che.Lib

/-- The option types, lib/opt.c:4-10. -/
inductive Ty where | str | int | bool | size | float
deriving DecidableEq, Repr

/-- `optspec_t`, lib/opt.c:15-20, without the description and the pointer. -/
structure Spec where
  ty : Ty
  name : Bytes
deriving DecidableEq, Repr

/-- The global variables, lib/opt.c:22-30: `specs` up to `flags_num`, and `expect_nargs`
if it is set together with whether `args_summary` is not empty. -/
structure Opts where
  specs : List Spec
  nargs : Option (Nat × Bool)
deriving DecidableEq, Repr

/-- What is stored through a pointer.  `F` are the numbers of type `float`. -/
inductive Val (F : Type) where
  | str (v : Bytes)
  | int (n : Int)
  | true
  | size (n : Nat)
  | float (x : F)
deriving DecidableEq, Repr

/-- `declare`, lib/opt.c:54-68. -/
def declare (o : Opts) (ty : Ty) (name : Bytes) : Res String Opts :=
  if name.length > 1 then .err "Only one-letter flags are supported"
  else if o.specs.length ≥ 32 then .err "Too many flags, max is 32"
  else .ok { o with specs := o.specs ++ [⟨ty, name⟩] }

/-- `s[0]`: the terminating zero of an empty string. -/
def first (s : Bytes) : UInt8 := s.headD 0

/-- `find`, lib/opt.c:238-245. -/
def findFrom (c : UInt8) : List Spec → Nat → Option (Nat × Ty)
  | [], _ => none
  | s :: rest, i => if first s.name = c then some (i, s.ty) else findFrom c rest (i + 1)

def find (o : Opts) (c : UInt8) : Option (Nat × Ty) := findFrom c o.specs 0

/-- `isdigit`. -/
def isdigit (c : UInt8) : Bool := 48 ≤ c && c ≤ 57

/-- `is_numeric`, lib/opt.c:291-299. -/
def is_numeric (s : Bytes) : Bool :=
  match s with
  | 45 :: rest => rest.all isdigit
  | _ => s.all isdigit

/-- The number that digits are. -/
def number (ds : Bytes) : Nat := ds.foldl (fun n d => 10 * n + (d.toNat - 48)) 0

/-- `sscanf(s, "%d", &val)` where `is_numeric(s)`. -/
def scanInt (s : Bytes) : Res String (Option Int) :=
  let (neg, ds) := match s with
    | 45 :: rest => (true, rest)
    | _ => (false, s)
  if ds = [] then .ok none
  else
    let n : Int := if neg then -(number ds : Int) else number ds
    if -2147483648 ≤ n ∧ n ≤ 2147483647 then .ok (some n) else .panic "undefined: sscanf out of range"

/-- `sscanf(s, "%zu", &val)` where `s` is made of digits. -/
def scanSize (s : Bytes) : Res String (Option Nat) :=
  if s = [] then .ok none
  else if number s < 2 ^ 64 then .ok (some (number s)) else .panic "undefined: sscanf out of range"

/-- `set_flag`, lib/opt.c:190-234. -/
def set_flag {F : Type} (scan : Bytes → Option F) (ty : Ty) (arg : Bytes) : Res String (Val F) :=
  match ty with
  | .str => .ok (.str arg)
  | .int =>
    if !is_numeric arg then .err "Option expects a numeric value"
    else (scanInt arg).bind fun
      | none => .err "Option: couldn't parse value"
      | some n => .ok (.int n)
  | .size =>
    if !is_numeric arg then .err "Option expects a numeric value"
    else if first arg = 45 then .err "Option expects a non-negative value"
    else (scanSize arg).bind fun
      | none => .err "Option: couldn't parse size value"
      | some n => .ok (.size n)
  | .float =>
    match scan arg with
    | none => .err "Option: couldn't parse value"
    | some x => .ok (.float x)
  | .bool => .err "Unhandled spec type"

/-- `boolrun`, lib/opt.c:171-188. -/
def boolrun {F : Type} (o : Opts) : Bytes → List (Nat × Val F) → Res String (List (Nat × Val F))
  | [], st => .ok st
  | c :: rest, st =>
    match find o c with
    | none => if c = 104 then .err "usage" else .err "Unknown flag"
    | some (i, ty) =>
      if ty ≠ .bool then .err "The flag requires a value."
      else boolrun o rest (st ++ [(i, .true)])

/-- `readarg`, lib/opt.c:145-169, with `c` the second character of the argument and
`rest` the arguments after it. -/
def readarg {F : Type} (scan : Bytes → Option F) (o : Opts) (c : UInt8) (rest : List Bytes)
    (st : List (Nat × Val F)) : Res String (List Bytes × List (Nat × Val F)) :=
  match find o c with
  | none => if c = 104 then .err "usage" else .err "unknown flag"
  | some (i, ty) =>
    if ty = .bool then .ok (rest, st ++ [(i, .true)])
    else match rest with
      | [] => .err "The flag requires a value."
      | v :: rest => (set_flag scan ty v).bind fun x => .ok (rest, st ++ [(i, x)])

/-- The loop of `parse`, lib/opt.c:99-115.  Every round takes an argument. -/
def parseLoop {F : Type} (scan : Bytes → Option F) (o : Opts) :
    Nat → List Bytes → List (Nat × Val F) → Res String (List Bytes × List (Nat × Val F))
  | 0, _, _ => .diverge
  | _ + 1, [], st => .ok ([], st)
  | n + 1, arg :: rest, st =>
    if arg = [45] ∨ first arg ≠ 45 then .ok (arg :: rest, st)
    else if arg.length > 2 then
      (boolrun o (arg.drop 1) st).bind fun st => parseLoop scan o n rest st
    else if arg.length = 2 then
      (readarg scan o (arg.getD 1 0) rest st).bind fun (rest, st) => parseLoop scan o n rest st
    else .err "couldn't parse flag group"

/-- The check of the number of arguments, lib/opt.c:117-140. -/
def checkNargs (o : Opts) (count : Nat) : Res String Unit :=
  match o.nargs with
  | none => .ok ()
  | some (n, summary) =>
    if n = 0 ∧ count > 0 then .err "This program doesn't accept positional arguments."
    else if count ≠ n then
      if summary then .err "Arguments"
      else if n = 1 then .err "Expected 1 argument"
      else .err "Expected arguments"
    else .ok ()

/-- `parse`, lib/opt.c:93-143, with `args` the arguments after the program's name. -/
def parse {F : Type} (scan : Bytes → Option F) (o : Opts) (args : List Bytes) :
    Res String (List Bytes × List (Nat × Val F)) :=
  (parseLoop scan o (args.length + 1) args []).bind fun (rest, st) =>
    (checkNargs o rest.length).bind fun _ => .ok (rest, st)

/-- The value at a pointer after the values `st` have been stored, if one of them is
for it. -/
def stored {F : Type} (i : Nat) (st : List (Nat × Val F)) : Option (Val F) :=
  st.foldl (fun acc p => if p.1 = i then some p.2 else acc) none

/-- `dispatch`, lib/opt.c:319-335: the subcommand called and its arguments.  `cmds` are
the names in order; the calls of `addcmd` are for at most 10 of them. -/
def dispatch (cmds : List Bytes) (argv : List Bytes) : Option (Nat × List Bytes) :=
  match argv with
  | _ :: name :: rest =>
    match cmds.findIdx? (fun c => c = name) with
    | some i => some (i, name :: rest)
    | none => none
  | _ => none
end Che.Lib.Opt
