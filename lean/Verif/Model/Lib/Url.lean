import Verif.Model.Lib.Tokenizer

/-!
Model of `lib/url.c`.

The arrays of `t` are modelled by the bytes put into them; the rest of an array is zero.
A store past the end of an array is undefined: the outcome is `panic`.  A condition that
peeks twice peeks once in the model: the second peek changes nothing.
-/
namespace Che.Lib.Url
open Che.Lib Che.Lib.Tok

/-- `t`, lib/url.c:3-8. -/
structure Url where
  schema : Bytes
  hostname : Bytes
  port : Bytes
  path : Bytes
deriving DecidableEq, Repr

/-- A loop `while (more(buf) && !stop(peek(buf))) *q++ = get(buf);` with `q` in an array of
`size` bytes, lib/url.c:16-18, 29-31, 36-38 and 44-46. -/
def fill (size : Nat) (stop : Int → Bool) : Nat → T → Bytes → Res String (T × Bytes)
  | 0, _, _ => .diverge
  | n + 1, b, s =>
    let (b, m) := more b
    if !m then .ok (b, s)
    else
      let (b, c) := peek b
      if stop c then .ok (b, s)
      else
        let (b, c) := get b
        if s.length ≥ size then .panic "undefined: store past the end of an array"
        else fill size stop n b (s ++ [toByte c])

/-- `tokenizer.get(buf) != ':' || …`, lib/url.c:21. -/
def marks (b : T) : T × Bool :=
  let (b, c) := get b
  if c ≠ 58 then (b, false)
  else
    let (b, c) := get b
    if c ≠ 47 then (b, false)
    else
      let (b, c) := get b
      (b, c = 47)

/-- The port, lib/url.c:33-39. -/
def readPort (b : T) : Res String (T × Bytes) :=
  let (b, c) := peek b
  if c = 58 then
    let (b, _) := get b
    fill 10 (fun c => c = 47) (rounds b) b []
  else .ok (b, [])

/-- The path, lib/url.c:41-47: a slash is there before it is overwritten. -/
def readPath (b : T) : Res String (T × Bytes) :=
  let (b, c) := peek b
  if c = 47 then fill 100 (fun _ => false) (rounds b) b []
  else .ok (b, [47])

/-- `parse`, lib/url.c:10-51.  `none` is `NULL`. -/
def parse (s : Bytes) : Res String (Option Url) :=
  let b := from_str s
  (fill 10 (fun c => c = 58) (rounds b) b []).bind fun (b, schema) =>
    let (b, ok) := marks b
    if !ok then .ok none
    else
      (fill 100 (fun c => c = 58 || c = 47) (rounds b) b []).bind fun (b, hostname) =>
        (readPort b).bind fun (b, port) =>
          (readPath b).bind fun (_, path) => .ok (some { schema, hostname, port, path })
end Che.Lib.Url
