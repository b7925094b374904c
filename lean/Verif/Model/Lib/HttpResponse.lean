import Verif.Model.Lib.Http

/-!
Model of the responses of `lib/protocols/http.c`.  The response is zero before.
-/
namespace Che.Lib.Http
open Che.Lib

/-- `response_t`, lib/protocols/http.c:56-65. -/
structure Response where
  version : Bytes
  status : Int
  headers : List (Bytes × Bytes)
  body : Bytes
  content_length : Int
deriving DecidableEq, Repr

/-- An `int` stored in a `char`, which is signed. -/
def asChar (c : Int) : Int := if c ≥ 128 then c - 256 else c

/-- An optional sign. -/
def sign (s : Bytes) : Bool × Bytes :=
  match s with
  | 45 :: t => (true, t)
  | 43 :: t => (false, t)
  | t => (false, t)

/-- `atoi` of the C library. -/
def atoi (s : Bytes) : Res String Int :=
  let s := sign (s.dropWhile fun c => Tok.isspace c.toNat)
  let n := Opt.number (s.2.takeWhile Opt.isdigit)
  if s.1 then (if n ≤ 2 ^ 31 then .ok (-n) else .panic "undefined: atoi of a large number")
  else if n < 2 ^ 31 then .ok n else .panic "undefined: atoi of a large number"

/-- `*p++ = get(b)` for `n` times, lib/protocols/http.c:285-287. -/
def getN : Nat → Tok.T → Bytes → Tok.T × Bytes
  | 0, b, buf => (b, buf)
  | n + 1, b, buf =>
    let (b, c) := Tok.get b
    getN n b (buf ++ [Tok.toByte c])

/-- The digits of the status, lib/protocols/http.c:297-303. -/
def getStatus : Nat → Tok.T → Int → Tok.T × Option Int
  | 0, b, s => (b, some s)
  | k + 1, b, s =>
    let (b, c) := Tok.get b
    let n := Strings.num_from_ascii (asChar c)
    if n < 0 then (b, none) else getStatus k b (s * 10 + n)

/-- `while (more(b) && peek(b) != stop) *p++ = get(b)`: lib/protocols/http.c:309-311, 322-324, 331-333. -/
def takeUntil (stop : UInt8) : Nat → Tok.T → Bytes → Tok.T × Bytes
  | 0, b, buf => (b, buf)
  | n + 1, b, buf =>
    let (b, m) := Tok.more b
    if !m then (b, buf)
    else
      let (b, p) := Tok.peek b
      if p = stop.toNat then (b, buf)
      else
        let (b, c) := Tok.get b
        takeUntil stop n b (buf ++ [Tok.toByte c])

/-- `read_status_line`, lib/protocols/http.c:283-318. -/
def read_status_line (b : Tok.T) : Tok.T × Option (Bytes × Int) :=
  let (b, version) := getN 8 b []
  let version := version.takeWhile (· ≠ 0)
  if version ≠ cstr "HTTP/1.0" ∧ version ≠ cstr "HTTP/1.1" then (b, none)
  else
    let (b, c) := Tok.get b
    if c ≠ 32 then (b, none)
    else
      match getStatus 3 b 0 with
      | (b, none) => (b, none)
      | (b, some status) =>
        let (b, c) := Tok.get b
        if c ≠ 32 then (b, none)
        else
          let (b, _) := takeUntil 13 (Tok.rounds b) b []
          let (b, ok) := Tok.skip_literal b [13, 10]
          if !ok then (b, none) else (b, some (version, status))

/-- `read_header`, lib/protocols/http.c:320-339.  The name and the value have room for
1023 bytes and a zero; a longer text is taken to be undefined at once. -/
def read_header (b : Tok.T) : Res String (Tok.T × Option (Bytes × Bytes)) :=
  let (b, name) := takeUntil 58 (Tok.rounds b) b []
  if name.length ≥ 1024 then .panic "undefined: write outside of an array"
  else
    let (b, ok) := Tok.skip_literal b [58, 32]
    if !ok then .ok (b, none)
    else
      let (b, value) := takeUntil 13 (Tok.rounds b) b []
      if value.length ≥ 1024 then .panic "undefined: write outside of an array"
      else
        let (b, ok) := Tok.skip_literal b [13, 10]
        if !ok then .ok (b, none) else .ok (b, some (name.takeWhile (· ≠ 0), value.takeWhile (· ≠ 0)))

/-- The headers, lib/protocols/http.c:238-247. -/
def parseHeaders : Nat → Tok.T → List (Bytes × Bytes) → Res String (Tok.T × Option (List (Bytes × Bytes)))
  | 0, b, _ => .ok (b, none)
  | n + 1, b, hs =>
    let (b, m) := Tok.more b
    if !m then .ok (b, some hs)
    else
      let (b, stop) := Tok.skip_literal b [13, 10]
      if stop then .ok (b, some hs)
      else if hs.length ≥ 100 then .panic "undefined: write outside of an array"
      else (read_header b).bind fun (b, h) =>
        match h with
        | none => .ok (b, none)
        | some h => parseHeaders n b (hs ++ [h])

/-- The body of known length, lib/protocols/http.c:257-263. -/
def bodyLoop : Nat → Tok.T → Bytes → Res String (Tok.T × Option Bytes)
  | 0, b, body => .ok (b, some body)
  | n + 1, b, body =>
    let (b, c) := Tok.get b
    if asChar c = -1 then .ok (b, none)
    else if body.length ≥ 1000 then .panic "undefined: write outside of an array"
    else bodyLoop n b (body ++ [Tok.toByte c])

/-- The body up to the end, lib/protocols/http.c:270-276. -/
def restLoop : Nat → Tok.T → Bytes → Res String (Tok.T × Bytes)
  | 0, b, body => .ok (b, body)
  | n + 1, b, body =>
    let (b, m) := Tok.more b
    if !m then .ok (b, body)
    else if body.length + 1 = 1000 then .panic "body buffer too small"
    else
      let (b, c) := Tok.get b
      restLoop n b (body ++ [Tok.toByte c])

/-- `read_body`, lib/protocols/http.c:253-281: the length and the body. -/
def read_body (b : Tok.T) (hs : List (Bytes × Bytes)) : Res String (Tok.T × Option (Int × Bytes)) :=
  match get_header hs (cstr "Content-Length") with
  | some tmp => (atoi tmp).bind fun n => (bodyLoop n.toNat b []).bind fun (b, body) => .ok (b, body.map fun body => (n, body))
  | none =>
    match get_header hs (cstr "Connection") with
    | none => .panic "undefined: strcmp of NULL"
    | some tmp =>
      if tmp = cstr "close" then (restLoop (Tok.rounds b) b []).bind fun (b, body) => .ok (b, some (0, body))
      else .panic "unknown response body format"

/-- `parse_response`, lib/protocols/http.c:232-251: the response, or `none` for `false`. -/
def parse_response (re : Reader) : Res String (Tok.T × Option Response) :=
  match read_status_line (Tok.new re) with
  | (b, none) => .ok (b, none)
  | (b, some (version, status)) =>
    (parseHeaders (Tok.rounds b) b []).bind fun (b, hs) =>
      match hs with
      | none => .ok (b, none)
      | some hs =>
        (read_body b hs).bind fun (b, body) => .ok (b, body.map fun body => ⟨version, status, hs, body.2, body.1⟩)
end Che.Lib.Http
