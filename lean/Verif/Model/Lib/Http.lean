import Verif.Model.Lib.Tokenizer
import Verif.Model.Lib.Opt

/-!
Model of the requests of `lib/protocols/http.c`.

The arrays of `request_t` are modelled by what has been put into them: texts without the
terminating zero.  Writing behind the end of an array is undefined and is a panic here.
-/
namespace Che.Lib.Http
open Che.Lib

/-- `request_t`, lib/protocols/http.c:40-55. -/
structure Request where
  version : Bytes
  method : Bytes
  path : Bytes
  params : List (Bytes × Bytes)
  headers : List (Bytes × Bytes)
  uri : Bytes
  filename : Bytes
  query : Bytes
deriving DecidableEq, Repr

/-- A request after `memset`. -/
def empty : Request := ⟨[], [], [], [], [], [], [], []⟩

/-- `strcpy` to an array of `size` bytes. -/
def strcpy (size : Nat) (s : Bytes) : Res String Bytes :=
  if s.length < size then .ok s else .panic "undefined: write outside of an array"

/-- `method_from_string`, lib/protocols/http.c:22-27. -/
def method_from_string (s : Bytes) : Nat :=
  if Strings.casecmp s (cstr "GET") then 1
  else if Strings.casecmp s (cstr "POST") then 2
  else if Strings.casecmp s (cstr "HEAD") then 3
  else 0

/-- The `switch` of `init_request`, lib/protocols/http.c:105-113. -/
def methodstring (method : Nat) : Option Bytes :=
  match method with
  | 1 => some (cstr "GET")
  | 2 => some (cstr "POST")
  | 3 => some (cstr "HEAD")
  | _ => none

/-- `newreq`, lib/protocols/http.c:79-85, with `init_request`, lib/protocols/http.c:102-118. -/
def newreq (method : Nat) (path : Bytes) : Res String Request :=
  match methodstring method with
  | none => .panic "init_request failed"
  | some m => (strcpy 1024 path).bind fun uri => .ok { empty with method := m, uri := uri, version := cstr "HTTP/1.0" }

/-- `reqparam`, lib/protocols/http.c:95-100. -/
def reqparam (r : Request) (name data : Bytes) : Res String Request :=
  if r.params.length ≥ 100 then .panic "undefined: write outside of an array"
  else (strcpy 1024 name).bind fun name =>
    if data.length > 1024 then .panic "undefined: write outside of an array"
    else .ok { r with params := r.params ++ [(name, data)] }

/-- `set_header`, lib/protocols/http.c:120-125. -/
def set_header (r : Request) (name value : Bytes) : Res String Request :=
  if r.headers.length ≥ 100 then .panic "undefined: write outside of an array"
  else (strcpy 1024 name).bind fun name => (strcpy 1024 value).bind fun value => .ok { r with headers := r.headers ++ [(name, value)] }

/-- The encoded value of a parameter, lib/protocols/http.c:146-149: what `tmp` has before a zero. -/
def encoded (value : Bytes) : Res String Bytes :=
  let w := (UrlEncode.write (Writer.toBuffer 1000) value).1
  if w.out.length < 1000 then .ok w.out else .panic "undefined: read outside of an array"

/-- The loop over the parameters, lib/protocols/http.c:136-152. -/
def writeParams (first : Bool) (sb : StrBuilder.Str) : List (Bytes × Bytes) → Res String StrBuilder.Str
  | [] => .ok sb
  | (name, value) :: rest =>
    let sb := (StrBuilder.adds sb (if first then cstr "?" else cstr "&")).1
    let sb := (StrBuilder.adds sb name).1
    let sb := (StrBuilder.adds sb (cstr "=")).1
    (encoded value).bind fun tmp => writeParams false (StrBuilder.adds sb tmp).1 rest

/-- The loop over the headers, lib/protocols/http.c:159-165. -/
def writeHeaders (sb : StrBuilder.Str) : List (Bytes × Bytes) → StrBuilder.Str
  | [] => sb
  | (name, value) :: rest =>
    let sb := (StrBuilder.adds sb name).1
    let sb := (StrBuilder.adds sb (cstr ": ")).1
    let sb := (StrBuilder.adds sb value).1
    writeHeaders (StrBuilder.adds sb [13, 10]).1 rest

/-- `write_request`, lib/protocols/http.c:129-175: the writer and the result. -/
def write_request (w : Writer) (r : Request) : Res String (Writer × Int) :=
  let sb := (StrBuilder.addf StrBuilder.new (r.method ++ [32] ++ r.uri)).1
  (writeParams true sb r.params).bind fun sb =>
    let sb := (StrBuilder.adds sb [32]).1
    let sb := (StrBuilder.adds sb r.version).1
    let sb := (StrBuilder.adds sb [13, 10]).1
    let sb := writeHeaders sb r.headers
    let sb := (StrBuilder.adds sb [13, 10]).1
    let s := StrBuilder.raw sb
    let (w, len) := w.write s
    if len ≠ s.length then .ok (w, -1) else .ok (w, len)

/-- `get_header`, lib/protocols/http.c:178-187: the value. -/
def get_header (headers : List (Bytes × Bytes)) (name : Bytes) : Option Bytes :=
  match headers with
  | [] => none
  | (n, v) :: rest => if name = n then some v else get_header rest name

/-- `strrchr(path, '/') + 1`, lib/protocols/http.c:220-226: what is after the last slash. -/
def afterSlash (path : Bytes) : Option Bytes :=
  match path with
  | [] => none
  | c :: rest =>
    match afterSlash rest with
    | some s => some s
    | none => if c = 47 then some rest else none

/-- `parse_query`, lib/protocols/http.c:202-228. -/
def parse_query (r : Request) : Request :=
  let uri := r.uri.takeWhile (· ≠ 0)
  let path := uri.takeWhile (· ≠ 63)
  let p := uri.dropWhile (· ≠ 63)
  { r with
    path := path
    query := match p with | _ :: q => q | [] => r.query
    filename := match afterSlash path with | some f => f | none => r.filename }

/-- The first line of `read_request`, lib/protocols/http.c:348-354. -/
def readFirst (b : Tok.T) : Tok.T × Option (Bytes × Bytes × Bytes) :=
  let (b, ok, method) := Tok.read_until b 32 10
  if !ok then (b, none)
  else
    let (b, ok) := Tok.buf_skip b 32
    if !ok then (b, none)
    else
      let (b, ok, uri) := Tok.read_until b 32 1024
      if !ok then (b, none)
      else
        let (b, ok) := Tok.buf_skip b 32
        if !ok then (b, none)
        else
          let (b, ok, version) := Tok.read_until b 13 10
          if !ok then (b, none)
          else
            let (b, ok) := Tok.skip_literal b [13, 10]
            if !ok then (b, none) else (b, some (method, uri, version))

/-- A header, lib/protocols/http.c:362-368. -/
def readHeader (b : Tok.T) : Tok.T × Option (Bytes × Bytes) :=
  let (b, ok, name) := Tok.read_until b 58 1024
  if !ok then (b, none)
  else
    let (b, ok) := Tok.skip_literal b [58, 32]
    if !ok then (b, none)
    else
      let (b, ok, value) := Tok.read_until b 13 1024
      if !ok then (b, none)
      else
        let (b, ok) := Tok.skip_literal b [13, 10]
        if !ok then (b, none) else (b, some (name, value))

/-- The headers, lib/protocols/http.c:358-369. -/
def readHeaders : Nat → Tok.T → List (Bytes × Bytes) → Res String (Tok.T × Option (List (Bytes × Bytes)))
  | 0, b, _ => .ok (b, none)
  | n + 1, b, hs =>
    let (b, stop) := Tok.skip_literal b [13, 10]
    if stop then .ok (b, some hs)
    else if hs.length ≥ 100 then .panic "undefined: write outside of an array"
    else
      match readHeader b with
      | (b, none) => .ok (b, none)
      | (b, some h) => readHeaders n b (hs ++ [h])

/-- `read_request`, lib/protocols/http.c:343-372: the request, or `none` for `false`; and the
tokenizer at the end. -/
def read_request (br : Reader) : Res String (Tok.T × Option Request) :=
  match readFirst (Tok.new br) with
  | (b, none) => .ok (b, none)
  | (b, some (method, uri, version)) =>
    let r := parse_query { empty with method := method, uri := uri, version := version }
    (readHeaders (Tok.rounds b) b []).bind fun (b, hs) =>
      match hs with
      | none => .ok (b, none)
      | some hs => .ok (b, some { r with headers := hs })
end Che.Lib.Http
