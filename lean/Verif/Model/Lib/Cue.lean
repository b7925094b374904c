import Verif.Model.Basic
import Verif.Model.Lib.Tokenizer
import Verif.Model.Lib.Time
import Verif.Model.Lib.Srt

/-!
Model of `lib/formats/cue.c`.

Of an entry only what `readcue` uses is kept.  An array is the string in it.  Lists of tracks are in order; the last one is `t` of `readcue`.
-/
namespace Che.Lib.Cue
open Che.Lib Che.Lib.Tok

/-- `track_t`, lib/formats/cue.c:23-26; the position in microseconds. -/
structure Track where
  title : Bytes
  pos : Int
deriving DecidableEq, Repr

/-- `entry_t`, lib/formats/cue.c:104-114, as far as it is used. -/
inductive Entry
  | other
  | title (s : Bytes)
  | track
  | index (num min sec frames : Int)
deriving DecidableEq, Repr

/-- The loop of `num`, lib/formats/cue.c:165-169. -/
def numLoop : Nat → T → Int → Bool → Res String (T × Int × Bool)
  | 0, b, n, ok => .ok (b, n, ok)
  | k + 1, b, n, ok =>
    let (b, m) := more b
    if !m then .ok (b, n, ok)
    else
      let (b, c) := peek b
      if Tok.isdigit c then
        (Time.int (n * 10)).bind fun n =>
          let (b, c) := get b
          (Time.int (n + (c - 48))).bind fun n => numLoop k b n true
      else .ok (b, n, ok)

/-- `num`, lib/formats/cue.c:162-174. -/
def num (b : T) : Res String (T × Int) :=
  (numLoop (rounds b) b 0 false).bind fun (b, n, ok) => if ok then .ok (b, n) else .panic "expected a number"

/-- `title`, lib/formats/cue.c:177-187. -/
def title (b : T) (n : Nat) : Res String (T × Bytes) :=
  let (b, c) := get b
  if c ≠ 34 then .panic "double quotes expected"
  else
    let (b, ok, buf) := read_until b 34 n
    if !ok then .panic "failed to read title"
    else
      let (b, c) := get b
      if c ≠ 34 then .panic "double quotes expected" else .ok (b, buf)

/-- The line of an index, lib/formats/cue.c:194-199. -/
def lineLoop : Nat → T → Bytes → Res String (T × Bytes)
  | 0, b, val => .ok (b, val)
  | k + 1, b, val =>
    let (b, m) := more b
    if !m then .ok (b, val)
    else
      let (b, c) := get b
      if val.length ≥ 300 then .panic "undefined: write past the end of val"
      else if c = 10 then .ok (b, val ++ [toByte c])
      else lineLoop k b (val ++ [toByte c])

/-- `sscanf` with the format "%d %d:%d:%d", lib/formats/cue.c:201. -/
def scan (val : Bytes) : Res String (Option (Int × Int × Int × Int)) :=
  (Srt.scanInt val).bind fun x =>
    match x with
    | none => .ok none
    | some (num, val) =>
      (Srt.scanMark 58 val).bind fun x =>
        match x with
        | none => .ok none
        | some (min, val) =>
          (Srt.scanMark 58 val).bind fun x =>
            match x with
            | none => .ok none
            | some (sec, val) =>
              (Srt.scanInt val).bind fun x =>
                match x with
                | none => .ok none
                | some (frames, _) => .ok (some (num, min, sec, frames))

/-- `index`, lib/formats/cue.c:189-211. -/
def index (b : T) : Res String (T × Entry) :=
  (lineLoop (rounds b) b []).bind fun (b, val) =>
    if val.length ≥ 300 then .panic "undefined: write past the end of val"
    else
      (scan (Vtt.str val)).bind fun x =>
        match x with
        | none => .panic "couldn't parse index"
        | some (num, min, sec, frames) =>
          if num = 0 ∨ num = 1 then .ok (b, .index num min sec frames) else .panic "unexpected index number"

/-- `index_pos`, lib/formats/cue.c:213-218. -/
def index_pos (min sec frames : Int) : Res String Int :=
  (Time.int (frames.tdiv 75 + sec)).bind fun a => (Time.int (60 * min)).bind fun m => (Time.int (a + m)).bind fun sec => .ok (sec * 1000000)

/-- The entry after its type, lib/formats/cue.c:125-151. -/
def readdata (type : Bytes) (b : T) : Res String (T × Entry) :=
  if type = cstr "REM" then .ok ((read_until b 10 1000).1, .other)
  else if type = cstr "PERFORMER" then (title b 100).bind fun (b, _) => .ok (b, .other)
  else if type = cstr "TITLE" then (title b 100).bind fun (b, s) => .ok (b, .title s)
  else if type = cstr "TRACK" then (num b).bind fun (b, _) => .ok ((read_until (hspaces b) 10 20).1, .track)
  else if type = cstr "INDEX" then index b
  else if type = cstr "FILE" then (title b 100).bind fun (b, _) => .ok ((read_until (hspaces b) 10 20).1, .other)
  else .panic "unknown entry type"

/-- A character, if it is the next one: lib/formats/cue.c:152-157. -/
def skip (c : Int) (b : T) : T :=
  let (b, x) := peek b
  if x = c then (get b).1 else b

/-- `readentry`, lib/formats/cue.c:117-159. -/
def readentry (b : T) : Res String (T × Option Entry) :=
  let (b, m) := more b
  if !m then .ok (b, none)
  else
    let (b, _, type) := read_until (hspaces b) 32 100
    (readdata (Vtt.str type) (hspaces b)).bind fun (b, e) => .ok (skip 10 (skip 13 b), some e)

/-- Changes the last track. -/
def setLast (f : Track → Track) : List Track → List Track
  | [] => []
  | [t] => [f t]
  | t :: ts => t :: setLast f ts

/-- What an entry does, lib/formats/cue.c:55-83. -/
def apply (c : List Track) : Entry → Res String (List Track)
  | .other => .ok c
  | .title s => .ok (setLast (fun t => { t with title := s }) c)
  | .track => if c.length = 100 then .err "tracks limit reached (100)" else .ok (c ++ [⟨[], 0⟩])
  | .index _ min sec frames =>
    if c = [] then .err "unexpected index entry"
    else (index_pos min sec frames).bind fun p => .ok (setLast (fun t => { t with pos := p }) c)

/-- `readcue`, lib/formats/cue.c:51-85.  Every round but the last takes a byte. -/
def readcue : Nat → List Track → T → Res String (List Track)
  | 0, _, _ => .diverge
  | k + 1, c, b =>
    (readentry b).bind fun (b, e) =>
      match e with
      | none => .ok c
      | some e => (apply c e).bind fun c => readcue k c b

/-- `parse`, lib/formats/cue.c:39-49. -/
def parse (s : Bytes) : Res String (List Track) := readcue (s.length + 1) [] (from_str s)

end Che.Lib.Cue
