import Verif.Model.Lib.Torrent
import Verif.Model.Lib.Enc
import Verif.Model.Lib.Sha1

/-!
Model of `prog/torrent/files.c`: the pieces of a torrent in files.

The disk is a function from paths to what is in the files there; directories exist, and files can be opened and written.  Texts of paths fit
into their arrays: a name and a path have fewer than 200 bytes.
-/
namespace Che.Prog.Torrent
open Che Che.Lib Che.Lib.Torrent

/-- `range_t`, prog/torrent/files.c:13-17. -/
structure Range where
  index : UInt32
  begin : UInt32
  length : UInt32
deriving DecidableEq

/-- `file_slice_t`, prog/torrent/files.c:22-26. -/
structure Slice where
  path : Bytes
  begin : UInt64
  length : UInt64
deriving DecidableEq

/-- `file_t`, prog/torrent/files.c:28-32. -/
structure File where
  path : Bytes
  beginpos : UInt64
  endpos : UInt64
deriving DecidableEq

/-- `maxsz` and `minsz`, prog/torrent/lib.c:3-10. -/
def maxsz (a b : UInt64) : UInt64 := if a < b then b else a
def minsz (a b : UInt64) : UInt64 := if a < b then a else b

/-- The loop of `get_file_list`, prog/torrent/files.c:76-85. -/
def fileLoop (name : Bytes) : UInt64 → List (UInt64 × Bytes) → List File
  | _, [] => []
  | pos, (n, path) :: rest => { path := name ++ cstr "/" ++ path, beginpos := pos, endpos := pos + n } :: fileLoop name (pos + n) rest

/-- `get_file_list`, prog/torrent/files.c:65-87. -/
def get_file_list (tf : Info) : List File :=
  if tf.length > 0 then [{ path := tf.name, beginpos := 0, endpos := tf.length }] else fileLoop tf.name 0 tf.files

/-- The body of the loop of `map`, prog/torrent/files.c:45-56. -/
def slice (a b : UInt64) (f : File) : Option Slice :=
  if f.endpos ≤ a ∨ f.beginpos ≥ b then none
  else
    let af := maxsz f.beginpos a
    let bf := minsz f.endpos b
    some { path := f.path, begin := af - f.beginpos, length := bf - af }

/-- `map`, prog/torrent/files.c:35-61. -/
def map (tf : Info) (s : Range) : List Slice :=
  let a := s.index.toUInt64 * tf.piece_length + s.begin.toUInt64
  let b := a + s.length.toUInt64
  (get_file_list tf).filterMap (slice a b)

/-- What is in the files. -/
abbrev Disk := Bytes → Option Bytes

/-- A file after `fseek` to `begin` and `fwrite`: what is between the end and `begin` becomes zero. -/
def put (old : Bytes) (begin : Nat) (new : Bytes) : Bytes :=
  if new = [] then old else (old ++ List.replicate (begin - old.length) 0).take begin ++ new ++ old.drop (begin + new.length)

/-- A `size_t` that is cast to `int`. -/
def toInt (n : Nat) : Int := if n % 2 ^ 32 < 2 ^ 31 then (n % 2 ^ 32 : Nat) else ((n % 2 ^ 32 : Nat) : Int) - 2 ^ 32

/-- `_write`, prog/torrent/files.c:129-140. -/
def write (d : Disk) (path : Bytes) (s : Slice) (buf : Bytes) : Res String (Disk × Int) :=
  if buf.length < s.length.toNat then .panic "undefined: read outside of an array"
  else .ok (fun p => if p = path then some (put ((d path).getD []) s.begin.toNat (buf.take s.length.toNat)) else d p, toInt s.length.toNat)

/-- `_read`, prog/torrent/files.c:142-151. -/
def read (d : Disk) (path : Bytes) (s : Slice) (buf : Bytes) : Res String (Bytes × Int) :=
  match d path with
  | none => .ok (buf, -1)
  | some file =>
    let got := (file.drop s.begin.toNat).take s.length.toNat
    if buf.length < got.length then .panic "undefined: write outside of an array" else .ok (got ++ buf.drop got.length, toInt got.length)

/-- `c += r` with an `int`. -/
def count (c r : Int) : Res String Int := if c + r ≥ 2 ^ 31 then .panic "undefined: int overflow" else .ok (c + r)

/-- The loop of `sliceop` that writes, prog/torrent/files.c:109-124. -/
def writeLoop (pre : Bytes) (buf : Bytes) : List Slice → Disk → Int → Res String (Disk × Int)
  | [], d, c => .ok (d, c)
  | s :: rest, d, c =>
    (write d (pre ++ cstr "/" ++ s.path) s buf).bind fun (d, r) =>
      if r < 0 then .ok (d, -1) else (count c r).bind fun c => writeLoop pre buf rest d c

/-- The loop of `sliceop` that reads, prog/torrent/files.c:109-124. -/
def readLoop (pre : Bytes) (d : Disk) : List Slice → Bytes → Int → Res String (Bytes × Int)
  | [], buf, c => .ok (buf, c)
  | s :: rest, buf, c =>
    (read d (pre ++ cstr "/" ++ s.path) s buf).bind fun (buf, r) =>
      if r < 0 then .ok (buf, -1) else (count c r).bind fun c => readLoop pre d rest buf c

/-- `writeslice`, prog/torrent/files.c:90-95. -/
def writeslice (pre : Bytes) (tf : Info) (s : Range) (data : Bytes) (d : Disk) : Res String Disk :=
  (writeLoop pre data (map tf s) d 0).bind fun (d, c) => if c < 0 then .panic "sliceop failed" else .ok d

/-- `readslice`, prog/torrent/files.c:98-103: the buffer then. -/
def readslice (pre : Bytes) (tf : Info) (s : Range) (buf : Bytes) (d : Disk) : Res String Bytes :=
  (readLoop pre d (map tf s) buf 0).bind fun (buf, c) => if c < 0 then .panic "sliceop failed" else .ok buf

/-- `get_piece_length`, prog/torrent/files.c:187-192. -/
def get_piece_length (tf : Info) (i : UInt64) : Res String UInt64 :=
  (npieces tf).bind fun n => if i = n - 1 then lastlen tf else .ok tf.piece_length

/-- `sha1`, prog/torrent/files.c:173-179. -/
def sha1 (data : Bytes) : Res String Bytes :=
  match Sha1.digest data with
  | .ok d => .ok d
  | .panic m => .panic m
  | .err _ => .panic "no error"
  | .diverge => .diverge

/-- `check_piece`, prog/torrent/files.c:153-184. -/
def check_piece (pre : Bytes) (tf : Info) (i : UInt64) (d : Disk) : Res String Bool :=
  (piecehash tf i.toNat).bind fun hash1 =>
  (get_piece_length tf i).bind fun piecelen =>
  (readslice pre tf { index := i.toUInt32, begin := 0, length := piecelen.toUInt32 } (List.replicate tf.piece_length.toNat 0) d).bind fun piece =>
  if piece.length < piecelen.toNat then .panic "undefined: read outside of an array"
  else (sha1 (piece.take piecelen.toNat)).bind fun hash2 => .ok (hash1 == hash2)
end Che.Prog.Torrent
