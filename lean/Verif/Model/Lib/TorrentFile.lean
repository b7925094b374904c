import Verif.Model.Lib.Torrent
import Verif.Model.Lib.Bencode
import Verif.Model.Lib.Sha1

/-!
Model of `.torrent` files: `parse` and `writefile` of `lib/formats/torrent.c`, and `prog/torrent/cmd_create.c`.

Arrays of `char` are lists of all their bytes.  What a file entry holds before it is read is `junk` (the memory of `realloc`).
What is printed to `stderr` or `stdout` is not modelled.  A file takes all that is written to it, if nothing else is said.
-/
namespace Che.Lib.TorrentFile
open Che Che.Lib Che.Lib.Torrent Che.Lib.Bencode

/-- `info_t`, lib/formats/torrent.c:13-43; files are lengths and arrays of 200 bytes, lib/formats/torrent.c:8-11. -/
structure Meta where
  announce : Bytes
  created_by : Bytes
  creation_date : Int
  comment : Bytes
  piece_length : UInt64
  name : Bytes
  pieces : Bytes
  length : UInt64
  files : List (UInt64 × Bytes)
  infohash : Bytes
  infohash_bytes : Bytes
  priv : Bool

/-- Memory from `calloc`. -/
def zero : Meta :=
  { announce := List.replicate 200 0, created_by := List.replicate 200 0, creation_date := 0, comment := List.replicate 200 0, piece_length := 0, name := List.replicate 200 0,
    pieces := [], length := 0, files := [], infohash := List.replicate 41 0, infohash_bytes := List.replicate 20 0, priv := false }

/-- The text in an array. -/
def text (a : Bytes) : Bytes := a.takeWhile (· ≠ 0)

/-- What the rest of the program gets: texts end at the first zero. -/
def Meta.toInfo (m : Meta) : Info :=
  { piece_length := m.piece_length, name := text m.name, pieces := m.pieces, length := m.length, files := m.files.map fun f => (f.1, text f.2) }

/-- An `int` that becomes a `size_t`. -/
def toSize (n : Int) : UInt64 := UInt64.ofNat (n % 2 ^ 64).toNat

/-- `strcat` in an array of 200 bytes. -/
def strcat (a b : Bytes) : Res Unit Bytes :=
  if (text a).length + b.length + 1 > 200 then .panic "undefined: write outside of an array"
  else .ok (text a ++ b ++ 0 :: a.drop ((text a).length + b.length + 1))

/-- One part of a path, lib/formats/torrent.c:203-216. -/
def readpart (r : R) (first : Bool) (buf : Bytes) : Res Unit (R × Bytes) := do
  let (r, tmp, _) ← readbuf r 1000
  if (0 : UInt8) ∉ tmp then .panic "undefined: read outside of an array"
  else if first then
    if (text buf).length + (text tmp).length > 200 then .panic "buffer too small for the path"
    else do
      let buf ← strcat buf (text tmp)
      .ok (r, buf)
  else
    if (text buf).length + (text tmp).length + 1 > 200 then .panic "buffer too small for the path"
    else do
      let buf ← strcat buf (cstr "/")
      let buf ← strcat buf (text tmp)
      .ok (r, buf)

/-- The loop of `readpath`, lib/formats/torrent.c:202-217; a part takes a byte at least. -/
def pathLoop : Nat → R → Bool → Bytes → Res Unit (R × Bytes)
  | 0, _, _, _ => .diverge
  | k + 1, r, first, buf =>
    if more r then do
      let (r, buf) ← readpart r first buf
      pathLoop k r false buf
    else .ok (r, buf)

/-- `readpath`, lib/formats/torrent.c:195-219. -/
def readpath (r : R) : Res Unit (R × Bytes) := do
  let r ← enter r
  let (r, buf) ← pathLoop (r.data.length + 1) r true (List.replicate 200 0)
  let r ← leave r
  .ok (r, buf)

/-- The loop of `parse_file`, lib/formats/torrent.c:182-191. -/
def fileLoop : Nat → R → UInt64 × Bytes → Res Unit (R × (UInt64 × Bytes))
  | 0, _, _ => .diverge
  | k + 1, r, f =>
    if more r then do
      let (r, buf, _) ← key r 1000
      if text buf = cstr "path" then do
        let (r, path) ← readpath r
        fileLoop k r (f.1, path)
      else if text buf = cstr "length" then do
        let (r, n) ← readnum r
        fileLoop k r (toSize n, f.2)
      else .panic "unknown file entry key"
    else .ok (r, f)

/-- `parse_file`, lib/formats/torrent.c:174-193, with `allocfiles`, lib/formats/torrent.c:221-233: there is room for 10, 100, 1000 and then 10000 files. -/
def parse_file (junk : UInt64 × Bytes) (r : R) (m : Meta) : Res Unit (R × Meta) :=
  if m.files.length = 10000 then .panic "too many files"
  else do
    let r ← enter r
    let (r, f) ← fileLoop (r.data.length + 1) r junk
    let r ← leave r
    .ok (r, { m with files := m.files ++ [f] })

/-- The loop over files, lib/formats/torrent.c:161-163. -/
def filesLoop (junk : UInt64 × Bytes) : Nat → R → Meta → Res Unit (R × Meta)
  | 0, _, _ => .diverge
  | k + 1, r, m =>
    if more r then do
      let (r, m) ← parse_file junk r m
      filesLoop junk k r m
    else .ok (r, m)

/-- One entry, lib/formats/torrent.c:149-169. -/
def infoEntry (junk : UInt64 × Bytes) (k : Bytes) (r : R) (m : Meta) : Res Unit (R × Meta) :=
  if k = cstr "name" then do
    let (r, a, _) ← readbuf r 200
    .ok (r, { m with name := a })
  else if k = cstr "piece length" then do
    let (r, n) ← readnum r
    .ok (r, { m with piece_length := toSize n })
  else if k = cstr "length" then do
    let (r, n) ← readnum r
    .ok (r, { m with length := toSize n })
  else if k = cstr "pieces" then do
    let (r, n) ← strsize r
    if n < 0 then .panic "calloc failed"
    else do
      let (r, a, _) ← readbuf r n.toNat
      .ok (r, { m with pieces := a })
  else if k = cstr "files" then do
    let r ← enter r
    let (r, m) ← filesLoop junk (r.data.length + 1) r m
    let r ← leave r
    .ok (r, m)
  else if k = cstr "private" then do
    let (r, n) ← readnum r
    .ok (r, { m with priv := n ≠ 0 })
  else .panic "UNKNOWN info"

/-- The loop of `parse_info`, lib/formats/torrent.c:146-170. -/
def infoLoop (junk : UInt64 × Bytes) : Nat → R → Meta → Res Unit (R × Meta)
  | 0, _, _ => .diverge
  | k + 1, r, m =>
    if more r then do
      let (r, buf, _) ← key r 1000
      let (r, m) ← infoEntry junk (text buf) r m
      infoLoop junk k r m
    else .ok (r, m)

/-- `parse_info`, lib/formats/torrent.c:143-172. -/
def parse_info (junk : UInt64 × Bytes) (r : R) (m : Meta) : Res Unit (R × Meta) := do
  let r ← enter r
  let (r, m) ← infoLoop junk (r.data.length + 1) r m
  let r ← leave r
  .ok (r, m)

/-- One entry, lib/formats/torrent.c:111-128; `span` is `info_begin` and `info_end`.  An unknown key is printed. -/
def topEntry (junk : UInt64 × Bytes) (buf : Bytes) (r : R) (m : Meta) (span : Nat × Nat) : Res Unit (R × Meta × Nat × Nat) :=
  if text buf = cstr "announce" then do
    let (r, a, _) ← readbuf r 200
    .ok (r, { m with announce := a }, span)
  else if text buf = cstr "creation date" then do
    let (r, n) ← readnum r
    .ok (r, { m with creation_date := n }, span)
  else if text buf = cstr "created by" then do
    let (r, a, _) ← readbuf r 200
    .ok (r, { m with created_by := a }, span)
  else if text buf = cstr "comment" then do
    let (r, a, _) ← readbuf r 200
    .ok (r, { m with comment := a }, span)
  else if text buf = cstr "announce-list" then do
    let (r, _) ← skip (r.data.length + 1) r
    .ok (r, m, span)
  else if text buf = cstr "info" then do
    let (r', m) ← parse_info junk r m
    .ok (r', m, r.pos, r'.pos)
  else if text buf = cstr "encoding" then do
    let (r, _) ← skip (r.data.length + 1) r
    .ok (r, m, span)
  else if (0 : UInt8) ∉ buf then .panic "undefined: read outside of an array"
  else do
    let (r, _) ← skip (r.data.length + 1) r
    .ok (r, m, span)

/-- The loop of `parse`, lib/formats/torrent.c:109-129. -/
def topLoop (junk : UInt64 × Bytes) : Nat → R → Meta → Nat × Nat → Res Unit (R × Meta × Nat × Nat)
  | 0, _, _, _ => .diverge
  | k + 1, r, m, span =>
    if more r then do
      let (r, buf, _) ← key r 1000
      let (r, m, span) ← topEntry junk buf r m span
      topLoop junk k r m span
    else .ok (r, m, span)

/-- `parse`, lib/formats/torrent.c:100-141.  (The hash in hex: of all 20 bytes, as `sha1.format`.) -/
def parse (junk : UInt64 × Bytes) (data : Bytes) : Res Unit Meta := do
  let r ← enter (newreader data)
  let (r, m, a, b) ← topLoop junk (data.length + 1) r zero (0, 0)
  let _ ← leave r
  let hash ← Sha1.digest ((data.drop a).take (b - a))
  .ok { m with infohash := hash.flatMap Hex.writebyte ++ [0], infohash_bytes := hash }

/-! ### Writing -/

/-- Calls of the writer one after another; the results are not looked at, lib/formats/torrent.c:243-255. -/
def calls : List (W → Res Unit (W × Bool)) → W → Res Unit W
  | [], w => .ok w
  | f :: fs, w => do
    let (w, _) ← f w
    calls fs w

/-- `writestr`, lib/formats/torrent.c:259-261. -/
def writestr (s : Bytes) (w : W) : Res Unit (W × Bool) := buf w s

/-- `writefile`, lib/formats/torrent.c:235-257; the file may have limited room. -/
def writefile (room : Option Nat) (m : Meta) : Res Unit (Bytes × Bool) :=
  if m.piece_length = 0 then .panic "undefined: division by zero"
  else
    let npieces := m.length / m.piece_length
    let npieces := if m.length % m.piece_length ≠ 0 then npieces + 1 else npieces
    if (npieces * 20).toNat > m.pieces.length then .panic "undefined: read outside of an array"
    else do
      let w ← calls
        [ fun w => begin w 100,
          writestr (cstr "announce"), writestr (text m.announce),
          writestr (cstr "comment"), writestr (text m.comment),
          writestr (cstr "created by"), writestr (text m.created_by),
          writestr (cstr "creation date"), fun w => wnum w m.creation_date,
          writestr (cstr "info"),
          fun w => begin w 100,
          writestr (cstr "length"), fun w => wnum w (Sha1.toInt m.length.toNat),
          writestr (cstr "name"), writestr (text m.name),
          writestr (cstr "piece length"), fun w => wnum w (Sha1.toInt m.piece_length.toNat),
          writestr (cstr "pieces"), fun w => buf w (m.pieces.take (npieces * 20).toNat),
          fun w => .ok (finish w),
          fun w => .ok (finish w) ] (tofile room)
      .ok (w.out, true)

/-! ### prog/torrent/cmd_create.c -/

/-- `PIECE_LENGTH`, prog/torrent/cmd_create.c:6. -/
def PIECE_LENGTH : Nat := 256 * 1024

/-- `strcpy` to an array of 200 bytes. -/
def strcpy (a s : Bytes) : Res Unit Bytes :=
  if s.length + 1 > 200 then .panic "undefined: write outside of an array" else .ok (s ++ 0 :: a.drop (s.length + 1))

/-- `newtorrent`, prog/torrent/cmd_create.c:28-36; `now` is the time. -/
def newtorrent (now : Int) : Res Unit Meta := do
  let a ← strcpy (List.replicate 200 0) (cstr "http://localhost:8000/announce")
  .ok { zero with announce := a, creation_date := now, piece_length := UInt64.ofNat PIECE_LENGTH }

/-- `addpiece`, prog/torrent/cmd_create.c:67-86: pieces are added in order.  (What is in memory after the digests is not modelled.) -/
def addpiece (m : Meta) (piece : Bytes) : Res Unit Meta := do
  let hash ← Sha1.digest piece
  .ok { m with pieces := m.pieces ++ hash, length := m.length + UInt64.ofNat piece.length }

/-- The loop of `addfile`, prog/torrent/cmd_create.c:51-62. -/
def addLoop : Bytes → Bytes → Meta → Res Unit Meta
  | [], piece, m => if piece.length > 0 then addpiece m piece else .ok m
  | c :: rest, piece, m =>
    if piece.length = PIECE_LENGTH then do
      let m ← addpiece m piece
      addLoop rest [c] m
    else addLoop rest (piece ++ [c]) m

/-- `basename`, lib/os/fs.c:215-223. -/
def basename (path : Bytes) : Bytes := go path path
where
  go : Bytes → Bytes → Bytes
    | [], last => last
    | c :: p, last => go p (if c = 47 then p else last)

/-- `addfile`, prog/torrent/cmd_create.c:38-65, for a file with the contents `data`. -/
def addfile (m : Meta) (path data : Bytes) : Res Unit Meta := do
  let a ← strcpy m.name (basename path)
  addLoop data [] { m with name := a }

/-- `run`, prog/torrent/cmd_create.c:8-26: what is in the output file. -/
def create (now : Int) (path data : Bytes) : Res Unit Bytes := do
  let m ← newtorrent now
  let m ← addfile m path data
  let (out, _) ← writefile none m
  .ok out
end Che.Lib.TorrentFile
