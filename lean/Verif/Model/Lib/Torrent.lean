import Verif.Model.Basic
import Verif.Model.Lib.IO

/-!
Model of the sizes of `lib/formats/torrent.c`: the pieces of a torrent.  Reading and writing of `.torrent` files is not modelled.
-/
namespace Che.Lib.Torrent
open Che Che.Lib

/-- The fields of `info_t` that are used here, lib/formats/torrent.c:13-43.  A file is its length and its path. -/
structure Info where
  piece_length : UInt64
  name : Bytes
  pieces : Bytes
  length : UInt64
  files : List (UInt64 × Bytes)

/-- `totalsize`, lib/formats/torrent.c:62-71. -/
def totalsize (tf : Info) : UInt64 :=
  if tf.files.length = 0 then tf.length else tf.files.foldl (fun total f => total + f.1) 0

/-- `npieces`, lib/formats/torrent.c:75-82. -/
def npieces (tf : Info) : Res String UInt64 :=
  if tf.piece_length = 0 then .panic "undefined: division by zero"
  else
    let t := totalsize tf
    let n := t / tf.piece_length
    .ok (if t % tf.piece_length ≠ 0 then n + 1 else n)

/-- `lastlen`, lib/formats/torrent.c:87-92. -/
def lastlen (tf : Info) : Res String UInt64 :=
  if tf.piece_length = 0 then .panic "undefined: division by zero"
  else
    let rem := totalsize tf % tf.piece_length
    .ok (if rem ≠ 0 then rem else tf.piece_length)

/-- `piecehash`, lib/formats/torrent.c:54-59. -/
def piecehash (tf : Info) (i : Nat) : Res String Bytes :=
  if 20 * i + 20 ≤ tf.pieces.length then .ok ((tf.pieces.drop (20 * i)).take 20) else .panic "undefined: read outside of an array"
end Che.Lib.Torrent
