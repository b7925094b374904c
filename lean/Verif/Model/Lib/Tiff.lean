import Verif.Model.Basic
import Verif.Model.Lib.IO

/-!
Model of `lib/formats/tiff.c`.

Memory that is allocated is there.  Reading past the end of the data, which the code does not check, is a panic that begins with "undefined".
A directory is the list of its entries.
-/
namespace Che.Lib.Tiff
open Che.Lib

/-- `file_t`, lib/formats/tiff.c:3-11, without the directories. -/
structure F where
  data : Bytes
  pos : Nat
  big : Bool
deriving DecidableEq, Repr

/-- `entry_t`, lib/formats/tiff.c:18-24. -/
structure Entry where
  tag : Nat
  type : Nat
  count : Nat
  value : Nat
deriving DecidableEq, Repr

/-- The loop for most significant bytes first, lib/formats/tiff.c:176-179. -/
def bigLoop : Nat → F → Nat → Res String (F × Nat)
  | 0, f, val => .ok (f, val)
  | n + 1, f, val =>
    match f.data[f.pos]? with
    | none => .panic "undefined: read past the end of the data"
    | some c => bigLoop n { f with pos := f.pos + 1 } ((val * 256 + c.toNat) % 2 ^ 32)

/-- The loop for least significant bytes first, lib/formats/tiff.c:182-186. -/
def littleLoop : Nat → F → Nat → Nat → Res String (F × Nat)
  | 0, f, val, _ => .ok (f, val)
  | n + 1, f, val, scale =>
    match f.data[f.pos]? with
    | none => .panic "undefined: read past the end of the data"
    | some c => littleLoop n { f with pos := f.pos + 1 } ((val + c.toNat * scale) % 2 ^ 32) (scale * 256 % 2 ^ 32)

/-- `readbytes`, lib/formats/tiff.c:172-193. -/
def readbytes (f : F) (n : Nat) : Res String (F × Nat) := if f.big then bigLoop n f 0 else littleLoop n f 0 1

/-- The loop of `read_dir`, lib/formats/tiff.c:116-129. -/
def entries : Nat → F → Res String (F × List Entry)
  | 0, f => .ok (f, [])
  | n + 1, f =>
    (readbytes f 2).bind fun (f, tag) => (readbytes f 2).bind fun (f, type) => (readbytes f 4).bind fun (f, count) => (readbytes f 4).bind fun (f, value) =>
      (entries n f).bind fun (f, es) => .ok (f, { tag, type, count, value } :: es)

/-- `read_dir`, lib/formats/tiff.c:108-135. -/
def read_dir (f : F) : Res String (F × List Entry) := (readbytes f 2).bind fun (f, n) => entries n f

/-- The loop of `parse`, lib/formats/tiff.c:81-89, with a bound on the number of rounds. -/
def dirLoop : Nat → F → Res String (List (List Entry))
  | 0, _ => .diverge
  | k + 1, f =>
    (readbytes f 4).bind fun (f, pos) =>
      if pos = 0 then .ok [] else (read_dir { f with pos := pos }).bind fun (f, d) => (dirLoop k f).bind fun ds => .ok (d :: ds)

/-- The rest of `parse` after the mark, lib/formats/tiff.c:77-90. -/
def parseRest (k : Nat) (f : F) : Res String (List (List Entry)) :=
  (readbytes f 2).bind fun (f, magic) => if magic ≠ 42 then .panic "wrong magic number" else dirLoop k f

/-- `parse`, lib/formats/tiff.c:67-91: the directories. -/
def parse (k : Nat) (data : Bytes) : Res String (List (List Entry)) :=
  (readbytes { data, pos := 0, big := false } 2).bind fun (f, mark) =>
    if mark = 0x4949 then parseRest k f
    else if mark = 0x4D4D then parseRest k { f with big := true }
    else .panic "wrong endiannes marker"

/-- The loop of `getstring`, lib/formats/tiff.c:158-160. -/
def copyLoop : Nat → F → Bytes → Res String Bytes
  | 0, _, buf => .ok buf
  | n + 1, f, buf =>
    match f.data[f.pos]? with
    | none => .panic "undefined: read past the end of the data"
    | some c => copyLoop n { f with pos := f.pos + 1 } (buf ++ [c])

/-- `getstring`, lib/formats/tiff.c:154-162: the bytes before the zero that is added. -/
def getstring (f : F) (e : Entry) : Res String Bytes := copyLoop e.count { f with pos := e.value } []

end Che.Lib.Tiff
