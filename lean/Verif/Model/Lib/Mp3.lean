import Verif.Model.Basic
import Verif.Model.Lib.Bits
import Verif.Model.Lib.Enc

/-!
Model of `lib/formats/mp3.c` and of the splitting in `prog/mp3cuespl/mp3cuespl.c`.

A file is the bytes that are left of it, and whether a read has met its end.  The array `frame` is a list of 1100 bytes.  `time` does not overflow.
Of the Xing header only the name is modelled: the other fields are read from the array and not used.
-/
namespace Che.Lib.Mp3
open Che.Lib Che.Lib.Bits

/-- `bitrates`, lib/formats/mp3.c:13-16. -/
def bitrates : List Nat := [0, 32, 40, 48, 56, 64, 80, 96, 112, 128, 160, 192, 224, 256, 320]

/-- `frequencies`, lib/formats/mp3.c:19. -/
def frequencies : List Nat := [44100, 48000, 32000]

/-- `header_t`, lib/formats/mp3.c:25-30. -/
structure Header where
  bitrate : Nat
  freq : Nat
  mode : Int
  padded : Bool
deriving DecidableEq, Repr

/-- `reader_t`, lib/formats/mp3.c:32-41; `info` has the `infoframelen` bytes of `infoframe`. -/
structure R where
  rest : Bytes
  eof : Bool
  time : Nat
  h : Header
  framelen : Nat
  frame : Bytes
  info : Bytes
deriving DecidableEq, Repr

/-- The frequency, lib/formats/mp3.c:226-234. -/
def readfreq (h : Header) (index : Int) : Res String (Option Header) :=
  match frequencies[index.toNat]? with
  | none => .ok none
  | some f => if f ≠ 44100 then .panic "Unsupported sampling frequency" else .ok (some { h with freq := f })

/-- The fields of the header after the checks, lib/formats/mp3.c:222-247: `h` may change also when the result is false. -/
def readfields (s : BitReader) (h : Header) : Res String (Header × Bool) :=
  let (s, index) := readn s 4
  match bitrates[index.toNat]? with
  | none => .panic "undefined: read outside of an array"
  | some b =>
    let h := { h with bitrate := b }
    let (s, index) := readn s 2
    (readfreq h index).bind fun o =>
      match o with
      | none => .ok (h, false)
      | some h =>
        let (s, tmp) := readn s 1
        let (s, _) := readn s 1
        let (_, mode) := readn s 2
        .ok ({ h with padded := tmp == 1, mode }, true)

/-- `readheader`, lib/formats/mp3.c:184-248. -/
def readheader (s : BitReader) (h : Header) : Res String (Header × Bool) :=
  let (s, a) := readn s 8
  if a ≠ 255 then .ok (h, false)
  else
    let (s, a) := readn s 4
    if a ≠ 15 then .ok (h, false)
    else
      let (s, a) := readn s 1
      if a ≠ 1 then .ok (h, false)
      else
        let (s, a) := readn s 2
        if a ≠ 1 then .ok (h, false)
        else
          let (s, a) := readn s 1
          if a = 0 then .panic "+CRC" else readfields s h

/-- Bytes stored in an array. -/
def store (arr : Bytes) (i : Nat) (s : Bytes) : Bytes := arr.take i ++ s ++ arr.drop (i + s.length)

/-- The length of a frame, lib/formats/mp3.c:166-169. -/
def framelength (h : Header) : Nat := 144 * (h.bitrate * 1000) / 44100 + (if h.padded then 1 else 0)

/-- The rest of a frame, lib/formats/mp3.c:166-181. -/
def readrest (f : R) : R × Bool :=
  let len := framelength f.h
  let got := f.rest.take (len - 4)
  let f := { f with rest := f.rest.drop (len - 4), frame := store f.frame 4 got }
  if got.length < len - 4 then ({ f with eof := true }, false)
  else ({ f with framelen := len, time := f.time + 1152 * 1000000 / f.h.freq }, true)

/-- `readframe`, lib/formats/mp3.c:141-182. -/
def readframe (f : R) : Res String (R × Bool) :=
  let got := f.rest.take 4
  let f := { f with rest := f.rest.drop 4, frame := store f.frame 0 got }
  if got.length < 4 then .ok ({ f with eof := true }, false)
  else
    (readheader (newreader (Reader.ofBuffer (f.frame.take 4)) false) f.h).bind fun (h, r) =>
      let f := { f with h }
      if r then .ok (readrest f) else .ok (f, false)

/-- `info_frame`, lib/formats/mp3.c:89-115, with the start of `read_xing`, lines 274-281. -/
def info_frame (r : R) : Bool :=
  let side := if r.h.mode = 3 then 17 else 32
  (r.frame.drop (4 + side)).take 4 = cstr "Xing"

/-- The search for the first frame, lib/formats/mp3.c:68-72, with `fpeek`, lines 257-262. -/
def syncLoop : Nat → R → Res String R
  | 0, _ => .diverge
  | n + 1, m =>
    if m.rest = [] then .ok { m with eof := true }
    else (readframe m).bind fun (m, found) => if found then .ok m else syncLoop n m

/-- The end of `open_reader`, lib/formats/mp3.c:81-86. -/
def opened (m : R) : Option R := if m.eof then none else some m

/-- `open_reader`, lib/formats/mp3.c:57-87, for a file that can be opened; `none` is the error. -/
def open_reader (file : Bytes) : Res String (Option R) :=
  (syncLoop (file.length + 1) { rest := file, eof := false, time := 0, h := ⟨0, 0, 0, false⟩, framelen := 0, frame := List.replicate 1100 0, info := [] }).bind fun m =>
    if info_frame m then
      (readframe { m with time := 0, info := m.frame.take m.framelen }).bind fun (m, _) => .ok (opened m)
    else .ok (opened m)

/-- `nextframe`, lib/formats/mp3.c:129-137. -/
def nextframe (f : R) : Res String (R × Bool) :=
  (readframe f).bind fun (f, ok) =>
    if ok then .ok (f, true)
    else if f.eof then .ok (f, false)
    else .panic "stream error"

/-- `write_frame`, lib/formats/mp3.c:251-255. -/
def write_frame (f : R) : Bytes := f.frame.take f.framelen

/-- The loop of `write_track`, prog/mp3cuespl/mp3cuespl.c:144-152: the frames that are written; `none` for `SIZE_MAX`. -/
def trackLoop (pos : Option Nat) : Nat → R → Res String (R × List Bytes)
  | 0, _ => .diverge
  | n + 1, m =>
    if (match pos with | none => true | some p => decide (m.time < p)) then
      (nextframe m).bind fun (m', more) =>
        if more then (trackLoop pos n m').bind fun (r, fs) => .ok (r, write_frame m :: fs)
        else .ok (m', [write_frame m])
    else .ok (m, [])

/-- A number of 32 bits, most significant byte first. -/
def be32 (n : Nat) : Bytes := [UInt8.ofNat (n / 16777216), UInt8.ofNat (n / 65536), UInt8.ofNat (n / 256), UInt8.ofNat n]

/-- The positions of the frames, prog/mp3cuespl/mp3cuespl.c:145-148, from `bytes` on. -/
def offsets : Nat → List Bytes → List Nat
  | _, [] => []
  | bytes, f :: fs => bytes :: offsets ((bytes + f.length) % 2 ^ 32) fs

/-- A byte of the table, prog/mp3cuespl/mp3cuespl.c:158-162. -/
def tocByte (offs : List Nat) (bytes i : Nat) : UInt8 := UInt8.ofNat (offs.getD (offs.length * i / 100) 0 * 255 % 2 ^ 32 / bytes)

/-- `write_xing`, lib/formats/mp3.c:299-310. -/
def xing (frames bytes : Nat) (toc : Bytes) : Bytes := cstr "Xing" ++ be32 7 ++ be32 frames ++ be32 bytes ++ toc

/-- What is in the file after `write_track`, prog/mp3cuespl/mp3cuespl.c:121-167, for the frames that are written. -/
def trackFile (info : Bytes) (fs : List Bytes) : Res String Bytes :=
  let out := info ++ fs.flatten
  if info = [] then .ok out
  else if fs = [] then .panic "undefined: null pointer"
  else
    let offs := offsets info.length fs
    let bytes := out.length % 2 ^ 32
    if bytes = 0 then .panic "undefined: division by zero"
    else .ok (store out 36 (xing ((fs.length + 1) % 2 ^ 32) bytes ((List.range 100).map (tocByte offs bytes))))

/-- `cuespl`, prog/mp3cuespl/mp3cuespl.c:104-113: the files of the tracks that begin at the given positions, which are not negative.  Names and messages are not modelled. -/
def cuespl : List Nat → R → Res String (List Bytes)
  | [], _ => .ok []
  | [_], m => (trackLoop none (m.rest.length + 2) m).bind fun (_, fs) => (trackFile m.info fs).bind fun t => .ok [t]
  | _ :: q :: ps, m =>
    (trackLoop (some q) (m.rest.length + 2) m).bind fun (m', fs) =>
      (trackFile m.info fs).bind fun t => (cuespl (q :: ps) m').bind fun ts => .ok (t :: ts)

end Che.Lib.Mp3
