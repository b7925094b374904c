import Verif.Model.Basic
import Verif.Model.Lib.Tokenizer
import Verif.Model.Lib.Time

/-!
Model of `lib/formats/wav.c`.

What is in a local array before it is written to is `junk`.  A double is its sign and a
fraction; its operations are exact ones rounded to 53 bits, as in `Model/Lib/Time`.  A write past the
end of an array is a panic that begins with "undefined".  Opening and closing files is not modelled.
-/
namespace Che.Lib.Wav
open Che.Lib

/-- `wav_t`, lib/formats/wav.c:7-12. -/
structure Fmt where
  format : UInt16
  channels : UInt16
  frequency : UInt32
  bits_per_sample : UInt16
deriving DecidableEq, Repr

/-- `reader_t`, lib/formats/wav.c:14-20. -/
structure R where
  reader : Reader
  wav : Fmt
  done : UInt32
  datalen : UInt32

/-- `uint8_t buf[…]` with bytes read into its beginning. -/
def into (buf got : Bytes) : Bytes := got ++ buf.drop got.length

/-- The string in an array. -/
def str (s : Bytes) : Bytes := s.takeWhile (· ≠ 0)

/-- `reader.read(r, buf, n)` for an array: the array after it. -/
def readInto (rd : Reader) (buf : Bytes) (n : Nat) : Reader × Bytes := ((rd.read n).1, into buf (rd.read n).2.2)

/-- `expect_tag`, lib/formats/wav.c:322-327. -/
def expect_tag (rd : Reader) (tag : Bytes) : Res String Reader :=
  let (rd, tmp) := readInto rd [0, 0, 0, 0, 0] 4
  if str tmp ≠ tag then .panic "unexpected tag" else .ok rd

/-- `read_fmt`, lib/formats/wav.c:182-195. -/
def read_fmt (junk buf : Bytes) : Fmt :=
  let (r, _, format) := Endian.read2le (Reader.ofBuffer buf) 0
  let (r, _, channels) := Endian.read2le r 0
  let (r, _, frequency) := Endian.read4le junk r
  let (r, _, _) := Endian.read4le junk r
  let (r, _, _) := Endian.read2le r 0
  let (_, _, bits) := Endian.read2le r 0
  { format := format, channels := channels, frequency := frequency, bits_per_sample := bits }

/-- A round of the loop of `readinfo`, lib/formats/wav.c:297-317: the new `listlen`. -/
def infoRound (junk : Bytes) (rd : Reader) (listlen : UInt32) : Res String (Reader × UInt32) :=
  let rd := (rd.read 4).1
  let listlen := listlen - 4
  let (rd, _, infolen) := Endian.read4le junk rd
  let listlen := listlen - 4
  if infolen.toNat ≥ 1000 then .panic "undefined: write past the end of tmp"
  else
    let rd := (rd.read infolen.toNat).1
    let listlen := listlen - infolen
    if infolen.toNat % 2 ≠ 0 then .ok ((rd.read 1).1, listlen - 1) else .ok (rd, listlen)

/-- The loop of `readinfo`, lib/formats/wav.c:296-318. -/
def infoLoop (junk : Bytes) : Nat → Reader → UInt32 → Res String Reader
  | 0, _, _ => .diverge
  | n + 1, rd, listlen =>
    if listlen = 0 then .ok rd
    else (infoRound junk rd listlen).bind fun (rd, listlen) => infoLoop junk n rd listlen

/-- `readinfo`, lib/formats/wav.c:283-320. -/
def readinfo (junk : Bytes) (n : Nat) (rd : Reader) : Res String Reader :=
  let (rd, _, listlen) := Endian.read4le junk rd
  (expect_tag rd (cstr "INFO")).bind fun rd => infoLoop junk n rd (listlen - 4)

/-- The loop over the padding, lib/formats/wav.c:129-134. -/
def padLoop : Nat → Reader → Nat → Reader
  | 0, rd, _ => rd
  | k + 1, rd, len =>
    if len = 0 then rd
    else padLoop k (rd.read (min len 4096)).1 (len - min len 4096)

/-- The optional block, lib/formats/wav.c:116-121: the tag after it. -/
def optInfo (junk : Bytes) (n : Nat) (rd : Reader) (tag : Bytes) : Res String (Reader × Bytes) :=
  if tag.take 4 = cstr "LIST" then (readinfo junk n rd).bind fun rd => .ok (readInto rd tag 4) else .ok (rd, tag)

/-- The optional padding, lib/formats/wav.c:126-136. -/
def optPad (junk : Bytes) (rd : Reader) (tag : Bytes) : Reader × Bytes :=
  if str tag = cstr "PAD " then
    let (rd, _, len) := Endian.read4le junk rd
    readInto (padLoop len.toNat rd len.toNat) tag 4
  else (rd, tag)

/-- The checks, lib/formats/wav.c:100-108. -/
def supported (w : Fmt) : Res String Unit :=
  if w.format ≠ 1 then .panic "expected format 1 (PCM)"
  else if w.channels ≠ 2 ∧ w.channels ≠ 1 then .panic "expected 1 or 2 channels"
  else if w.bits_per_sample ≠ 16 ∧ w.bits_per_sample ≠ 24 then .panic "expected 16 or 24 bits per sample"
  else .ok ()

/-- `read_headers`, lib/formats/wav.c:77-146, with `open_reader`, lib/formats/wav.c:54-75. -/
def open_reader (junk : Bytes) (n : Nat) (file : Bytes) : Res String R :=
  (expect_tag (Reader.ofFile file) (cstr "RIFF")).bind fun rd =>
  let (rd, _, _) := Endian.read4le junk rd
  (expect_tag rd (cstr "WAVE")).bind fun rd =>
  (expect_tag rd (cstr "fmt ")).bind fun rd =>
  let (rd, _, size) := Endian.read4le junk rd
  if size ≠ 16 then .panic "expected 16 bytes fmt chunk"
  else
    let (rd, buf) := readInto rd (List.replicate 16 0) 16
    let w := read_fmt junk buf
    (supported w).bind fun _ =>
    let (rd, tag) := readInto rd [0, 0, 0, 0, 0] 4
    (optInfo junk n rd tag).bind fun (rd, tag) =>
    let (rd, tag) := optPad junk rd tag
    if str tag ≠ cstr "data" then .panic "expected \"data\" chunk"
    else
      let (rd, _, datalen) := Endian.read4le junk rd
      .ok { reader := rd, wav := w, done := 0, datalen := datalen }

/-- `more`, lib/formats/wav.c:209-211. -/
def more (r : R) : Bool := r.done < r.datalen

/-- `read_sample0`, lib/formats/wav.c:213-240. -/
def read_sample0 (junk : Bytes) (r : R) : Res String (R × Int) :=
  let bps := r.wav.bits_per_sample / 8
  if r.wav.bits_per_sample = 16 then
    let (rd, _, u) := Endian.read2le r.reader 0
    let s : Int := u.toNat
    .ok ({ r with reader := rd, done := r.done + bps.toUInt32 }, if s ≥ 32768 then s - 65536 else s)
  else if r.wav.bits_per_sample = 24 then
    let (rd, _, u) := Endian.read3le junk r.reader
    let s : Int := u.toNat
    .ok ({ r with reader := rd, done := r.done + bps.toUInt32 }, if s ≥ 8388608 then s - 2 * 8388608 else s)
  else .panic "unimplemented sample size"

/-- A double. -/
structure D where
  neg : Bool
  num : Nat
  den : Nat
deriving DecidableEq, Repr

/-- `(double) s / scale`. -/
def quotient (s : Int) (scale : Nat) : D := { neg := s < 0, num := (Time.double s.natAbs scale).1, den := (Time.double s.natAbs scale).2 }

/-- `scale`, lib/formats/wav.c:245. -/
def scaleOf (bits : UInt16) : Nat := 2 ^ (bits.toNat - 1) - 1

/-- `read_samplef`, lib/formats/wav.c:243-261. -/
def read_samplef (junk : Bytes) (r : R) : Res String (R × D × D) :=
  let scale := scaleOf r.wav.bits_per_sample
  if r.wav.channels = 1 then
    (read_sample0 junk r).bind fun (r, s) => .ok (r, quotient s scale, quotient s scale)
  else if r.wav.channels = 2 then
    (read_sample0 junk r).bind fun (r, s) => (read_sample0 junk r).bind fun (r, s') => .ok (r, quotient s scale, quotient s' scale)
  else .panic "unimplemented channels number"

/-- The loop over all frames: lib/formats/wav.c:33-35 of `loadfile`, prog/wav/wav.c:94-97. -/
def readLoop (junk : Bytes) : Nat → R → Res String (List (D × D))
  | 0, _ => .diverge
  | n + 1, r =>
    if !more r then .ok []
    else (read_samplef junk r).bind fun (r, s) => (readLoop junk n r).bind fun ss => .ok (s :: ss)

/-- `writetag`, lib/formats/wav.c:329-331. -/
def writetag (w : Writer) (tag : Bytes) : Writer := (w.write tag).1

/-- `write_fmt`, lib/formats/wav.c:197-207. -/
def write_fmt (w : Writer) (fmt : Fmt) : Writer :=
  let bytes_per_sample := fmt.bits_per_sample / 8
  let bytes_per_block := fmt.channels * bytes_per_sample
  let w := (Endian.write2le w fmt.format.toUInt32).1
  let w := (Endian.write2le w fmt.channels.toUInt32).1
  let w := (Endian.write4le w fmt.frequency).1
  let w := (Endian.write4le w (fmt.frequency * bytes_per_block.toUInt32)).1
  let w := (Endian.write2le w bytes_per_block.toUInt32).1
  (Endian.write2le w fmt.bits_per_sample.toUInt32).1

/-- `write_headers`, lib/formats/wav.c:148-180. -/
def write_headers (w : Writer) : Writer :=
  let w := writetag w (cstr "RIFF")
  let w := (Endian.write4le w 0xFFFFFFFF).1
  let w := writetag w (cstr "WAVE")
  let w := writetag w (cstr "fmt ")
  let w := (Endian.write4le w 16).1
  let w := write_fmt w { format := 1, channels := 2, frequency := 44100, bits_per_sample := 16 }
  let w := writetag w (cstr "data")
  (Endian.write4le w 0xFFFFFFFF).1

/-- `open_writer`, lib/formats/wav.c:41-47. -/
def open_writer : Writer := write_headers Writer.toFile

/-- `(int) (x * scale)`: towards zero. -/
def scaled (x : D) (scale : Nat) : Int :=
  let y := Time.double (x.num * scale) x.den
  if x.neg then -((y.1 / y.2 : Nat) : Int) else ((y.1 / y.2 : Nat) : Int)

/-- The number written for a sample, lib/formats/wav.c:268-270. -/
def word (x : D) : UInt16 :=
  let s := scaled x (2 ^ 15 - 1)
  let s := if s < 0 then s + 65536 else s
  UInt16.ofNat (s % 65536).toNat

/-- `write_sample`, lib/formats/wav.c:264-275. -/
def write_sample (w : Writer) (left right : D) : Writer :=
  let w := (Endian.write2le w (word left).toUInt32).1
  (Endian.write2le w (word right).toUInt32).1

/-- A program that writes frames. -/
def writeAll (w : Writer) (ss : List (D × D)) : Writer := ss.foldl (fun w s => write_sample w s.1 s.2) w
end Che.Lib.Wav
