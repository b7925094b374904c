import Verif.Model.Lib.Enc
import Verif.Model.Lib.Png

/-!
Model of `lib/formats/bmp.c` and `lib/formats/ppm.c`: images written to files that never get
full.  `int` is taken to be big enough for the sizes; they are cut to 32 bits when they are
written.  The machine is little-endian.
-/
namespace Che.Lib.Bmp
open Che.Lib Che.Lib.Image

/-- A pixel, lib/formats/bmp.c:66-69. -/
def writePixel (c : Rgba) (w : Writer) : Writer :=
  let w := (Endian.write1 w (Png.byte c.blue)).1
  let w := (Endian.write1 w (Png.byte c.green)).1
  (Endian.write1 w (Png.byte c.red)).1

/-- `image.getpixel` at a place of a row, and the pixel written. -/
def pixelAt (img : Image) (x y : Nat) (w : Writer) : Res String Writer :=
  match img.data[y * img.width + x]? with
  | some c => .ok (writePixel c w)
  | none => .panic "undefined: read outside of the image"

/-- The padding, lib/formats/bmp.c:71-73. -/
def writePad : Nat → Writer → Writer
  | 0, w => w
  | n + 1, w => writePad n (Endian.write1 w 0).1

/-- The rows, lib/formats/bmp.c:64-74: `y` is one more than the index. -/
def writeRows (img : Image) (pad : Nat) : Nat → Writer → Res String Writer
  | 0, w => .ok w
  | y + 1, w =>
    (loop (fun x w => pixelAt img x y w) 0 img.width w).bind fun w => writeRows img pad y (writePad pad w)

def write4 (w : Writer) (n : Nat) : Writer := (Endian.write4le w (UInt32.ofNat n)).1
def write2 (w : Writer) (n : Nat) : Writer := (Endian.write2le w (UInt32.ofNat n)).1

/-- The headers, lib/formats/bmp.c:28-62. -/
def writeHeaders (w : Writer) (width height file_size image_data_size : Nat) : Writer :=
  let w := (Endian.write1 w 0x42).1
  let w := (Endian.write1 w 0x4d).1
  let w := write4 w file_size
  let w := write4 w 0
  let w := write4 w (14 + 40)
  let w := write4 w 40
  let w := write4 w width
  let w := write4 w height
  let w := write2 w 1
  let w := write2 w 24
  let w := write4 w 0
  let w := write4 w image_data_size
  let w := write4 w 0
  let w := write4 w 0
  let w := write4 w 0
  write4 w 0

/-- `write`, lib/formats/bmp.c:6-78: what is in the file. -/
def write (img : Image) : Res String Bytes :=
  let remainder := (img.width * 3) % 4
  let pad := (4 - remainder) % 4
  let image_data_size := img.height * (img.width * 3 + pad)
  let file_size := 14 + 40 + image_data_size
  (writeRows img pad img.height (writeHeaders Writer.toFile img.width img.height file_size image_data_size)).bind fun w => .ok w.out
end Che.Lib.Bmp

namespace Che.Lib.Ppm
open Che.Lib Che.Lib.Image

/-- The number `buf` of a pixel, lib/formats/ppm.c:11-14. -/
def buf (c : Rgba) : UInt32 :=
  let ir := UInt32.ofInt c.red
  let ig := UInt32.ofInt c.green
  let ib := UInt32.ofInt c.blue
  (ir <<< 16) ||| (ig <<< 8) ||| ib

/-- `writeimg`, lib/formats/ppm.c:5-18: what is in the file. -/
def writeimg (img : Image) : Res String Bytes :=
  loop (fun y out => loop (fun x out => (get img x y).bind fun c => .ok (out ++ (Png.memory (buf c)).take 3)) 0 img.width out) 0 img.height
    ([80, 54, 10] ++ Time.fmtInt 0 img.width ++ [32] ++ Time.fmtInt 0 img.height ++ [10, 50, 53, 53, 10])
end Che.Lib.Ppm
