import Verif.Spec.Lib.Enc

/-!
BMP files of 24 bits a pixel, and PPM files.
-/
namespace Che.Spec.Bmp
open Che.Spec.Lib

abbrev Bytes := List UInt8

/-- The number of `n` bytes at `off`, the least significant byte first. -/
def field (f : Bytes) (off n : Nat) : Nat := littleEndian ((f.drop off).take n)

/-- The length of a row: a multiple of 4 bytes. -/
def stride (w : Nat) : Nat := (24 * w + 31) / 32 * 4

/-- A BMP file with the header BITMAPINFOHEADER, 24 bits a pixel, not compressed, of `w` times `h`
pixels, `px x y` being the red, green and blue samples at `x` from the left and `y` from the top. -/
structure IsBmp (f : Bytes) (w h : Nat) (px : Nat → Nat → UInt8 × UInt8 × UInt8) : Prop where
  magic : f.take 2 = [0x42, 0x4d]
  size : field f 2 4 = f.length
  offset : field f 10 4 = 54
  header : field f 14 4 = 40
  width : field f 18 4 = w
  height : field f 22 4 = h
  planes : field f 26 2 = 1
  bits : field f 28 2 = 24
  compression : field f 30 4 = 0
  dataSize : field f 34 4 = h * stride w
  colours : field f 46 4 = 0
  length : f.length = 54 + h * stride w
  pixels : ∀ x y, x < w → y < h →
    (f.drop (54 + (h - 1 - y) * stride w + 3 * x)).take 3 = [(px x y).2.2, (px x y).2.1, (px x y).1]
end Che.Spec.Bmp

namespace Che.Spec.Ppm
open Che.Spec.Bmp (Bytes)

def isDigit (c : UInt8) : Bool := 48 ≤ c && c ≤ 57
def value (s : Bytes) : Nat := s.foldl (fun n d => 10 * n + (d.toNat - 48)) 0

/-- Triples of samples. -/
def triples : Bytes → Option (List (UInt8 × UInt8 × UInt8))
  | [] => some []
  | r :: g :: b :: rest => (triples rest).map ((r, g, b) :: ·)
  | _ => none

/-- A PPM file "P6" with samples of a byte: the width, the height and the red, green and blue samples. -/
def decode (f : Bytes) : Option (Nat × Nat × List (UInt8 × UInt8 × UInt8)) :=
  match f with
  | 80 :: 54 :: 10 :: s =>
    let a := s.takeWhile isDigit
    match s.dropWhile isDigit with
    | 32 :: s =>
      let b := s.takeWhile isDigit
      match s.dropWhile isDigit with
      | 10 :: 50 :: 53 :: 53 :: 10 :: data =>
        (triples data).bind fun ps => if a = [] ∨ b = [] ∨ ps.length ≠ value a * value b then none else some (value a, value b, ps)
      | _ => none
    | _ => none
  | _ => none
end Che.Spec.Ppm
