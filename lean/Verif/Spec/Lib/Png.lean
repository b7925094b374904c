import Verif.Model.Lib.IO

/-!
How files of the format PNG are read: the parts of the standard (ISO/IEC 15948) that are
needed for pictures with 8 bits per sample and no interlacing, with data that is stored
(RFC 1950, RFC 1951) and lines that are not filtered.  All other files are refused.
-/
namespace Che.Spec.Png
open Che.Lib

structure Pixel where
  r : UInt8
  g : UInt8
  b : UInt8
  a : UInt8
deriving DecidableEq, Repr

structure Picture where
  width : Nat
  height : Nat
  pixels : List Pixel
deriving DecidableEq, Repr

/-- The colours of a picture, in the order in which they are first seen. -/
def colours (l : List Pixel) : List Pixel := l.foldl (fun cs p => if p ∈ cs then cs else cs ++ [p]) []

/-- A number, the most significant byte first. -/
def num (s : Bytes) : Nat := s.foldl (fun n b => 256 * n + b.toNat) 0

/-- One step of the division by the polynomial of CRC-32. -/
def crcBit (c : UInt32) : UInt32 := if c &&& 1 = 1 then (0xEDB88320 : UInt32) ^^^ (c >>> 1) else c >>> 1

def crcByte (c : UInt32) (b : UInt8) : UInt32 :=
  crcBit (crcBit (crcBit (crcBit (crcBit (crcBit (crcBit (crcBit (c ^^^ b.toUInt32))))))))

/-- CRC-32. -/
def crc (s : Bytes) : UInt32 := ~~~ (s.foldl crcByte 0xFFFFFFFF)

/-- Adler-32: the sum of the bytes plus one, and the sum of these sums. -/
def adler1 (s : Bytes) : Nat := 1 + (s.map UInt8.toNat).sum
def adler2 (s : Bytes) : Nat := ((List.range s.length).map fun i => adler1 (s.take (i + 1))).sum
def adler (s : Bytes) : Nat := adler2 s % 65521 * 65536 + adler1 s % 65521

/-- A chunk: its length, its name, its data and their check sum. -/
def chunk (s : Bytes) : Option ((Bytes × Bytes) × Bytes) :=
  let len := num (s.take 4)
  let name := (s.drop 4).take 4
  let data := (s.drop 8).take len
  let sum := (s.drop (8 + len)).take 4
  if s.length < 12 + len ∨ len ≥ 2 ^ 31 ∨ num sum ≠ (crc (name ++ data)).toNat then none
  else some ((name, data), s.drop (12 + len))

/-- All chunks; `n` is a bound for their number. -/
def chunks : Nat → Bytes → Option (List (Bytes × Bytes))
  | 0, _ => none
  | n + 1, s =>
    if s = [] then some []
    else (chunk s).bind fun (c, rest) => (chunks n rest).bind fun cs => some (c :: cs)

/-- The stored blocks of a deflate stream: the data and what follows the last block. -/
def blocks : Nat → Bytes → Option (Bytes × Bytes)
  | 0, _ => none
  | n + 1, s =>
    match s with
    | h :: l0 :: l1 :: n0 :: n1 :: rest =>
      let len := l0.toNat + 256 * l1.toNat
      if h &&& 6 ≠ 0 ∨ len + (n0.toNat + 256 * n1.toNat) ≠ 65535 ∨ rest.length < len then none
      else if h &&& 1 = 1 then some (rest.take len, rest.drop len)
      else (blocks n (rest.drop len)).bind fun (d, r) => some (rest.take len ++ d, r)
    | _ => none

/-- The data of a zlib stream. -/
def zlib (s : Bytes) : Option Bytes :=
  match s with
  | cmf :: flg :: rest =>
    if cmf &&& 15 ≠ 8 ∨ cmf.toNat / 16 > 7 ∨ (256 * cmf.toNat + flg.toNat) % 31 ≠ 0 ∨ flg &&& 32 ≠ 0 then none
    else (blocks (rest.length + 1) rest).bind fun (d, sum) =>
      if sum.length = 4 ∧ num sum = adler d then some d else none
  | _ => none

/-- The lines of a picture, each one with its filter, which must be 0. -/
def lines (len : Nat) : Nat → Bytes → Option (List Bytes)
  | 0, s => if s = [] then some [] else none
  | h + 1, s =>
    match s with
    | 0 :: rest =>
      if rest.length < len then none
      else (lines len h (rest.drop len)).bind fun ls => some (rest.take len :: ls)
    | _ => none

/-- The bytes of a pixel for a colour type. -/
def bytesPer (ty : Nat) : Nat :=
  if ty = 0 then 1 else if ty = 2 then 3 else if ty = 3 then 1 else if ty = 4 then 2 else if ty = 6 then 4 else 0

/-- A pixel: gray, colours, an entry of the palette, with or without alpha. -/
def pixel (ty : Nat) (plte trns : Bytes) (s : Bytes) : Option Pixel :=
  match ty, s with
  | 0, [v] => some ⟨v, v, v, 255⟩
  | 2, [r, g, b] => some ⟨r, g, b, 255⟩
  | 3, [i] =>
    match plte.drop (3 * i.toNat) with
    | r :: g :: b :: _ => some ⟨r, g, b, trns.getD i.toNat 255⟩
    | _ => none
  | 4, [v, a] => some ⟨v, v, v, a⟩
  | 6, [r, g, b, a] => some ⟨r, g, b, a⟩
  | _, _ => none

/-- `n` pixels of a line. -/
def pixels (ty : Nat) (plte trns : Bytes) : Nat → Bytes → Option (List Pixel)
  | 0, s => if s = [] then some [] else none
  | n + 1, s =>
    (pixel ty plte trns (s.take (bytesPer ty))).bind fun p =>
      (pixels ty plte trns n (s.drop (bytesPer ty))).bind fun ps => some (p :: ps)

/-- The pixels of all lines. -/
def allPixels (ty : Nat) (plte trns : Bytes) (w : Nat) : List Bytes → Option (List Pixel)
  | [] => some []
  | l :: ls => (pixels ty plte trns w l).bind fun ps => (allPixels ty plte trns w ls).bind fun qs => some (ps ++ qs)

/-- The data of the chunks of a name. -/
def dataOf (name : Bytes) (cs : List (Bytes × Bytes)) : Bytes := ((cs.filter fun c => c.1 = name).map (·.2)).flatten

def ihdr : Bytes := [73, 72, 68, 82]
def plte : Bytes := [80, 76, 84, 69]
def trns : Bytes := [116, 82, 78, 83]
def idat : Bytes := [73, 68, 65, 84]
def iend : Bytes := [73, 69, 78, 68]

/-- The picture of a file. -/
def decode (file : Bytes) : Option Picture :=
  if file.take 8 ≠ [137, 80, 78, 71, 13, 10, 26, 10] then none
  else
    (chunks file.length (file.drop 8)).bind fun cs =>
      match cs with
      | (name, h) :: rest =>
        if name ≠ ihdr ∨ rest.getLast? ≠ some (iend, []) ∨ h.length ≠ 13 then none
        else
          let w := num (h.take 4)
          let ht := num ((h.drop 4).take 4)
          let ty := (h.getD 9 0).toNat
          if w = 0 ∨ ht = 0 ∨ h.getD 8 0 ≠ 8 ∨ bytesPer ty = 0 ∨ h.drop 10 ≠ [0, 0, 0] then none
          else
            (zlib (dataOf idat rest)).bind fun d =>
              (lines (bytesPer ty * w) ht d).bind fun ls =>
                (allPixels ty (dataOf plte rest) (dataOf trns rest) w ls).bind fun ps =>
                  some ⟨w, ht, ps⟩
      | [] => none
end Che.Spec.Png
