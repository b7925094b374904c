import Verif.Model.Lib.Image
import Verif.Model.Lib.Time

/-!
Model of `lib/formats/png.c`: the file that `write` makes.

The file is opened and all writes succeed.  The machine is little-endian, `size_t` does
not overflow, and signed shifts (`transparency << 24`, `s2 << 16`) are done as gcc does
them, on the bits.  The values `c.red * 0.2989 + c.green * 0.5870 + c.blue * 0.1140` are
sums of doubles (see `Model/Lib/Time`).
-/
namespace Che.Lib.Png
open Che.Lib Che.Lib.Image

/-- `writer_t`, lib/formats/png.c:12-16: the registers and what has been written. -/
structure Writer where
  crc : UInt32
  s1 : UInt16
  s2 : UInt16
  out : Bytes
deriving DecidableEq, Repr

/-- `crc32`, lib/formats/png.c:208-238. -/
def crc32 : List UInt32 :=
  [0x00000000, 0x77073096, 0xee0e612c, 0x990951ba, 0x076dc419, 0x706af48f, 0xe963a535, 0x9e6495a3,
   0x0edb8832, 0x79dcb8a4, 0xe0d5e91e, 0x97d2d988, 0x09b64c2b, 0x7eb17cbd, 0xe7b82d07, 0x90bf1d91,
   0x1db71064, 0x6ab020f2, 0xf3b97148, 0x84be41de, 0x1adad47d, 0x6ddde4eb, 0xf4d4b551, 0x83d385c7,
   0x136c9856, 0x646ba8c0, 0xfd62f97a, 0x8a65c9ec, 0x14015c4f, 0x63066cd9, 0xfa0f3d63, 0x8d080df5,
   0x3b6e20c8, 0x4c69105e, 0xd56041e4, 0xa2677172, 0x3c03e4d1, 0x4b04d447, 0xd20d85fd, 0xa50ab56b,
   0x35b5a8fa, 0x42b2986c, 0xdbbbc9d6, 0xacbcf940, 0x32d86ce3, 0x45df5c75, 0xdcd60dcf, 0xabd13d59,
   0x26d930ac, 0x51de003a, 0xc8d75180, 0xbfd06116, 0x21b4f4b5, 0x56b3c423, 0xcfba9599, 0xb8bda50f,
   0x2802b89e, 0x5f058808, 0xc60cd9b2, 0xb10be924, 0x2f6f7c87, 0x58684c11, 0xc1611dab, 0xb6662d3d,
   0x76dc4190, 0x01db7106, 0x98d220bc, 0xefd5102a, 0x71b18589, 0x06b6b51f, 0x9fbfe4a5, 0xe8b8d433,
   0x7807c9a2, 0x0f00f934, 0x9609a88e, 0xe10e9818, 0x7f6a0dbb, 0x086d3d2d, 0x91646c97, 0xe6635c01,
   0x6b6b51f4, 0x1c6c6162, 0x856530d8, 0xf262004e, 0x6c0695ed, 0x1b01a57b, 0x8208f4c1, 0xf50fc457,
   0x65b0d9c6, 0x12b7e950, 0x8bbeb8ea, 0xfcb9887c, 0x62dd1ddf, 0x15da2d49, 0x8cd37cf3, 0xfbd44c65,
   0x4db26158, 0x3ab551ce, 0xa3bc0074, 0xd4bb30e2, 0x4adfa541, 0x3dd895d7, 0xa4d1c46d, 0xd3d6f4fb,
   0x4369e96a, 0x346ed9fc, 0xad678846, 0xda60b8d0, 0x44042d73, 0x33031de5, 0xaa0a4c5f, 0xdd0d7cc9,
   0x5005713c, 0x270241aa, 0xbe0b1010, 0xc90c2086, 0x5768b525, 0x206f85b3, 0xb966d409, 0xce61e49f,
   0x5edef90e, 0x29d9c998, 0xb0d09822, 0xc7d7a8b4, 0x59b33d17, 0x2eb40d81, 0xb7bd5c3b, 0xc0ba6cad,
   0xedb88320, 0x9abfb3b6, 0x03b6e20c, 0x74b1d29a, 0xead54739, 0x9dd277af, 0x04db2615, 0x73dc1683,
   0xe3630b12, 0x94643b84, 0x0d6d6a3e, 0x7a6a5aa8, 0xe40ecf0b, 0x9309ff9d, 0x0a00ae27, 0x7d079eb1,
   0xf00f9344, 0x8708a3d2, 0x1e01f268, 0x6906c2fe, 0xf762575d, 0x806567cb, 0x196c3671, 0x6e6b06e7,
   0xfed41b76, 0x89d32be0, 0x10da7a5a, 0x67dd4acc, 0xf9b9df6f, 0x8ebeeff9, 0x17b7be43, 0x60b08ed5,
   0xd6d6a3e8, 0xa1d1937e, 0x38d8c2c4, 0x4fdff252, 0xd1bb67f1, 0xa6bc5767, 0x3fb506dd, 0x48b2364b,
   0xd80d2bda, 0xaf0a1b4c, 0x36034af6, 0x41047a60, 0xdf60efc3, 0xa867df55, 0x316e8eef, 0x4669be79,
   0xcb61b38c, 0xbc66831a, 0x256fd2a0, 0x5268e236, 0xcc0c7795, 0xbb0b4703, 0x220216b9, 0x5505262f,
   0xc5ba3bbe, 0xb2bd0b28, 0x2bb45a92, 0x5cb36a04, 0xc2d7ffa7, 0xb5d0cf31, 0x2cd99e8b, 0x5bdeae1d,
   0x9b64c2b0, 0xec63f226, 0x756aa39c, 0x026d930a, 0x9c0906a9, 0xeb0e363f, 0x72076785, 0x05005713,
   0x95bf4a82, 0xe2b87a14, 0x7bb12bae, 0x0cb61b38, 0x92d28e9b, 0xe5d5be0d, 0x7cdcefb7, 0x0bdbdf21,
   0x86d3d2d4, 0xf1d4e242, 0x68ddb3f8, 0x1fda836e, 0x81be16cd, 0xf6b9265b, 0x6fb077e1, 0x18b74777,
   0x88085ae6, 0xff0f6a70, 0x66063bca, 0x11010b5c, 0x8f659eff, 0xf862ae69, 0x616bffd3, 0x166ccf45,
   0xa00ae278, 0xd70dd2ee, 0x4e048354, 0x3903b3c2, 0xa7672661, 0xd06016f7, 0x4969474d, 0x3e6e77db,
   0xaed16a4a, 0xd9d65adc, 0x40df0b66, 0x37d83bf0, 0xa9bcae53, 0xdebb9ec5, 0x47b2cf7f, 0x30b5ffe9,
   0xbdbdf21c, 0xcabac28a, 0x53b39330, 0x24b4a3a6, 0xbad03605, 0xcdd70693, 0x54de5729, 0x23d967bf,
   0xb3667a2e, 0xc4614ab8, 0x5d681b02, 0x2a6f2b94, 0xb40bbe37, 0xc30c8ea1, 0x5a05df1b, 0x2d02ef8d]

/-- `png_swap32`, lib/formats/png.c:242-247. -/
def png_swap32 (num : UInt32) : UInt32 :=
  ((num >>> 24) &&& (0xff : UInt32)) ||| ((num <<< 8) &&& (0xff0000 : UInt32)) |||
    ((num >>> 8) &&& (0xff00 : UInt32)) ||| ((num <<< 24) &&& (0xff000000 : UInt32))

/-- `png_crc`, lib/formats/png.c:249-254. -/
def png_crc : Bytes → UInt32 → UInt32
  | [], crc => crc
  | b :: data, crc => png_crc data (crc32.getD ((crc ^^^ b.toUInt32) &&& 255).toNat 0 ^^^ (crc >>> 8))

/-- `write_byte`, lib/formats/png.c:298-300. -/
def write_byte (png : Writer) (val : UInt8) : Writer := { png with out := png.out ++ [val] }

/-- `write_byte_crc`, lib/formats/png.c:302-305. -/
def write_byte_crc (png : Writer) (val : UInt8) : Writer := write_byte { png with crc := png_crc [val] png.crc } val

/-- `png_out_raw_uint`, lib/formats/png.c:307-316. -/
def png_out_raw_uint (png : Writer) (val : UInt32) : Writer :=
  let png := write_byte png (val % 256).toUInt8
  let val := val / 256
  let png := write_byte png (val % 256).toUInt8
  let val := val / 256
  let png := write_byte png (val % 256).toUInt8
  let val := val / 256
  write_byte png (val % 256).toUInt8

/-- `png_out_raw_write`, lib/formats/png.c:318-322. -/
def png_out_raw_write (png : Writer) : Bytes → Writer
  | [] => png
  | b :: data => png_out_raw_write (write_byte png b) data

/-- `png_new_chunk`, lib/formats/png.c:257-262. -/
def png_new_chunk (png : Writer) (name : Bytes) (len : Nat) : Writer :=
  let png := { png with crc := 0xffffffff }
  let png := png_out_raw_uint png (png_swap32 (UInt32.ofNat len))
  let png := { png with crc := png_crc name png.crc }
  png_out_raw_write png name

/-- `png_end_chunk`, lib/formats/png.c:265-267. -/
def png_end_chunk (png : Writer) : Writer := png_out_raw_uint png (png_swap32 (~~~ png.crc))

/-- The bytes of a `uint32_t` in memory. -/
def memory (val : UInt32) : Bytes := [val.toUInt8, (val >>> 8).toUInt8, (val >>> 16).toUInt8, (val >>> 24).toUInt8]

/-- `png_out_uint32`, lib/formats/png.c:270-273. -/
def png_out_uint32 (png : Writer) (val : UInt32) : Writer :=
  png_out_raw_uint { png with crc := png_crc (memory val) png.crc } val

/-- `png_out_uint16`, lib/formats/png.c:276-281. -/
def png_out_uint16 (png : Writer) (val : UInt16) : Writer :=
  let png := write_byte_crc png (val % 256).toUInt8
  let val := val / 256
  write_byte_crc png (val % 256).toUInt8

/-- `png_out_write`, lib/formats/png.c:286-289. -/
def png_out_write (png : Writer) (data : Bytes) : Writer :=
  png_out_raw_write { png with crc := png_crc data png.crc } data

/-- `png_out_write_adler`, lib/formats/png.c:292-296.  The sums are of type `int`. -/
def png_out_write_adler (png : Writer) (data : UInt8) : Writer :=
  let png := png_out_write png [data]
  let png := { png with s1 := UInt16.ofNat ((png.s1.toNat + data.toNat) % 65521) }
  { png with s2 := UInt16.ofNat ((png.s2.toNat + png.s1.toNat) % 65521) }

/-- `pack32`, lib/formats/png.c:192-194. -/
def pack32 (c : Rgba) : UInt32 :=
  UInt32.ofInt c.red ||| (UInt32.ofInt c.green <<< 8) ||| (UInt32.ofInt c.blue <<< 16) ||| (UInt32.ofInt c.transparency <<< 24)

/-- `indexof`, lib/formats/png.c:196-203: `none` is -1. -/
def indexof (xs : List UInt32) (y : UInt32) (i : Nat) : Option Nat :=
  match xs with
  | [] => none
  | x :: xs => if x = y then some i else indexof xs y (i + 1)

/-- The conversion of an `int` to a `uint8_t`. -/
def byte (n : Int) : UInt8 := UInt8.ofInt n

/-- A sum of doubles, as fractions: the denominators are powers of two. -/
def addDouble (x y : Nat × Nat) : Nat × Nat := Time.double (x.1 * y.2 + y.1 * x.2) (x.2 * y.2)

/-- The product of a number and the double nearest to `k / 10000`. -/
def scale (n k : Nat) : Nat × Nat := Time.double (n * (Time.double k 10000).1) (Time.double k 10000).2

/-- `(uint8_t) (c.red * 0.2989 + c.green * 0.5870 + c.blue * 0.1140)` for colours that are not
negative. -/
def gray (c : Rgba) : UInt8 :=
  let x := addDouble (addDouble (scale c.red.toNat 2989) (scale c.green.toNat 5870)) (scale c.blue.toNat 1140)
  UInt8.ofNat (x.1 / x.2)

/-- The palette, lib/formats/png.c:37-48, for one pixel.  `palette` is the first `psize`
entries of the array. -/
def addColor (c : Rgba) (palette : List UInt32) : List UInt32 :=
  match indexof palette (pack32 c) 0 with
  | some _ => palette
  | none => if palette.length < 256 then palette ++ [pack32 c] else palette

/-- The loops, lib/formats/png.c:35-50. -/
def makePalette (img : Image) : Res String (List UInt32) :=
  loop (fun j p => loop (fun i p => (get img i j).bind fun c => .ok (addColor c p)) 0 img.width p) 0 img.height []

/-- The chunk IHDR, lib/formats/png.c:57-66. -/
def writeHeader (tmp : Writer) (width height mode : Nat) : Writer :=
  let tmp := png_new_chunk tmp [73, 72, 68, 82] 13
  let tmp := png_out_uint32 tmp (png_swap32 (UInt32.ofNat width))
  let tmp := png_out_uint32 tmp (png_swap32 (UInt32.ofNat height))
  let tmp := write_byte_crc tmp 8
  let tmp := write_byte_crc tmp (UInt8.ofNat mode)
  let tmp := write_byte_crc tmp 0
  let tmp := write_byte_crc tmp 0
  let tmp := write_byte_crc tmp 0
  png_end_chunk tmp

/-- The entries `index` to `s` of the palette, lib/formats/png.c:78-85. -/
def writeColors (palette : List UInt32) : Nat → Nat → Writer → Writer
  | _, 0, tmp => tmp
  | index, n + 1, tmp =>
    let color := palette.getD index 0
    writeColors palette (index + 1) n
      (png_out_write tmp [(color &&& 255).toUInt8, ((color >>> 8) &&& 255).toUInt8, ((color >>> 16) &&& 255).toUInt8])

/-- lib/formats/png.c:90-93. -/
def writeAlphas (palette : List UInt32) : Nat → Nat → Writer → Writer
  | _, 0, tmp => tmp
  | index, n + 1, tmp =>
    writeAlphas palette (index + 1) n (png_out_write tmp [((palette.getD index 0 >>> 24) &&& 255).toUInt8])

/-- The chunks PLTE and tRNS, lib/formats/png.c:71-95. -/
def writePalette (tmp : Writer) (palette : List UInt32) : Writer :=
  let s := if palette.length < 16 then 16 else palette.length
  let tmp := png_new_chunk tmp [80, 76, 84, 69] (3 * s)
  let tmp := writeColors palette 0 s tmp
  let tmp := png_end_chunk tmp
  let tmp := png_new_chunk tmp [116, 82, 78, 83] s
  let tmp := writeAlphas palette 0 s tmp
  png_end_chunk tmp

/-- The bytes per pixel, lib/formats/png.c:100-111. -/
def bytesPerPixel (mode : Nat) : Nat :=
  if mode = 3 then 1 else if mode = 0 then 1 else if mode = 4 then 2 else if mode = 2 then 3 else if mode = 6 then 4 else 1

/-- `(uint8_t) indexof(palette, psize, pack32(c))`, lib/formats/png.c:143. -/
def paletteByte (palette : List UInt32) (c : Rgba) : UInt8 :=
  match indexof palette (pack32 c) 0 with
  | some i => UInt8.ofNat i
  | none => byte (-1)

/-- A pixel, lib/formats/png.c:140-168. -/
def writePixel (mode : Nat) (palette : List UInt32) (c : Rgba) (tmp : Writer) : Res String Writer :=
  match mode with
  | 3 => .ok (png_out_write_adler tmp (paletteByte palette c))
  | 2 =>
    let tmp := png_out_write_adler tmp (byte c.red)
    let tmp := png_out_write_adler tmp (byte c.green)
    .ok (png_out_write_adler tmp (byte c.blue))
  | 0 => .ok (png_out_write_adler tmp (gray c))
  | 4 =>
    let tmp := png_out_write_adler tmp (gray c)
    .ok (png_out_write_adler tmp (byte c.transparency))
  | 6 =>
    let tmp := png_out_write_adler tmp (byte c.red)
    let tmp := png_out_write_adler tmp (byte c.green)
    let tmp := png_out_write_adler tmp (byte c.blue)
    .ok (png_out_write_adler tmp (byte c.transparency))
  | _ => .panic "unknown mode"

/-- A line, lib/formats/png.c:126-169. -/
def writeLine (img : Image) (mode bpl : Nat) (palette : List UInt32) (y : Nat) (tmp : Writer) : Res String Writer :=
  let tmp := png_out_write tmp (if y < img.height - 1 then [0] else [1])
  let tmp := png_out_uint16 tmp (UInt16.ofNat bpl)
  let tmp := png_out_uint16 tmp (~~~ UInt16.ofNat bpl)
  let tmp := png_out_write_adler tmp 0
  loop (fun x tmp => (get img x y).bind fun c => writePixel mode palette c tmp) 0 img.width tmp

/-- The chunk IDAT, lib/formats/png.c:100-178. -/
def writeData (tmp : Writer) (img : Image) (mode : Nat) (palette : List UInt32) : Res String Writer :=
  let bpl := 1 + bytesPerPixel mode * img.width
  if bpl ≥ 65536 then .panic "maximum supported width"
  else
    let size := 2 + img.height * (5 + bpl) + 4
    let tmp := png_new_chunk tmp [73, 68, 65, 84] size
    let tmp := png_out_write tmp [120, 218]
    let tmp := { tmp with s1 := 1, s2 := 0 }
    (loop (fun y tmp => writeLine img mode bpl palette y tmp) 0 img.height tmp).bind fun tmp =>
      let tmp := { tmp with s1 := UInt16.ofNat (tmp.s1.toNat % 65521) }
      let tmp := { tmp with s2 := UInt16.ofNat (tmp.s2.toNat % 65521) }
      let tmp := png_out_uint32 tmp (png_swap32 ((tmp.s2.toUInt32 <<< 16) ||| tmp.s1.toUInt32))
      .ok (png_end_chunk tmp)

/-- `write`, lib/formats/png.c:18-190: the file. -/
def write (img : Image) (mode : Nat) : Res String Bytes :=
  let tmp : Writer := ⟨0, 0, 0, []⟩
  (if mode = 3 then makePalette img else .ok []).bind fun palette =>
    let tmp := png_out_raw_write tmp [137, 80, 78, 71, 13, 10, 26, 10]
    let tmp := writeHeader tmp img.width img.height mode
    let tmp := if mode = 3 then writePalette tmp palette else tmp
    (writeData tmp img mode palette).bind fun tmp =>
      let tmp := png_new_chunk tmp [73, 69, 78, 68] 0
      .ok (png_end_chunk tmp).out
end Che.Lib.Png
