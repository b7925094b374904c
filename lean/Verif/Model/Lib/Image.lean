import Verif.Model.Basic
import Verif.Model.Lib.IO

/-!
Model of `lib/image.c`: images as arrays of pixels.

`width` and `height` are of type `int`; here they are not negative, and `width * height`
is taken to fit.  The functions that compute with `float` and `double` (`blend`, `mix`,
`from_hsl`, `from_hsv`, `mapcolor`, `colormap_image`) are not modelled, nor is
`testimage`.
-/
namespace Che.Lib.Image
open Che.Lib

/-- `rgba_t`, lib/image.c:3. -/
structure Rgba where
  red : Int
  green : Int
  blue : Int
  transparency : Int
deriving DecidableEq, Repr

/-- `image_t`, lib/image.c:5-9. -/
structure Image where
  width : Nat
  height : Nat
  data : List Rgba
deriving DecidableEq, Repr

/-- `for (i = from; n times; i++)`. -/
def loop {σ : Type} (f : Nat → σ → Res String σ) : Nat → Nat → σ → Res String σ
  | _, 0, s => .ok s
  | i, n + 1, s => (f i s).bind fun s => loop f (i + 1) n s

/-- `new`, lib/image.c:14-20. -/
def new (width height : Nat) : Image := ⟨width, height, List.replicate (width * height) ⟨0, 0, 0, 0⟩⟩

/-- `checkcoords`, lib/image.c:44-51. -/
def checkcoords (img : Image) (x y : Int) : Res String Unit :=
  if x < 0 ∨ y < 0 then .panic "invalid pixel coordinates"
  else if x ≥ img.width ∨ y ≥ img.height then .panic "invalid pixel coordinates"
  else .ok ()

/-- `get`, lib/image.c:39-42 with `getpixel`, lib/image.c:28-30. -/
def get (img : Image) (x y : Int) : Res String Rgba :=
  (checkcoords img x y).bind fun _ =>
    match img.data[(y * img.width + x).toNat]? with
    | some c => .ok c
    | none => .panic "undefined: read outside of the image"

/-- `set`, lib/image.c:33-36. -/
def set (img : Image) (x y : Int) (c : Rgba) : Res String Image :=
  (checkcoords img x y).bind fun _ =>
    if (y * img.width + x).toNat < img.data.length then
      .ok { img with data := img.data.set (y * img.width + x).toNat c }
    else .panic "undefined: write outside of the image"

/-- `clear`, lib/image.c:54-56. -/
def clear (img : Image) : Image := { img with data := List.replicate (img.width * img.height) ⟨0, 0, 0, 0⟩ }

/-- `*getpixel(img, x, y) = color`. -/
def put (img : Image) (x y : Nat) (c : Rgba) : Res String Image :=
  if y * img.width + x < img.data.length then .ok { img with data := img.data.set (y * img.width + x) c }
  else .panic "undefined: write outside of the image"

/-- `fill`, lib/image.c:59-65. -/
def fill (img : Image) (color : Rgba) : Res String Image :=
  loop (fun x img => loop (fun y img => put img x y color) 0 img.height img) 0 img.width img

/-- `apply`, lib/image.c:83-91. -/
def apply (img : Image) (f : Rgba → Rgba) : Res String Image :=
  loop (fun y img => loop (fun x img => (get img x y).bind fun color => set img x y (f color)) 0 img.width img) 0 img.height img

/-- The loops over `x` and `j` of `explode`, lib/image.c:101-108: the picture and `bigx`. -/
def explodeRow (img : Image) (n bigy y : Nat) (big : Image) : Res String (Image × Nat) :=
  loop (fun x (big, bigx) => (get img x y).bind fun c =>
    loop (fun _ (big, bigx) => (set big bigx bigy c).bind fun big => .ok (big, bigx + 1)) 0 n (big, bigx)) 0 img.width (big, 0)

/-- `explode`, lib/image.c:94-113. -/
def explode (img : Image) (n : Nat) : Res String Image :=
  (loop (fun y (big, bigy) =>
    loop (fun _ (big, bigy) => (explodeRow img n bigy y big).bind fun (big, _) => .ok (big, bigy + 1)) 0 n (big, bigy))
    0 img.height (new (img.width * n) (img.height * n), 0)).bind fun (big, _) => .ok big

/-- The inner loop of `paste`, lib/image.c:125-131: `n` columns are left. -/
def pasteRow (p : Image) (x yi : Int) (yp : Nat) : Nat → Nat → Image → Res String Image
  | _, 0, img => .ok img
  | xp, n + 1, img =>
    if x + xp ≥ img.width then .ok img
    else (get p xp yp).bind fun c => (set img (x + xp) yi c).bind fun img => pasteRow p x yi yp (xp + 1) n img

/-- The outer loop of `paste`, lib/image.c:120-132: `n` rows are left. -/
def pasteLoop (p : Image) (x y : Int) : Nat → Nat → Image → Res String Image
  | _, 0, img => .ok img
  | yp, n + 1, img =>
    if y + yp ≥ img.height then .ok img
    else (pasteRow p x (y + yp) yp 0 p.width img).bind fun img => pasteLoop p x y (yp + 1) n img

/-- `paste`, lib/image.c:116-133, of another picture. -/
def paste (img p : Image) (x y : Int) : Res String Image := pasteLoop p x y 0 p.height img
end Che.Lib.Image
