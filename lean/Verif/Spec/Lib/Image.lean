import Verif.Model.Lib.Image

/-!
Images as functions from places to colours.
-/
namespace Che.Spec.Image
open Che.Lib.Image

/-- The colour at a place. -/
def at' (img : Image) (x y : Nat) : Option Rgba := if x < img.width ∧ y < img.height then img.data[y * img.width + x]? else none

/-- The array has a colour for each place. -/
def Whole (img : Image) : Prop := img.data.length = img.width * img.height

/-- An image has the size and the colours given. -/
structure Shows (img : Image) (w h : Nat) (f : Nat → Nat → Option Rgba) : Prop where
  whole : Whole img
  width : img.width = w
  height : img.height = h
  colours : ∀ x y, x < w → y < h → at' img x y = f x y
end Che.Spec.Image
