import Verif.Proofs.Lib.Image

/-!
C101: images.
-/
namespace Che.Props
open Che.Lib Che.Lib.Image Che.Spec.Image

/-- C101: a new image is black everywhere, and clearing an image gives the new image of its size. -/
theorem C101_new (w h : Nat) : Shows (new w h) w h (fun _ _ => some ⟨0, 0, 0, 0⟩) ∧
    ∀ img : Image, img.width = w → img.height = h → clear img = new w h :=
  ⟨new_shows w h, fun img h1 h2 => by subst h1; subst h2; rfl⟩

/-- C101: inside the image `get` returns the colour at the place, and `set` changes the colour at this
place and no other. -/
theorem C101_set (img : Image) (hw : Whole img) (x y : Nat) (hx : x < img.width) (hy : y < img.height) (c : Rgba) :
    (∃ d, get img x y = .ok d ∧ at' img x y = some d) ∧
    ∃ img', set img x y c = .ok img' ∧ Shows img' img.width img.height (fun i j => if i = x ∧ j = y then some c else at' img i j) := by
  obtain ⟨d, hd⟩ := at_some hw hx hy
  obtain ⟨s, k1, _, k3, k4, k5, k6⟩ := set_eq hw hx hy c
  exact ⟨⟨d, get_eq hx hy hd, hd⟩, s, k1, k3, k4, k5, fun i j _ _ => k6 i j⟩

/-- C101: outside of the image both panic. -/
theorem C101_outside (img : Image) (x y : Int) (h : ¬(0 ≤ x ∧ x < img.width ∧ 0 ≤ y ∧ y < img.height)) (c : Rgba) :
    get img x y = .panic "invalid pixel coordinates" ∧ set img x y c = .panic "invalid pixel coordinates" :=
  have := get_outside img x y (by omega)
  ⟨this.1, this.2 c⟩

/-- C101: `fill` sets all pixels. -/
theorem C101_fill (img : Image) (hw : Whole img) (c : Rgba) :
    ∃ img', fill img c = .ok img' ∧ Shows img' img.width img.height (fun _ _ => some c) := fill_shows img hw c

/-- C101: `apply` applies the function to all pixels, once. -/
theorem C101_apply (img : Image) (hw : Whole img) (f : Rgba → Rgba) :
    ∃ img', apply img f = .ok img' ∧ Shows img' img.width img.height (fun x y => (at' img x y).map f) := apply_shows img hw f

/-- C101: `explode` enlarges the image `n` times. -/
theorem C101_explode (img : Image) (hw : Whole img) (n : Nat) :
    ∃ big, explode img n = .ok big ∧ Shows big (img.width * n) (img.height * n) (fun x y => at' img (x / n) (y / n)) :=
  explode_shows img hw n

/-- C101: `paste` copies the part of the picture that is inside the image. -/
theorem C101_paste (img p : Image) (hw : Whole img) (hp : Whole p) (x y : Nat) :
    ∃ img', paste img p x y = .ok img' ∧ Shows img' img.width img.height (fun i j =>
      if x ≤ i ∧ i < x + p.width ∧ y ≤ j ∧ j < y + p.height then at' p (i - x) (j - y) else at' img i j) := by
  obtain ⟨img', h1, h2⟩ := pasteLoop_shows p hp x y img.width img.height p.height 0 img (at' img) (by omega) (shows_self hw)
  refine ⟨img', h1, h2.whole, h2.width, h2.height, ?_⟩
  intro i j hi hj
  rw [h2.colours i j hi hj]
  by_cases h : x ≤ i ∧ i < x + p.width ∧ y ≤ j ∧ j < y + p.height
  · rw [if_pos h, if_pos (by omega)]
  · rw [if_neg h, if_neg (by omega)]

/-- C101: a picture that begins left of or above the image is not clipped but refused. -/
theorem C101_paste_negative (img p : Image) (hp : Whole p) (x y : Int) (hpw : 0 < p.width) (hph : 0 < p.height)
    (hneg : x < 0 ∨ y < 0) (hx : x < img.width) (hy : y < img.height) :
    paste img p x y = .panic "invalid pixel coordinates" := paste_negative img p hp x y hpw hph hneg hx hy

/-- C101: an image is determined by what it shows. -/
theorem C101_unique (a b : Image) (w h : Nat) (f : Nat → Nat → Option Rgba) (ha : Shows a w h f) (hb : Shows b w h f) : a = b :=
  shows_unique ha hb

/-- C101 on small images. -/
example : explode ⟨2, 1, [⟨1, 1, 1, 0⟩, ⟨2, 2, 2, 0⟩]⟩ 2 =
      .ok ⟨4, 2, [⟨1, 1, 1, 0⟩, ⟨1, 1, 1, 0⟩, ⟨2, 2, 2, 0⟩, ⟨2, 2, 2, 0⟩, ⟨1, 1, 1, 0⟩, ⟨1, 1, 1, 0⟩, ⟨2, 2, 2, 0⟩, ⟨2, 2, 2, 0⟩]⟩ ∧
    paste (new 2 2) ⟨2, 1, [⟨1, 1, 1, 0⟩, ⟨2, 2, 2, 0⟩]⟩ 1 1 = .ok ⟨2, 2, [⟨0, 0, 0, 0⟩, ⟨0, 0, 0, 0⟩, ⟨0, 0, 0, 0⟩, ⟨1, 1, 1, 0⟩]⟩ ∧
    (match fill (new 2 1) ⟨3, 3, 3, 0⟩ with | .ok i => apply i (fun c => { c with red := c.red + 1 }) | r => r) =
      .ok ⟨2, 1, [⟨4, 3, 3, 0⟩, ⟨4, 3, 3, 0⟩]⟩ := by
  decide
end Che.Props
