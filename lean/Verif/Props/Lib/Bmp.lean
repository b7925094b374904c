import Verif.Proofs.Lib.Bmp

/-!
C102: BMP files.  C103: PPM files.
-/
namespace Che.Props
open Che.Lib Che.Lib.Image Che.Spec.Bmp

/-- The samples of an image at a place. -/
def C102_samples (img : Image) (x y : Nat) : UInt8 × UInt8 × UInt8 :=
  match img.data[y * img.width + x]? with
  | some c => (Png.byte c.red, Png.byte c.green, Png.byte c.blue)
  | none => (0, 0, 0)

/-- C102: the file written is the BMP file of the image. -/
theorem C102_bmp (img : Image) (hd : img.data.length = img.width * img.height) (hw : img.width < 2 ^ 31) (hh : img.height < 2 ^ 31)
    (hs : 54 + img.height * stride img.width < 2 ^ 32) :
    ∃ f, Bmp.write img = .ok f ∧ IsBmp f img.width img.height (C102_samples img) :=
  Bmp.write_bmp img hd (by omega) (by omega) hs _ (fun x y c _ _ h => by unfold C102_samples; rw [h])

/-- C102: a file is the BMP file of one picture only. -/
theorem C102_unique (f : Spec.Bmp.Bytes) (w h w' h' : Nat) (px px' : Nat → Nat → UInt8 × UInt8 × UInt8) (a : IsBmp f w h px) (b : IsBmp f w' h' px') :
    w = w' ∧ h = h' ∧ ∀ x y, x < w → y < h → px x y = px' x y := by
  have hw : w = w' := a.width.symm.trans b.width
  have hh : h = h' := a.height.symm.trans b.height
  subst hw; subst hh
  refine ⟨rfl, rfl, fun x y hx hy => ?_⟩
  have := (a.pixels x y hx hy).symm.trans (b.pixels x y hx hy)
  simp only [List.cons.injEq, and_true] at this
  exact Prod.ext this.2.2 (Prod.ext this.2.1 this.1)

/-- C102 on an image of two by two pixels: rows from the bottom, padded to 8 bytes. -/
example : (match Bmp.write ⟨2, 2, [⟨1, 2, 3, 0⟩, ⟨4, 5, 6, 0⟩, ⟨7, 8, 9, 0⟩, ⟨10, 11, 12, 0⟩]⟩ with | .ok f => f.drop 54 | _ => []) =
    [9, 8, 7, 12, 11, 10, 0, 0, 3, 2, 1, 6, 5, 4, 0, 0] := by
  decide

/-- C103, as far as it goes: the PPM file written has the size of the image and its colours with red and
blue exchanged. -/
theorem C103_ppm_partial (img : Image) (hv : ∀ c ∈ img.data, Png.Valid c) (hd : img.data.length = img.width * img.height) :
    ∃ f, Ppm.writeimg img = .ok f ∧
      Spec.Ppm.decode f = some (img.width, img.height, img.data.map fun c => (Png.byte c.blue, Png.byte c.green, Png.byte c.red)) :=
  Ppm.write_ppm img hv hd

/-- C103: so gray images are written as they are. -/
theorem C103_gray (img : Image) (hv : ∀ c ∈ img.data, Png.Valid c ∧ c.red = c.blue) (hd : img.data.length = img.width * img.height) :
    ∃ f, Ppm.writeimg img = .ok f ∧
      Spec.Ppm.decode f = some (img.width, img.height, img.data.map fun c => (Png.byte c.red, Png.byte c.green, Png.byte c.blue)) := by
  obtain ⟨f, h1, h2⟩ := C103_ppm_partial img (fun c hc => (hv c hc).1) hd
  refine ⟨f, h1, ?_⟩
  rw [h2]
  congr 3
  apply List.map_congr_left
  intro c hc
  rw [(hv c hc).2]

/-- C103 fails for a red pixel: the file shows a blue one. -/
theorem C103_counterexample : (match Ppm.writeimg ⟨1, 1, [⟨255, 0, 0, 0⟩]⟩ with | .ok f => Spec.Ppm.decode f | _ => none) = some (1, 1, [(0, 0, 255)]) := by
  decide +kernel
end Che.Props
