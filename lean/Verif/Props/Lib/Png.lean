import Verif.Proofs.Lib.PngGray

/-!
C100: PNG files are read back as the images that were written.
-/
namespace Che.Props
open Che.Lib Che.Lib.Image Che.Lib.Png Che.Spec.Png

/-- An image whose data has a pixel for each place, with lines that fit into a block and data that
fits into a chunk of `k` bytes a pixel. -/
structure C100_Fits (img : Image) (k : Nat) : Prop where
  data : img.data.length = img.width * img.height
  width : 0 < img.width
  height : 0 < img.height
  line : 1 + k * img.width < 65536
  size : 6 + img.height * (6 + k * img.width) < 2 ^ 31

theorem C100_plain {mode : Nat} (hm : Mode mode) (h3 : mode ≠ 3) (img : Image) (hf : C100_Fits img (bytesPerPixel mode)) (px : Rgba → Pixel)
    (hpx : ∀ c ∈ img.data, pixel mode [] [] (pixBytes mode [] c) = some (px c)) :
    ∃ f, write img mode = .ok f ∧ decode f = some ⟨img.width, img.height, img.data.map px⟩ := by
  refine ⟨_, write_plain hm h3 img hf.data hf.line, ?_⟩
  refine decode_file hm [] px img hf.data hf.width hf.height hf.line ?_ [] (by intro c h; cases h) hpx
  have := hf.size
  rw [show 5 + (1 + bytesPerPixel mode * img.width) = 6 + bytesPerPixel mode * img.width by omega]
  omega

/-- C100: in the mode RGBA the picture of the file is the image; the sample `transparency` is
written as the alpha sample. -/
theorem C100_rgba (img : Image) (hf : C100_Fits img 4) :
    ∃ f, write img 6 = .ok f ∧
      decode f = some ⟨img.width, img.height, img.data.map fun c => ⟨byte c.red, byte c.green, byte c.blue, byte c.transparency⟩⟩ :=
  C100_plain (.inr (.inr (.inr (.inr rfl)))) (by decide) img hf _ (fun _ _ => rfl)

/-- C100: in the mode RGB the picture of the file is the image without transparency. -/
theorem C100_rgb (img : Image) (hf : C100_Fits img 3) :
    ∃ f, write img 2 = .ok f ∧
      decode f = some ⟨img.width, img.height, img.data.map fun c => ⟨byte c.red, byte c.green, byte c.blue, 255⟩⟩ :=
  C100_plain (.inr (.inl rfl)) (by decide) img hf _ (fun _ _ => rfl)

/-- C100: the gray level `v` of a colour: the whole part of 0.2989 r + 0.5870 g + 0.1140 b, or one less if
the sum is whole. -/
def C100_Gray (c : Rgba) (v : UInt8) : Prop :=
  v.toNat = (2989 * c.red.toNat + 5870 * c.green.toNat + 1140 * c.blue.toNat) / 10000 ∨
  10000 * (v.toNat + 1) = 2989 * c.red.toNat + 5870 * c.green.toNat + 1140 * c.blue.toNat

/-- C100: in the gray modes the picture of the file has the gray levels of the colours, and the
transparency in the mode with alpha. -/
theorem C100_gray_partial (img : Image) (hv : ∀ c ∈ img.data, Valid c) :
    (∀ c ∈ img.data, C100_Gray c (gray c)) ∧
    (C100_Fits img 1 → ∃ f, write img 0 = .ok f ∧ decode f = some ⟨img.width, img.height, img.data.map fun c => ⟨gray c, gray c, gray c, 255⟩⟩) ∧
    (C100_Fits img 2 → ∃ f, write img 4 = .ok f ∧
      decode f = some ⟨img.width, img.height, img.data.map fun c => ⟨gray c, gray c, gray c, byte c.transparency⟩⟩) :=
  ⟨fun c hc => gray_bound c (hv c hc),
   fun hf => C100_plain (.inl rfl) (by decide) img hf _ (fun _ _ => rfl),
   fun hf => C100_plain (.inr (.inr (.inr (.inl rfl)))) (by decide) img hf _ (fun _ _ => rfl)⟩

/-- C100: in the mode with a palette the picture of the file has the colours of the image that are
among its first 256, and the 256th colour for the others. -/
theorem C100_palette_partial (img : Image) (hf : C100_Fits img 1) (hv : ∀ c ∈ img.data, Valid c) :
    ∃ f, write img 3 = .ok f ∧
      decode f = some ⟨img.width, img.height, img.data.map fun c =>
        if colour c ∈ (colours (img.data.map colour)).take 256 then colour c else (colours (img.data.map colour)).getD 255 ⟨0, 0, 0, 0⟩⟩ := by
  refine ⟨_, write_palette img hf.data (by have := hf.line; omega), ?_⟩
  have hpl := palette_length img.data
  obtain ⟨hcol, hpack⟩ := palette_colours img.data hv
  refine decode_file (mode := 3) (.inr (.inr (.inl rfl))) (palette img.data) _ img hf.data hf.width hf.height hf.line ?_
    [(plte, plteBytes (palette img.data)), (trns, trnsBytes (palette img.data))] ?_ ?_
  · have := hf.size
    rw [show 5 + (1 + bytesPerPixel 3 * img.width) = 6 + 1 * img.width by simp [bytesPerPixel]; omega]
    omega
  · intro c hc
    simp only [List.mem_cons, List.not_mem_nil, or_false] at hc
    rcases hc with rfl | rfl
    · exact ⟨.inl rfl, by rw [plte_length]; omega⟩
    · refine ⟨.inr rfl, ?_⟩
      simp only [trnsBytes, List.length_map, List.length_range']
      omega
  · intro c hc
    have e1 : dataOf plte [(plte, plteBytes (palette img.data)), (trns, trnsBytes (palette img.data))] = plteBytes (palette img.data) := by
      simp [dataOf, show trns ≠ plte by decide]
    have e2 : dataOf trns [(plte, plteBytes (palette img.data)), (trns, trnsBytes (palette img.data))] = trnsBytes (palette img.data) := by
      simp [dataOf, show plte ≠ trns by decide]
    rw [e1, e2]
    show pixel 3 _ _ [paletteByte (palette img.data) c] = _
    by_cases hm : pack32 c ∈ palette img.data
    · obtain ⟨h1, h2⟩ := paletteByte_mem _ hpl c hm
      rw [pixel_palette _ _ (by omega), h2, unpack_pack c (hv c hc), if_pos]
      rw [← hcol, List.mem_map]
      exact ⟨_, hm, unpack_pack c (hv c hc)⟩
    · have hlen := (palette_has img.data c hc).resolve_left hm
      have h1 := paletteByte_not _ c hm
      rw [pixel_palette _ _ (by omega), h1, if_neg]
      · have h255 : (palette img.data)[255]? = some ((palette img.data).getD 255 0) := by
          rw [List.getD_eq_getElem?_getD, List.getElem?_eq_getElem (by omega)]; rfl
        have := congrArg (fun l => l[255]?) hcol
        simp only [List.getElem?_map, h255, Option.map_some] at this
        rw [List.getElem?_take_of_lt (by omega)] at this
        rw [List.getD_eq_getElem?_getD (l := colours _), ← this]
        rfl
      · intro h
        rw [← hcol, List.mem_map] at h
        obtain ⟨v, v1, v2⟩ := h
        obtain ⟨d, hd, rfl⟩ := hpack v v1
        rw [unpack_pack d (hv d hd)] at v2
        rw [colour_inj d c (hv d hd) (hv c hc) v2] at v1
        exact hm v1

/-- C100: so in the mode with a palette an image with at most 256 colours is read back as it is. -/
theorem C100_palette (img : Image) (hf : C100_Fits img 1) (hv : ∀ c ∈ img.data, Valid c) (hc : (colours (img.data.map colour)).length ≤ 256) :
    ∃ f, write img 3 = .ok f ∧ decode f = some ⟨img.width, img.height, img.data.map colour⟩ := by
  obtain ⟨f, h1, h2⟩ := C100_palette_partial img hf hv
  refine ⟨f, h1, h2.trans ?_⟩
  congr 2
  apply List.map_congr_left
  intro c hm
  rw [if_pos]
  rw [List.take_of_length_le hc]
  have key : ∀ (l cs : List Pixel) (p : Pixel), (p ∈ l ∨ p ∈ cs) → p ∈ l.foldl (fun cs p => if p ∈ cs then cs else cs ++ [p]) cs := by
    intro l
    induction l with
    | nil => intro cs p h; rcases h with h | h; cases h; exact h
    | cons q l ih =>
      intro cs p h
      rw [List.foldl_cons]
      apply ih
      rcases h with h | h
      · rcases List.mem_cons.mp h with rfl | h
        · by_cases hp : p ∈ cs
          · exact .inr (by rw [if_pos hp]; exact hp)
          · exact .inr (by rw [if_neg hp]; simp)
        · exact .inl h
      · refine .inr ?_
        split
        · exact h
        · simp [h]
  exact key _ _ _ (.inl (List.mem_map_of_mem hm))

/-- C100: lines of 65535 bytes or more are refused, whatever the rest of the image is. -/
theorem C100_wide {mode : Nat} (h3 : mode ≠ 3) (img : Image) (hw : 65535 ≤ bytesPerPixel mode * img.width) :
    write img mode = .panic "maximum supported width" := by
  unfold write
  simp only [if_neg h3, ok_bind]
  unfold writeData
  simp only
  rw [if_pos (by omega)]
  rfl

/-- C100 fails for some gray levels that are whole: 0.5870 * 160 + 0.1140 * 220 is 119 and is written as
118.  The weights add up to 0.9999, so white is written as 254. -/
theorem C100_counterexample_gray : gray ⟨0, 160, 220, 0⟩ = 118 ∧ 5870 * 160 + 1140 * 220 = 119 * 10000 ∧
    gray ⟨255, 255, 255, 0⟩ = 254 := by
  decide +kernel

/-- C100 fails for transparency: the colour `white()`, whose transparency is 0, is read back with the
alpha sample 0, that is, fully transparent. -/
theorem C100_counterexample_alpha :
    (match write ⟨1, 1, [⟨255, 255, 255, 0⟩]⟩ 6 with | .ok f => decode f | _ => none) = some ⟨1, 1, [⟨255, 255, 255, 0⟩]⟩ := by
  decide +kernel

/-- C100 on a picture of two lines. -/
example : (match write ⟨3, 2, [⟨1, 2, 3, 4⟩, ⟨5, 6, 7, 8⟩, ⟨1, 2, 3, 4⟩, ⟨9, 9, 9, 0⟩, ⟨255, 254, 253, 252⟩, ⟨5, 6, 7, 8⟩]⟩ 3 with | .ok f => decode f | _ => none) =
    some ⟨3, 2, [⟨1, 2, 3, 4⟩, ⟨5, 6, 7, 8⟩, ⟨1, 2, 3, 4⟩, ⟨9, 9, 9, 0⟩, ⟨255, 254, 253, 252⟩, ⟨5, 6, 7, 8⟩]⟩ := by
  decide +kernel
end Che.Props
