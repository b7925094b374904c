import Verif.Proofs.Lib.Tiff
import Verif.Model.Lib.Enc

/-!
C161: reading of TIFF directories.
-/
namespace Che.Props
open Che.Lib Che.Lib.Tiff Che.Spec.Tiff

private theorem tiff_bind_ok {α β : Type} (a : α) (g : α → Res String β) : (Res.ok a).bind g = g a := rfl

/-- `parse` ends with some directories exactly when the data are a TIFF file with these directories, in either order of bytes; it needs one round more than there are directories. -/
theorem C161_dirs (data : Bytes) (ds : List (List Entry)) :
    ((∃ k, parse k data = .ok ds) ↔ ∃ big, Tiff data big ds) ∧ ∀ big, Tiff data big ds → ∀ k, ds.length < k → parse k data = .ok ds :=
  ⟨⟨fun ⟨k, h⟩ => parse_sound k data ds h, fun ⟨_, h⟩ => ⟨_, parse_complete h (ds.length + 1) (by omega)⟩⟩, fun _ h k hk => parse_complete h k hk⟩

/-- The string of an entry that is elsewhere in the file: as many bytes as it has, from the place that is its value on. -/
theorem C161_string_partial (a s c : Bytes) (pos : Nat) (big : Bool) (tag : Nat) :
    getstring { data := a ++ s ++ c, pos, big } { tag, type := 2, count := s.length, value := a.length } = .ok s :=
  (copyLoop_iff s.length _ [] s (by simp)).mpr ⟨s, rfl, ⟨a, c, rfl, rfl⟩, rfl⟩

/-- A file with the other order of bytes, with a directory of two entries: a width of 16 and a text of three bytes with the zero, which is in the entry. -/
def tiffBig : Bytes :=
  [77, 77, 0, 42, 0, 0, 0, 8, 0, 2] ++ [1, 0, 0, 3, 0, 0, 0, 1, 0, 16, 0, 0] ++ [1, 49, 0, 2, 0, 0, 0, 3, 104, 105, 0, 0] ++ [0, 0, 0, 0]

/-- The values of `tiffBig` as they are read: the width is 1048576, not 16, because a value of two bytes is in the first two bytes of the four; and the text, which is in the entry itself, is looked for at 1751711744. -/
theorem C161_counterexample_values :
    parse 2 tiffBig = .ok [[{ tag := 256, type := 3, count := 1, value := 1048576 }, { tag := 305, type := 2, count := 3, value := 1751711744 }]] ∧
    getstring { data := tiffBig, pos := 0, big := true } { tag := 305, type := 2, count := 3, value := 1751711744 } = .panic "undefined: read past the end of the data" := by
  constructor
  · decide +kernel
  · unfold getstring
    rw [copyLoop]
    have : tiffBig[1751711744]? = none := List.getElem?_eq_none (by decide)
    simp only
    rw [this]

/-- A file whose directory, which has no entries, is its own next one. -/
def tiffCycle : Bytes := [73, 73, 42, 0, 8, 0, 0, 0, 0, 0, 8, 0, 0, 0]

/-- The file whose directory is its own next one is read forever. -/
theorem C161_counterexample_cycle (k : Nat) : parse k tiffCycle = .diverge := by
  have r8 : ∀ pos, pos = 4 ∨ pos = 10 → readbytes { data := tiffCycle, pos, big := false } 4 = .ok ({ data := tiffCycle, pos := pos + 4, big := false }, 8) := by
    rintro pos (rfl | rfl) <;> decide +kernel
  have rd : read_dir { data := tiffCycle, pos := 8, big := false } = .ok ({ data := tiffCycle, pos := 10, big := false }, []) := by decide +kernel
  have step : ∀ k pos, pos = 4 ∨ pos = 10 → dirLoop (k + 1) { data := tiffCycle, pos, big := false } =
      (dirLoop k { data := tiffCycle, pos := 10, big := false }).bind fun ds => .ok ([] :: ds) := by
    intro k pos h
    rw [dirLoop, r8 pos h]
    simp only [tiff_bind_ok]
    rw [if_neg (by decide), rd]
    rfl
  have two : ∀ k, dirLoop k { data := tiffCycle, pos := 10, big := false } = .diverge := by
    intro k
    induction k with
    | zero => rfl
    | succ k ih => rw [step k 10 (.inr rfl), ih]; rfl
  have one : dirLoop k { data := tiffCycle, pos := 4, big := false } = .diverge := by
    cases k with
    | zero => rfl
    | succ k => rw [step k 4 (.inl rfl), two]; rfl
  have r0 : readbytes { data := tiffCycle, pos := 0, big := false } 2 = .ok ({ data := tiffCycle, pos := 2, big := false }, 0x4949) := by decide +kernel
  have r2 : readbytes { data := tiffCycle, pos := 2, big := false } 2 = .ok ({ data := tiffCycle, pos := 4, big := false }, 42) := by decide +kernel
  unfold parse
  rw [r0]
  simp only [tiff_bind_ok]
  rw [if_pos trivial]
  unfold parseRest
  rw [r2]
  simp only [tiff_bind_ok]
  rw [if_neg (by decide)]
  exact one

/-- A file that ends before the place of the first directory is read past its end. -/
theorem C161_counterexample_short : parse 1 [73, 73, 42, 0, 8] = .panic "undefined: read past the end of the data" := by decide +kernel

/-- A file with two directories. -/
def tiffTwo : Bytes :=
  [73, 73, 42, 0, 8, 0, 0, 0] ++ [1, 0, 0, 1, 3, 0, 1, 0, 0, 0, 16, 0, 0, 0, 26, 0, 0, 0] ++ [1, 0, 1, 1, 4, 0, 1, 0, 0, 0, 1, 2, 0, 0, 0, 0, 0, 0]

example : Tiff tiffTwo false [[{ tag := 256, type := 3, count := 1, value := 16 }], [{ tag := 257, type := 4, count := 1, value := 513 }]] := by
  refine ⟨by decide, ?_⟩
  have h : dirLoop 3 { data := tiffTwo, pos := 4, big := false } = .ok [[{ tag := 256, type := 3, count := 1, value := 16 }], [{ tag := 257, type := 4, count := 1, value := 513 }]] := by decide +kernel
  exact ⟨⟨[73, 73], [42, 0], tiffTwo.drop 4, rfl, rfl, rfl, rfl⟩, dirLoop_sound _ _ _ h⟩

example : getstring { data := cstr "II*.hello.", pos := 0, big := false } { tag := 305, type := 2, count := 5, value := 4 } = .ok (cstr "hello") :=
  C161_string_partial (cstr "II*.") (cstr "hello") (cstr ".") 0 false 305
end Che.Props
