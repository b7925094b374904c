import Verif.Model.Lib.IO

namespace Che.Lib

theorem memWriteLoop_eq (size : Nat) (out : Bytes) (r : Int) (data : Bytes) (h : out.length ≤ size) :
    memWriteLoop size out r data =
      (out ++ data.take (size - out.length), r + (data.take (size - out.length)).length) := by
  induction data generalizing out r with
  | nil => simp [memWriteLoop]
  | cons b rest ih =>
    unfold memWriteLoop
    by_cases hs : out.length ≥ size
    · simp [hs, Nat.sub_eq_zero_of_le hs]
    · rw [if_neg hs, ih _ _ (by simp; omega)]
      obtain ⟨k, hk⟩ : ∃ k, size - out.length = k + 1 := ⟨size - out.length - 1, by omega⟩
      have hk' : size - (out ++ [b]).length = k := by simp; omega
      rw [hk, hk']
      simp; omega

/-- A writer appends a prefix of the data and reports its length, or -1 and nothing. -/
theorem WKind.write_spec (k : WKind) (out data : Bytes) :
    ∃ n, n ≤ data.length ∧ (k.write out data).1 = out ++ data.take n ∧
      ((k.write out data).2 = (n : Int) ∨ ((k.write out data).2 = -1 ∧ n = 0)) := by
  cases k with
  | file limit =>
    cases limit with
    | none => exact ⟨data.length, Nat.le_refl _, by simp [WKind.write, fileWrite], Or.inl (by simp [WKind.write, fileWrite])⟩
    | some l =>
      refine ⟨min (l - out.length) data.length, Nat.min_le_right _ _, ?_, Or.inl ?_⟩
      · simp only [WKind.write, fileWrite]
        congr 1
        rw [← List.take_take, List.take_length]
      · simp [WKind.write, fileWrite]
  | mem size =>
    by_cases hs : out.length ≥ size
    · exact ⟨0, Nat.zero_le _, by simp [WKind.write, memWrite, hs], Or.inr (by simp [WKind.write, memWrite, hs])⟩
    · refine ⟨min (size - out.length) data.length, Nat.min_le_right _ _, ?_, Or.inl ?_⟩
      · simp only [WKind.write, memWrite, if_neg hs]
        rw [memWriteLoop_eq _ _ _ _ (by omega)]
        congr 1
        rw [← List.take_take, List.take_length]
      · simp only [WKind.write, memWrite, if_neg hs]
        rw [memWriteLoop_eq _ _ _ _ (by omega)]
        simp

theorem Writer.write_spec (w : Writer) (data : Bytes) :
    (w.write data).1.kind = w.kind ∧
    ∃ n, n ≤ data.length ∧ (w.write data).1.out = w.out ++ data.take n ∧
      ((w.write data).2 = (n : Int) ∨ ((w.write data).2 = -1 ∧ n = 0)) :=
  ⟨rfl, WKind.write_spec w.kind w.out data⟩

theorem Writer.write_all (w : Writer) (data : Bytes) (h : (w.write data).2 = data.length) :
    (w.write data).1.out = w.out ++ data := by
  obtain ⟨_, n, hn, ho, hr⟩ := w.write_spec data
  rw [ho]
  rcases hr with hr | ⟨hr, _⟩
  · rw [h] at hr
    have : data.length = n := by exact_mod_cast hr
    rw [← this, List.take_length]
  · rw [h] at hr; omega

/-- A file that never gets full takes everything. -/
theorem Writer.write_file (w : Writer) (data : Bytes) (hk : w.kind = .file none) :
    (w.write data).1.out = w.out ++ data ∧ (w.write data).2 = data.length := by
  simp [Writer.write, hk, WKind.write, fileWrite]

theorem memReadLoop_eq (n : Nat) (rest : Bytes) (r : Int) (got : Bytes) :
    memReadLoop n rest r got = (rest.drop n, r + (rest.take n).length, got ++ rest.take n) := by
  induction n generalizing rest r got with
  | zero => simp [memReadLoop]
  | succ n ih =>
    cases rest with
    | nil => simp [memReadLoop]
    | cons b rest => rw [memReadLoop, ih]; simp; omega

/-- What is left of a source that delivers all it has. -/
def Source.rest : Source → Bytes
  | .file r => r
  | .mem r => r
  | .fd cs => cs.flatten

/-- Sources that deliver as many bytes as they have. -/
def Source.full : Source → Bool
  | .fd _ => false
  | _ => true

theorem Source.read_full (s : Source) (n : Nat) (hf : s.full = true) (hn : 0 < n) :
    (s.read n).2.2 = s.rest.take n ∧ (s.read n).1.rest = s.rest.drop n ∧ (s.read n).1.full = true ∧
    ((s ≠ .file [] ∧ (s.read n).2.1 = ((s.rest.take n).length : Int)) ∨
      (s = .file [] ∧ (s.read n).2.1 = -1)) := by
  cases s with
  | file rest =>
    cases rest with
    | nil => simp [Source.read, fileRead, Source.rest, Source.full]; omega
    | cons b rest =>
      obtain ⟨m, rfl⟩ : ∃ m, n = m + 1 := ⟨n - 1, by omega⟩
      simp [Source.read, fileRead, Source.rest, Source.full]
  | mem rest =>
    cases rest with
    | nil => simp [Source.read, memRead, Source.rest, Source.full]
    | cons b rest =>
      simp [Source.read, memRead, Source.rest, Source.full, memReadLoop_eq]
  | fd _ => simp [Source.full] at hf

theorem Reader.read_full (rd : Reader) (n : Nat) (hf : rd.src.full = true) (hn : 0 < n) :
    (rd.read n).2.2 = rd.src.rest.take n ∧ (rd.read n).1.src.rest = rd.src.rest.drop n ∧
    (rd.read n).1.src.full = true ∧
    ((rd.src ≠ .file [] ∧ (rd.read n).2.1 = ((rd.src.rest.take n).length : Int)) ∨
      (rd.src = .file [] ∧ (rd.read n).2.1 = -1)) :=
  Source.read_full rd.src n hf hn

end Che.Lib
