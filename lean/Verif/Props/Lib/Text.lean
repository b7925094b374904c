import Verif.Proofs.Lib.Text

/-!
C95 URLs, C96 lines of a file, C97 tables.
-/
namespace Che.Props
open Che.Lib Che.Spec.Text

/-! ## C95 -/

/-- C95: a URL is taken apart into its parts, if they fit; nothing else is. -/
theorem C95_parse (s : Bytes) (u : Url.Url) : Url.parse s = .ok (some u) ↔ IsUrl s u ∧ Fits u := by
  rcases Url.parse_spec s with ⟨h1, m, h2⟩ | ⟨h1, h2, h3⟩ | ⟨v, h1, h2, h3, h4⟩
  · rw [h2]
    constructor
    · intro h; cases h
    · rintro ⟨h, hf, -⟩
      rw [((Url.isUrl_iff s u).mp h).1] at hf; omega
  · rw [h3]
    constructor
    · intro h; cases h
    · rintro ⟨h, -⟩; exact absurd h (h2 u)
  · rcases h4 with ⟨hf, e⟩ | ⟨hf, m, e⟩
    · rw [e]
      constructor
      · intro h; cases h; exact ⟨h1, hf⟩
      · rintro ⟨h, -⟩; rw [h2 u h]
    · rw [e]
      constructor
      · intro h; cases h
      · rintro ⟨h, hf'⟩; rw [h2 u h] at hf'; exact absurd hf' hf

/-- C95: a text is a URL in one way at most. -/
theorem C95_unambiguous (s : Bytes) (u v : Url.Url) (hu : IsUrl s u) (hv : IsUrl s v) : u = v := by
  obtain ⟨a1, r, a2, a3, a4, a5⟩ := (Url.isUrl_iff s u).mp hu
  obtain ⟨b1, r', b2, b3, b4, b5⟩ := (Url.isUrl_iff s v).mp hv
  rw [a2] at b2; cases b2
  cases u; cases v
  simp only at a1 a3 a4 a5 b1 b3 b4 b5
  rw [a1, a3, a4, a5, b1, b3, b4, b5]

/-- C95: a text that is no URL is refused, if there are at most 10 bytes before its first
colon; all other texts are written past the end of an array. -/
theorem C95_refused_partial (s : Bytes) :
    (Url.parse s = .ok none ↔ (s.takeWhile (· ≠ 58)).length ≤ 10 ∧ ∀ u, ¬ IsUrl s u) ∧
    ((∃ m, Url.parse s = .panic m) ↔ (s.takeWhile (· ≠ 58)).length > 10 ∨ ∃ u, IsUrl s u ∧ ¬ Fits u) := by
  rcases Url.parse_spec s with ⟨h1, m, h2⟩ | ⟨h1, h2, h3⟩ | ⟨v, h1, h2, h3, h4⟩
  · rw [h2]
    exact ⟨⟨fun h => (nomatch h), by rintro ⟨h, -⟩; omega⟩, ⟨fun _ => .inl h1, fun _ => ⟨m, rfl⟩⟩⟩
  · rw [h3]
    refine ⟨⟨fun _ => ⟨h1, h2⟩, fun _ => rfl⟩, ⟨fun ⟨_, h⟩ => (nomatch h), ?_⟩⟩
    rintro (h | ⟨u, h, -⟩)
    · omega
    · exact absurd h (h2 u)
  · have hs := ((Url.isUrl_iff s v).mp h1).1
    rw [hs] at h3
    rcases h4 with ⟨hf, e⟩ | ⟨hf, m, e⟩
    · rw [e]
      refine ⟨⟨fun h => (nomatch h), ?_⟩, ⟨fun ⟨_, h⟩ => (nomatch h), ?_⟩⟩
      · rintro ⟨-, h⟩; exact absurd h1 (h v)
      · rintro (h | ⟨u, h, hf'⟩)
        · omega
        · rw [h2 u h] at hf'; exact absurd hf hf'
    · rw [e]
      refine ⟨⟨fun h => (nomatch h), ?_⟩, ⟨fun _ => .inr ⟨v, h1, hf⟩, fun _ => ⟨m, rfl⟩⟩⟩
      rintro ⟨-, h⟩; exact absurd h1 (h v)

/-- C95 is false of long texts: eleven letters without a colon run past the end of an array. -/
theorem C95_counterexample : ∃ m, Url.parse (List.replicate 11 97) = .panic m := ⟨_, rfl⟩

/-! `http://ab:80/c:/d`, `x://`, `x:/a`. -/
example : Url.parse [104, 116, 116, 112, 58, 47, 47, 97, 98, 58, 56, 48, 47, 99, 58, 47, 100] =
    .ok (some ⟨[104, 116, 116, 112], [97, 98], [56, 48], [47, 99, 58, 47, 100]⟩) := by decide
example : Url.parse [120, 58, 47, 47] = .ok (some ⟨[120], [], [], [47]⟩) := by decide
example : Url.parse [120, 58, 47, 97] = .ok none := by decide

/-! ## C96 -/

/-- C96: the lines of a file are read one after another, each with its newline, however long
they are, when the file has no bytes 0 and 255. -/
theorem C96_lines (file : Bytes) (h0 : (0 : UInt8) ∉ file) (h255 : (255 : UInt8) ∉ file) (ls : List Bytes) :
    LineReader.readAll (file.length + 2) (LineReader.new file) = .ok ls ↔ Lines file ls := by
  obtain ⟨ls', h1, h2⟩ := LineReader.readAll_spec (file.length + 2) (LineReader.new file)
    (by show file.length + 1 < _; omega) (by rw [LineReader.new, List.length_replicate]; omega) rfl
  have hseen : LineReader.seen file = file := by
    have := LineReader.seen_append (r := []) h255
    simpa [LineReader.seen] using this
  have h1' : Lines file ls' := by rw [← hseen]; exact h1
  have hmap : ls'.map (fun l => l.takeWhile (· ≠ 0)) = ls' := by
    clear h1 h2 hseen h255
    have key : ∀ l : Bytes, (0 : UInt8) ∉ l → l.takeWhile (· ≠ 0) = l := by
      intro l hl
      induction l with
      | nil => rfl
      | cons x l ih =>
        rw [List.takeWhile_cons, if_pos (by simp; rintro rfl; exact hl (by simp)), ih (fun e => hl (by simp [e]))]
    induction h1' with
    | none => rfl
    | last l => simp only [List.map_cons, List.map_nil, key l h0]
    | line l s ls _ _ ih =>
      rw [List.map_cons, ih (fun e => h0 (by simp [e])), key _ (fun e => h0 (List.mem_append.mpr (.inl e)))]
  rw [h2, hmap, Res.ok.injEq]
  constructor
  · rintro rfl; exact h1'
  · exact fun h => LineReader.lines_unique h1' h

/-- C96: every file has its lines. -/
theorem C96_exists (s : Bytes) : ∃ ls, Lines s ls ∧ ls.flatten = s ∧ ∀ l ∈ ls, l ≠ [] := by
  have gen : ∀ (s acc : Bytes), (10 : UInt8) ∉ acc → ∃ ls, Lines (acc ++ s) ls ∧ ls.flatten = acc ++ s ∧ ∀ l ∈ ls, l ≠ [] := by
    intro s
    induction s with
    | nil =>
      intro acc hacc
      by_cases h0 : acc = []
      · subst h0; exact ⟨[], .none, rfl, by simp⟩
      · refine ⟨[acc], by rw [List.append_nil]; exact .last acc h0 hacc, by simp, by simpa using h0⟩
    | cons x s ih =>
      intro acc hacc
      by_cases hx : x = 10
      · subst hx
        obtain ⟨ls, h1, h2, h3⟩ := ih [] (by simp)
        refine ⟨(acc ++ [10]) :: ls, ?_, ?_, ?_⟩
        · have := Lines.line acc s ls hacc (by simpa using h1)
          simpa using this
        · simp only [List.flatten_cons, h2]; simp
        · intro l hl
          rcases List.mem_cons.mp hl with rfl | hl
          · simp
          · exact h3 l hl
      · obtain ⟨ls, h1, h2, h3⟩ := ih (acc ++ [x]) (by simp [hacc, Ne.symm hx])
        exact ⟨ls, by simpa using h1, by simpa using h2, h3⟩
  simpa using gen s [] (by simp)

/-- C96, any file: the lines before the first byte 255 are read, each up to its first zero.
The reader never leaves its buffer and always ends. -/
theorem C96_any_partial (file : Bytes) : ∃ ls, Lines (file.takeWhile (· ≠ 255)) ls ∧
    LineReader.readAll (file.length + 2) (LineReader.new file) = .ok (ls.map fun l => l.takeWhile (· ≠ 0)) :=
  LineReader.readAll_spec (file.length + 2) (LineReader.new file)
    (by show file.length + 1 < _; omega) (by rw [LineReader.new, List.length_replicate]; omega) rfl

/-- C96 is false of the byte 255: the rest of the file is lost. -/
theorem C96_counterexample : LineReader.readAll 7 (LineReader.new [97, 10, 255, 98, 10]) = .ok [[97, 10]] ∧
    Lines [97, 10, 255, 98, 10] [[97, 10], [255, 98, 10]] := by
  refine ⟨?_, .line [97] [255, 98, 10] _ (by simp) (.line [255, 98] [] _ (by simp) .none)⟩
  obtain ⟨ls, h1, h2⟩ := C96_any_partial [97, 10, 255, 98, 10]
  have := LineReader.lines_unique h1 (Lines.line [97] [] [] (by simp) .none)
  subst this
  exact h2

/-! `a`, newline, newline, `b`: three lines. -/
example : Lines [97, 10, 10, 98] [[97, 10], [10], [98]] :=
  .line [97] [10, 98] _ (by simp) (.line [] [98] _ (by simp) (.last [98] (by simp) (by simp)))
example : LineReader.readAll 6 (LineReader.new [97, 10, 10, 98]) = .ok [[97, 10], [10], [98]] :=
  (C96_lines [97, 10, 10, 98] (by simp) (by simp) _).mpr
    (.line [97] [10, 98] _ (by simp) (.line [] [98] _ (by simp) (.last [98] (by simp) (by simp))))

/-! ## C97 -/

/-- C97: a table is printed row by row, every value whole and padded with spaces to the width
of its column.  A column is as wide as its widest value or wider, by two at most. -/
theorem C97_print (t : Table.T) (hn : 0 < t.ncols) : ∃ out width, Table.print t = .ok out ∧
    Laid t.ncols width 0 t.values out ∧
    (∀ (i : Nat) (v : Bytes), t.values[i]? = some v → v.length ≤ width (i % t.ncols)) ∧
    ∀ c, width c = 0 ∨ ∃ (i : Nat) (v : Bytes), t.values[i]? = some v ∧ i % t.ncols = c ∧ width c = v.length + 2 := by
  obtain ⟨h1, h2, h3, h4⟩ := Table.widthsLoop_spec t.ncols hn 0 t.values (List.replicate t.ncols 0) (by simp)
  simp only [Nat.zero_add] at h3 h4
  refine ⟨_, _, ?_, Table.printLoop_laid t.ncols hn _ 0 t.values (by simpa using h3), h3, ?_⟩
  · unfold Table.print
    rw [if_neg (by omega)]
  · intro c
    rcases h4 c with h | h
    · left
      rw [h]
      simp only [List.getD_eq_getElem?_getD, List.getElem?_replicate]
      split <;> rfl
    · exact .inr h

/-- C97: the values are those pushed, in order. -/
theorem C97_push (ncols : Nat) (vs : List Bytes) :
    vs.foldl Table.pushval (Table.new ncols) = ⟨ncols, vs⟩ := by
  have gen : ∀ (vs : List Bytes) (t : Table.T), vs.foldl Table.pushval t = ⟨t.ncols, t.values ++ vs⟩ := by
    intro vs
    induction vs with
    | nil => intro t; simp
    | cons v vs ih => intro t; rw [List.foldl_cons, ih]; simp [Table.pushval]
  simpa [Table.new] using gen vs (Table.new ncols)

/-- C97 is false of the gap between columns: a value can touch the next one. -/
theorem C97_counterexample_gap : Table.print ⟨2, [[97], [98], [97, 98, 99], [100]]⟩ =
    .ok [97, 32, 32, 98, 32, 32, 10, 97, 98, 99, 100, 32, 32, 10] := by decide

/-- C97 is false of a row that is not full: no newline ends it. -/
theorem C97_counterexample_row : Table.print ⟨2, [[97], [98], [97]]⟩ =
    .ok [97, 32, 32, 98, 32, 32, 10, 97, 32, 32] := by decide

/-- C97: a value has two spaces after it when no value of its column is shorter by one or by
two. -/
theorem C97_gap_partial (t : Table.T) (hn : 0 < t.ncols) (v : Bytes) (i : Nat) (hv : t.values[i]? = some v)
    (hmax : ∀ (j : Nat) (u : Bytes), t.values[j]? = some u → j % t.ncols = i % t.ncols →
      u.length + 2 ≠ v.length ∧ u.length + 1 ≠ v.length)
    (hne : v ≠ []) : ∃ out width, Table.print t = .ok out ∧ Laid t.ncols width 0 t.values out ∧ v.length + 2 ≤ width (i % t.ncols) := by
  obtain ⟨out, width, h1, h2, h3, h4⟩ := C97_print t hn
  refine ⟨out, width, h1, h2, ?_⟩
  have hle := h3 i v hv
  rcases h4 (i % t.ncols) with h | ⟨j, u, hu, hj, hw⟩
  · rw [h] at hle
    exact absurd (List.length_eq_zero_iff.mp (by omega)) hne
  · by_cases hlt : u.length < v.length
    · have := hmax j u hu hj
      omega
    · omega

example : Table.print (Table.pushval (Table.pushval (Table.new 1) [97, 98]) []) = .ok [97, 98, 32, 32, 10, 32, 32, 32, 32, 10] := by decide
end Che.Props
