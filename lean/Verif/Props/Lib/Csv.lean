import Verif.Proofs.Lib.Csv
import Verif.Proofs.Prog.Csv2json
import Verif.Props.Lib.Json

/-!
C74-C76: `lib/formats/csv.c` reads and writes comma-separated values, and
`prog/csv2json` prints them as JSON.
-/
namespace Che.Props
open Che.Lib Che.Lib.Csv Che.Spec.Lib

/-- C74 in full. -/
def C74_full : Prop := ∀ rs text, CsvFile (fun _ => True) rs text → ∃ x, readlines text = .ok (x, rs) ∧ x.sound = true

/-- C75 in full. -/
def C75_full : Prop := ∀ rs : List (List Bytes), (∀ r ∈ rs, r ≠ []) → CsvFile (fun _ => True) rs (rs.flatMap writeline)

/-- C74.  Reading a text of RFC 4180 gives the values of its records.

This is shown for the texts in which the last field of a record is not empty (it may be
`""`) and every value has less than 4096 bytes and no zero.  It is false of the others
(`C74_counterexample`, `C74_long_value`). -/
theorem C74_partial (rs : List (List Bytes)) (text : Bytes) (h : CsvFile (· ≠ []) rs text)
    (hv : ∀ r ∈ rs, ∀ v ∈ r, v.length < 4096 ∧ 0 ∉ v) :
    ∃ x, readlines text = .ok (x, rs) ∧ x.sound = true :=
  readlines_file h hv

/-- A text of two records, with line ends of both kinds: `a,"b,""\n"\r\n,c\n`. -/
example : CsvFile (· ≠ []) [[[97], [98, 44, 34, 10]], [[], [99]]] [97, 44, 34, 98, 44, 34, 34, 10, 34, 13, 10, 44, 99, 10] := by
  have q : QuotedText [98, 44, 34, 10] [98, 44, 34, 34, 10] :=
    .plain (by decide) (.plain (by decide) (.quote (.plain (by decide) .nil)))
  have r1 := CsvRecord.more (last := (· ≠ [])) (CsvField.bare (v := [97]) (by simp)) (.one (.quoted q) (by simp))
  have r2 := CsvRecord.more (last := (· ≠ [])) (CsvField.bare (v := []) (by simp)) (.one (.bare (v := [99]) (by simp)) (by simp))
  exact .more r1 (.inr rfl) (.more r2 (.inl rfl) .nil)

/-- The record `a,` has two values; one is read. -/
theorem C74_counterexample : CsvFile (fun _ => True) [[[97], []]] [97, 44, 10] ∧
    ∃ x, readlines [97, 44, 10] = .ok (x, [[[97]]]) := by
  constructor
  · have r : CsvRecord (fun _ => True) [[97], []] [97, 44] :=
      .more (CsvField.bare (v := [97]) (by simp)) (.one (.bare (v := []) (by simp)) trivial)
    exact .more (u := []) r (.inl rfl) .nil
  · have h : (match readlines [97, 44, 10] with | .ok (_, l) => decide (l = [[[97]]]) | _ => false) = true := by decide +kernel
    generalize readlines [97, 44, 10] = r at h
    cases r with
    | ok x => exact ⟨x.1, by simp at h; rw [← h]⟩
    | err _ => cases h
    | panic _ => cases h
    | diverge => cases h

theorem C74_false : ¬ C74_full := by
  intro h
  obtain ⟨hf, x, e⟩ := C74_counterexample
  obtain ⟨y, e', _⟩ := h _ _ hf
  rw [e] at e'
  injection e' with e'; injection e' with _ e'
  exact absurd e' (by decide)

/-- A value of 4096 bytes or more is written past the end of a buffer. -/
theorem C74_long_value (v : Bytes) (hb : ∀ c ∈ v, c ≠ 34 ∧ c ≠ 44 ∧ c ≠ 10 ∧ c ≠ 13) (hl : 4096 ≤ v.length) :
    ∃ x, readval (newreader v) = .ok (x, true) ∧ x.sound = false :=
  readval_long hb hl

/-- What follows a closing quote, if it is neither a comma nor a line end, is not read,
and neither is the rest of the text; nothing is said about it. -/
theorem C74_rest_lost (v t : Bytes) (h : QuotedText v t) (hv : v.length < 4096 ∧ 0 ∉ v) (c : UInt8)
    (hc : c ≠ 34 ∧ c ≠ 44 ∧ c ≠ 10 ∧ c ≠ 13) (rest : Bytes) :
    ∃ x, readlines ([34] ++ t ++ [34] ++ c :: rest) = .ok (x, [[v]]) :=
  readlines_stuck h hv (by simp [stop, hc]) hc.1 rest

/-- A quote that is not closed stops the program. -/
theorem C74_unterminated (v t : Bytes) (h : QuotedText v t) : readlines (34 :: t) = .panic "unterminated quoted value" :=
  readlines_unterminated h

/-- C75.  The lines written for records are a text of RFC 4180 for them, and they are read
back the same.

This is shown for records that have a value and no quotes in values.  It is false of
values with a quote (`C75_counterexample`). -/
theorem C75_partial (rs : List (List Bytes)) (hne : ∀ r ∈ rs, r ≠ []) (hq : ∀ r ∈ rs, ∀ v ∈ r, 34 ∉ v) :
    CsvFile (fun _ => True) rs (rs.flatMap writeline) ∧
    ((∀ r ∈ rs, ∀ v ∈ r, v.length < 4096 ∧ 0 ∉ v) → ∃ x, readlines (rs.flatMap writeline) = .ok (x, rs) ∧ x.sound = true) :=
  ⟨file_mono (fun _ _ => trivial) (file_written rs hne hq), fun hv => readlines_file (file_written rs hne hq) hv⟩

/-- The line for the value `a"` is `"a\""`, which has no end; reading it stops the program. -/
theorem C75_counterexample : writeline [[97, 34]] = [34, 97, 92, 34, 34, 10] ∧
    (∀ rs, ¬ CsvFile (fun _ => True) rs (writeline [[97, 34]])) ∧
    readlines (writeline [[97, 34]]) = .panic "unterminated quoted value" := by
  have e : writeline [[97, 34]] = [34, 97, 92, 34, 34, 10] := by decide
  refine ⟨e, fun rs h => ?_, ?_⟩
  · rw [e] at h; exact unterminated_not_file (v := [97, 92, 34, 10]) (t := [97, 92, 34, 34, 10])
      (.plain (by decide) (.plain (by decide) (.quote (.plain (by decide) .nil)))) h
  · rw [e]
    exact readlines_unterminated (v := [97, 92, 34, 10]) (t := [97, 92, 34, 34, 10])
      (.plain (by decide) (.plain (by decide) (.quote (.plain (by decide) .nil))))

theorem C75_false : ¬ C75_full := by
  intro h
  have := h [[[97, 34]]] (by simp)
  rw [List.flatMap_cons, List.flatMap_nil, List.append_nil] at this
  exact C75_counterexample.2.1 _ this

/-- `"a","b,c"` and `""`, each with a line feed. -/
example : [[[97], [98, 44, 99]], [[]]].flatMap writeline = [34, 97, 34, 44, 34, 98, 44, 99, 34, 10, 34, 34, 10] := by decide

/-- The name of column `i`: from the header, or else `col` and the number. -/
def columnName (header : List Bytes) (i : Nat) : Bytes := header[i]?.getD ("col" ++ toString i).toUTF8.toList

/-- The object of a record. -/
def recordObject (header : List Bytes) (r : List Bytes) : JVal :=
  .obj (r.zipIdx.map fun x => (columnName header x.2, .str x.1))

/-- Characters that have a place in a JSON string as it is written here. -/
def Printable (v : Bytes) : Prop := ∀ c ∈ v, 32 ≤ c ∨ c = 9 ∨ c = 10 ∨ c = 13

/-- C76.  `csv2json` prints for every record after the header a line with a JSON object
that has the values of the record under the names of the header; with `-n` there is no
header, and the names are `col0`, `col1` and so on.

This is shown for the texts of `C74_partial` with at most 100 fields in a record, names of
at most 4 bytes, and no characters below 32 but tabs and line ends.  It is false of longer
names (`C76_counterexample`). -/
theorem C76_partial (noheader : Bool) (rs : List (List Bytes)) (text : Bytes) (h : CsvFile (· ≠ []) rs text)
    (hv : ∀ r ∈ rs, ∀ v ∈ r, v.length < 4096 ∧ Printable v) (hl : ∀ r ∈ rs, r.length ≤ 100)
    (hh : noheader = false → ∀ v ∈ rs.headD [], v.length ≤ 4) :
    ∃ lines : List Bytes, Prog.Csv2json.main noheader text = .ok (lines.flatMap (· ++ [10]), true) ∧
      lines.length = (if noheader then rs else rs.tail).length ∧
      ∀ (i : Nat) (r : List Bytes) (line : Bytes), (if noheader then rs else rs.tail)[i]? = some r → lines[i]? = some line →
        JDoc rfc (recordObject (if noheader then [] else rs.headD []) r) line := by
  have hfit : ∀ r ∈ rs, ∀ v ∈ r, Fits v := fun r hr v hvv =>
    ⟨(hv r hr v hvv).1, fun h0 => by have := (hv r hr v hvv).2 0 h0; revert this; decide⟩
  have hp := Prog.Csv2json.main_prints noheader h hfit hl fun hn i v hi =>
    Nat.le_trans (hh hn v (List.mem_of_getElem? hi)) (Prog.Csv2json.colname_length i)
  refine ⟨(if noheader then rs else rs.tail).map (fun r =>
      Prog.Csv2json.objText (r.zipIdx.map fun x => (columnName (if noheader then [] else rs.headD []) x.2, x.1))), ?_, by simp, ?_⟩
  · rw [hp, List.flatMap_map]; rfl
  · intro i r line hr hline
    have hmem : r ∈ rs := by
      have := List.mem_of_getElem? hr
      cases noheader with
      | true => exact this
      | false => exact List.mem_of_mem_tail this
    rw [List.getElem?_map, hr] at hline
    simp only [Option.map_some, Option.some.injEq] at hline
    subst hline
    have := Prog.Csv2json.objText_doc (r.zipIdx.map fun x => (columnName (if noheader then [] else rs.headD []) x.2, x.1)) ?_
    · rw [List.map_map] at this; exact this
    · intro e he
      obtain ⟨x, hx, rfl⟩ := List.mem_map.mp he
      refine ⟨C71_write_string_partial _ ?_, C71_write_string_partial _ (hv r hmem _ (List.mem_zipIdx' hx |> fun ⟨h1, h2⟩ => h2 ▸ List.getElem_mem _)).2⟩
      unfold columnName
      generalize hhd : (if noheader then [] else rs.headD []) = hd
      cases hg : hd[x.2]? with
      | some k =>
        have hk : k ∈ hd := List.mem_of_getElem? hg
        rw [← hhd] at hk
        cases noheader with
        | true => simp at hk
        | false =>
          cases rs with
          | nil => cases hk
          | cons r0 rs => exact (hv r0 (by simp) k hk).2
      | none =>
        have hx2 : x.2 < 100 := by
          have := List.mem_zipIdx' hx
          have h1 := this.1
          have := hl r hmem
          omega
        rw [Option.getD_none, ← Prog.Csv2json.colname_text _ hx2]
        exact Prog.Csv2json.colname_print x.2 hx2

/-- `name,n\nx,"1"\n` gives `{"name":"x","n":"1"}`. -/
example : Prog.Csv2json.main false [110, 97, 109, 101, 44, 110, 10, 120, 44, 34, 49, 34, 10] =
    .ok ([123, 34, 110, 97, 109, 101, 34, 58, 34, 120, 34, 44, 34, 110, 34, 58, 34, 49, 34, 125, 10], true) := by
  decide +kernel

/-- The name `names` is copied to where 5 bytes were allotted. -/
theorem C76_counterexample : ∃ out, Prog.Csv2json.main false [110, 97, 109, 101, 115, 10, 120, 10] = .ok (out, false) := by
  refine ⟨_, show Prog.Csv2json.main false [110, 97, 109, 101, 115, 10, 120, 10] =
    .ok ([123, 34, 110, 97, 109, 101, 115, 34, 58, 34, 120, 34, 125, 10], false) by decide +kernel⟩

end Che.Props
