import Verif.Proofs.Lib.Srt
import Verif.Model.Prog.Srt2jsonl
import Verif.Props.Lib.Json
import Mathlib.Data.List.Forall2

/-!
C152-C153: `lib/formats/srt.c` reads and writes subtitles, and `prog/srt2jsonl` prints them as lines of JSON.
-/
namespace Che.Props
open Che.Lib Che.Lib.Srt Che.Spec.Srt Che.Spec.Vtt Che.Spec.Lib

/-- C152.  The subtitles of a file are read in order, each with its number, its times and its text; lines may end
with or without a carriage return, and the last may not end at all.

This is for the files of `Subs`: in particular no text has a line that is only a number (`C152_counterexample_number`),
the last subtitle has a line of text (`C152_counterexample_empty`), texts have less than 1000 bytes, and the line of the times
has no more than 38. -/
theorem C152_read_partial (f : Bytes) (bs : List (Sub × Bytes)) (k : Nat) (h : Subs f bs) (hk : bs.length < k) :
    readAll k f = .ok (bs.map fun p => { index := p.1.index, range := p.2, text := p.1.text, begin := 1000 * (p.1.first : Int), fin := 1000 * (p.1.last : Int) }) := readAll_subs h hk

/-- Two subtitles, with both line ends, and no line end after the last line. -/
example : readAll 3 (cstr "1\r\n00:00:01,000 --> 00:00:02,500\r\nHello\r\n\r\n2\n00:01:00,0 --> 01:00:00,7\n- 12\nthere") =
    .ok [{ index := 1, range := cstr "00:00:01,000 --> 00:00:02,500", text := cstr "Hello", begin := 1000000, fin := 2500000 },
      { index := 2, range := cstr "00:01:00,0 --> 01:00:00,7", text := cstr "- 12\nthere", begin := 60000000, fin := 3600007000 }] := by decide +kernel

/-- C152: what is printed for subtitles is read as the same subtitles.  The milliseconds are printed without the zeros in front of them,
which this reader does not mind. -/
theorem C152_round_trip (bs : List Sub) (h : ∀ b ∈ bs, Writable b) (hn : bs ≠ []) (old : Bytes) (k : Nat) (hk : bs.length < k) :
    ∃ f out, printAll (bs.map fun b => seen (b, old)) = .ok f ∧ readAll k f = .ok out ∧
      out.map (fun b => (b.index, b.begin, b.fin, b.text)) = bs.map fun b => ((b.index : Int), 1000 * (b.first : Int), 1000 * (b.last : Int), b.text) := by
  obtain ⟨f, lines, h1, h2, h3⟩ := printAll_subs bs h hn old
  refine ⟨f, _, h1, readAll_subs h2 (by rw [List.length_zip, h3, Nat.min_self]; exact hk), ?_⟩
  rw [List.map_map, show ((fun b : Block => (b.index, b.begin, b.fin, b.text)) ∘ seen) =
    (fun b : Sub => ((b.index : Int), 1000 * (b.first : Int), 1000 * (b.last : Int), b.text)) ∘ Prod.fst from rfl, ← List.map_map, List.map_fst_zip (by omega)]

/-- C152: what is printed for subtitles is a file of subtitles. -/
theorem C152_print (bs : List Sub) (h : ∀ b ∈ bs, Writable b) (hn : bs ≠ []) (old : Bytes) :
    ∃ f lines, printAll (bs.map fun b => seen (b, old)) = .ok f ∧ Subs f (bs.zip lines) ∧ lines.length = bs.length := printAll_subs bs h hn old

example : printAll [seen ({ index := 3, first := 1005, last := 3600000, text := cstr "a\nb" }, [])] = .ok (cstr "3\n00:00:01,5 --> 01:00:00,0\na\nb\n\n") ∧
    readAll 2 (cstr "3\n00:00:01,5 --> 01:00:00,0\na\nb\n\n") =
      .ok [{ index := 3, range := cstr "00:00:01,5 --> 01:00:00,0", text := cstr "a\nb", begin := 1005000, fin := 3600000000 }] := by decide +kernel

/-- C152 is false of a text with a line that is a number: the text ends there, and the next line is no line of times. -/
theorem C152_counterexample_number :
    readAll 5 (cstr "1\n00:00:01,000 --> 00:00:02,000\nIn the year\n1984\nhe left\n") = .panic "failed to parse timestamp" := by decide +kernel

/-- C152 is false of a last subtitle without text: its text is the line of its times. -/
theorem C152_counterexample_empty :
    readAll 5 (cstr "1\n00:00:01,000 --> 00:00:02,000\n") =
      .ok [{ index := 1, range := cstr "00:00:01,000 --> 00:00:02,000", text := cstr "00:00:01,000 --> 00:00:02,000", begin := 1000000, fin := 2000000 }] := by decide +kernel

/-- C152 is false of the file without subtitles: the program stops. -/
theorem C152_counterexample_file (k : Nat) : readAll (k + 1) [] = .panic "failed to parse timestamp" := rfl

/-- C152 is false of lines with times and places on the screen: from 39 bytes on, the line does not fit the array. -/
theorem C152_counterexample_places :
    readAll 5 (cstr "1\n00:00:01,000 --> 00:00:02,000 X1:100 X2:200\na\n") = .panic "undefined: write outside of an array" := by decide +kernel

/-- C152 is false of texts of 1000 bytes and more: the program stops. -/
theorem C152_counterexample_long :
    readAll 5 (cstr "1\n0:0:1,0 --> 0:0:2,0\n" ++ List.replicate 999 97 ++ [10]) = .panic "text buffer is too small" := by decide +kernel

/-! ### Lines of JSON -/

/-- The object of a subtitle. -/
def C153_object (p : Sub × Bytes) : JVal :=
  .obj [(cstr "n", .num (Time.fmtInt 0 p.1.index)), (cstr "range", .str p.2), (cstr "text", .str p.1.text)]

theorem C153_number (n : Nat) (h : 0 < n) : JNumber JInt (Time.fmtInt 0 n) := by
  obtain ⟨h1, h2, h3⟩ := Time.fmtInt_field 0 n
  obtain ⟨d1, d2, d3⟩ := decimal_digits h1
  refine ⟨[], Time.fmtInt 0 n, [], [], by simp, .inl rfl, ?_, .inl rfl, .inl rfl⟩
  generalize Time.fmtInt 0 n = s at *
  cases s with
  | nil => exact absurd rfl d1
  | cons c s =>
    obtain ⟨c1, c2⟩ := d2 c (by simp)
    refine .inr ⟨c, s, rfl, ?_, c2, fun x hx => d2 x (by simp [hx])⟩
    have hne : c ≠ 48 := by
      rintro rfl
      cases s with
      | nil => have : Time.val 0 [48] = 0 := by decide
               omega
      | cons d s => exact h3 (by simp) rfl
    have : c.toNat ≠ 48 := fun e => hne (UInt8.toNat_inj.mp e)
    have c1 : 48 ≤ c.toNat := c1
    show 49 ≤ c.toNat
    omega

/-- The line of a subtitle, without its end. -/
def C153_line (p : Sub × Bytes) : Bytes :=
  [123] ++ (Json.write_string (cstr "n") ++ [58] ++ Time.fmtInt 0 p.1.index ++ [44] ++ (Json.write_string (cstr "range") ++ [58] ++ Json.write_string p.2 ++ [44] ++
    (Json.write_string (cstr "text") ++ [58] ++ Json.write_string p.1.text))) ++ [125]

theorem C153_print_block (p : Sub × Bytes) : Prog.Srt2jsonl.print_block (seen p) = C153_line p ++ [10] := by
  unfold Prog.Srt2jsonl.print_block C153_line seen
  rw [show cstr "{" = [123] by decide +kernel, show cstr ":" = [58] by decide +kernel, show cstr "," = [44] by decide +kernel, show cstr "}\n" = [125, 10] by decide +kernel]
  simp

theorem C153_write_char (c : UInt8) : 10 ∉ Json.write_char c := by
  intro h
  unfold Json.write_char at h
  split at h <;> (try split at h) <;> (try split at h) <;> (try split at h) <;> (try split at h) <;> simp_all

theorem C153_write_string (s : Bytes) : 10 ∉ Json.write_string s := by
  unfold Json.write_string
  simp only [List.mem_append, List.mem_singleton, List.mem_flatMap, not_or, not_exists, not_and]
  exact ⟨⟨by decide, fun c _ => C153_write_char c⟩, by decide⟩

theorem C153_one_line (p : Sub × Bytes) : 10 ∉ C153_line p := by
  have hd : 10 ∉ Time.fmtInt 0 p.1.index := fun h => absurd ((decimal_digits (Time.fmtInt_field 0 p.1.index).1).2.1 10 h) (by decide)
  unfold C153_line
  simp only [List.mem_append, List.mem_singleton, not_or]
  exact ⟨⟨by decide, ⟨⟨⟨C153_write_string _, by decide⟩, hd⟩, by decide⟩, ⟨⟨⟨C153_write_string _, by decide⟩, C153_write_string _⟩, by decide⟩, ⟨C153_write_string _, by decide⟩, C153_write_string _⟩, by decide⟩

theorem C153_doc (p : Sub × Bytes) (hn : 0 < p.1.index) (hr : ∀ c ∈ p.2, 32 ≤ c) (ht : ∀ c ∈ p.1.text, 32 ≤ c ∨ c = 9 ∨ c = 10 ∨ c = 13) : JDoc rfc (C153_object p) (C153_line p) := by
  have none : Blanks rfc [] := by simp [Blanks]
  have hs : ∀ s : Bytes, (∀ c ∈ s, 32 ≤ c ∨ c = 9 ∨ c = 10 ∨ c = 13) → JString rfc s (Json.write_string s) := C71_write_string_partial
  have k1 := hs (cstr "n") (by rw [show cstr "n" = [110] by decide +kernel]; decide)
  have k2 := hs (cstr "range") (by rw [show cstr "range" = [114, 97, 110, 103, 101] by decide +kernel]; decide)
  have k3 := hs (cstr "text") (by rw [show cstr "text" = [116, 101, 120, 116] by decide +kernel]; decide)
  have m3 := JMembers.one none k3 none none (.str (hs p.1.text ht)) none
  have m2 := JMembers.more none k2 none none (.str (hs p.2 fun c hc => .inl (hr c hc))) none m3
  have m1 := JMembers.more none k1 none none (JText.num (C153_number p.1.index hn)) none m2
  have := JText.obj m1
  refine ⟨[], _, [], none, this, none, ?_⟩
  unfold C153_line
  simp

theorem C153_subs {f : Bytes} {bs : List (Sub × Bytes)} (h : Subs f bs) : ∀ p ∈ bs, 0 < p.1.index ∧ ∀ c ∈ p.2, 32 ≤ c := by
  have one : ∀ (i r line : Bytes) (b : Sub), Number i b.index → Times r line b.first b.last → 0 < b.index ∧ ∀ c ∈ line, 32 ≤ c := by
    intro i r line b hi hr
    obtain ⟨bi, bf, bl, bt⟩ := b
    dsimp only at hi hr ⊢
    cases hi with
    | mk i e n h1 h2 h3 h4 h5 =>
    cases hr with
    | mk a c x f l a1 a2 a3 a4 a5 a6 a7 a8 =>
      have st : ∀ d : UInt8, (48 ≤ d ∧ d ≤ 57) ∨ d = 58 ∨ d = 44 → 32 ≤ d := by
        rintro d (⟨h, _⟩ | rfl | rfl)
        · exact UInt8.le_trans (by decide) h
        · decide
        · decide
      refine ⟨h2, fun d hd => ?_⟩
      simp only [List.mem_append] at hd
      rcases hd with (hd | hd) | hd
      · exact st d ((stamp_bytes a1).2 d hd)
      · rw [show cstr " --> " = [32, 45, 45, 62, 32] by decide +kernel] at hd
        simp only [List.mem_cons, List.not_mem_nil, or_false] at hd
        rcases hd with rfl | rfl | rfl | rfl | rfl <;> decide
      · exact st d ((stamp_bytes a2).2 d hd)
  induction h with
  | last i r line s t b hi hr _ _ _ =>
    intro p hp
    rcases List.mem_singleton.mp hp with rfl
    exact one i r line b hi hr
  | cons i r line s t rest b bs hi hr _ _ _ _ ih =>
    intro p hp
    rcases List.mem_cons.mp hp with rfl | hp
    · exact one i r line b hi hr
    · exact ih p hp

/-- C153.  For a file of subtitles, `srt2jsonl` prints a line for each, with a JSON object that has the number, the line of the times and the
text.  The texts have no characters below 32 but tabs and line ends: `json.write_string` does not escape others. -/
theorem C153_partial (f : Bytes) (bs : List (Sub × Bytes)) (k : Nat) (h : Subs f bs) (hk : bs.length < k)
    (ht : ∀ p ∈ bs, ∀ c ∈ p.1.text, 32 ≤ c ∨ c = 9 ∨ c = 10 ∨ c = 13) :
    ∃ lines : List Bytes, Prog.Srt2jsonl.main k f = .ok (lines.flatMap (· ++ [10])) ∧ List.Forall₂ (fun p l => JDoc rfc (C153_object p) l ∧ 10 ∉ l) bs lines := by
  refine ⟨bs.map C153_line, ?_, ?_⟩
  · unfold Prog.Srt2jsonl.main
    rw [readAll_subs h hk]
    show Res.ok _ = _
    rw [List.flatMap_map, List.flatMap_map]
    simp only [C153_print_block]
  · rw [List.forall₂_map_right_iff, List.forall₂_same]
    intro p hp
    obtain ⟨h1, h2⟩ := C153_subs h p hp
    exact ⟨C153_doc p h1 h2 (ht p hp), C153_one_line p⟩

example : Prog.Srt2jsonl.main 2 (cstr "7\n0:0:1,0 --> 0:0:2,0\nsay \"hi\"\nto all\n") =
    .ok (cstr "{\"n\":7,\"range\":\"0:0:1,0 --> 0:0:2,0\",\"text\":\"say \\\"hi\\\"\\nto all\"}\n") := by decide +kernel

/-- C153 is false of other characters below 32. -/
theorem C153_counterexample : Prog.Srt2jsonl.main 2 (cstr "1\n0:0:1,0 --> 0:0:2,0\n" ++ [97, 27, 10]) =
      .ok (cstr "{\"n\":1,\"range\":\"0:0:1,0 --> 0:0:2,0\",\"text\":" ++ [34, 97, 27, 34] ++ cstr "}\n") ∧
    ¬ ∃ s, JString rfc s [34, 97, 27, 34] := by
  refine ⟨by decide +kernel, ?_⟩
  rintro ⟨s, t, ht, e⟩
  have : t = [97, 27] := (List.append_cancel_left (List.append_cancel_right (show [34] ++ [97, 27] ++ [34] = [34] ++ t ++ [34] from e))).symm
  subst this
  cases ht with
  | plain _ _ _ ht =>
    cases ht with
    | plain hp => exact absurd (show (32 : UInt8) ≤ 27 from hp) (by decide)
end Che.Props
