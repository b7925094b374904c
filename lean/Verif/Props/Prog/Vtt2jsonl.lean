import Verif.Model.Prog.Vtt2jsonl
import Verif.Props.Lib.Vtt
import Verif.Props.Lib.Srt

/-!
C158: `prog/vtt2jsonl` prints WebVTT subtitles as lines of JSON.
-/
namespace Che.Props
open Che.Lib Che.Lib.Vtt Che.Spec.Vtt Che.Spec.Lib

/-- The object of a subtitle. -/
def C158_object (p : Bytes × Bytes) : JVal := .obj [(cstr "range", .str p.1), (cstr "text", .str p.2)]

/-- The line of a subtitle, without its end. -/
def C158_line (p : Bytes × Bytes) : Bytes :=
  [123] ++ (Json.write_string (cstr "range") ++ [58] ++ Json.write_string p.1 ++ [44] ++ (Json.write_string (cstr "text") ++ [58] ++ Json.write_string p.2)) ++ [125]

theorem C158_print_block (p : Bytes × Bytes) : Prog.Vtt2jsonl.print_block p = C158_line p ++ [10] := by
  unfold Prog.Vtt2jsonl.print_block C158_line
  rw [show cstr "{" = [123] by decide +kernel, show cstr ":" = [58] by decide +kernel, show cstr "," = [44] by decide +kernel, show cstr "}\n" = [125, 10] by decide +kernel]
  simp

theorem C158_one_line (p : Bytes × Bytes) : 10 ∉ C158_line p := by
  unfold C158_line
  simp only [List.mem_append, List.mem_singleton, not_or]
  exact ⟨⟨by decide, ⟨⟨⟨C153_write_string _, by decide⟩, C153_write_string _⟩, by decide⟩, ⟨C153_write_string _, by decide⟩, C153_write_string _⟩, by decide⟩

theorem C158_doc (p : Bytes × Bytes) (hr : ∀ c ∈ p.1, 32 ≤ c) (ht : ∀ c ∈ p.2, 32 ≤ c ∨ c = 9 ∨ c = 10 ∨ c = 13) : JDoc rfc (C158_object p) (C158_line p) := by
  have none : Blanks rfc [] := by simp [Blanks]
  have hs : ∀ s : Bytes, (∀ c ∈ s, 32 ≤ c ∨ c = 9 ∨ c = 10 ∨ c = 13) → JString rfc s (Json.write_string s) := C71_write_string_partial
  have k2 := hs (cstr "range") (by rw [show cstr "range" = [114, 97, 110, 103, 101] by decide +kernel]; decide)
  have k3 := hs (cstr "text") (by rw [show cstr "text" = [116, 101, 120, 116] by decide +kernel]; decide)
  have m3 := JMembers.one none k3 none none (.str (hs p.2 ht)) none
  have m2 := JMembers.more none k2 none none (.str (hs p.1 fun c hc => .inl (hr c hc))) none m3
  refine ⟨[], _, [], none, JText.obj m2, none, ?_⟩
  unfold C158_line
  simp

theorem C158_plain {l o : Bytes} (h : Plain l o) : ∀ c ∈ o, c ∈ l := by
  induction h with
  | nil => simp
  | char c s o _ _ ih =>
    intro x hx
    rcases List.mem_cons.mp hx with rfl | hx
    · simp
    · exact List.mem_cons_of_mem _ (ih x hx)
  | tag t s o _ _ ih =>
    intro x hx
    have := ih x hx
    simp [this]

theorem C158_intercalate : ∀ (ps : List Bytes) (c : UInt8), c ∈ List.intercalate [10] ps → c = 10 ∨ ∃ p ∈ ps, c ∈ p
  | [], c, h => by simp [List.intercalate] at h
  | [p], c, h => by simp [List.intercalate] at h; exact .inr ⟨p, by simp, h⟩
  | p :: q :: ps, c, h => by
    have e : List.intercalate [10] (p :: q :: ps) = p ++ ([10] ++ List.intercalate [10] (q :: ps)) := by simp [List.intercalate, List.intersperse]
    rw [e] at h
    simp only [List.mem_append, List.mem_singleton] at h
    rcases h with h | h | h
    · exact .inr ⟨p, by simp, h⟩
    · exact .inl h
    · rcases C158_intercalate (q :: ps) c h with h | ⟨p', h1, h2⟩
      · exact .inl h
      · exact .inr ⟨p', by simp only [List.mem_cons] at h1 ⊢; exact .inr h1, h2⟩

theorem C158_shown {ls : List Bytes} {o : Bytes} (h : Shown ls o) : ∀ c ∈ o, c = 10 ∨ ∃ l ∈ ls, c ∈ l := by
  obtain ⟨ps, hp, l, r, e, _⟩ := h
  intro c hc
  have : c ∈ List.intercalate [10] ps := by rw [e]; simp [hc]
  rcases C158_intercalate ps c this with h | ⟨p, h1, h2⟩
  · exact .inl h
  · refine .inr ?_
    clear e this
    induction hp with
    | nil => simp at h1
    | cons hx _ ih =>
      rcases List.mem_cons.mp h1 with rfl | h1
      · exact ⟨_, by simp, C158_plain hx c h2⟩
      · obtain ⟨l, hl, hcl⟩ := ih h1
        exact ⟨l, by simp [hl], hcl⟩

theorem C158_stamps {s : Bytes} {cs : List Cue} (h : Cues s cs) : ∀ c ∈ cs, Stamp c.first ∧ Stamp c.last := by
  induction h with
  | nil => simp
  | cons b t e s c cs _ ht _ _ ih =>
    intro x hx
    rcases List.mem_cons.mp hx with rfl | hx
    · cases ht with
      | mk _ _ _ h1 h2 => exact ⟨h1, h2⟩
    · exact ih x hx

theorem C158_stamp {s : Bytes} (h : Stamp s) : ∀ c ∈ s, 32 ≤ c := by
  obtain ⟨h1, h2, m1, m2, s1, s2, t1, t2, t3, hd, rfl⟩ := h
  intro c hc
  by_cases h58 : c = 58
  · subst h58; decide
  by_cases h46 : c = 46
  · subst h46; decide
  have : c ∈ [h1, h2, m1, m2, s1, s2, t1, t2, t3] := by
    simp only [List.mem_cons, List.not_mem_nil, or_false] at hc ⊢
    simp only [h58, h46, false_or] at hc
    exact hc
  exact UInt8.le_trans (by decide) (hd c this).1

/-- C158: for a file of subtitles the program prints a line for each, in order, with a JSON object that has the times and the text without tags, and nothing else.
As for C119 an empty line follows every subtitle, tags are closed and lines are short, and texts have no characters below 32 but tabs and carriage returns. -/
theorem C158_partial {e t e' s : Bytes} {ls : List Bytes} {cs : List Cue} (he : Eol e) (ht : Lines t ls) (hl : ∀ l ∈ ls, cstr ": " <:+: l ∧ l.length ≤ 4093)
    (he' : Eol e') (hs : Cues s cs) (hc : ∀ c ∈ cs, Room c ∧ ∀ l ∈ c.text, ∃ o, Plain l o) (hx : ∀ c ∈ cs, ∀ l ∈ c.text, ∀ b ∈ l, 32 ≤ b ∨ b = 9 ∨ b = 13) (n : Nat) (hn : cs.length < n) :
    ∃ lines : List Bytes, Prog.Vtt2jsonl.main n (cstr "WEBVTT" ++ e ++ t ++ e' ++ s) = .ok ⟨lines.flatMap (· ++ [10]), [], 0⟩ ∧
      List.Forall₂ (fun c l => (∃ p, C119_Sees c p ∧ JDoc rfc (C158_object p) l) ∧ 10 ∉ l) cs lines := by
  obtain ⟨hfile, rs, h1, h2⟩ := C119_read_partial he ht hl he' hs hc
  refine ⟨rs.map C158_line, ?_, ?_⟩
  · unfold Prog.Vtt2jsonl.main
    rw [h1 n hn]
    have e0 : rs.flatMap Prog.Vtt2jsonl.print_block = (rs.map C158_line).flatMap (· ++ [10]) := by
      rw [List.flatMap_map]
      exact congrArg (fun f => rs.flatMap f) (funext C158_print_block)
    rw [← e0]
    rfl
  · rw [List.forall₂_map_right_iff]
    have hst := C158_stamps hs
    clear h1 hn hs hc hfile
    induction h2 with
    | nil => exact .nil
    | @cons c p cs rs hp _ ih =>
      refine .cons ⟨⟨p, hp, C158_doc p ?_ ?_⟩, C158_one_line p⟩ (ih (fun c h => hx c (by simp [h])) fun c h => hst c (by simp [h]))
      · intro b hb
        obtain ⟨s1, s2⟩ := hst c (by simp)
        rw [hp.1] at hb
        simp only [List.mem_append] at hb
        rcases hb with ((hb | hb) | hb) | hb
        · exact C158_stamp s1 b hb
        · rw [show cstr " --> " = [32, 45, 45, 62, 32] by decide +kernel] at hb
          simp only [List.mem_cons, List.not_mem_nil, or_false] at hb
          rcases hb with rfl | rfl | rfl | rfl | rfl <;> decide
        · exact C158_stamp s2 b hb
        · split at hb
          · simp at hb
          · simp at hb; subst hb; decide
      · intro b hb
        rcases C158_shown hp.2 b hb with h | ⟨l, h1, h2⟩
        · exact .inr (.inr (.inl h))
        · rcases hx c (by simp) l h1 b h2 with h | h | h
          · exact .inl h
          · exact .inr (.inl h)
          · exact .inr (.inr (.inr h))

example : Prog.Vtt2jsonl.main 5 (cstr "WEBVTT\nKind: captions\n\n00:00:01.000 --> 00:00:02.500\n<i>say</i> \"hi\"\r\nto all\n\n00:00:03.000 --> 00:00:04.000\nBye\n\n") =
    .ok ⟨cstr "{\"range\":\"00:00:01.000 --> 00:00:02.500\",\"text\":\"say \\\"hi\\\"\\nto all\"}\n{\"range\":\"00:00:03.000 --> 00:00:04.000\",\"text\":\"Bye\"}\n", [], 0⟩ := by decide +kernel

/-! ### Errors -/

theorem C158_loadline (r : R) : (loadline r).1.error = r.error := by
  unfold loadline
  split <;> rfl

theorem C158_seterror {r : R} {e m : Bytes} (h : r.error = some e) : (seterror r m).error = some e := by
  unfold seterror
  rw [h]
  exact h

theorem C158_skipLoop : ∀ (n : Nat) (r q : R) (b : Bool), skipLoop n r = .ok (q, b) → q.error = r.error
  | 0, _, _, _, h => by cases h
  | n + 1, r, q, b, h => by
    have e := C158_loadline r
    unfold skipLoop at h
    generalize loadline r = x at h e
    obtain ⟨r', ok⟩ := x
    simp only at h e
    split at h
    · cases h; exact e
    · split at h
      · cases h; exact e
      · rw [C158_skipLoop n r' q b h, e]

theorem C158_textLoop : ∀ (n : Nat) (r q : R) (b : Bool), textLoop n r = .ok (q, b) → q.error = r.error
  | 0, _, _, _, h => by cases h
  | n + 1, r, q, b, h => by
    have e := C158_loadline r
    unfold textLoop at h
    generalize loadline r = x at h e
    obtain ⟨r', ok⟩ := x
    simp only at h e
    split at h
    · cases h; exact e
    · split at h
      · cases h; exact e
      · split at h
        · cases h
        · rw [C158_textLoop n _ q b h, ← e]
          show (grow r').error = r'.error
          unfold grow
          split <;> rfl

theorem C158_read {r q : R} {b : Bool} {e : Bytes} (hr : r.error = some e) (h : Vtt.read r = .ok (q, b)) : q.error = some e := by
  unfold Vtt.read at h
  cases h1 : skipLoop (r.file.length + 1) r with
  | ok x =>
    obtain ⟨r1, ok⟩ := x
    have e1 := C158_skipLoop _ _ _ _ h1
    rw [h1] at h
    simp only [Res.bind] at h
    split at h
    · cases h; rw [e1, hr]
    · split at h
      · cases h; exact C158_seterror (by rw [e1, hr])
      · split at h
        · next x h2 =>
          have e2 := C158_textLoop _ _ x.1 x.2 h2
          dsimp only at h
          split at h
          · cases h; rw [e2]; show r1.error = _; rw [e1, hr]
          · cases h; show x.1.error = _; rw [e2]; show r1.error = _; rw [e1, hr]
        all_goals cases h
  | err => rw [h1] at h; cases h
  | panic => rw [h1] at h; cases h
  | diverge => rw [h1] at h; cases h

theorem C158_readLoop {e : Bytes} : ∀ (n : Nat) (r q : R) (cs : List (Bytes × Bytes)), r.error = some e → readLoop n r = .ok (cs, q) → q.error = some e
  | 0, _, _, _, _, h => by cases h
  | n + 1, r, q, cs, hr, h => by
    rw [C119_readLoop] at h
    cases h1 : Vtt.read r with
    | ok x =>
      obtain ⟨r1, more⟩ := x
      have e1 := C158_read hr h1
      rw [h1] at h
      simp only [Res.bind] at h
      split at h
      · cases h2 : readLoop n r1 with
        | ok y =>
          rw [h2] at h
          cases h
          exact C158_readLoop n r1 y.2 y.1 e1 h2
        | err => rw [h2] at h; cases h
        | panic => rw [h2] at h; cases h
        | diverge => rw [h2] at h; cases h
      · cases h; exact e1
    | err => rw [h1] at h; cases h
    | panic => rw [h1] at h; cases h
    | diverge => rw [h1] at h; cases h

/-- C158: when the first line is not `WEBVTT` the program, if it comes to its end, says so and fails. -/
theorem C158_refused {l e s : Bytes} (hl : Line l) (he : Eol e) (hn : l.length ≤ 4093) (h : l ≠ cstr "WEBVTT") (n : Nat) (x : Prog.Vtt2jsonl.Result)
    (hx : Prog.Vtt2jsonl.main n (l ++ e ++ s) = .ok x) : x.status = 1 ∧ x.stderr = cstr "expected WEBVTT at line 1\n" := by
  obtain ⟨r, h1, h2⟩ := C119_refused (s := s) hl he hn h
  unfold Prog.Vtt2jsonl.main readAll at hx
  rw [h1] at hx
  simp only [Res.bind] at hx
  cases h3 : readLoop n r with
  | ok y =>
    rw [h3] at hx
    have := C158_readLoop n r y.2 y.1 h2 h3
    simp only [this] at hx
    cases hx
    exact ⟨rfl, show cstr "expected WEBVTT at line 1" ++ [10] = _ by decide +kernel⟩
  | err => rw [h3] at hx; cases hx
  | panic => rw [h3] at hx; cases hx
  | diverge => rw [h3] at hx; cases hx

/-- C158 is false of a last subtitle without an empty line after it: it is not printed, and the program does not fail. -/
theorem C158_counterexample_last : Prog.Vtt2jsonl.main 5 (cstr "WEBVTT\n\n00:00:01.000 --> 00:00:02.500\nHello\n") = .ok ⟨[], [], 0⟩ := by decide +kernel

/-- C158: a file without the first line is read on all the same, and its subtitles are printed. -/
theorem C158_counterexample_goes_on : Prog.Vtt2jsonl.main 5 (cstr "WEBSRT\n\n00:00:01.000 --> 00:00:02.500\nHello\n\n") =
    .ok ⟨cstr "{\"range\":\"00:00:01.000 --> 00:00:02.500\",\"text\":\"Hello\"}\n", cstr "expected WEBVTT at line 1\n", 1⟩ := by decide +kernel
end Che.Props
