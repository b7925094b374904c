import Verif.Proofs.Prog.Trim
import Verif.Model.Lib.Enc

/-!
C125: `prog/trim` removes the space at the end of lines and converts line ends.
-/
namespace Che.Props
open Che Che.Lib Che.Prog.Trim

/-- What `rstrip` leaves: a text without the space at its end, and with nothing else removed. -/
theorem C125_rstrip (t : Bytes) : (∃ w, t = rstrip t ++ w ∧ ∀ c ∈ w, c = 32 ∨ 9 ≤ c ∧ c ≤ 13) ∧ ∀ s c, rstrip t = s ++ [c] → c ≠ 32 ∧ ¬ (9 ≤ c ∧ c ≤ 13) := by
  have hsp : ∀ c : UInt8, Strings.isspace c = true ↔ c = 32 ∨ 9 ≤ c ∧ c ≤ 13 := by
    intro c
    simp [Strings.isspace]
  constructor
  · obtain ⟨w, h1, h2⟩ := rstrip_prefix t
    exact ⟨w, h1, fun c hc => (hsp c).1 (h2 c hc)⟩
  · intro s c h
    have h1 := rstrip_rstrip t
    rw [h, rstrip_append] at h1
    have h2 : ¬ Strings.isspace c = true := by
      intro h3
      rw [if_pos h3] at h1
      have := rstrip_le s
      rw [h1] at this
      simp at this
      omega
    rw [hsp] at h2
    exact ⟨fun h => h2 (.inl h), fun h => h2 (.inr h)⟩

/-- C125: a file of lines, of which the last one may have no end if line ends are converted, is trimmed; and its name is printed exactly when it has changed. -/
theorem C125_trim_partial {lf : Lf} (hl : lf = .same ∨ lf = .unix ∨ lf = .win) {ls : List (Bytes × Lf)} {last : Bytes} (hp : Plain ls last) (hs : lf = .same → last = []) :
    trim_file lf (file ls last) = .ok (trimmed lf ls last, decide (trimmed lf ls last ≠ file ls last)) := by
  rw [trim_file_eq hl hs hp]
  refine congrArg Res.ok (congrArg (Prod.mk _) ?_)
  rw [Bool.eq_iff_iff, odd_iff hl hs hp, decide_eq_true_iff]

/-- C125: these are all files in which no byte is 255 and each `\\r` is before a `\\n`. -/
theorem C125_files : ∀ (n : Nat) {b : Bytes}, b.length ≤ n → 255 ∉ b → (∀ u v, b = u ++ 13 :: v → ∃ w, v = 10 :: w) → ∃ ls last, Plain ls last ∧ b = file ls last := by
  intro n
  induction n with
  | zero =>
    intro b h _ _
    have : b = [] := List.eq_nil_of_length_eq_zero (by omega)
    subst this
    exact ⟨[], [], ⟨fun l h => by simp at h, fun c h => by simp at h, fun c h => by simp at h⟩, rfl⟩
  | succ n ih =>
    intro b hn hff hcr
    have hsplit : ∀ b : Bytes, (∀ c ∈ b, c ≠ 10 ∧ c ≠ 13) ∨ ∃ t c r, b = t ++ c :: r ∧ (∀ c ∈ t, c ≠ 10 ∧ c ≠ 13) ∧ (c = 10 ∨ c = 13) := by
      intro b
      induction b with
      | nil => exact .inl (by simp)
      | cons d b ihb =>
        by_cases hd : d = 10 ∨ d = 13
        · exact .inr ⟨[], d, b, rfl, by simp, hd⟩
        · have hd' : d ≠ 10 ∧ d ≠ 13 := ⟨fun h => hd (.inl h), fun h => hd (.inr h)⟩
          rcases ihb with h | ⟨t, c, r, rfl, h1, h2⟩
          · exact .inl fun c hc => by
              rcases List.mem_cons.1 hc with rfl | hc
              · exact hd'
              · exact h c hc
          · refine .inr ⟨d :: t, c, r, rfl, fun c hc => ?_, h2⟩
            rcases List.mem_cons.1 hc with rfl | hc
            · exact hd'
            · exact h1 c hc
    rcases hsplit b with h | ⟨t, c, r, rfl, h1, h2⟩
    · exact ⟨[], b, ⟨fun l h => by simp at h, h, fun c hc e => hff (e ▸ hc)⟩, by simp [file]⟩
    · have next : ∀ (e : Lf) (r' : Bytes), (e = .unix ∨ e = .win) → t ++ c :: r = t ++ (eol e ++ r') → ∃ ls last, Plain ls last ∧ t ++ c :: r = file ls last := by
        intro e r' he hr
        have hl : 0 < (eol e).length := by rcases he with rfl | rfl <;> simp [eol]
        obtain ⟨ls, last, hp, hf⟩ := ih (b := r') (by
          have := congrArg List.length hr
          simp only [List.length_append, List.length_cons] at this hn
          omega) (fun h => hff (by rw [hr]; simp [h])) (fun u v huv => hcr (t ++ eol e ++ u) v (by rw [hr, huv]; simp))
        refine ⟨(t, e) :: ls, last, ⟨fun l hl => ?_, hp.last⟩, by rw [hr, file_cons, hf]⟩
        rcases List.mem_cons.1 hl with rfl | hl
        · exact ⟨h1, fun c hc e => hff (by subst e; simp [hc]), he⟩
        · exact hp.text l hl
      rcases h2 with rfl | rfl
      · exact next .unix r (.inl rfl) rfl
      · obtain ⟨w, rfl⟩ := hcr t r rfl
        exact next .win w (.inr rfl) rfl

/-- C125: a file that has been trimmed is not changed again. -/
theorem C125_again {lf : Lf} (hl : lf = .same ∨ lf = .unix ∨ lf = .win) {ls : List (Bytes × Lf)} {last : Bytes} (hp : Plain ls last) (hs : lf = .same → last = []) :
    trim_file lf (trimmed lf ls last) = .ok (trimmed lf ls last, false) := by
  have h := C125_trim_partial hl (lines_plain hl hs hp) (fun _ => rfl)
  rw [trimmed_file lf (lines lf ls last) [], lines_lines, ← trimmed_file] at h
  simpa using h

/-- Lines of three kinds. -/
example : trim_file .unix (cstr "ab \t\r\n c\n\n \nd ") = .ok (cstr "ab\n c\n\n\nd\n", true) ∧ trim_file .win (cstr "x\r\n") = .ok (cstr "x\r\n", false) := by decide +kernel

/-- C125 is false of a file with a `\r` that is not before a `\n`: that line and all that follow are lost when a line before it has changed. -/
theorem C125_counterexample_cr : trim_file .unix (cstr "a \nb\rc\nd\n") = .ok (cstr "a\n", true) := by decide +kernel

/-- C125 is false of a file in which a byte is 255: it is lost when a line has changed. -/
theorem C125_counterexample_ff : trim_file .unix [97, 255, 98, 32, 10] = .ok ([97, 98, 10], true) := by decide +kernel

/-- C125 is false when line ends are not converted and the last line has none: the program ends with an error, whatever the lines before it are. -/
theorem C125_counterexample_last : ∃ m, trim_file .same (cstr "a\nb") = .panic m := ⟨"write_line: unhandled eol type", by decide +kernel⟩
end Che.Props
