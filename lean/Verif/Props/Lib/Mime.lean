import Verif.Model.Lib.Mime
import Verif.Spec.Lib.Mime

/-!
C173: MIME types of extensions.
-/
namespace Che.Props
open Che.Lib Che.Spec.Mime

private theorem mime_from : ∀ (rows : List (Bytes × Bytes)) (_ : (rows.map Prod.fst).Nodup) (ext v : Bytes),
    Mime.lookupFrom rows ext = some v ↔ (ext, v) ∈ rows
  | [], _, ext, v => by simp [Mime.lookupFrom]
  | (k, w) :: rows, h, ext, v => by
    rw [List.map_cons, List.nodup_cons] at h
    rw [Mime.lookupFrom]
    by_cases e : k = ext
    · subst e
      rw [if_pos rfl, List.mem_cons]
      constructor
      · intro x; injection x with x; subst x; exact .inl rfl
      · rintro (x | x)
        · injection x with _ x; rw [x]
        · exact absurd (List.mem_map_of_mem (f := Prod.fst) x) h.1
    · rw [if_neg e, mime_from rows h.2, List.mem_cons]
      constructor
      · exact .inr
      · rintro (x | x)
        · injection x with x _; exact absurd x.symm e
        · exact x

/-- C173: an extension is in the table once at most. -/
theorem C173_once : (Mime.table.map Prod.fst).Nodup := by decide +kernel

/-- C173: the types that are found are those of the table. -/
theorem C173_found (ext v : Bytes) : Mime.lookup ext = some v ↔ (ext, v) ∈ Mime.table := mime_from _ C173_once ext v

/-- The parts of a text before and after the first slash. -/
private def parts (v : Bytes) : Bytes × Bytes := (v.takeWhile (· ≠ 47), (v.dropWhile (· ≠ 47)).tail)

private theorem mime_rows : ∀ r ∈ Mime.table, r.1 = cstr "ppt" ∨
    (r.2 = (parts r.2).1 ++ [47] ++ (parts r.2).2 ∧ (parts r.2).1 ∈ kinds ∧ (parts r.2).2 ≠ [] ∧
      ∀ c ∈ (parts r.2).2, (97 ≤ c ∧ c ≤ 122) ∨ (48 ≤ c ∧ c ≤ 57) ∨ c = 46 ∨ c = 43 ∨ c = 45) := by decide +kernel

/-- C173: what is found is a MIME type, for all extensions but "ppt". -/
theorem C173_partial (ext v : Bytes) (h : Mime.lookup ext = some v) (hp : ext ≠ cstr "ppt") : Type' v := by
  rcases mime_rows _ ((C173_found ext v).mp h) with h | ⟨h1, h2, h3, h4⟩
  · exact absurd h hp
  · exact ⟨_, _, h1, h2, h3, h4⟩

private theorem mime_lower : ∀ r ∈ Mime.table, r.1 ≠ [] ∧ ∀ c ∈ r.1, (97 ≤ c ∧ c ≤ 122) ∨ (48 ≤ c ∧ c ≤ 57) := by decide +kernel

/-- C173: nothing is found for a text that is not made of small letters and digits, as one with a dot or with capitals. -/
theorem C173_none (ext : Bytes) (h : ext = [] ∨ ∃ c ∈ ext, ¬ ((97 ≤ c ∧ c ≤ 122) ∨ (48 ≤ c ∧ c ≤ 57))) : Mime.lookup ext = none := by
  cases hl : Mime.lookup ext with
  | none => rfl
  | some v =>
    obtain ⟨h1, h2⟩ := mime_lower _ ((C173_found ext v).mp hl)
    rcases h with h | ⟨c, hc, hn⟩
    · exact absurd h h1
    · exact absurd (h2 c hc) hn

/-- C173: extensions whose type everybody knows. -/
theorem C173_known : ∀ r ∈ [("html", "text/html"), ("htm", "text/html"), ("css", "text/css"), ("js", "text/javascript"), ("txt", "text/plain"),
    ("json", "application/json"), ("png", "image/png"), ("jpg", "image/jpeg"), ("jpeg", "image/jpeg"), ("gif", "image/gif"), ("svg", "image/svg+xml"),
    ("ico", "image/vnd.microsoft.icon"), ("pdf", "application/pdf"), ("zip", "application/zip"), ("mp3", "audio/mpeg"), ("mp4", "video/mp4"), ("xml", "application/xml")],
    Mime.lookup (cstr r.1) = some (cstr r.2) := by decide +kernel

/-- C173 is false of "ppt": what is found has no slash. -/
theorem C173_counterexample_ppt : ∃ v, Mime.lookup (cstr "ppt") = some v ∧ ¬ Type' v := by
  refine ⟨cstr "application.vnd.openxmlformats-officedocument.presentationml.presentation", by decide +kernel, ?_⟩
  rintro ⟨kind, sub, h, _⟩
  have : (47 : UInt8) ∈ cstr "application.vnd.openxmlformats-officedocument.presentationml.presentation" := by rw [h]; simp
  exact absurd this (by decide +kernel)

/-- C173 is false of pictures and videos: "webp" is audio, and so is "webm". -/
theorem C173_counterexample_webp : Mime.lookup (cstr "webp") = some (cstr "audio/webp") ∧ Mime.lookup (cstr "webm") = some (cstr "audio/webm") := by decide +kernel

/-- C173 is false of some well known extensions: nothing is found. -/
theorem C173_counterexample_missing : Mime.lookup (cstr "woff") = none ∧ Mime.lookup (cstr "pptx") = none := by decide +kernel

example : Mime.lookup (cstr "HTML") = none ∧ Mime.lookup (cstr ".html") = none ∧ Type' (cstr "image/png") :=
  ⟨by decide +kernel, by decide +kernel, C173_partial (cstr "png") _ (by decide +kernel) (by decide +kernel)⟩

end Che.Props
