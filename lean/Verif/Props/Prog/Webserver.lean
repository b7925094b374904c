import Verif.Model.Prog.Webserver
import Verif.Props.Lib.Http

namespace Che.Props
open Che.Lib Che.Prog.Webserver Che.Lib.Http

/-- A path is inside a directory: it is the directory, or continues it after a slash. -/
def C108_Inside (dir p : Bytes) : Prop := p = dir ∨ dir ++ [47] <+: p

/-- The paths that are served: those that begin with the text of the home directory. -/
theorem C108_exact (real : Bytes → Option Bytes) (home req p : Bytes) :
    resolve_path real home req = some p ↔
      home.length + req.length + 1 < 4096 ∧ real (home ++ [47] ++ req) = some p ∧ p.length < 4096 ∧ home <+: p := by
  unfold resolve_path realpath
  by_cases h1 : home.length + req.length + 1 ≥ 4096
  · rw [if_pos h1]
    constructor
    · intro h; cases h
    · intro h; omega
  · rw [if_neg h1]
    cases hr : real (home ++ [47] ++ req) with
    | none => simp
    | some q =>
      simp only
      by_cases hl : q.length > 4096 - 1
      · rw [if_pos hl]
        simp only [reduceCtorEq, Option.some.injEq, false_iff]
        rintro ⟨_, rfl, h3, _⟩
        omega
      · rw [if_neg hl]
        simp only
        by_cases hs : Strings.starts_with q home = true
        · rw [hs]
          simp only [Bool.not_true, Bool.false_eq_true, if_false, Option.some.injEq]
          constructor
          · rintro rfl
            exact ⟨by omega, rfl, by omega, (C57_starts_with _ _).mp hs⟩
          · rintro ⟨_, h2, _, _⟩; exact h2
        · rw [if_pos (by simpa using hs)]
          simp only [reduceCtorEq, Option.some.injEq, false_iff]
          rintro ⟨_, rfl, _, h4⟩
          exact hs ((C57_starts_with _ _).mpr h4)

/-- C108: files inside the home directory are served. -/
theorem C108_serves (real : Bytes → Option Bytes) (home : Bytes) (req : Request) (p : Bytes) (hr : real (home ++ [47] ++ req.path) = some p) (hi : C108_Inside home p)
    (hl : home.length + req.path.length + 1 < 4096) (hp : p.length < 4096) (hn : req.path ≠ cstr "/") :
    answer real home req = if cstr "/cgi-bin/" <+: req.path then .cgi p else .file p := by
  have h : resolve_path real home req.path = some p := by
    rw [C108_exact]
    refine ⟨hl, hr, hp, ?_⟩
    rcases hi with rfl | hi
    · exact List.prefix_refl _
    · exact (List.prefix_append _ _).trans hi
  unfold answer
  rw [if_neg hn, h]
  simp only
  by_cases hc : cstr "/cgi-bin/" <+: req.path
  · rw [if_pos ((C57_starts_with _ _).mpr hc), if_pos hc]
  · rw [if_neg (fun h => hc ((C57_starts_with _ _).mp h)), if_neg hc]

/-- C108, as far as it goes: a file that is served is inside the home directory, or the text of its path
goes on after the text of the home directory with something else than a slash. -/
theorem C108_inside_partial (real : Bytes → Option Bytes) (home : Bytes) (req : Request) (p : Bytes)
    (h : answer real home req = .file p ∨ answer real home req = .cgi p) :
    real (home ++ [47] ++ req.path) = some p ∧ (C108_Inside home p ∨ ∃ c rest, c ≠ 47 ∧ p = home ++ c :: rest) := by
  have h' : resolve_path real home req.path = some p := by
    unfold answer at h
    by_cases h1 : req.path = cstr "/"
    · rw [if_pos h1] at h; rcases h with h | h <;> cases h
    · rw [if_neg h1] at h
      cases hr : resolve_path real home req.path with
      | none => rw [hr] at h; rcases h with h | h <;> cases h
      | some q =>
        rw [hr] at h
        simp only at h
        split at h <;> rcases h with h | h <;> cases h <;> rfl
  rw [C108_exact] at h'
  obtain ⟨_, h2, _, t, rfl⟩ := h'
  refine ⟨h2, ?_⟩
  cases t with
  | nil => exact .inl (.inl (by simp))
  | cons c t =>
    by_cases hc : c = 47
    · subst hc
      exact .inl (.inr ⟨t, by simp⟩)
    · exact .inr ⟨c, t, hc, rfl⟩

/-- The parts of a path. -/
def C108_parts : Bytes → List Bytes
  | [] => [[]]
  | c :: s =>
    match C108_parts s with
    | [] => [[c]]
    | p :: ps => if c = 47 then [] :: p :: ps else (c :: p) :: ps

/-- `realpath` in a file system without links where every file exists. -/
def C108_real (path : Bytes) : Option Bytes :=
  let parts := (C108_parts path).foldl (fun ps p => if p = [] ∨ p = [46] then ps else if p = [46, 46] then ps.dropLast else ps ++ [p]) []
  some (if parts = [] then [47] else parts.flatMap fun p => 47 :: p)

/-- C108 fails for directories whose names begin with the name of the home directory: a server in `/srv/www` gives
away the files of `/srv/www-private`. -/
theorem C108_counterexample :
    (match read_request (Reader.ofBuffer (cstr "GET /../www-private/key HTTP/1.0" ++ [13, 10, 13, 10])) with
      | .ok (_, some r) => some (answer C108_real (cstr "/srv/www") r) | _ => none) = some (.file (cstr "/srv/www-private/key")) ∧
    ¬ C108_Inside (cstr "/srv/www") (cstr "/srv/www-private/key") := by
  refine ⟨by decide +kernel, ?_⟩
  rintro (h | h)
  · revert h; decide
  · revert h; decide

/-- C108 fails for programs: the server runs a file outside of `cgi-bin`, and gives away the text of a program inside. -/
theorem C108_counterexample_cgi :
    answer C108_real (cstr "/srv/www") { Http.empty with path := cstr "/cgi-bin/../upload/a.txt" } = .cgi (cstr "/srv/www/upload/a.txt") ∧
    answer C108_real (cstr "/srv/www") { Http.empty with path := cstr "//cgi-bin/login" } = .file (cstr "/srv/www/cgi-bin/login") := by
  decide +kernel

/-- C108 on requests. -/
example : (resolve_path C108_real (cstr "/srv/www") (cstr "/a/./b/../c.html"), resolve_path C108_real (cstr "/srv/www") (cstr "/../../etc/passwd")) =
    (some (cstr "/srv/www/a/c.html"), none) := by decide +kernel
end Che.Props
