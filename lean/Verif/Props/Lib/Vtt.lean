import Verif.Proofs.Lib.Vtt

namespace Che.Props
open Che.Lib Che.Lib.Vtt Che.Spec.Vtt

/-! ## C119: subtitles of VTT files -/

/-- What the program sees of a subtitle: the times, with a space if there are settings, and the text. -/
def C119_Sees (c : Cue) (p : Bytes × Bytes) : Prop :=
  p.1 = c.first ++ cstr " --> " ++ c.last ++ (if c.settings = none then [] else [32]) ∧ Shown c.text p.2

theorem C119_readLoop (n : Nat) (r : R) : readLoop (n + 1) r = (read r).bind fun (r, more) =>
      if more then (readLoop n r).bind fun (cs, r') => .ok ((r.timerange, r.text) :: cs, r') else .ok ([], r) := rfl

theorem C119_cues {s : Bytes} {cs : List Cue} (h : Cues s cs) : ∀ {r : R} {n : Nat}, (∀ c ∈ cs, Room c ∧ ∀ l ∈ c.text, ∃ o, Plain l o) →
    r.file = s → 100 ≤ r.textcap → cs.length < n →
    ∃ rs q, readLoop n r = .ok (rs, q) ∧ q.error = r.error ∧ List.Forall₂ C119_Sees cs rs := by
  induction h with
  | nil b hb =>
    intro r n _ hr _ hn
    obtain ⟨n, rfl⟩ : ∃ k, n = k + 1 := ⟨n - 1, by omega⟩
    obtain ⟨q, h1, h2⟩ := read_end hb hr
    exact ⟨[], q, by rw [C119_readLoop, h1]; rfl, h2, .nil⟩
  | cons b t e s c cs hb ht he _ ih =>
    intro r n hc hr hcap hn
    obtain ⟨n, rfl⟩ : ∃ k, n = k + 1 := ⟨n - 1, by omega⟩
    obtain ⟨hroom, hplain⟩ := hc c (by simp)
    obtain ⟨ps, hps⟩ : ∃ ps, List.Forall₂ Plain c.text ps := by
      generalize c.text = ls at hplain
      induction ls with
      | nil => exact ⟨[], .nil⟩
      | cons l ls ihl =>
        obtain ⟨ps, h⟩ := ihl fun l hl => hplain l (by simp [hl])
        obtain ⟨o, ho⟩ := hplain l (by simp)
        exact ⟨o :: ps, .cons ho h⟩
    obtain ⟨q, h1, h2, h3, h4, h5, h6⟩ := read_cue hb ht he hroom hps hcap hr
    obtain ⟨rs, q', e1, e2, e3⟩ := ih (r := q) (n := n) (fun c h => hc c (by simp [h])) h2 h3 (by simp at hn; omega)
    refine ⟨(q.timerange, q.text) :: rs, q', ?_, e2.trans h4, .cons ⟨h5, ps, hps, ?_⟩ e3⟩
    · rw [C119_readLoop, h1]
      simp [Res.bind, e1]
    · rw [h6]; exact trim_joined

/-- C119: the usual loop reads the subtitles of a file in their order and sets no error, if an empty line follows the last of them, tags are closed and the lines
are short. -/
theorem C119_read_partial {e t e' s : Bytes} {ls : List Bytes} {cs : List Cue} (he : Eol e) (ht : Lines t ls) (hl : ∀ l ∈ ls, cstr ": " <:+: l ∧ l.length ≤ 4093)
    (he' : Eol e') (hs : Cues s cs) (hc : ∀ c ∈ cs, Room c ∧ ∀ l ∈ c.text, ∃ o, Plain l o) :
    File (cstr "WEBVTT" ++ e ++ t ++ e' ++ s) cs ∧
    ∃ rs, (∀ n, cs.length < n → readAll n (cstr "WEBVTT" ++ e ++ t ++ e' ++ s) = .ok (rs, none)) ∧ List.Forall₂ C119_Sees cs rs := by
  refine ⟨.ended _ s cs (.mk e t e' ls he ht (fun l h => (hl l h).1) he') hs, ?_⟩
  have h1 := reader_header (s := s) he ht hl he'
  have key : ∀ n, cs.length < n → ∃ rs, readAll n (cstr "WEBVTT" ++ e ++ t ++ e' ++ s) = .ok (rs, none) ∧ List.Forall₂ C119_Sees cs rs := by
    intro n hn
    obtain ⟨rs, q, e1, e2, e3⟩ := C119_cues hs (r := { file := s, line := [], timerange := [], text := [], textcap := 100, error := none }) hc rfl (Nat.le_refl _) hn
    refine ⟨rs, ?_, e3⟩
    unfold readAll
    rw [h1]
    simp only [Res.bind, e1]
    rw [e2]
  obtain ⟨rs, e1, e2⟩ := key (cs.length + 1) (by omega)
  refine ⟨rs, fun n hn => ?_, e2⟩
  have mono : ∀ (n m : Nat) (r : R) (x : List (Bytes × Bytes) × R), n ≤ m → readLoop n r = .ok x → readLoop m r = .ok x := by
    intro n
    induction n with
    | zero => intro m r x _ h; cases h
    | succ n ih =>
      intro m r x hm h
      obtain ⟨m, rfl⟩ : ∃ k, m = k + 1 := ⟨m - 1, by omega⟩
      rw [C119_readLoop] at h ⊢
      cases hr : read r with
      | ok a =>
        obtain ⟨q, more⟩ := a
        rw [hr] at h
        simp only [Res.bind] at h ⊢
        split
        · rename_i hmore
          rw [if_pos hmore] at h
          cases hx : readLoop n q with
          | ok y => rw [hx] at h; rw [ih m q y (by omega) hx]; exact h
          | err => rw [hx] at h; cases h
          | panic => rw [hx] at h; cases h
          | diverge => rw [hx] at h; cases h
        · rename_i hmore
          rw [if_neg hmore] at h
          exact h
      | err => rw [hr] at h; cases h
      | panic => rw [hr] at h; cases h
      | diverge => rw [hr] at h; cases h
  unfold readAll at e1 ⊢
  rw [h1] at e1 ⊢
  simp only [Res.bind] at e1 ⊢
  cases hx : readLoop (cs.length + 1) { file := s, line := [], timerange := [], text := [], textcap := 100, error := none } with
  | ok y => rw [hx] at e1; rw [mono _ n _ y (by omega) hx]; exact e1
  | err => rw [hx] at e1; cases e1
  | panic => rw [hx] at e1; cases e1
  | diverge => rw [hx] at e1; cases e1

/-- Bytes as a text. -/
def C119_text (s : Bytes) : String := String.ofList (s.map fun c => Char.ofNat c.toNat)

def C119_all (s : String) : Res String (List (String × String) × Option String) :=
  (readAll 10 (cstr s)).bind fun (cs, e) => .ok (cs.map fun c => (C119_text c.1, C119_text c.2), e.map C119_text)

example : C119_all "WEBVTT\nKind: captions\n\n00:00:01.000 --> 00:00:02.500\nHello <b>there</b>\r\nyou\n\n\n00:00:03.000 --> 00:00:04.000\nBye\n\n" =
    .ok ([("00:00:01.000 --> 00:00:02.500", "Hello there\nyou"), ("00:00:03.000 --> 00:00:04.000", "Bye")], none) := by decide +kernel

/-- C119 is false: the last subtitle is lost without an error when no empty line follows. -/
theorem C119_counterexample_last : (∃ cs, File (cstr "WEBVTT\n\n00:00:01.000 --> 00:00:02.500\nHello\n") cs ∧ cs ≠ []) ∧
    C119_all "WEBVTT\n\n00:00:01.000 --> 00:00:02.500\nHello\n" = .ok ([], none) := by
  refine ⟨⟨[⟨cstr "00:00:01.000", cstr "00:00:02.500", none, [cstr "Hello"]⟩], ?_, by simp⟩, by decide +kernel⟩
  have h1 : Header (cstr "WEBVTT" ++ [10] ++ [] ++ [10]) := .mk [10] [] [10] [] (.inl rfl) .nil (by simp) (.inl rfl)
  have hl : Lines (cstr "Hello" ++ [10] ++ []) [cstr "Hello"] := .cons _ _ _ _ ⟨by decide +kernel, by decide +kernel⟩ (by decide +kernel) (.inl rfl) .nil
  have st : ∀ t s, Stamp [48, 48, 58, 48, 48, 58, 48, t, 46, s, 48, 48] ↔ Digit t ∧ Digit s := by
    intro t s
    unfold Stamp Digit
    constructor
    · rintro ⟨_, _, _, _, _, _, _, _, _, h, e⟩
      simp only [List.cons.injEq] at e
      obtain ⟨rfl, rfl, _, rfl, rfl, _, rfl, rfl, _, rfl, rfl, rfl, _⟩ := e
      exact ⟨h t (by simp), h s (by simp)⟩
    · rintro ⟨h1, h2⟩
      refine ⟨48, 48, 48, 48, 48, t, s, 48, 48, ?_, rfl⟩
      intro c hc
      simp only [List.mem_cons, List.not_mem_nil, or_false] at hc
      rcases hc with rfl | rfl | rfl | rfl | rfl | rfl | rfl | rfl | rfl <;> first | exact h1 | exact h2 | decide
  have hb : Block _ ⟨cstr "00:00:01.000", cstr "00:00:02.500", none, [cstr "Hello"]⟩ := .mk _ [10] _ ((st 49 48).2 (by unfold Digit; decide)) ((st 50 53).2 (by unfold Digit; decide))
    ⟨by decide +kernel, by decide +kernel⟩ (.inl rfl) hl
  exact File.last _ [] [] _ [] _ h1 (.nil [] .nil) .nil hb

/-- C119 is false: settings leave a space after the times. -/
theorem C119_counterexample_space : C119_all "WEBVTT\n\n00:00:01.000 --> 00:00:02.500 align:start\nHello\n\n" =
    .ok ([("00:00:01.000 --> 00:00:02.500 ", "Hello")], none) := by decide +kernel

/-- C119 is false: a line of 200 bytes is written past the end of the text. -/
theorem C119_counterexample_long :
    readAll 10 (cstr "WEBVTT\n\n00:00:01.000 --> 00:00:02.500\n" ++ List.replicate 200 97 ++ cstr "\n\n") = .panic "undefined: write past the end of the text" := by decide +kernel

/-- C119 is false of WebVTT: names of subtitles, times without hours, comments and a title after the first word are refused. -/
theorem C119_counterexample_refused :
    C119_all "WEBVTT\n\n1\n00:00:01.000 --> 00:00:02.500\nHello\n\n" = .ok ([], some "failed to parse cue line: 1") ∧
    C119_all "WEBVTT\n\n00:01.000 --> 00:02.500\nHello\n\n" = .ok ([], some "failed to parse cue line: 00:01.000 --> 00:02.500") ∧
    C119_all "WEBVTT\n\nNOTE\ntext\n\n" = .ok ([], some "failed to parse cue line: NOTE") ∧
    C119_all "WEBVTT - title\n\n" = .ok ([], some "expected WEBVTT at line 1") := by decide +kernel

/-- C119: a file that does not begin with a line `WEBVTT` is refused. -/
theorem C119_refused {l e s : Bytes} (hl : Line l) (he : Eol e) (hn : l.length ≤ 4093) (h : l ≠ cstr "WEBVTT") :
    ∃ r, reader (l ++ e ++ s) = .ok r ∧ r.error = some (cstr "expected WEBVTT at line 1") := by
  unfold reader init
  rw [loadline_line hl he hn rfl]
  simp only [Bool.not_true, Bool.false_eq_true, if_false, ne_eq, h, not_false_eq_true, if_true, Res.bind]
  refine ⟨_, rfl, ?_⟩
  simp only [seterror]
  decide +kernel

/-- C119: a file that ends before the empty line after the header, also an empty file, is refused. -/
theorem C119_header {e t : Bytes} {ls : List Bytes} (he : Eol e) (ht : Lines t ls) (hl : ∀ l ∈ ls, cstr ": " <:+: l ∧ l.length ≤ 4093) :
    (∃ r, reader [] = .ok r ∧ r.error = some (cstr "failed to initialize")) ∧
    ∃ r, reader (cstr "WEBVTT" ++ e ++ t) = .ok r ∧ r.error = some (cstr "failed to initialize") := by
  refine ⟨⟨_, rfl, by decide +kernel⟩, ?_⟩
  have ended : ∀ (n : Nat) (r : R), (∀ l ∈ ls, cstr ": " <:+: l ∧ l.length ≤ 4093) → r.file = t → ls.length < n → r.error = none → ∃ q, headerLoop n r = .ok (q, false) ∧ q.error = none := by
    clear hl
    induction ht with
    | nil =>
      intro n r _ hr hn h0
      obtain ⟨n, rfl⟩ : ∃ k, n = k + 1 := ⟨n - 1, by omega⟩
      rw [headerLoop_succ, loadline_end hr]
      exact ⟨r, rfl, h0⟩
    | cons l e s ls h1 h2 h3 _ ih =>
      intro n r hl hr hn h0
      obtain ⟨n, rfl⟩ : ∃ k, n = k + 1 := ⟨n - 1, by omega⟩
      obtain ⟨k1, k2⟩ := hl l (by simp)
      obtain ⟨i, hi⟩ := strstr_some k1
      rw [headerLoop_succ, loadline_line h1 h3 k2 hr]
      simp only [Bool.not_true, Bool.false_eq_true, if_false, h2, hi]
      exact ih n _ (fun x hx => hl x (by simp [hx])) rfl (by simp at hn; omega) h0
  unfold reader init
  rw [loadline_line (l := cstr "WEBVTT") (e := e) (s := t) webvtt_line he (by decide +kernel) rfl]
  simp only [Bool.not_true, Bool.false_eq_true, if_false, ne_eq, not_true_eq_false]
  have hlen := lines_le ht
  obtain ⟨q, h1, h2⟩ := ended (t.length + 1) { file := t, line := cstr "WEBVTT", timerange := [], text := [], textcap := 100, error := none } hl rfl (by omega) rfl
  rw [h1]
  refine ⟨_, rfl, ?_⟩
  simp only [Bool.false_eq_true, if_false, seterror, h2]
  decide +kernel

private theorem stamp_digits {s p : Bytes} (h : timestamp s = some p) : ∃ t, Stamp t ∧ s = t ++ p := by
  have hc : cstr "dd:dd:dd.ddd" = [100, 100, 58, 100, 100, 58, 100, 100, 46, 100, 100, 100] := by decide +kernel
  have one : ∀ (x : UInt8) (ts s p : Bytes), stamp (x :: ts) s = some p → ∃ c s', s = c :: s' ∧ fits x c = true ∧ stamp ts s' = some p := by
    intro x ts s p h
    cases s with
    | nil => cases h
    | cons c s =>
      simp only [stamp] at h
      by_cases hf : fits x c = true
      · rw [if_pos hf] at h; exact ⟨c, s, rfl, hf, h⟩
      · rw [if_neg hf] at h; cases h
  have dig : ∀ c : UInt8, fits 100 c = true → Digit c := by
    intro c h
    simpa [fits, isdigit, Digit] using h
  have lit : ∀ x c : UInt8, x ≠ 100 → fits x c = true → c = x := by
    intro x c hx h
    simpa [fits, hx] using h
  unfold timestamp at h
  rw [hc] at h
  obtain ⟨c1, s, rfl, f1, h⟩ := one _ _ _ _ h
  obtain ⟨c2, s, rfl, f2, h⟩ := one _ _ _ _ h
  obtain ⟨c3, s, rfl, f3, h⟩ := one _ _ _ _ h
  obtain ⟨c4, s, rfl, f4, h⟩ := one _ _ _ _ h
  obtain ⟨c5, s, rfl, f5, h⟩ := one _ _ _ _ h
  obtain ⟨c6, s, rfl, f6, h⟩ := one _ _ _ _ h
  obtain ⟨c7, s, rfl, f7, h⟩ := one _ _ _ _ h
  obtain ⟨c8, s, rfl, f8, h⟩ := one _ _ _ _ h
  obtain ⟨c9, s, rfl, f9, h⟩ := one _ _ _ _ h
  obtain ⟨c10, s, rfl, f10, h⟩ := one _ _ _ _ h
  obtain ⟨c11, s, rfl, f11, h⟩ := one _ _ _ _ h
  obtain ⟨c12, s, rfl, f12, h⟩ := one _ _ _ _ h
  simp only [stamp, Option.some.injEq] at h
  subst h
  refine ⟨_, ⟨c1, c2, c4, c5, c7, c8, c10, c11, c12, ?_, rfl⟩, ?_⟩
  · simp only [List.mem_cons, List.not_mem_nil, or_false, forall_eq_or_imp, forall_eq]
    exact ⟨dig _ f1, dig _ f2, dig _ f4, dig _ f5, dig _ f7, dig _ f8, dig _ f10, dig _ f11, dig _ f12⟩
  · rw [lit _ _ (by decide) f3, lit _ _ (by decide) f6, lit _ _ (by decide) f9]
    rfl

/-- C119: only lines with two times, written with digits, begin a subtitle. -/
theorem C119_times {l o : Bytes} (h : cue l = some o) : ∃ a b rest, Stamp a ∧ Stamp b ∧ l = a ++ cstr " --> " ++ b ++ rest := by
  have hx : cstr " --> " = 32 :: cstr "--> " := by decide +kernel
  unfold cue at h
  cases h1 : timestamp l with
  | none => rw [h1] at h; cases h
  | some p =>
    rw [h1] at h
    obtain ⟨a, ha, rfl⟩ := stamp_digits h1
    simp only at h
    split at h
    · next p =>
      split at h
      · cases h
      · next hp =>
        simp only [Bool.not_eq_true, Bool.not_eq_false'] at hp
        have hp : (cstr "--> ").isPrefixOf p = true := by simpa using hp
        obtain ⟨q, rfl⟩ := List.isPrefixOf_iff_prefix.mp hp
        rw [show (cstr "--> " ++ q).drop 4 = q from List.drop_left' (by decide +kernel)] at h
        cases h2 : timestamp q with
        | none => rw [h2] at h; cases h
        | some u =>
          obtain ⟨b, hb, rfl⟩ := stamp_digits h2
          exact ⟨a, b, u, ha, hb, by rw [hx]; simp⟩
    · cases h

example : cue (cstr "00:00:0x.000 --> 00:00:02.000") = none := by decide +kernel
end Che.Props
