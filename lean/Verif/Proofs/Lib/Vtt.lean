import Verif.Model.Lib.Vtt
import Verif.Spec.Lib.Vtt
import Verif.Props.Lib.Strings

namespace Che.Lib.Vtt
open Che.Lib Che.Spec.Vtt

/-- Cutting the end off has one result. -/
theorem cut_unique {α} {set : α → Prop} : ∀ {a b c d : List α}, a ++ b = c ++ d → (∀ x ∈ b, set x) → (∀ x ∈ d, set x) →
    (∀ x, a.getLast? = some x → ¬ set x) → (∀ x, c.getLast? = some x → ¬ set x) → a = c := by
  intro a b c d h hb hd ha hc
  rcases List.append_eq_append_iff.1 h with ⟨u, e1, e2⟩ | ⟨u, e1, e2⟩
  · rcases List.eq_nil_or_concat u with rfl | ⟨v, x, rfl⟩
    · simp [e1]
    · exact absurd (hb x (by rw [e2]; simp)) (hc x (by rw [e1]; simp))
  · rcases List.eq_nil_or_concat u with rfl | ⟨v, x, rfl⟩
    · simp [e1]
    · exact absurd (hd x (by rw [e2]; simp)) (ha x (by rw [e1]; simp))

theorem rtrim_eq {a cut set : Bytes} (hc : ∀ x ∈ cut, x ∈ set) (ha : ∀ x, a.getLast? = some x → x ∉ set) : Strings.rtrim (a ++ cut) set = a := by
  obtain ⟨c, h1, h2, h3⟩ := Props.C57_rtrim (a ++ cut) set
  exact cut_unique (set := (· ∈ set)) h1.symm h2 hc h3 ha

theorem takeWhile_all {α} {q : α → Bool} {s : List α} (h : ∀ x ∈ s, q x = true) : s.takeWhile q = s := by
  induction s with
  | nil => rfl
  | cons c s ih => rw [List.takeWhile_cons, if_pos (h c (by simp)), ih fun x hx => h x (by simp [hx])]

theorem fgets_line : ∀ {n : Nat} {l s : Bytes}, (10 : UInt8) ∉ l → l.length < n → fgets n (l ++ 10 :: s) = (l ++ [10], s)
  | 0, _, _, _, h => absurd h (by omega)
  | n + 1, [], s, _, _ => by simp [fgets]
  | n + 1, c :: l, s, hl, h => by
    simp only [List.mem_cons, not_or] at hl
    simp only [List.length_cons] at h
    rw [List.cons_append, fgets, if_neg (fun e => hl.1 e.symm), fgets_line hl.2 (by omega)]
    rfl

/-- A line is loaded. -/
theorem loadline_line {r : R} {l e s : Bytes} (hl : Line l) (he : Eol e) (hn : l.length ≤ 4093) (hr : r.file = l ++ e ++ s) :
    loadline r = ({ r with file := s, line := l }, true) := by
  obtain ⟨m, hm, h10, h0, hlen, hcut⟩ : ∃ m, e = m ++ [10] ∧ (10 : UInt8) ∉ m ∧ (0 : UInt8) ∉ m ∧ m.length ≤ 1 ∧ ∀ x ∈ m ++ [10], x ∈ ([13, 10] : Bytes) := by
    rcases he with rfl | rfl
    · exact ⟨[], by decide⟩
    · exact ⟨[13], by decide⟩
  have e1 : r.file = (l ++ m) ++ 10 :: s := by rw [hr, hm]; simp
  have h10' : (10 : UInt8) ∉ l ++ m := by
    rw [List.mem_append]; rintro (h | h)
    · exact (hl.bytes _ h).1 rfl
    · exact h10 h
  have e2 : fgets 4095 r.file = (l ++ m ++ [10], s) := by
    rw [e1]; exact fgets_line h10' (by simp; omega)
  have e3 : str (l ++ m ++ [10]) = l ++ (m ++ [10]) := by
    rw [str, takeWhile_all, List.append_assoc]
    intro x hx
    simp only [decide_eq_true_eq]
    rintro rfl
    simp only [List.mem_append, List.mem_singleton] at hx
    rcases hx with (h | h) | h
    · exact (hl.bytes _ h).2 rfl
    · exact h0 h
    · exact absurd h (by decide)
  have e4 : Strings.rtrim (l ++ (m ++ [10])) [13, 10] = l := by
    refine rtrim_eq hcut fun x hx hm => ?_
    simp only [List.mem_cons, List.not_mem_nil, or_false] at hm
    rcases hm with rfl | rfl
    · exact hl.last hx
    · exact (hl.bytes _ (List.mem_of_getLast? hx)).1 rfl
  unfold loadline
  rw [if_neg (by rw [e1]; simp), e2, e3, e4]

theorem loadline_end {r : R} (h : r.file = []) : loadline r = (r, false) := by simp [loadline, h]

theorem line_nil : Line [] := ⟨by simp, by simp⟩

theorem loadline_empty {r : R} {e s : Bytes} (he : Eol e) (hr : r.file = e ++ s) : loadline r = ({ r with file := s, line := [] }, true) :=
  loadline_line line_nil he (by simp) (by simpa using hr)

theorem eol_pos {e : Bytes} (h : Eol e) : 1 ≤ e.length := by rcases h with rfl | rfl <;> simp

theorem lines_le {s : Bytes} {ls : List Bytes} (h : Lines s ls) : ls.length ≤ s.length := by
  induction h with
  | nil => simp
  | cons l e s ls _ _ he _ ih => have := eol_pos he; simp; omega

/-! ## The beginning -/

theorem strstr_some {n : Bytes} : ∀ {s : Bytes}, n <:+: s → ∃ i, Strings.strstr n s = some i
  | [], h => by
    have : n = [] := List.eq_nil_of_infix_nil h
    exact ⟨0, by simp [Strings.strstr, this]⟩
  | c :: s, h => by
    rw [Strings.strstr]
    split
    · exact ⟨0, rfl⟩
    · rename_i hp
      rcases List.infix_cons_iff.1 h with h | h
      · exact absurd (List.isPrefixOf_iff_prefix.2 h) hp
      · obtain ⟨i, hi⟩ := strstr_some h
        exact ⟨i + 1, by simp [hi]⟩

theorem headerLoop_succ (n : Nat) (r : R) : headerLoop (n + 1) r =
    if !(loadline r).2 then .ok ((loadline r).1, false)
    else if (loadline r).1.line = [] then .ok ((loadline r).1, true)
    else
      match Strings.strstr (cstr ": ") (loadline r).1.line with
      | none => .ok (seterror (loadline r).1 (cstr "failed to parse header: " ++ (loadline r).1.line), false)
      | some i => headerLoop n { (loadline r).1 with line := (loadline r).1.line.take i } := rfl

theorem headerLoop_lines {t : Bytes} {ls : List Bytes} (h : Lines t ls) : ∀ {n : Nat} {r : R} {e s : Bytes}, (∀ l ∈ ls, cstr ": " <:+: l ∧ l.length ≤ 4093) →
    Eol e → r.file = t ++ e ++ s → ls.length < n → headerLoop n r = .ok ({ r with file := s, line := [] }, true) := by
  induction h with
  | nil =>
    intro n r e s _ he hr hn
    obtain ⟨n, rfl⟩ : ∃ k, n = k + 1 := ⟨n - 1, by omega⟩
    rw [headerLoop_succ, loadline_empty he (by simpa using hr)]
    simp
  | cons l e' t ls hl hl0 he' _ ih =>
    intro n r e s hc he hr hn
    obtain ⟨n, rfl⟩ : ∃ k, n = k + 1 := ⟨n - 1, by omega⟩
    have h1 := hc l (by simp)
    obtain ⟨i, hi⟩ := strstr_some h1.1
    rw [headerLoop_succ, loadline_line (s := t ++ e ++ s) hl he' h1.2 (by rw [hr]; simp)]
    simp only [Bool.not_true, Bool.false_eq_true, if_false, hl0, hi]
    rw [ih (fun l hl => hc l (by simp [hl])) he rfl (by simp at hn; omega)]

theorem webvtt_line : Line (cstr "WEBVTT") := ⟨by decide +kernel, by decide +kernel⟩

/-- The header is read. -/
theorem reader_header {e t e' s : Bytes} {ls : List Bytes} (he : Eol e) (ht : Lines t ls) (hl : ∀ l ∈ ls, cstr ": " <:+: l ∧ l.length ≤ 4093) (he' : Eol e') :
    reader (cstr "WEBVTT" ++ e ++ t ++ e' ++ s) = .ok { file := s, line := [], timerange := [], text := [], textcap := 100, error := none } := by
  unfold reader init
  rw [loadline_line (l := cstr "WEBVTT") (e := e) (s := t ++ e' ++ s) webvtt_line he (by decide +kernel) (by simp)]
  simp only [Bool.not_true, Bool.false_eq_true, if_false, ne_eq, not_true_eq_false]
  have := lines_le ht
  rw [headerLoop_lines ht hl he' rfl (by simp; omega)]
  simp [Res.bind]

/-! ## A subtitle -/

theorem skipLoop_succ (n : Nat) (r : R) : skipLoop (n + 1) r =
    if !(loadline r).2 then .ok ((loadline r).1, false)
    else if (loadline r).1.line ≠ [] then .ok ((loadline r).1, true)
    else skipLoop n (loadline r).1 := rfl

/-- Empty lines are skipped. -/
theorem skipLoop_empty {b : Bytes} (h : Empty b) : ∀ {n : Nat} {r : R} {l e s : Bytes}, Line l → l ≠ [] → l.length ≤ 4093 → Eol e → r.file = b ++ (l ++ e ++ s) →
    b.length < n → skipLoop n r = .ok ({ r with file := s, line := l }, true) := by
  induction h with
  | nil =>
    intro n r l e s hl hl0 hlen he hr hn
    obtain ⟨n, rfl⟩ : ∃ k, n = k + 1 := ⟨n - 1, by omega⟩
    rw [skipLoop_succ, loadline_line (s := s) hl he hlen (by simpa using hr)]
    simp [hl0]
  | cons e' b he' _ ih =>
    intro n r l e s hl hl0 hlen he hr hn
    have := eol_pos he'
    obtain ⟨n, rfl⟩ : ∃ k, n = k + 1 := ⟨n - 1, by simp at hn; omega⟩
    rw [skipLoop_succ, loadline_empty (s := b ++ (l ++ e ++ s)) he' (by rw [hr]; simp)]
    simp only [Bool.not_true, Bool.false_eq_true, if_false, ne_eq, not_true_eq_false]
    rw [ih hl hl0 hlen he rfl (by simp at hn; omega)]

theorem skipLoop_end {b : Bytes} (h : Empty b) : ∀ {n : Nat} {r : R}, r.file = b → b.length < n →
    ∃ q, skipLoop n r = .ok (q, false) ∧ q.error = r.error := by
  induction h with
  | nil =>
    intro n r hr hn
    obtain ⟨n, rfl⟩ : ∃ k, n = k + 1 := ⟨n - 1, by omega⟩
    exact ⟨r, by rw [skipLoop_succ, loadline_end hr]; simp, rfl⟩
  | cons e' b he' _ ih =>
    intro n r hr hn
    have := eol_pos he'
    obtain ⟨n, rfl⟩ : ∃ k, n = k + 1 := ⟨n - 1, by simp at hn; omega⟩
    rw [skipLoop_succ, loadline_empty (s := b) he' hr]
    simp only [Bool.not_true, Bool.false_eq_true, if_false, ne_eq, not_true_eq_false]
    obtain ⟨q, h1, h2⟩ := ih (n := n) (r := { r with file := b, line := [] }) rfl (by simp at hn; omega)
    exact ⟨q, h1, h2⟩

theorem digit_is {c : UInt8} (h : Digit c) : isdigit c = true := by
  simp only [isdigit, Bool.and_eq_true, decide_eq_true_eq]; exact h

/-- A time is recognised. -/
theorem timestamp_stamp {t : Bytes} (h : Stamp t) (s : Bytes) : timestamp (t ++ s) = some s := by
  obtain ⟨h1, h2, m1, m2, s1, s2, t1, t2, t3, hd, rfl⟩ := h
  simp only [List.mem_cons, List.not_mem_nil, or_false, forall_eq_or_imp, forall_eq] at hd
  obtain ⟨d1, d2, d3, d4, d5, d6, d7, d8, d9⟩ := hd
  have hc : cstr "dd:dd:dd.ddd" = [100, 100, 58, 100, 100, 58, 100, 100, 46, 100, 100, 100] := by decide +kernel
  unfold timestamp
  rw [hc]
  simp [stamp, fits, digit_is d1, digit_is d2, digit_is d3, digit_is d4, digit_is d5, digit_is d6, digit_is d7, digit_is d8, digit_is d9]

/-- What `cue` stores of a line with times. -/
theorem cue_timing {c : Cue} (h1 : Stamp c.first) (h2 : Stamp c.last) :
    cue c.timing = some (c.first ++ cstr " --> " ++ c.last ++ if c.settings = none then [] else [32]) := by
  have hx : cstr " --> " = 32 :: cstr "--> " := by decide +kernel
  have hy : (cstr "--> ").length = 4 := by decide +kernel
  unfold cue Cue.timing
  generalize hs : c.style = rest
  rw [List.append_assoc, List.append_assoc, timestamp_stamp h1, hx]
  simp only [List.cons_append]
  have hp : (cstr "--> ").isPrefixOf (cstr "--> " ++ (c.last ++ rest)) = true := List.isPrefixOf_iff_prefix.2 (List.prefix_append _ _)
  rw [hp, ← hy, List.drop_left, timestamp_stamp h2]
  simp only [Bool.not_true, Bool.false_eq_true, if_false]
  cases hc : c.settings with
  | none =>
    simp only [Cue.style, hc] at hs; subst hs
    simp
  | some u =>
    simp only [Cue.style, hc] at hs; subst hs
    simp only [List.head?_cons, if_true, List.tail_cons, Option.some.injEq]
    have : c.first ++ 32 :: (cstr "--> " ++ (c.last ++ 32 :: u)) = (c.first ++ 32 :: (cstr "--> " ++ (c.last ++ [32]))) ++ u := by simp
    rw [this, List.length_append, Nat.add_sub_cancel, List.take_left]
    simp

/-- Tags are left out. -/
theorem notags_tag : ∀ {t : Bytes}, (62 : UInt8) ∉ t → ∀ s, notags true (t ++ 62 :: s) = notags false s
  | [], _, s => by simp [notags]
  | c :: t, h, s => by
    simp only [List.mem_cons, not_or] at h
    rw [List.cons_append, notags, if_neg (fun e => h.1 e.symm), notags_tag h.2]

theorem notags_plain {l o : Bytes} (h : Plain l o) : notags false l = o := by
  induction h with
  | nil => rfl
  | char c s o hc _ ih => rw [notags, if_neg hc, ih]
  | tag t s o ht _ ih => rw [notags, if_pos rfl, notags_tag ht, ih]

theorem plain_le {l o : Bytes} (h : Plain l o) : o.length ≤ l.length := by
  induction h with
  | nil => simp
  | char => simp; omega
  | tag => simp; omega

theorem textLoop_succ (n : Nat) (r : R) : textLoop (n + 1) r =
    if !(loadline r).2 then .ok ((loadline r).1, false)
    else if (loadline r).1.line = [] then .ok ((loadline r).1, true)
    else
      if (glued (grow (loadline r).1)).length + 1 > (grow (loadline r).1).textcap then .panic "undefined: write past the end of the text"
      else textLoop n { grow (loadline r).1 with text := glued (grow (loadline r).1) } := rfl

theorem grow_eq (r : R) (h1 : r.line.length < r.textcap) (h2 : r.text.length < r.textcap) :
    ∃ cap, r.textcap ≤ cap ∧ r.text.length + r.line.length + 2 ≤ cap ∧ grow r = { r with textcap := cap } := by
  unfold grow
  split
  · exact ⟨_, by omega, by omega, rfl⟩
  · exact ⟨r.textcap, by omega, by omega, rfl⟩

/-- The text that the program collects. -/
def joined : Bytes → List Bytes → Bytes
  | text, [] => text
  | text, p :: ps => joined ((if text ≠ [] then text ++ [10] else text) ++ p) ps

theorem textLoop_lines {t : Bytes} {ls : List Bytes} (h : Lines t ls) : ∀ {ps : List Bytes} {n : Nat} {r : R} {e s : Bytes}, List.Forall₂ Plain ls ps →
    (∀ l ∈ ls, l.length ≤ 99) → 100 ≤ r.textcap → r.text.length < r.textcap → Eol e → r.file = t ++ e ++ s → ls.length < n →
    ∃ cap, 100 ≤ cap ∧ textLoop n r = .ok ({ r with file := s, line := [], text := joined r.text ps, textcap := cap }, true) := by
  induction h with
  | nil =>
    intro ps n r e s hp _ hcap _ he hr hn
    cases hp
    obtain ⟨n, rfl⟩ : ∃ k, n = k + 1 := ⟨n - 1, by omega⟩
    refine ⟨r.textcap, hcap, ?_⟩
    rw [textLoop_succ, loadline_empty he (by simpa using hr)]
    simp [joined]
  | cons l e' t ls hl hl0 he' _ ih =>
    intro ps n r e s hp hlen hcap htext he hr hn
    cases hp with
    | cons hp hps =>
      rename_i p ps
      obtain ⟨n, rfl⟩ : ∃ k, n = k + 1 := ⟨n - 1, by omega⟩
      have h1 := hlen l (by simp)
      have h2 := plain_le hp
      rw [textLoop_succ, loadline_line (s := t ++ e ++ s) hl he' (by omega) (by rw [hr]; simp)]
      simp only [Bool.not_true, Bool.false_eq_true, if_false, hl0]
      obtain ⟨cap, g1, g2, g3⟩ := grow_eq { r with file := t ++ e ++ s, line := l } (by simp only; omega) htext
      simp only at g1 g2
      rw [g3]
      have hg : glued { r with file := t ++ e ++ s, line := l, textcap := cap } = (if r.text ≠ [] then r.text ++ [10] else r.text) ++ p := by
        rw [glued, notags_plain hp]
      have hlt : ((if r.text ≠ [] then r.text ++ [10] else r.text) ++ p).length ≤ r.text.length + l.length + 1 := by
        split <;> simp <;> omega
      rw [hg]
      generalize ht : (if r.text ≠ [] then r.text ++ [10] else r.text) ++ p = text at hlt
      rw [if_neg (by simp only; omega)]
      obtain ⟨cap', c1, c2⟩ := ih (ps := ps) (n := n) (r := { r with file := t ++ e ++ s, line := l, textcap := cap, text := text }) (e := e) (s := s) hps (fun l hl => hlen l (by simp [hl])) (by simp only; omega)
          (by simp only; omega) he rfl (by simp at hn; omega)
      refine ⟨cap', c1, ?_⟩
      rw [c2, joined, ht]

/-- The program leaves out newlines at the beginning only. -/
theorem joined_some : ∀ (ps : List Bytes) (text : Bytes), text ≠ [] → joined text ps = List.intercalate [10] (text :: ps)
  | [], text, _ => by simp [joined]
  | p :: ps, text, h => by
    rw [joined, if_pos h, joined_some ps _ (by simp)]
    cases ps <;> simp [List.intercalate]

theorem joined_nil : ∀ (ps : List Bytes), ∃ k, List.intercalate [10] ps = List.replicate k 10 ++ joined [] ps
  | [] => ⟨0, by simp [joined, List.intercalate]⟩
  | [] :: ps => by
    obtain ⟨k, hk⟩ := joined_nil ps
    cases ps with
    | nil => exact ⟨0, by simp [joined, List.intercalate]⟩
    | cons q qs =>
      refine ⟨k + 1, ?_⟩
      have : List.intercalate [10] ([] :: q :: qs) = 10 :: List.intercalate [10] (q :: qs) := by simp [List.intercalate]
      have h2 : joined [] ([] :: q :: qs) = joined [] (q :: qs) := by rw [joined]; simp
      rw [this, hk, h2]
      simp [List.replicate_succ]
  | (c :: p) :: ps => by
    refine ⟨0, ?_⟩
    rw [joined, if_neg (by simp), List.nil_append, joined_some ps _ (by simp)]
    simp

theorem trim_joined {ps : List Bytes} : Trimmed (List.intercalate [10] ps) (Strings.trim (joined [] ps)) := by
  obtain ⟨k, hk⟩ := joined_nil ps
  obtain ⟨l, r, h1, h2, h3, h4, h5⟩ := Props.C57_trim_partial (joined [] ps)
  refine ⟨List.replicate k 10 ++ l, r, ?_, ?_, h3, h4, h5⟩
  · rw [hk]; nth_rw 1 [h1]; simp
  · intro c hc
    rcases List.mem_append.1 hc with hc | hc
    · rw [(List.mem_replicate.1 hc).2]; unfold Space; decide
    · exact h2 c hc

/-- The lengths with which the program has room. -/
def Room (c : Cue) : Prop := c.timing.length ≤ 4093 ∧ ∀ l ∈ c.text, l.length ≤ 99

/-- A subtitle is read. -/
theorem read_cue {b t e s : Bytes} {c : Cue} {ps : List Bytes} {r : R} (hb : Empty b) (ht : Block t c) (he : Eol e) (hroom : Room c)
    (hp : List.Forall₂ Plain c.text ps) (hcap : 100 ≤ r.textcap) (hr : r.file = b ++ t ++ e ++ s) :
    ∃ q, read r = .ok (q, true) ∧ q.file = s ∧ 100 ≤ q.textcap ∧ q.error = r.error ∧
      q.timerange = (c.first ++ cstr " --> " ++ c.last ++ if c.settings = none then [] else [32]) ∧ q.text = Strings.trim (joined [] ps) := by
  cases ht with
  | mk _ e1 u h1 h2 hl he1 hu =>
    have hl0 : c.timing ≠ [] := by
      obtain ⟨_, _, _, _, _, _, _, _, _, _, hf⟩ := h1
      unfold Cue.timing; rw [hf]; simp
    unfold read
    rw [skipLoop_empty hb (s := u ++ e ++ s) hl hl0 hroom.1 he1 (by rw [hr]; simp) (by rw [hr]; simp; omega)]
    simp only [Res.bind, Bool.not_true, Bool.false_eq_true, if_false, cue_timing h1 h2]
    have := lines_le hu
    obtain ⟨cap, c1, c2⟩ := textLoop_lines hu
      (r := { r with file := u ++ e ++ s, line := c.timing, timerange := c.first ++ cstr " --> " ++ c.last ++ if c.settings = none then [] else [32], text := [] })
      (n := (u ++ e ++ s).length + 1) hp hroom.2 hcap (by simp only [List.length_nil]; omega) he rfl (by simp; omega)
    rw [c2]
    exact ⟨_, rfl, rfl, c1, rfl, rfl, rfl⟩

theorem read_end {b : Bytes} {r : R} (hb : Empty b) (hr : r.file = b) : ∃ q, read r = .ok (q, false) ∧ q.error = r.error := by
  unfold read
  obtain ⟨q, h1, h2⟩ := skipLoop_end hb hr (n := r.file.length + 1) (by rw [hr]; omega)
  rw [h1]
  exact ⟨q, rfl, h2⟩
end Che.Lib.Vtt
