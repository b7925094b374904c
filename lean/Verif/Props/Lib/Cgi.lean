import Verif.Model.Lib.Cgi

namespace Che.Props
open Che.Lib Che.Lib.Cgi

/-- The end of a line. -/
def C109_Eol (e : Bytes) : Prop := e = [10] ∨ e = [13, 10]

/-- A header as CGI scripts write it: `Name: value`, with a value that is not empty. -/
structure C109_Line (s : Bytes) (h : Bytes × Bytes) : Prop where
  text : ∃ blanks e, s = h.1 ++ [58] ++ blanks ++ h.2 ++ e ∧ (∀ c ∈ blanks, c = 32 ∨ c = 9) ∧ C109_Eol e
  name : 58 ∉ h.1 ∧ 0 ∉ h.1 ∧ h.1.length < 1000 ∧ h.1.head? ≠ some 10 ∧ h.1.head? ≠ some 13
  value : (∃ c rest, h.2 = c :: rest ∧ Tok.isspace c.toNat = false) ∧ 10 ∉ h.2 ∧ 13 ∉ h.2 ∧ 0 ∉ h.2 ∧ h.2.length < 1000

/-- The lines of a head. -/
inductive C109_Lines : Bytes → List (Bytes × Bytes) → Prop
  | one (s : Bytes) (h : Bytes × Bytes) : C109_Line s h → C109_Lines s [h]
  | more (s t : Bytes) (h : Bytes × Bytes) (hs : List (Bytes × Bytes)) : C109_Line s h → C109_Lines t hs → C109_Lines (s ++ t) (h :: hs)

theorem eol_skip {e : Bytes} (he : C109_Eol e) (rest : Bytes) : skipEol (e ++ rest) = rest := by
  rcases he with rfl | rfl
  · rfl
  · rfl

theorem stop_at (p : UInt8 → Bool) (w : Bytes) (x : UInt8) (rest : Bytes) (hw : ∀ c ∈ w, p c = true) (hx : p x = false) :
    (w ++ x :: rest).takeWhile p = w ∧ (w ++ x :: rest).dropWhile p = x :: rest := by
  induction w with
  | nil => simp [hx]
  | cons y w ih =>
    have := ih (fun c hc => hw c (by simp [hc]))
    rw [List.cons_append, List.takeWhile_cons, List.dropWhile_cons, if_pos (hw y (by simp)), if_pos (hw y (by simp)), this.1, this.2]
    exact ⟨rfl, rfl⟩

theorem keep_all (w : Bytes) (h : 0 ∉ w) : w.takeWhile (· ≠ 0) = w := by
  induction w with
  | nil => rfl
  | cons a l ih => rw [List.takeWhile_cons, if_pos (by simpa using fun e : a = 0 => h (by simp [e])), ih (fun e => h (by simp [e]))]

theorem line_read (s rest : Bytes) (h : Bytes × Bytes) (hl : C109_Line s h) : line (s ++ rest) = .ok (some (h, rest)) := by
  obtain ⟨⟨blanks, e, rfl, hb, he⟩, ⟨n1, n2, n3, _⟩, ⟨c, v, hv, hc⟩, v1, v2, v3, v4⟩ := hl
  obtain ⟨name, value⟩ := h
  simp only at *
  subst hv
  obtain ⟨x, e', hx, hex⟩ : ∃ x e', e = x :: e' ∧ (x = 10 ∨ x = 13) := by
    rcases he with rfl | rfl
    · exact ⟨10, [], rfl, .inl rfl⟩
    · exact ⟨13, [10], rfl, .inr rfl⟩
  have e1 : name ++ [58] ++ blanks ++ c :: v ++ e ++ rest = name ++ 58 :: (blanks ++ c :: (v ++ (e ++ rest))) := by simp
  obtain ⟨a1, a2⟩ := stop_at (· ≠ 58) name 58 (blanks ++ c :: (v ++ (e ++ rest))) (by intro y hy; simpa using fun q : y = 58 => n1 (q ▸ hy)) (by simp)
  obtain ⟨b1, b2⟩ := stop_at (fun c => Tok.isspace c.toNat) blanks c (v ++ (e ++ rest)) (by
    intro y hy
    rcases hb y hy with rfl | rfl <;> decide) hc
  obtain ⟨c1, c2⟩ := stop_at (fun c => c ≠ 10 && c ≠ 13) (c :: v) x (e' ++ rest) (by
    intro y hy
    simp only [ne_eq, Bool.and_eq_true, decide_eq_true_eq]
    exact ⟨fun q => v1 (q ▸ hy), fun q => v2 (q ▸ hy)⟩) (by
    rcases hex with rfl | rfl <;> simp)
  have e2 : c :: (v ++ (e ++ rest)) = c :: v ++ x :: (e' ++ rest) := by rw [hx]; simp
  unfold line
  rw [e1]
  simp only [a1, a2]
  rw [if_neg (by omega)]
  simp only [b2]
  rw [if_neg (by simp), e2]
  simp only [c1, c2]
  rw [if_neg (by omega), keep_all name n2, keep_all (c :: v) v3]
  have : x :: (e' ++ rest) = e ++ rest := by rw [hx]; simp
  rw [this, eol_skip he]

theorem lines_cons_head {s : Bytes} {hs : List (Bytes × Bytes)} (h : C109_Lines s hs) (t : Bytes) :
    s ≠ [] ∧ (s ++ t).head? ≠ some 13 ∧ (s ++ t).head? ≠ some 10 := by
  have one : ∀ s h t, C109_Line s h → s ≠ [] ∧ (s ++ t).head? ≠ some 13 ∧ (s ++ t).head? ≠ some 10 := by
    intro s h t hl
    obtain ⟨⟨blanks, e, rfl, _⟩, ⟨_, _, _, n4, n5⟩, _⟩ := hl
    obtain ⟨name, value⟩ := h
    cases name with
    | nil => simp
    | cons c name => simp_all
  cases h with
  | one s h hl => exact one s h t hl
  | more s u h hs hl _ =>
    have := one s h (u ++ t) hl
    rw [← List.append_assoc] at this
    exact ⟨by simp [this.1], this.2⟩

theorem loop_read {s : Bytes} {hs : List (Bytes × Bytes)} (h : C109_Lines s hs) : ∀ (k : Nat) (acc : List (Bytes × Bytes)) (e rest : Bytes), C109_Eol e → hs.length ≤ k →
    acc.length + hs.length ≤ 100 → loop k (s ++ (e ++ rest)) acc = .ok (some (acc ++ hs, rest)) := by
  induction h with
  | one s h hl =>
    intro k acc e rest he hk ha
    obtain ⟨k, rfl⟩ : ∃ j, k = j + 1 := ⟨k - 1, by simp at hk; omega⟩
    simp only [List.length_cons, List.length_nil] at ha
    unfold loop
    rw [line_read s _ h hl]
    show (if acc.length ≥ 100 then _ else _) = _
    rw [if_neg (by omega), if_pos (by rcases he with rfl | rfl <;> simp), eol_skip he]
  | more s t h hs hl ht ih =>
    intro k acc e rest he hk ha
    obtain ⟨k, rfl⟩ : ∃ j, k = j + 1 := ⟨k - 1, by simp at hk; omega⟩
    simp only [List.length_cons] at ha hk
    unfold loop
    rw [List.append_assoc, line_read s _ h hl]
    show (if acc.length ≥ 100 then _ else _) = _
    have hn := lines_cons_head ht (e ++ rest)
    rw [if_neg (by omega), if_neg (by rintro (q | q); exact hn.2.1 q; exact hn.2.2 q), ih k _ e rest he (by omega) (by simp; omega)]
    simp

theorem lines_size {s : Bytes} {hs : List (Bytes × Bytes)} (h : C109_Lines s hs) : hs.length ≤ s.length := by
  have one : ∀ s h, C109_Line s h → 1 ≤ s.length := by
    intro s h hl
    obtain ⟨⟨blanks, e, rfl, _⟩, _, _⟩ := hl
    simp
    omega
  induction h with
  | one s h hl => simpa using one s h hl
  | more s t h hs hl ht ih => have := one s h hl; simp; omega

/-- C109, as far as it goes: the head of a script's answer with values that are not empty is read, and the position
is where the body begins. -/
theorem C109_head_partial (s : Bytes) (hs : List (Bytes × Bytes)) (h : C109_Lines s hs) (hl : hs.length ≤ 100) (e body : Bytes) (he : C109_Eol e) :
    parse_head (s ++ e ++ body) = .ok (some (hs, (s ++ e).length)) := by
  unfold parse_head
  rw [List.append_assoc, loop_read h _ [] e body he (by have := lines_size h; simp; omega) (by simpa using hl)]
  show Res.ok _ = _
  simp only [List.length_append, List.nil_append]
  congr 4
  omega

/-- C109: the loop ends for all texts. -/
theorem C109_ends (data : Bytes) : parse_head data ≠ .diverge := by
  have skip_le : ∀ s : Bytes, (skipEol s).length ≤ s.length := by
    have one : ∀ c (s : Bytes), (skip1 c s).length ≤ s.length := by
      intro c s
      unfold skip1
      split
      · simp
      · exact Nat.le_refl _
    intro s
    exact Nat.le_trans (one 10 _) (one 13 s)
  have drop_le : ∀ (p : UInt8 → Bool) (s : Bytes), (s.dropWhile p).length ≤ s.length := fun p s => (List.dropWhile_suffix p).length_le
  have shorter : ∀ s h t, line s = .ok (some (h, t)) → t.length < s.length := by
    intro s h t hl
    unfold line at hl
    simp only at hl
    split at hl
    · cases hl
    split at hl
    · cases hl
    · rename_i c u hu
      have h1 := drop_le (· ≠ 58) s
      rw [hu] at h1
      split at hl
      · cases hl
      split at hl
      · cases hl
      split at hl
      · cases hl
      · simp only [Res.ok.injEq, Option.some.injEq, Prod.mk.injEq] at hl
        rw [← hl.2]
        have h2 := drop_le (fun c => Tok.isspace c.toNat) u
        have h3 := drop_le (fun c : UInt8 => c ≠ 10 && c ≠ 13) (u.dropWhile fun c => Tok.isspace c.toNat)
        refine Nat.lt_of_le_of_lt (skip_le _) ?_
        simp only [List.length_cons] at h1
        omega
  have : ∀ k s acc, s.length < k → loop k s acc ≠ .diverge := by
    intro k
    induction k with
    | zero => intro s acc h; omega
    | succ k ih =>
      intro s acc h
      unfold loop
      cases hl : line s with
      | ok r =>
        cases r with
        | none => show Res.ok _ ≠ _; simp
        | some x =>
          obtain ⟨hd, t⟩ := x
          have := shorter s hd t hl
          show (if acc.length ≥ 100 then _ else _) ≠ _
          split
          · simp
          · split
            · simp
            · exact ih t _ (by omega)
      | err e => show Res.err _ ≠ _; simp
      | panic e => show Res.panic _ ≠ _; simp
      | diverge =>
        exfalso
        unfold line at hl
        simp only at hl
        split at hl
        · cases hl
        split at hl
        · cases hl
        split at hl
        · cases hl
        split at hl
        · cases hl
        split at hl <;> cases hl
  unfold parse_head
  have h := this (data.length + 1) data [] (by omega)
  cases hl : loop (data.length + 1) data [] with
  | ok r =>
    rcases r with _ | ⟨a, b⟩
    · show Res.ok _ ≠ _; simp
    · show Res.ok _ ≠ _; simp
  | err e => show Res.err _ ≠ _; simp
  | panic e => show Res.panic _ ≠ _; simp
  | diverge => exact absurd hl h

/-- C109 fails for empty values: the next line becomes the value, and the header in it is lost. -/
theorem C109_counterexample_empty :
    parse_head (cstr "X-Note:" ++ [10] ++ cstr "Content-Type: text/html" ++ [10, 10] ++ cstr "body") =
      .ok (some ([(cstr "X-Note", cstr "Content-Type: text/html")], 33)) := by
  decide +kernel

/-- C109 fails for heads of more than 100 headers. -/
theorem C109_counterexample_many : parse_head ((List.replicate 101 ([97, 58, 98, 10] : Bytes)).flatten ++ [10]) = .panic "undefined: write outside of an array" := by
  decide +kernel

/-- C109 fails for names and values of 1000 bytes and more: they do not fit the arrays. -/
theorem C109_counterexample_long (name value e rest : Bytes) (c : UInt8) (hn : 58 ∉ name) (hv : 10 ∉ c :: value ∧ 13 ∉ c :: value) (hc : Tok.isspace c.toNat = false) (he : C109_Eol e)
    (hl : 1000 ≤ name.length ∨ 1000 ≤ (c :: value).length) :
    parse_head (name ++ [58, 32] ++ (c :: value) ++ e ++ rest) = .panic "undefined: write outside of an array" := by
  obtain ⟨x, e', rfl, hx⟩ : ∃ x e', e = x :: e' ∧ (x = 10 ∨ x = 13) := by
    rcases he with rfl | rfl
    · exact ⟨10, [], rfl, .inl rfl⟩
    · exact ⟨13, [10], rfl, .inr rfl⟩
  have e1 : name ++ [58, 32] ++ (c :: value) ++ (x :: e') ++ rest = name ++ 58 :: (32 :: ((c :: value) ++ x :: (e' ++ rest))) := by simp
  obtain ⟨s1, s2⟩ := stop_at (fun d => decide (d ≠ 58)) name 58 (32 :: ((c :: value) ++ x :: (e' ++ rest)))
    (fun d hd => by rw [decide_eq_true_eq]; rintro rfl; exact hn hd) (by decide)
  obtain ⟨s3, _⟩ := stop_at (fun d => decide (d ≠ 10) && decide (d ≠ 13)) (c :: value) x (e' ++ rest)
    (fun d hd => by
      rw [Bool.and_eq_true, decide_eq_true_eq, decide_eq_true_eq]
      exact ⟨by rintro rfl; exact hv.1 hd, by rintro rfl; exact hv.2 hd⟩)
    (by rcases hx with rfl | rfl <;> decide)
  have hsp : (32 :: ((c :: value) ++ x :: (e' ++ rest))).dropWhile (fun c => Tok.isspace c.toNat) = (c :: value) ++ x :: (e' ++ rest) := by
    rw [List.dropWhile_cons, if_pos (by decide), List.cons_append, List.dropWhile_cons, hc]
    rfl
  have hline : line (name ++ [58, 32] ++ (c :: value) ++ (x :: e') ++ rest) = .panic "undefined: write outside of an array" := by
    rw [e1]
    unfold line
    simp only
    rw [s1, s2]
    by_cases h1 : name.length ≥ 1000
    · rw [if_pos h1]
    · rw [if_neg h1]
      simp only
      rw [hsp, if_neg (by simp), s3, if_pos (by omega)]
  unfold parse_head
  rw [loop, hline]
  rfl

/-- C109 on a head. -/
example : parse_head (cstr "Status: 200" ++ [13, 10] ++ cstr "Content-Type:text/html" ++ [10, 10] ++ cstr "body") =
    .ok (some ([(cstr "Status", cstr "200"), (cstr "Content-Type", cstr "text/html")], 37)) := by decide +kernel
end Che.Props
