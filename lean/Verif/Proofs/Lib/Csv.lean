import Verif.Proofs.Lib.Json
import Verif.Model.Lib.Csv
import Verif.Spec.Lib.Csv

namespace Che.Lib.Csv
open Che.Lib
open Che.Lib.Json (At peek_at get_at more_at at_rounds code_iff eof_ne)
open Che.Spec.Lib

theorem code34 (c : UInt8) : code (some c) = 34 ↔ c = 34 := code_iff c 34

theorem ok_bind {X Y : Type} (x : X) (f : X → Res Unit Y) : (Res.ok x >>= f) = f x := rfl

/-- Ends a bare value. -/
def stop (c : UInt8) : Bool := c = 44 || c = 13 || c = 10

theorem peekany_at {p : Tok.T} {s : Bytes} (h : At p s) (cs : List UInt8) :
    ∃ p', peekany p cs = (p', cs.any fun c => s.head? = some c) ∧ At p' s := by
  induction cs generalizing p with
  | nil => exact ⟨p, by simp [peekany], h⟩
  | cons c cs ih =>
    obtain ⟨p1, e1, h1⟩ := peek_at h
    obtain ⟨p2, e2, h2⟩ := ih h1
    cases s with
    | nil =>
      simp only [List.head?_nil] at e1 e2 ⊢
      simp only [peekany, e1]
      exact ⟨p2, by rw [if_neg (eof_ne c), e2]; simp, h2⟩
    | cons x s =>
      simp only [List.head?_cons] at e1 e2 ⊢
      simp only [peekany, e1]
      by_cases hx : x = c
      · exact ⟨p1, by rw [if_pos ((code_iff x c).mpr hx)]; simp [hx], h1⟩
      · refine ⟨p2, ?_, h2⟩
        rw [if_neg (fun e => hx ((code_iff x c).mp e)), e2]
        simp [hx]

theorem bareLoop_at (n : Nat) {p : Tok.T} {s : Bytes} (h : At p s) (hn : s.length < n) (v : Bytes) :
    ∃ p', bareLoop n p v = (p', v ++ s.takeWhile (fun c => !stop c)) ∧ At p' (s.dropWhile (fun c => !stop c)) := by
  induction n generalizing p s v with
  | zero => omega
  | succ n ih =>
    obtain ⟨p1, e1, h1⟩ := more_at h
    obtain ⟨p2, e2, h2⟩ := peekany_at h1 [44, 13, 10]
    obtain ⟨p3, e3, h3⟩ := get_at h2
    simp only [bareLoop, e1, e2, e3]
    cases s with
    | nil => exact ⟨p1, by simp, h1⟩
    | cons c s =>
      simp only [List.length_cons] at hn
      have hs : ([44, 13, 10].any fun x : UInt8 => (c :: s).head? = some x) = stop c := by
        unfold stop; simp [Bool.or_assoc]
      rw [hs]
      by_cases hc : stop c
      · exact ⟨p2, by simp [hc], by simpa [hc] using h2⟩
      · simp only [List.tail_cons, List.head?_cons] at h3 ⊢
        obtain ⟨p4, e4, h4⟩ := ih h3 (by omega) (v ++ [c])
        refine ⟨p4, ?_, by simpa [hc] using h4⟩
        simp only [code, Tok.toByte_code]
        simp [hc, e4]

/-- The text between quotes is taken up to the closing quote. -/
theorem quotedLoop_at {v t : Bytes} (hq : QuotedText v t) (n : Nat) {p : Tok.T} {r : Bytes} (h : At p (t ++ 34 :: r))
    (hr : r.head? ≠ some 34) (hn : t.length < n) (acc : Bytes) :
    ∃ p', quotedLoop n p acc = .ok (p', acc ++ v) ∧ At p' r := by
  induction hq generalizing n p acc with
  | nil =>
    obtain ⟨n, rfl⟩ : ∃ m, n = m + 1 := ⟨n - 1, by omega⟩
    obtain ⟨p1, e1, h1⟩ := get_at h
    obtain ⟨p2, e2, h2⟩ := peek_at h1
    refine ⟨p2, ?_, h2⟩
    simp only [List.nil_append, List.head?_cons, List.tail_cons] at e1 e2
    simp only [quotedLoop, e1, e2]
    have hne : code r.head? ≠ 34 := by
      cases r with
      | nil => exact eof_ne 34
      | cons x r => intro e; exact hr (by simpa using (code34 x).mp e)
    rw [if_neg (by decide), if_pos (by decide), if_neg hne]
    simp
  | @plain c v t hc _ ih =>
    obtain ⟨n, rfl⟩ : ∃ m, n = m + 1 := ⟨n - 1, by simp at hn; omega⟩
    obtain ⟨p1, e1, h1⟩ := get_at h
    obtain ⟨p2, e2, h2⟩ := ih n h1 (by simp at hn; omega) (acc ++ [c])
    refine ⟨p2, ?_, h2⟩
    simp only [List.cons_append, List.head?_cons] at e1
    simp only [quotedLoop, e1]
    rw [if_neg (by simp only [code]; omega), if_neg (fun e => hc ((code34 c).mp e))]
    simp only [code, Tok.toByte_code, e2]
    simp
  | @quote v t _ ih =>
    obtain ⟨n, rfl⟩ : ∃ m, n = m + 1 := ⟨n - 1, by simp at hn; omega⟩
    obtain ⟨p1, e1, h1⟩ := get_at h
    obtain ⟨p2, e2, h2⟩ := peek_at h1
    obtain ⟨p3, e3, h3⟩ := get_at h2
    obtain ⟨p4, e4, h4⟩ := ih n h3 (by simp at hn; omega) (acc ++ [34])
    refine ⟨p4, ?_, h4⟩
    simp only [List.cons_append, List.head?_cons, List.tail_cons] at e1 e2 e3
    simp only [quotedLoop, e1, e2, e3]
    rw [if_neg (by decide), if_pos (by decide), if_pos (by decide)]
    have : Tok.toByte (code (some 34)) = 34 := by decide
    rw [this, e4]; simp

/-- Values with room for them, and without a zero. -/
def Fits (v : Bytes) : Prop := v.length < 4096 ∧ 0 ∉ v

theorem Fits.val {v : Bytes} (h : Fits v) : v.takeWhile (· ≠ 0) = v := by
  have h0 : ∀ c ∈ v, (decide (c ≠ 0)) = true := fun c hc => decide_eq_true fun e : c = 0 => h.2 (e ▸ hc)
  clear h
  induction v with
  | nil => rfl
  | cons c v ih => rw [List.takeWhile_cons, if_pos (h0 c (by simp)), ih fun x hx => h0 x (by simp [hx])]

/-- A reader at a place in the text. -/
structure Reads (r : R) (s : Bytes) (first : Bool) : Prop where
  at_ : At r.b s
  first : r.firstval = first
  sound : r.sound = true

theorem read_quoted_at {v t r : Bytes} (hq : QuotedText v t) {p : Tok.T} (h : At p ([34] ++ t ++ [34] ++ r)) (hr : r.head? ≠ some 34) :
    ∃ p', read_quoted_value p = .ok (p', v) ∧ At p' r := by
  obtain ⟨seen, h⟩ := h
  obtain ⟨p1, e1, h1⟩ := Tok.buf_skip_is h 34 (by decide)
  have hd : (⟨seen, [34] ++ t ++ [34] ++ r⟩ : Cursor).rest.head? = some 34 := by simp
  rw [if_pos hd] at h1
  rw [decide_eq_true hd] at e1
  have h1' : At p1 (t ++ 34 :: r) := by
    have := Json.at_of h1
    simpa [Cursor.skip] using this
  obtain ⟨p2, e2, h2⟩ := quotedLoop_at hq (Tok.rounds p1) h1' hr (by rw [at_rounds h1']; simp; omega) []
  refine ⟨p2, ?_, h2⟩
  unfold read_quoted_value
  simp only [e1, Bool.not_true, Bool.false_eq_true, if_false, e2, List.nil_append]

/-- After a field comes a comma, a line end or nothing. -/
def Ends (r : Bytes) : Prop := ∀ c, r.head? = some c → stop c = true

theorem field_not_end {v t : Bytes} (hf : CsvField v t) {r : Bytes} (hne : t ≠ [] ∨ r.head? = some 44) :
    ∃ c, (t ++ r).head? = some c ∧ c ≠ 10 ∧ c ≠ 13 := by
  cases hf with
  | bare hb =>
    cases v with
    | nil => rcases hne with h | h
             · exact absurd rfl h
             · exact ⟨44, by simpa using h, by decide, by decide⟩
    | cons c v => exact ⟨c, rfl, (hb c (by simp)).2.2⟩
  | quoted _ => exact ⟨34, rfl, by decide, by decide⟩

theorem takeWhile_all {q : UInt8 → Bool} {v r : Bytes} (hv : ∀ c ∈ v, q c = true) (hr : ∀ c, r.head? = some c → q c = false) :
    (v ++ r).takeWhile q = v ∧ (v ++ r).dropWhile q = r := by
  induction v with
  | nil =>
    cases r with
    | nil => simp
    | cons c r => have := hr c rfl; simp [this]
  | cons c v ih =>
    have h1 := hv c (by simp)
    obtain ⟨h2, h3⟩ := ih fun x hx => hv x (by simp [hx])
    simp [h1, h2, h3]

theorem readfield_at {v t r : Bytes} (hf : CsvField v t) (hr : Ends r) (hne : t ≠ [] ∨ r.head? = some 44) (hv : Fits v)
    {x : R} {first : Bool} (h : Reads x (t ++ r) first) : ∃ x', readfield x = .ok (x', true) ∧ Reads x' r false ∧ val x' = v := by
  obtain ⟨ha, hfi, hs⟩ := h
  obtain ⟨c, hc, h10, h13⟩ := field_not_end hf hne
  obtain ⟨p1, e1, h1⟩ := peek_at ha
  obtain ⟨p2, e2, h2⟩ := more_at h1
  rw [hc] at e1
  have hnil : t ++ r ≠ [] := by intro e; rw [e] at hc; cases hc
  rw [decide_eq_true hnil] at e2
  have hn10 : ¬ ((code (some c) = 10 || code (some c) = 13) = true) := by
    have i1 := code_iff c 10; have i2 := code_iff c 13
    simp only [Bool.or_eq_true, decide_eq_true_eq, not_or]
    exact ⟨fun e => h10 (i1.mp e), fun e => h13 (i2.mp e)⟩
  unfold readfield
  simp only [e1, e2]
  rw [if_neg hn10]
  simp only [Bool.not_true, Bool.false_eq_true, if_false]
  cases hf with
  | bare hb =>
    have hn34 : c ≠ 34 := by
      cases v with
      | nil =>
        rcases hne with h | h
        · exact absurd rfl h
        · rw [List.nil_append, h] at hc; injection hc with hc; rw [← hc]; decide
      | cons d v => simp only [List.cons_append, List.head?_cons, Option.some.injEq] at hc; rw [← hc]; exact (hb d (by simp)).1
    rw [if_neg (fun e => hn34 ((code34 c).mp e))]
    obtain ⟨p3, e3, h3⟩ := bareLoop_at (Tok.rounds p2) h2 (by rw [at_rounds h2]; omega) []
    obtain ⟨k1, k2⟩ := takeWhile_all (q := fun c => !stop c) (v := v) (r := r)
      (fun c hc => by have := hb c hc; simp [stop, this]) (fun c hc => by simp [hr c hc])
    rw [k1] at e3; rw [k2] at h3
    simp only [e3, List.nil_append]
    exact ⟨_, rfl, ⟨h3, rfl, by simp [R.put, hs, hv.1]⟩, hv.val⟩
  | @quoted t hq =>
    have h34 : c = 34 := by simpa using hc.symm
    rw [if_pos ((code34 c).mpr h34)]
    have hr34 : r.head? ≠ some 34 := fun e => by have := hr 34 e; exact absurd this (by decide)
    obtain ⟨p3, e3, h3⟩ := read_quoted_at hq h2 hr34
    rw [e3]
    exact ⟨_, rfl, ⟨h3, rfl, by simp [R.put, hs, hv.1]⟩, hv.val⟩

/-- The value after a comma. -/
theorem readval_next {v t r : Bytes} (hf : CsvField v t) (hr : Ends r) (hne : t ≠ [] ∨ r.head? = some 44) (hv : Fits v)
    {x : R} (h : Reads x ([44] ++ t ++ r) false) : ∃ x', readval x = .ok (x', true) ∧ Reads x' r false ∧ val x' = v := by
  obtain ⟨ha, hfi, hs⟩ := h
  obtain ⟨p1, e1, h1⟩ := peek_at ha
  obtain ⟨p2, e2, h2⟩ := get_at h1
  unfold readval
  simp only [List.singleton_append, List.cons_append, List.head?_cons, List.tail_cons] at e1 e2 h2
  rw [hfi]
  simp only [e1, e2, Bool.not_false, if_true]
  rw [if_neg (by decide)]
  exact readfield_at hf hr hne hv (first := false) ⟨h2, rfl, hs⟩

theorem readval_first {v t r : Bytes} (hf : CsvField v t) (hr : Ends r) (hne : t ≠ [] ∨ r.head? = some 44) (hv : Fits v)
    {x : R} (h : Reads x (t ++ r) true) : ∃ x', readval x = .ok (x', true) ∧ Reads x' r false ∧ val x' = v := by
  unfold readval
  rw [h.first]
  exact readfield_at hf hr hne hv h

/-- There is no value at a line end. -/
theorem readval_end {r : Bytes} (hr : ∀ c, r.head? = some c → c = 10 ∨ c = 13) {first : Bool} {x : R} (h : Reads x r first) :
    ∃ x', readval x = .ok (x', false) ∧ Reads x' r false := by
  obtain ⟨ha, hfi, hs⟩ := h
  obtain ⟨p1, e1, h1⟩ := peek_at ha
  unfold readval
  cases first with
  | false =>
    have hne : code r.head? ≠ 44 := by
      cases r with
      | nil => exact eof_ne 44
      | cons c r => intro e; have := (code_iff c 44).mp e; subst this; have := hr 44 rfl; revert this; decide
    rw [hfi]
    simp only [e1, Bool.not_false, if_true]
    rw [if_pos hne]
    exact ⟨_, rfl, ⟨h1, by simp [hfi], hs⟩⟩
  | true =>
    rw [hfi]
    simp only [Bool.not_true, Bool.false_eq_true, if_false]
    unfold readfield
    cases r with
    | nil =>
      simp only [e1]
      obtain ⟨p2, e2, h2⟩ := more_at h1
      rw [if_neg (by simp [code])]
      simp only [e2]
      exact ⟨_, rfl, ⟨h2, rfl, hs⟩⟩
    | cons c r =>
      have hc := hr c rfl
      have : ((code (some c) = 10 || code (some c) = 13) = true) := by
        have i1 := code_iff c 10; have i2 := code_iff c 13
        simp only [Bool.or_eq_true, decide_eq_true_eq]
        exact hc.imp i1.mpr i2.mpr
      simp only [List.head?_cons] at e1
      simp only [e1]
      rw [if_pos this]
      exact ⟨_, rfl, ⟨h1, rfl, hs⟩⟩

/-- The end of a line or of the text. -/
def LineEnd (r : Bytes) : Prop := ∀ c, r.head? = some c → c = 10 ∨ c = 13

theorem LineEnd.ends {r : Bytes} (h : LineEnd r) : Ends r := by
  intro c hc; rcases h c hc with rfl | rfl <;> decide

theorem lineLoop_rest {vs : List Bytes} {t r : Bytes} (hrec : CsvRecord (· ≠ []) vs t) (hr : LineEnd r)
    (hv : ∀ v ∈ vs, Fits v) (n : Nat) (hn : vs.length < n) {x : R} (h : Reads x ([44] ++ t ++ r) false) (acc : List Bytes) :
    ∃ x', lineLoop n x acc = .ok (x', acc ++ vs) ∧ Reads x' r false := by
  induction hrec generalizing n x acc with
  | @one v t hf hl =>
    simp only [List.length_cons, List.length_nil] at hn
    obtain ⟨n, rfl⟩ : ∃ m, n = m + 1 + 1 := ⟨n - 2, by omega⟩
    obtain ⟨x1, e1, h1, hv1⟩ := readval_next hf hr.ends (.inl hl) (hv v (by simp)) h
    obtain ⟨x2, e2, h2⟩ := readval_end hr h1
    refine ⟨x2, ?_, h2⟩
    rw [lineLoop, e1]
    show lineLoop (n + 1) x1 (acc ++ [val x1]) = _
    rw [lineLoop, e2, hv1]; rfl
  | @more v t vs u hf hrec ih =>
    simp only [List.length_cons] at hn
    obtain ⟨n, rfl⟩ : ∃ m, n = m + 1 := ⟨n - 1, by omega⟩
    have h' : Reads x ([44] ++ t ++ ([44] ++ u ++ r)) false := by simpa using h
    obtain ⟨x1, e1, h1, hv1⟩ := readval_next hf (by intro c hc; simp at hc; rw [← hc]; decide) (.inr rfl) (hv v (by simp)) h'
    obtain ⟨x2, e2, h2⟩ := ih (fun w hw => hv w (by simp [hw])) n (by omega) h1 (acc ++ [v])
    refine ⟨x2, ?_, h2⟩
    rw [lineLoop, e1]
    show lineLoop n x1 (acc ++ [val x1]) = _
    rw [hv1, e2]; simp

theorem record_length {vs : List Bytes} {t : Bytes} (h : CsvRecord (· ≠ []) vs t) : vs.length ≤ t.length := by
  induction h with
  | @one v t _ hl => have : t.length ≠ 0 := fun e => hl (List.eq_nil_of_length_eq_zero e); simp; omega
  | more _ _ ih => simp; omega

theorem lineLoop_at {vs : List Bytes} {t r : Bytes} (hrec : CsvRecord (· ≠ []) vs t) (hr : LineEnd r)
    (hv : ∀ v ∈ vs, Fits v) {x : R} (h : Reads x (t ++ r) true) :
    ∃ x', lineLoop (Tok.rounds x.b) x [] = .ok (x', vs) ∧ Reads x' r false := by
  rw [at_rounds h.at_]
  cases hrec with
  | @one v t hf hl =>
    have ht : t.length ≠ 0 := fun e => hl (List.eq_nil_of_length_eq_zero e)
    obtain ⟨n, hn⟩ : ∃ m, (t ++ r).length + 1 = m + 1 + 1 := ⟨(t ++ r).length - 1, by simp; omega⟩
    obtain ⟨x1, e1, h1, hv1⟩ := readval_first hf hr.ends (.inl hl) (hv v (by simp)) h
    obtain ⟨x2, e2, h2⟩ := readval_end hr h1
    refine ⟨x2, ?_, h2⟩
    rw [hn, lineLoop, e1]
    show lineLoop (n + 1) x1 ([] ++ [val x1]) = _
    rw [lineLoop, e2, hv1]; rfl
  | @more v t vs u hf hrec =>
    have h' : Reads x (t ++ ([44] ++ u ++ r)) true := by simpa using h
    obtain ⟨x1, e1, h1, hv1⟩ := readval_first hf (by intro c hc; simp at hc; rw [← hc]; decide) (.inr rfl) (hv v (by simp)) h'
    have hu : u ≠ [] := by
      intro e
      cases hrec with
      | one _ hl => exact hl e
      | more => simp at e
    have hu' : u.length ≠ 0 := fun e => hu (List.eq_nil_of_length_eq_zero e)
    have hl := record_length hrec
    obtain ⟨x2, e2, h2⟩ := lineLoop_rest hrec hr (fun w hw => hv w (by simp [hw])) ((t ++ [44] ++ u ++ r).length) (by simp; omega) h1 [v]
    refine ⟨x2, ?_, h2⟩
    rw [lineLoop, e1]
    show lineLoop _ x1 ([] ++ [val x1]) = _
    rw [hv1]; exact e2

theorem endLoop_stop (n : Nat) {p : Tok.T} {r : Bytes} (h : At p r) (hr : ∀ c, r.head? = some c → c ≠ 10 ∧ c ≠ 13) (ok : Bool)
    (hn : 0 < n) : ∃ p', endLoop n p ok = (p', ok) ∧ At p' r := by
  obtain ⟨n, rfl⟩ : ∃ m, n = m + 1 := ⟨n - 1, by omega⟩
  obtain ⟨p1, e1, h1⟩ := peek_at h
  obtain ⟨p2, e2, h2⟩ := peek_at h1
  refine ⟨p2, ?_, h2⟩
  have hne : ∀ k : UInt8, k = 10 ∨ k = 13 → code r.head? ≠ k.toNat := by
    intro k hk
    cases r with
    | nil => exact eof_ne k
    | cons c r =>
      intro e
      have := (code_iff c k).mp e
      have hc := hr c rfl
      rcases hk with rfl | rfl
      · exact hc.1 this
      · exact hc.2 this
  simp only [endLoop, e1, e2]
  rw [if_neg (show ¬ code r.head? = 13 from hne 13 (.inr rfl)), if_neg (show ¬ code r.head? = 10 from hne 10 (.inl rfl))]

theorem endLoop_more (n : Nat) {p : Tok.T} {c : UInt8} {r : Bytes} (h : At p (c :: r)) (hc : c = 10 ∨ c = 13) (ok : Bool) :
    ∃ p', endLoop (n + 1) p ok = endLoop n p' true ∧ At p' r := by
  obtain ⟨p1, e1, h1⟩ := peek_at h
  obtain ⟨p2, e2, h2⟩ := peek_at h1
  simp only [List.head?_cons] at e1 e2
  rcases hc with rfl | rfl
  · obtain ⟨p3, e3, h3⟩ := get_at h2
    refine ⟨p3, ?_, h3⟩
    simp only [endLoop, e1, e2, e3]
    rw [if_neg (by decide), if_pos (by decide)]
  · obtain ⟨p3, e3, h3⟩ := get_at h1
    refine ⟨p3, ?_, h3⟩
    simp only [endLoop, e1, e3]
    rw [if_pos (by decide)]

/-- After a line, the line end is skipped. -/
theorem nextline_at {e u : Bytes} (he : e = [10] ∨ e = [13, 10]) (hu : ∀ c, u.head? = some c → c ≠ 10 ∧ c ≠ 13)
    {x : R} (h : Reads x (e ++ u) false) : ∃ x', nextline x = .ok (x', true) ∧ Reads x' u true := by
  have hl : LineEnd (e ++ u) := by
    intro c hc
    rcases he with rfl | rfl
    · simp at hc; exact .inl hc.symm
    · simp at hc; exact .inr hc.symm
  obtain ⟨x1, e1, h1⟩ := readval_end hl h
  have hrest : restLoop (Tok.rounds x.b) x = .ok x1 := by
    rw [at_rounds h.at_, restLoop, e1]; rfl
  have hr := at_rounds h1.at_
  have key : ∃ p', endLoop (Tok.rounds x1.b) x1.b false = (p', true) ∧ At p' u := by
    rcases he with rfl | rfl
    · obtain ⟨p1, k1, h2⟩ := endLoop_more ((u.length) + 1) h1.at_ (.inl rfl) false
      obtain ⟨p2, k2, h3⟩ := endLoop_stop (u.length + 1) h2 hu true (by omega)
      refine ⟨p2, ?_, h3⟩
      rw [hr]; simp only [List.singleton_append, List.length_cons]; rw [k1]; exact k2
    · obtain ⟨p1, k1, h2⟩ := endLoop_more ((u.length) + 2) h1.at_ (.inr rfl) false
      obtain ⟨p2, k2, h3⟩ := endLoop_more ((u.length) + 1) h2 (.inl rfl) true
      obtain ⟨p3, k3, h4⟩ := endLoop_stop (u.length + 1) h3 hu true (by omega)
      refine ⟨p3, ?_, h4⟩
      rw [hr]; simp only [List.cons_append, List.nil_append, List.length_cons]; rw [k1, k2]; exact k3
  obtain ⟨p', ke, kh⟩ := key
  refine ⟨{ x1 with b := p', firstval := true }, ?_, ⟨kh, rfl, h1.sound⟩⟩
  unfold nextline
  rw [hrest]
  simp only [ok_bind, ke]

theorem nextline_eof {first : Bool} {x : R} (h : Reads x [] first) : ∃ x', nextline x = .ok (x', false) ∧ Reads x' [] true := by
  have hl : LineEnd [] := by intro c hc; cases hc
  obtain ⟨x1, e1, h1⟩ := readval_end hl h
  have hrest : restLoop (Tok.rounds x.b) x = .ok x1 := by
    rw [at_rounds h.at_, restLoop, e1]; rfl
  obtain ⟨p', ke, kh⟩ := endLoop_stop (Tok.rounds x1.b) h1.at_ (by intro c hc; cases hc) false (by rw [at_rounds h1.at_]; omega)
  refine ⟨{ x1 with b := p', firstval := true }, ?_, ⟨kh, rfl, h1.sound⟩⟩
  unfold nextline
  rw [hrest]
  simp only [ok_bind, ke]

theorem record_head {vs : List Bytes} {t : Bytes} (h : CsvRecord (· ≠ []) vs t) (r : Bytes) :
    ∃ c, (t ++ r).head? = some c ∧ c ≠ 10 ∧ c ≠ 13 := by
  cases h with
  | one hf hl => exact field_not_end hf (.inl hl)
  | more hf _ =>
    simp only [List.append_assoc]
    exact field_not_end hf (.inr rfl)

theorem file_head {rs : List (List Bytes)} {t : Bytes} (h : CsvFile (· ≠ []) rs t) : ∀ c, t.head? = some c → c ≠ 10 ∧ c ≠ 13 := by
  intro c hc
  cases h with
  | nil => cases hc
  | one hr =>
    obtain ⟨d, hd, h1, h2⟩ := record_head hr []
    rw [List.append_nil, hc] at hd; injection hd with hd; rw [hd]; exact ⟨h1, h2⟩
  | more hr _ _ =>
    rw [List.append_assoc] at hc
    obtain ⟨d, hd, h1, h2⟩ := record_head hr _
    rw [hc] at hd; injection hd with hd; rw [hd]; exact ⟨h1, h2⟩

theorem record_ne {last : Bytes → Prop} {vs : List Bytes} {t : Bytes} (h : CsvRecord last vs t) : vs ≠ [] := by
  cases h <;> simp

theorem linesLoop_at {rs : List (List Bytes)} {t : Bytes} (hf : CsvFile (· ≠ []) rs t) (hv : ∀ r ∈ rs, ∀ v ∈ r, Fits v)
    (n : Nat) (hn : t.length < n) {x : R} (h : Reads x t true) (acc : List (List Bytes)) :
    ∃ x', linesLoop n x acc = .ok (x', acc ++ rs) ∧ Reads x' [] true := by
  induction hf generalizing n x acc with
  | nil =>
    obtain ⟨n, rfl⟩ : ∃ m, n = m + 1 := ⟨n - 1, by omega⟩
    obtain ⟨x1, e1, h1⟩ := readval_end (by intro c hc; cases hc) h
    obtain ⟨x2, e2, h2⟩ := nextline_eof h1
    refine ⟨x2, ?_, h2⟩
    have hl : lineLoop (Tok.rounds x.b) x [] = .ok (x1, []) := by rw [at_rounds h.at_, lineLoop, e1]; rfl
    rw [linesLoop, hl]
    show (nextline x1 >>= _) = _
    rw [e2]; simp; rfl
  | @one r t hr =>
    obtain ⟨n, rfl⟩ : ∃ m, n = m + 1 := ⟨n - 1, by omega⟩
    obtain ⟨x1, e1, h1⟩ := lineLoop_at hr (r := []) (by intro c hc; cases hc) (hv r (by simp)) (by simpa using h)
    obtain ⟨x2, e2, h2⟩ := nextline_eof h1
    refine ⟨x2, ?_, h2⟩
    rw [linesLoop, e1]
    show (nextline x1 >>= _) = _
    rw [e2, if_neg (record_ne hr)]; rfl
  | @more r t e rs u hr he hf ih =>
    obtain ⟨n, rfl⟩ : ∃ m, n = m + 1 := ⟨n - 1, by omega⟩
    have hle : LineEnd (e ++ u) := by
      intro c hc
      rcases he with rfl | rfl
      · simp at hc; exact .inl hc.symm
      · simp at hc; exact .inr hc.symm
    obtain ⟨x1, e1, h1⟩ := lineLoop_at hr (r := e ++ u) hle (hv r (by simp)) (by simpa using h)
    obtain ⟨x2, e2, h2⟩ := nextline_at he (file_head hf) h1
    have hel : 0 < e.length := by rcases he with rfl | rfl <;> simp
    obtain ⟨x3, e3, h3⟩ := ih (fun r' hr' => hv r' (by simp [hr'])) n (by simp only [List.length_append] at hn; omega) h2 (acc ++ [r])
    refine ⟨x3, ?_, h3⟩
    rw [linesLoop, e1]
    show (nextline x1 >>= _) = _
    rw [e2, if_neg (record_ne hr)]
    show linesLoop n x2 (acc ++ [r]) = _
    rw [e3]; simp

theorem newreader_reads (input : Bytes) : Reads (newreader input) input true :=
  ⟨⟨[], Tok.new_is (Reader.ofFile input) rfl⟩, rfl, rfl⟩

theorem readlines_file {rs : List (List Bytes)} {t : Bytes} (hf : CsvFile (· ≠ []) rs t) (hv : ∀ r ∈ rs, ∀ v ∈ r, Fits v) :
    ∃ x, readlines t = .ok (x, rs) ∧ x.sound = true := by
  obtain ⟨x, e, h⟩ := linesLoop_at hf hv (t.length + 1) (by omega) (newreader_reads t) []
  exact ⟨x, e, h.sound⟩

/-! ### Writing -/

/-- A value as it is written. -/
def valText (v : Bytes) : Bytes := [34] ++ v.flatMap (fun c => if c = 34 then [92, c] else [c]) ++ [34]

theorem writeval_fold (vs : List Bytes) (f : Bytes) (col : Nat) (hc : 0 < col) :
    (vs.foldl (fun w v => writeval w (some v)) { f := f, col := col }).f = f ++ vs.flatMap fun v => [44] ++ valText v := by
  induction vs generalizing f col with
  | nil => simp
  | cons v vs ih =>
    rw [List.foldl_cons]
    rw [show writeval { f := f, col := col } (some v) = { f := f ++ [44] ++ valText v, col := col + 1 } by simp [writeval, hc, valText]]
    rw [ih _ _ (by omega)]
    simp

theorem writeline_text (v : Bytes) (vs : List Bytes) : writeline (v :: vs) = valText v ++ (vs.flatMap fun v => [44] ++ valText v) ++ [10] := by
  unfold writeline
  rw [List.foldl_cons]
  rw [show writeval { f := [], col := 0 } (some v) = { f := valText v, col := 1 } by simp [writeval, valText]]
  rw [show ∀ w : W, (writeval w none).f = w.f ++ [10] from fun _ => rfl, writeval_fold vs _ _ (by omega)]

theorem noquote_text {v : Bytes} (h : 34 ∉ v) : v.flatMap (fun c => if c = 34 then [92, c] else [c]) = v ∧ QuotedText v v := by
  induction v with
  | nil => exact ⟨rfl, .nil⟩
  | cons c v ih =>
    simp only [List.mem_cons, not_or] at h
    obtain ⟨h1, h2⟩ := ih h.2
    refine ⟨?_, .plain (Ne.symm h.1) h2⟩
    rw [List.flatMap_cons, if_neg (Ne.symm h.1), h1]; rfl

theorem noquote_field {v : Bytes} (h : 34 ∉ v) : CsvField v (valText v) := by
  obtain ⟨h1, h2⟩ := noquote_text h
  unfold valText; rw [h1]; exact .quoted h2

theorem record_written (v : Bytes) (vs : List Bytes) (h : ∀ x ∈ v :: vs, 34 ∉ x) :
    CsvRecord (· ≠ []) (v :: vs) (valText v ++ vs.flatMap fun v => [44] ++ valText v) := by
  induction vs generalizing v with
  | nil => simpa using CsvRecord.one (last := (· ≠ [])) (noquote_field (h v (by simp))) (by simp [valText])
  | cons w vs ih =>
    have := CsvRecord.more (noquote_field (h v (by simp))) (ih w fun x hx => h x (by simp only [List.mem_cons] at hx ⊢; exact .inr hx))
    simpa using this

theorem file_written (rs : List (List Bytes)) (hne : ∀ r ∈ rs, r ≠ []) (h : ∀ r ∈ rs, ∀ x ∈ r, 34 ∉ x) :
    CsvFile (· ≠ []) rs (rs.flatMap writeline) := by
  induction rs with
  | nil => exact .nil
  | cons r rs ih =>
    have := ih (fun x hx => hne x (by simp [hx])) (fun x hx => h x (by simp [hx]))
    cases r with
    | nil => exact absurd rfl (hne [] (by simp))
    | cons v vs =>
      have := CsvFile.more (record_written v vs (h _ (by simp))) (.inl rfl) this
      rw [List.flatMap_cons, writeline_text]; exact this

/-! ### What is not read -/

/-- The loop over a quoted text that has no end. -/
theorem quotedLoop_eof {v t : Bytes} (hq : QuotedText v t) (n : Nat) {p : Tok.T} (h : At p t) (hn : t.length < n) (acc : Bytes) :
    quotedLoop n p acc = .panic "unterminated quoted value" := by
  induction hq generalizing n p acc with
  | nil =>
    obtain ⟨n, rfl⟩ : ∃ m, n = m + 1 := ⟨n - 1, by omega⟩
    obtain ⟨p1, e1, h1⟩ := get_at h
    simp only [List.head?_nil] at e1
    simp only [quotedLoop, e1]
    rfl
  | @plain c v t hc _ ih =>
    obtain ⟨n, rfl⟩ : ∃ m, n = m + 1 := ⟨n - 1, by omega⟩
    obtain ⟨p1, e1, h1⟩ := get_at h
    simp only [List.head?_cons] at e1
    simp only [quotedLoop, e1]
    rw [if_neg (by simp only [code]; omega), if_neg (fun e => hc ((code34 c).mp e))]
    exact ih n h1 (by simp at hn; omega) _
  | @quote v t _ ih =>
    obtain ⟨n, rfl⟩ : ∃ m, n = m + 1 := ⟨n - 1, by omega⟩
    obtain ⟨p1, e1, h1⟩ := get_at h
    obtain ⟨p2, e2, h2⟩ := peek_at h1
    obtain ⟨p3, e3, h3⟩ := get_at h2
    simp only [List.head?_cons, List.tail_cons] at e1 e2 e3
    simp only [quotedLoop, e1, e2, e3]
    rw [if_neg (by decide), if_pos (by decide), if_pos (by decide)]
    exact ih n h3 (by simp at hn; omega) _

theorem readval_unterminated {v t : Bytes} (hq : QuotedText v t) {x : R} (h : Reads x (34 :: t) true) :
    readval x = .panic "unterminated quoted value" := by
  obtain ⟨p1, e1, h1⟩ := peek_at h.at_
  obtain ⟨p2, e2, h2⟩ := more_at h1
  simp only [List.head?_cons] at e1
  have e2' : Tok.more p1 = (p2, true) := by rw [e2]; simp
  obtain ⟨seen, h2⟩ := h2
  obtain ⟨p3, e3, h3⟩ := Tok.buf_skip_is h2 34 (by decide)
  have hd : (⟨seen, 34 :: t⟩ : Cursor).rest.head? = some 34 := rfl
  rw [if_pos hd] at h3
  rw [decide_eq_true hd] at e3
  have h3' : At p3 t := by
    have := Json.at_of h3
    simpa [Cursor.skip] using this
  unfold readval
  rw [h.first]
  simp only [Bool.not_true, Bool.false_eq_true, if_false]
  unfold readfield
  simp only [e1, e2']
  rw [if_neg (by decide)]
  simp only [Bool.not_true, Bool.false_eq_true, if_false]
  rw [if_pos (by decide)]
  unfold read_quoted_value
  simp only [e3, Bool.not_true, Bool.false_eq_true, if_false]
  rw [quotedLoop_eof hq _ h3' (by rw [at_rounds h3']; omega)]
  rfl

/-- Nothing is read where neither a comma nor a line end stands. -/
theorem readval_stuck {c : UInt8} {r : Bytes} (hc : stop c = false) {x : R} (h : Reads x (c :: r) false) :
    ∃ x', readval x = .ok (x', false) ∧ Reads x' (c :: r) false := by
  obtain ⟨ha, hfi, hs⟩ := h
  obtain ⟨p1, e1, h1⟩ := peek_at ha
  simp only [List.head?_cons] at e1
  have hne : code (some c) ≠ 44 := fun e => by
    have := (code_iff c 44).mp e; subst this; exact absurd hc (by decide)
  unfold readval
  rw [hfi]
  simp only [e1, Bool.not_false, if_true]
  rw [if_pos hne]
  exact ⟨_, rfl, ⟨h1, rfl, hs⟩⟩

theorem readlines_stuck {v t : Bytes} (hq : QuotedText v t) (hv : Fits v) {c : UInt8} (hc : stop c = false) (h34 : c ≠ 34)
    (r : Bytes) : ∃ x, readlines ([34] ++ t ++ [34] ++ c :: r) = .ok (x, [[v]]) := by
  have h0 := newreader_reads ([34] ++ t ++ [34] ++ c :: r)
  generalize hx : newreader ([34] ++ t ++ [34] ++ c :: r) = x0 at h0
  obtain ⟨p1, e1, h1⟩ := peek_at h0.at_
  obtain ⟨p2, e2, h2⟩ := more_at h1
  have e1' : Tok.peek x0.b = (p1, code (some 34)) := e1
  have e2' : Tok.more p1 = (p2, true) := by rw [e2]; simp
  obtain ⟨p3, e3, h3⟩ := read_quoted_at hq h2 (by simpa using h34)
  obtain ⟨x1, ev, hr1, hv1⟩ : ∃ x1, readval x0 = .ok (x1, true) ∧ Reads x1 (c :: r) false ∧ val x1 = v := by
    unfold readval
    rw [h0.first]
    simp only [Bool.not_true, Bool.false_eq_true, if_false]
    unfold readfield
    simp only [e1', e2']
    rw [if_neg (by decide)]
    simp only [Bool.not_true, Bool.false_eq_true, if_false]
    rw [if_pos (by decide), e3]
    exact ⟨_, rfl, ⟨h3, rfl, by simp [R.put, h0.sound, hv.1]⟩, hv.val⟩
  obtain ⟨x2, ev2, hr2⟩ := readval_stuck hc hr1
  obtain ⟨x3, ev3, hr3⟩ := readval_stuck hc hr2
  have hl : lineLoop (Tok.rounds x0.b) x0 [] = .ok (x2, [v]) := by
    rw [at_rounds h0.at_]
    have : ([34] ++ t ++ [34] ++ c :: r).length + 1 = (t ++ [34] ++ r).length + 1 + 1 + 1 := by simp; omega
    rw [this, lineLoop, ev]
    show lineLoop _ x1 ([] ++ [val x1]) = _
    rw [lineLoop, ev2, hv1]; rfl
  have hrest : restLoop (Tok.rounds x2.b) x2 = .ok x3 := by
    rw [at_rounds hr2.at_, restLoop, ev3]; rfl
  obtain ⟨p', ke, kh⟩ := endLoop_stop (Tok.rounds x3.b) hr3.at_
    (by intro d hd; simp at hd; subst hd; constructor <;> (intro e; subst e; exact absurd hc (by decide))) false (by rw [at_rounds hr3.at_]; omega)
  have hn : nextline x2 = .ok ({ x3 with b := p', firstval := true }, false) := by
    unfold nextline
    rw [hrest]
    simp only [ok_bind, ke]
  refine ⟨{ x3 with b := p', firstval := true }, ?_⟩
  unfold readlines
  rw [hx, linesLoop, hl]
  show (nextline x2 >>= _) = _
  rw [hn]; rfl

/-- An unterminated quoted value stops the program. -/
theorem readlines_unterminated {v t : Bytes} (hq : QuotedText v t) : readlines (34 :: t) = .panic "unterminated quoted value" := by
  have h0 := newreader_reads (34 :: t)
  unfold readlines
  generalize newreader (34 :: t) = x0 at h0
  rw [linesLoop, at_rounds h0.at_, lineLoop, readval_unterminated hq h0]
  rfl

theorem record_mono {p q : Bytes → Prop} (hpq : ∀ t, p t → q t) {vs : List Bytes} {t : Bytes} (h : CsvRecord p vs t) : CsvRecord q vs t := by
  induction h with
  | one hf hl => exact .one hf (hpq _ hl)
  | more hf _ ih => exact .more hf ih

theorem file_mono {p q : Bytes → Prop} (hpq : ∀ t, p t → q t) {rs : List (List Bytes)} {t : Bytes} (h : CsvFile p rs t) : CsvFile q rs t := by
  induction h with
  | nil => exact .nil
  | one hr => exact .one (record_mono hpq hr)
  | more hr he _ ih => exact .more (record_mono hpq hr) he ih

/-- A long value. -/
theorem readval_long {v : Bytes} (hb : ∀ c ∈ v, c ≠ 34 ∧ c ≠ 44 ∧ c ≠ 10 ∧ c ≠ 13) (hl : 4096 ≤ v.length) :
    ∃ x, readval (newreader v) = .ok (x, true) ∧ x.sound = false := by
  have h0 := newreader_reads v
  generalize newreader v = x0 at h0
  obtain ⟨p1, e1, h1⟩ := peek_at h0.at_
  obtain ⟨p2, e2, h2⟩ := more_at h1
  obtain ⟨p3, e3, h3⟩ := bareLoop_at (Tok.rounds p2) h2 (by rw [at_rounds h2]; omega) []
  obtain ⟨k1, k2⟩ := takeWhile_all (q := fun c => !stop c) (v := v) (r := [])
    (fun c hc => by have := hb c hc; simp [stop, this]) (fun c hc => by cases hc)
  rw [List.append_nil] at k1
  rw [k1] at e3
  cases v with
  | nil => simp at hl
  | cons c v =>
    have hc := hb c (by simp)
    simp only [List.head?_cons] at e1
    have e2' : Tok.more p1 = (p2, true) := by rw [e2]; simp
    have hn10 : ¬ ((code (some c) = 10 || code (some c) = 13) = true) := by
      have i1 := code_iff c 10; have i2 := code_iff c 13
      simp only [Bool.or_eq_true, decide_eq_true_eq, not_or]
      exact ⟨fun e => hc.2.2.1 (i1.mp e), fun e => hc.2.2.2 (i2.mp e)⟩
    unfold readval
    rw [h0.first]
    simp only [Bool.not_true, Bool.false_eq_true, if_false]
    unfold readfield
    simp only [e1, e2']
    rw [if_neg hn10]
    simp only [Bool.not_true, Bool.false_eq_true, if_false]
    rw [if_neg (fun e => hc.1 ((code34 c).mp e))]
    simp only [e3]
    exact ⟨_, rfl, by simp only [R.put, List.nil_append, Bool.and_eq_false_iff, decide_eq_false_iff_not]; right; omega⟩

/-- A text between quotes has an end in one place only. -/
theorem quoted_end {v t w u r : Bytes} (h : QuotedText v t) (h' : QuotedText w u) (hr : r.head? ≠ some 34) : t ≠ u ++ 34 :: r := by
  induction h generalizing w u with
  | nil => simp
  | @plain c v t hc _ ih =>
    intro e
    cases h' with
    | nil => simp at e; exact hc e.1
    | plain _ h' => simp at e; exact ih h' e.2
    | quote _ => simp at e; exact hc e.1
  | @quote v t _ ih =>
    intro e
    cases h' with
    | nil => simp at e; rw [← e] at hr; simp at hr
    | plain hc _ => simp at e; exact hc e.1.symm
    | quote h' => simp at e; exact ih h' e

theorem unterminated_not_record {last : Bytes → Prop} {v t r : Bytes} (h : QuotedText v t) (hr : Ends r) {vs : List Bytes} {x : Bytes}
    (hx : CsvRecord last vs x) : 34 :: t ≠ x ++ r := by
  have field : ∀ {w y r : Bytes}, CsvField w y → Ends r → 34 :: t ≠ y ++ r := by
    intro w y r hf hr e
    cases hf with
    | bare hb =>
      cases w with
      | nil => rw [List.nil_append] at e; have := hr 34 (by rw [← e]; rfl); exact absurd this (by decide)
      | cons c w => simp only [List.cons_append, List.cons.injEq] at e; exact (hb c (by simp)).1 e.1.symm
    | quoted hq =>
      simp only [List.singleton_append, List.cons_append, List.append_assoc, List.cons.injEq, true_and] at e
      exact quoted_end h hq (fun h34 => absurd (hr 34 h34) (by decide)) e
  cases hx with
  | one hf _ => exact field hf hr
  | more hf _ =>
    rw [List.append_assoc, List.append_assoc]
    exact field hf (by intro c hc; simp at hc; rw [← hc]; decide)

theorem unterminated_not_file {last : Bytes → Prop} {v t : Bytes} (h : QuotedText v t) {rs : List (List Bytes)} : ¬ CsvFile last rs (34 :: t) := by
  intro hf
  generalize hx : 34 :: t = x at hf
  cases hf with
  | nil => cases hx
  | one hr => exact unterminated_not_record h (r := []) (by intro c hc; cases hc) hr (by simpa using hx)
  | @more r t' e rs u hr he _ =>
    refine unterminated_not_record h (r := e ++ u) ?_ hr (by simpa using hx)
    intro c hc
    rcases he with rfl | rfl <;> (simp at hc; rw [← hc]; decide)

end Che.Lib.Csv
