import Verif.Model.Lib.Conf
import Verif.Spec.Lib.Conf

namespace Che.Lib.Conf
open Che.Lib Che.Spec.Conf

theorem blank_space {c : UInt8} (h : Blank c) : Strings.isspace c = true := by
  rcases h with h | h | h | h | h <;> subst h <;> decide

theorem blank_255 {c : UInt8} (h : Blank c) : c ≠ 255 := by
  rcases h with h | h | h | h | h <;> subst h <;> decide

theorem space_cases {c : UInt8} (h : Strings.isspace c = true) : Blank c ∨ c = 10 := by
  have hv : ∀ k : UInt8, c.toNat = k.toNat → c = k := fun k => UInt8.toNat_inj.1
  simp only [Strings.isspace, Bool.or_eq_true, Bool.and_eq_true, decide_eq_true_eq, UInt8.le_iff_toNat_le] at h
  rcases h with h | ⟨h1, h2⟩
  · exact .inl (.inl h)
  · have h1 : 9 ≤ c.toNat := h1
    have h2 : c.toNat ≤ 13 := h2
    have : c.toNat = 9 ∨ c.toNat = 10 ∨ c.toNat = 11 ∨ c.toNat = 12 ∨ c.toNat = 13 := by omega
    rcases this with h | h | h | h | h
    · exact .inl (.inr (.inl (hv 9 h)))
    · exact .inr (hv 10 h)
    · exact .inl (.inr (.inr (.inl (hv 11 h))))
    · exact .inl (.inr (.inr (.inr (.inl (hv 12 h)))))
    · exact .inl (.inr (.inr (.inr (.inr (hv 13 h)))))

/-- Spaces are skipped. -/
theorem skipSpaces_append {b : Bytes} (hb : ∀ x ∈ b, Strings.isspace x = true) (s : Bytes) : skipSpaces (b ++ s) = skipSpaces s := by
  induction b with
  | nil => rfl
  | cons c b ih =>
    have h1 := hb c (by simp)
    have h2 : c ≠ 255 := by intro e; subst e; exact absurd h1 (by decide)
    rw [List.cons_append]
    simp only [skipSpaces, h2, if_false, h1, if_true]
    exact ih fun x hx => hb x (by simp [hx])

theorem skipSpaces_stop {c : UInt8} (h : Strings.isspace c = false) (h2 : c ≠ 255) (s : Bytes) : skipSpaces (c :: s) = (c :: s, false) := by
  simp [skipSpaces, h, h2]

theorem skipSpaces_len (s : Bytes) : (skipSpaces s).1.length ≤ s.length := by
  induction s with
  | nil => simp [skipSpaces]
  | cons c s ih =>
    simp only [skipSpaces]
    split
    · simp
    · split
      · simp; omega
      · simp

/-- The bytes of a comment are skipped. -/
theorem lineLoop_comment (n : Nat) {t : Bytes} (ht : ∀ c ∈ t, c ≠ 255 ∧ c ≠ 10) (s buf : Bytes) :
    lineLoop n (t ++ s) true buf = lineLoop n s true buf := by
  induction t with
  | nil => rfl
  | cons c t ih =>
    have h := ht c (by simp)
    rw [List.cons_append, lineLoop]
    simp only [h.1, h.2, if_false, if_true]
    split <;> exact ih fun x hx => ht x (by simp [hx])

/-- Other bytes are stored. -/
theorem lineLoop_text (n : Nat) {t : Bytes} (ht : ∀ c ∈ t, c ≠ 255 ∧ c ≠ 10 ∧ c ≠ 35) (s buf : Bytes) (hn : buf.length + t.length < n) :
    lineLoop n (t ++ s) false buf = lineLoop n s false (buf ++ t) := by
  induction t generalizing buf with
  | nil => simp
  | cons c t ih =>
    have h := ht c (by simp)
    simp only [List.length_cons] at hn
    rw [List.cons_append, lineLoop]
    simp only [h.1, h.2.1, h.2.2, if_false]
    rw [if_neg (by simp), if_neg (by omega), ih (fun x hx => ht x (by simp [hx])) _ (by simp; omega)]
    simp

/-- What a line and its end are. -/
inductive Ends : Bytes → Bytes → Bool → Prop where
  | eof : Ends [] [] true
  | newline (s : Bytes) : Ends (10 :: s) s false

theorem lineLoop_end (n : Nat) {e s : Bytes} {f : Bool} (he : Ends e s f) (comment : Bool) (buf : Bytes) :
    lineLoop n e comment buf = .ok ⟨s, f, !f, buf⟩ := by
  cases he with
  | eof => rfl
  | newline => simp [lineLoop]

theorem lineLoop_line {n : Nat} {t c e s : Bytes} {f : Bool} (ht : ∀ x ∈ t, x ≠ 255 ∧ x ≠ 10 ∧ x ≠ 35) (hc : Comment c) (h255 : (255 : UInt8) ∉ c)
    (he : Ends e s f) (hn : t.length < n) : lineLoop n (t ++ (c ++ e)) false [] = .ok ⟨s, f, !f, t⟩ := by
  rw [lineLoop_text n ht _ _ (by simpa using hn)]
  rcases hc with rfl | ⟨u, rfl, hu⟩
  · rw [List.nil_append, lineLoop_end n he]; simp
  · rw [List.cons_append, lineLoop, if_neg (by decide), if_pos rfl, lineLoop_comment n, lineLoop_end n he]
    · simp
    · intro x hx
      refine ⟨?_, ?_⟩
      · rintro rfl; exact h255 (by simp [hx])
      · rintro rfl; exact hu hx

theorem takeWhile_all {α} {q : α → Bool} {s : List α} (h : ∀ x ∈ s, q x = true) : s.takeWhile q = s := by
  induction s with
  | nil => rfl
  | cons c s ih => rw [List.takeWhile_cons, if_pos (h c (by simp)), ih fun x hx => h x (by simp [hx])]

theorem str_all {s : Bytes} (h : ∀ x ∈ s, x ≠ 0) : str s = s := takeWhile_all fun x hx => by simpa using h x hx

theorem dropWhile_stop {α} {q : α → Bool} {s t : List α} (h : ∀ x ∈ s, q x = true) (h2 : ∀ x, t.head? = some x → q x = false) : (s ++ t).dropWhile q = t := by
  induction s with
  | nil =>
    cases t with
    | nil => rfl
    | cons c t => rw [List.nil_append, List.dropWhile_cons, if_neg (by simp [h2 c rfl])]
  | cons c s ih => rw [List.cons_append, List.dropWhile_cons, if_pos (h c (by simp)), ih fun x hx => h x (by simp [hx])]

theorem takeWhile_stop {α} {q : α → Bool} {s t : List α} (h : ∀ x ∈ s, q x = true) (h2 : ∀ x, t.head? = some x → q x = false) : (s ++ t).takeWhile q = s := by
  induction s with
  | nil =>
    cases t with
    | nil => rfl
    | cons c t => rw [List.nil_append, List.takeWhile_cons, if_neg (by simp [h2 c rfl])]
  | cons c s ih => rw [List.cons_append, List.takeWhile_cons, if_pos (h c (by simp)), ih fun x hx => h x (by simp [hx])]

/-- The parts of a line. -/
theorem pair_eq {key sep val : Bytes} (hk : ∀ c ∈ key, notSep c = true) (hs : ∀ c ∈ sep, notSep c = false) (hs0 : sep ≠ [])
    (hv : ∀ c, val.head? = some c → notSep c = true) (hv0 : val ≠ []) : pair (key ++ (sep ++ val)) = some (key, val) := by
  cases sep with
  | nil => exact absurd rfl hs0
  | cons d sep =>
    have h0 : ∀ x, (d :: sep ++ val).head? = some x → notSep x = false := by
      intro x hx; simp at hx; subst hx; exact hs d (by simp)
    have h1 : (key ++ (d :: sep ++ val)).dropWhile notSep = d :: (sep ++ val) := dropWhile_stop hk h0
    have h2 : (sep ++ val).dropWhile (!notSep ·) = val := by
      refine dropWhile_stop (fun x hx => ?_) fun x hx => ?_
      · simp [hs x (by simp [hx])]
      · simp [hv x hx]
    have h3 : (key ++ (d :: sep ++ val)).takeWhile notSep = key := takeWhile_stop hk h0
    unfold pair
    rw [h1]
    simp only [h2, h3]

theorem nextLoop_eq (n : Nat) (p : P) : nextLoop (n + 1) p =
    if p.eof then .ok (p, false)
    else (next_line p 256).bind fun (p, line) =>
        if line = [] then nextLoop n p
        else
          match pair line with
          | none => .err ("config parse error at line " ++ toString p.line)
          | some (key, val) =>
            if key.length ≥ 100 ∨ val.length ≥ 200 then .panic "undefined: copy past the end of an array"
            else .ok ({ p with key := key, val := val }, true) := rfl

theorem next_line_eof {p : P} {n : Nat} (h : skipSpaces p.file = ([], true)) : next_line p n = .ok ({ p with file := [], eof := true }, []) := by
  simp [next_line, h]

theorem next_line_line {p : P} {n : Nat} {f : Bytes} {r : Read} (h : skipSpaces p.file = (f, false)) (hl : lineLoop n f false [] = .ok r) :
    next_line p n = .ok ({ p with file := r.file, eof := r.eof, line := if r.newline then p.line + 1 else p.line }, str r.buf) := by
  simp [next_line, h, hl, Res.bind]

/-- Rounds that are left do not matter. -/
theorem nextLoop_mono : ∀ (n m : Nat) (p : P), n ≤ m → nextLoop n p ≠ .diverge → nextLoop m p = nextLoop n p
  | 0, _, _, _, h => absurd rfl h
  | n + 1, 0, _, hm, _ => absurd hm (by omega)
  | n + 1, m + 1, p, hm, h => by
    rw [nextLoop_eq] at h ⊢
    rw [nextLoop_eq]
    split
    · rfl
    · rename_i he
      rw [if_neg he] at h
      cases e : next_line p 256 with
      | ok r =>
        rw [e] at h
        simp only [Res.bind] at h ⊢
        split
        · rename_i hl
          rw [if_pos hl] at h
          exact nextLoop_mono n m r.1 (by omega) h
        · rfl
      | err => rfl
      | panic => rfl
      | diverge => rfl
end Che.Lib.Conf

namespace Che.Lib.Conf
open Che.Lib Che.Spec.Conf

theorem lineLoop_cases (n : Nat) : ∀ (s : Bytes) (c : Bool) (buf : Bytes), lineLoop n s c buf ≠ .diverge ∧
    ∀ r, lineLoop n s c buf = .ok r → r.eof = true ∨ r.file.length < s.length
  | [], _, _ => by simp [lineLoop]
  | x :: s, c, buf => by
    rw [lineLoop]
    have key : ∀ c buf, lineLoop n s c buf ≠ .diverge ∧ ∀ r, lineLoop n s c buf = .ok r → r.eof = true ∨ r.file.length < (x :: s).length := by
      intro c buf
      refine ⟨(lineLoop_cases n s c buf).1, fun r h => ?_⟩
      rcases (lineLoop_cases n s c buf).2 r h with h | h
      · exact .inl h
      · exact .inr (by simp; omega)
    split
    · refine ⟨by simp, fun r h => ?_⟩
      cases h; exact .inr (by simp)
    split
    · exact key true buf
    split
    · refine ⟨by simp, fun r h => ?_⟩
      cases h; exact .inr (by simp)
    split
    · exact key c buf
    split
    · exact ⟨by simp, fun r h => by cases h⟩
    · exact key c (buf ++ [x])

theorem next_line_cases (p : P) (n : Nat) : next_line p n ≠ .diverge ∧
    ∀ q l, next_line p n = .ok (q, l) → q.eof = true ∨ q.file.length < p.file.length := by
  unfold next_line
  have hl := skipSpaces_len p.file
  generalize skipSpaces p.file = fe at hl
  obtain ⟨f, e⟩ := fe
  simp only
  split
  · refine ⟨by simp, fun q l h => ?_⟩
    cases h; exact .inl rfl
  · have h := lineLoop_cases n f false []
    generalize lineLoop n f false [] = r at h
    cases r with
    | ok r =>
      refine ⟨by simp [Res.bind], fun q l e => ?_⟩
      simp only [Res.bind] at e
      cases e
      rcases h.2 r rfl with h | h
      · exact .inl h
      · simp only at hl ⊢
        exact .inr (by omega)
    | err => exact ⟨by simp [Res.bind], fun q l e => by simp [Res.bind] at e⟩
    | panic => exact ⟨by simp [Res.bind], fun q l e => by simp [Res.bind] at e⟩
    | diverge => exact absurd rfl h.1

theorem nextLoop_ends : ∀ (n : Nat) (p : P), p.file.length + 2 ≤ n ∨ (p.eof = true ∧ 1 ≤ n) → nextLoop n p ≠ .diverge
  | 0, _, h => by omega
  | n + 1, p, h => by
    rw [nextLoop_eq]
    split
    · simp
    · rename_i he
      have hc := next_line_cases p 256
      cases e : next_line p 256 with
      | ok r =>
        obtain ⟨q, l⟩ := r
        simp only [Res.bind]
        split
        · refine nextLoop_ends n q ?_
          rcases hc.2 q l e with h1 | h1
          · exact .inr ⟨h1, by rcases h with h | h <;> simp_all <;> omega⟩
          · refine .inl ?_
            rcases h with h | h
            · omega
            · exact absurd h.1 he
        · split
          · simp
          · split <;> simp
      | err => simp [Res.bind]
      | panic => simp [Res.bind]
      | diverge => exact absurd e hc.1

/-- `next` is the loop with any number of rounds that is enough. -/
theorem next_eq {n : Nat} {p : P} (h : nextLoop n p ≠ .diverge) : next p = nextLoop n p := by
  unfold next
  have h2 := nextLoop_ends (p.file.length + 2) p (.inl (Nat.le_refl _))
  rcases Nat.le_total n (p.file.length + 2) with hn | hn
  · exact nextLoop_mono _ _ p hn h
  · exact (nextLoop_mono _ _ p hn h2).symm

theorem next_ne (p : P) : next p ≠ .diverge := nextLoop_ends _ p (.inl (Nat.le_refl _))

theorem next_end {p : P} (h : p.eof = true) : next p = .ok (p, false) := by
  rw [next_eq (n := 1)] <;> simp [nextLoop_eq, h]

/-- A line without a pair, and then what `next` does from the line after it. -/
theorem next_skip {p : P} {b c e s : Bytes} {f : Bool} (hb : ∀ x ∈ b, Blank x) (hc : Comment c) (h255 : (255 : UInt8) ∉ c)
    (he : Ends e s f) (hp : p.file = b ++ (c ++ e)) (h0 : p.eof = false) :
    ∃ q, q.file = s ∧ q.eof = f ∧ next p = next q := by
  rcases hc with rfl | ⟨t, rfl, ht⟩
  · cases he with
    | eof =>
      refine ⟨{ p with file := [], eof := true }, rfl, rfl, ?_⟩
      have hs : skipSpaces p.file = ([], true) := by
        rw [hp, skipSpaces_append fun x hx => blank_space (hb x hx)]; rfl
      have : nextLoop 2 p = .ok ({ p with file := [], eof := true }, false) := by
        rw [nextLoop_eq, if_neg (by simp [h0]), next_line_eof hs]
        simp [Res.bind, nextLoop_eq]
      rw [next_eq (n := 2) (by rw [this]; simp), this, next_end rfl]
    | newline =>
      refine ⟨{ p with file := s }, rfl, h0, ?_⟩
      have hs : skipSpaces p.file = skipSpaces s := by
        have e1 : b ++ ([] ++ 10 :: s) = (b ++ [10]) ++ s := by simp
        rw [hp, e1, skipSpaces_append]
        intro x hx
        rcases List.mem_append.1 hx with hx | hx
        · exact blank_space (hb x hx)
        · simp at hx; subst hx; decide
      have hl : next_line p 256 = next_line { p with file := s } 256 := by simp [next_line, hs]
      have : nextLoop (p.file.length + 2) p = nextLoop (p.file.length + 2) { p with file := s } := by
        rw [nextLoop_eq, nextLoop_eq, hl]; simp [h0]
      have h1 := next_ne p
      unfold next at h1
      rw [next_eq h1, this]
      exact (next_eq (by rw [← this]; exact h1)).symm
  · have hs : skipSpaces p.file = (35 :: (t ++ e), false) := by
      rw [hp, skipSpaces_append fun x hx => blank_space (hb x hx), List.cons_append, skipSpaces_stop (by decide) (by decide)]
    have hl : lineLoop 256 (35 :: (t ++ e)) false [] = .ok ⟨s, f, !f, []⟩ :=
      lineLoop_line (t := []) (c := 35 :: t) (by simp) (.inr ⟨t, rfl, ht⟩) h255 he (by simp)
    have h1 := next_line_line hs hl
    refine ⟨{ p with file := s, eof := f, line := if !f then p.line + 1 else p.line }, rfl, rfl, ?_⟩
    · have h2 := next_ne { p with file := s, eof := f, line := if !f then p.line + 1 else p.line }
      have : ∀ n, nextLoop (n + 1) p = nextLoop n { p with file := s, eof := f, line := if !f then p.line + 1 else p.line } := by
        intro n
        rw [nextLoop_eq, if_neg (by simp [h0]), h1]
        simp [Res.bind, str]
      unfold next at h2
      rw [next_eq (p := p) (by rw [this]; exact h2), this]
      rfl

/-- A line with text in it. -/
theorem next_text {p : P} {b t c e s : Bytes} {f : Bool} (hb : ∀ x ∈ b, Blank x) (ht : ∀ x ∈ t, x ≠ 255 ∧ x ≠ 10 ∧ x ≠ 35 ∧ x ≠ 0)
    (h1 : ∀ x, t.head? = some x → ¬ Blank x) (ht0 : t ≠ []) (hc : Comment c) (h255 : (255 : UInt8) ∉ c) (hn : t.length < 256)
    (he : Ends e s f) (hp : p.file = b ++ (t ++ (c ++ e))) (h0 : p.eof = false) :
    ∃ k, next p = match pair t with
      | none => .err ("config parse error at line " ++ toString k)
      | some (key, val) =>
        if key.length ≥ 100 ∨ val.length ≥ 200 then .panic "undefined: copy past the end of an array"
        else .ok ({ p with file := s, eof := f, line := k, key := key, val := val }, true) := by
  have hs : skipSpaces p.file = (t ++ (c ++ e), false) := by
    rw [hp, skipSpaces_append fun x hx => blank_space (hb x hx)]
    cases t with
    | nil => exact absurd rfl ht0
    | cons x t =>
      have h2 := ht x (by simp)
      rw [List.cons_append, skipSpaces_stop _ h2.1]
      cases h3 : Strings.isspace x with
      | false => rfl
      | true => rcases space_cases h3 with h | h
                · exact absurd h (h1 x rfl)
                · exact absurd h h2.2.1
  have hl := next_line_line hs (lineLoop_line (n := 256) (fun x hx => ⟨(ht x hx).1, (ht x hx).2.1, (ht x hx).2.2.1⟩) hc h255 he hn)
  rw [str_all fun x hx => (ht x hx).2.2.2] at hl
  refine ⟨if !f then p.line + 1 else p.line, ?_⟩
  have hnl : nextLoop 1 p = match pair t with
      | none => .err ("config parse error at line " ++ toString (if !f then p.line + 1 else p.line))
      | some (key, val) =>
        if key.length ≥ 100 ∨ val.length ≥ 200 then .panic "undefined: copy past the end of an array"
        else .ok ({ p with file := s, eof := f, line := (if !f then p.line + 1 else p.line), key := key, val := val }, true) := by
    rw [nextLoop_eq, if_neg (by simp [h0]), hl]
    simp only [Res.bind, if_neg ht0]
  rw [next_eq (n := 1), hnl]
  rw [hnl]
  cases pair t with
  | none => simp
  | some kv => simp only; split <;> simp

end Che.Lib.Conf
