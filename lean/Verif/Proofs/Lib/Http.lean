import Verif.Spec.Lib.Http
import Verif.Proofs.Lib.Tok

namespace Che.Lib.Http
open Che.Lib Che.Lib.Tok Che.Spec.Lib Che.Spec.Http

theorem ok_bind {ε α β : Type} (a : α) (f : α → Res ε β) : (Res.ok a).bind f = f a := rfl

/-- Reading up to a character that comes. -/
theorem until_ok {t : T} {seen : Bytes} (w rest : Bytes) (x : UInt8) (hx : x < 128) (hw : x ∉ w) (n : Nat) (hn : w.length < n)
    (h : Is t ⟨seen, w ++ x :: rest⟩) : ∃ t', read_until t x n = (t', true, w) ∧ Is t' ⟨seen ++ w, x :: rest⟩ := by
  obtain ⟨t', h1, h2⟩ := read_until_is h x hx n (by omega)
  have e : (w ++ x :: rest).takeWhile (· ≠ x) = w := by
    rw [List.takeWhile_append_of_pos (by intro y hy; simpa using fun e : y = x => hw (e ▸ hy)), List.takeWhile_cons]
    simp
  simp only [e] at h1 h2
  rw [List.take_of_length_le (by omega)] at h1 h2
  refine ⟨t', by rw [h1]; simp [hn], ?_⟩
  have : Cursor.past ⟨seen, w ++ x :: rest⟩ w = ⟨seen ++ w, x :: rest⟩ := by simp [Cursor.past, Cursor.skip]
  rw [this] at h2
  exact h2

/-- If something was read up to a character and the character follows, the text is as expected. -/
theorem until_inv {t : T} {seen s : Bytes} (x : UInt8) (hx : x < 128) (n : Nat) (hn : 0 < n) (h : Is t ⟨seen, s⟩) {t' : T} {w : Bytes}
    (he : read_until t x n = (t', true, w)) : ∃ rest, s = w ++ rest ∧ x ∉ w ∧ w.length < n ∧ Is t' ⟨seen ++ w, rest⟩ ∧ (rest = [] ∨ ∃ r, rest = x :: r) := by
  obtain ⟨t1, h1, h2⟩ := read_until_is h x hx n hn
  rw [h1] at he
  simp only [Prod.mk.injEq, decide_eq_true_eq] at he
  obtain ⟨rfl, hl, hw⟩ := he
  simp only at hl hw h2
  rw [List.take_of_length_le (by omega)] at hw h2
  rw [hw] at h2 hl
  refine ⟨s.dropWhile (· ≠ x), by rw [← hw]; exact (List.takeWhile_append_dropWhile).symm, ?_, hl, ?_, ?_⟩
  · intro hm
    rw [← hw] at hm
    have : ∀ (l : Bytes) y, y ∈ l.takeWhile (· ≠ x) → y ≠ x := by
      intro l
      induction l with
      | nil => intro y hy; cases hy
      | cons a l ih =>
        intro y hy
        rw [List.takeWhile_cons] at hy
        split at hy
        · rename_i ha
          rcases List.mem_cons.mp hy with rfl | hy
          · simpa using ha
          · exact ih y hy
        · cases hy
    exact this s x hm rfl
  · have e : Cursor.past ⟨seen, s⟩ w = ⟨seen ++ w, s.dropWhile (· ≠ x)⟩ := by
      have hs : s = w ++ s.dropWhile (· ≠ x) := by conv => lhs; rw [← List.takeWhile_append_dropWhile (p := (· ≠ x)) (l := s), hw]
      conv => lhs; rw [hs]
      simp [Cursor.past, Cursor.skip]
    rw [e] at h2
    exact h2
  · cases hd : s.dropWhile (· ≠ x) with
    | nil => exact .inl rfl
    | cons y r =>
      right
      have : ∀ (l : Bytes) y r, l.dropWhile (· ≠ x) = y :: r → y = x := by
        intro l
        induction l with
        | nil => intro y r h; simp at h
        | cons a l ih =>
          intro y r h
          rw [List.dropWhile_cons] at h
          split at h
          · exact ih y r h
          · rename_i ha
            simp only [List.cons.injEq] at h
            rw [← h.1]
            simpa using ha
      exact ⟨r, by rw [this s y r hd]⟩

theorem lit_ok {t : T} {seen : Bytes} (lit rest : Bytes) (hl : lit.length ≤ 100) (h0 : 0 ∉ lit) (h : Is t ⟨seen, lit ++ rest⟩) :
    ∃ t', skip_literal t lit = (t', true) ∧ Is t' ⟨seen ++ lit, rest⟩ := by
  obtain ⟨t', h1, h2⟩ := skip_literal_is h lit hl h0
  simp only [List.prefix_append, decide_true, if_true] at h1 h2
  have : Cursor.past ⟨seen, lit ++ rest⟩ lit = ⟨seen ++ lit, rest⟩ := by simp [Cursor.past, Cursor.skip]
  rw [this] at h2
  exact ⟨t', h1, h2⟩

theorem lit_no {t : T} {c : Cursor} (lit : Bytes) (hl : lit.length ≤ 100) (h0 : 0 ∉ lit) (h : Is t c) (hp : ¬ lit <+: c.rest) :
    ∃ t', skip_literal t lit = (t', false) ∧ Is t' c := by
  obtain ⟨t', h1, h2⟩ := skip_literal_is h lit hl h0
  simp only [hp, decide_false, if_false] at h1 h2
  exact ⟨t', h1, h2⟩

theorem lit_inv {t : T} {seen s : Bytes} (lit : Bytes) (hl : lit.length ≤ 100) (h0 : 0 ∉ lit) (h : Is t ⟨seen, s⟩) {t' : T} {b : Bool}
    (he : skip_literal t lit = (t', b)) : (b = true ∧ ∃ rest, s = lit ++ rest ∧ Is t' ⟨seen ++ lit, rest⟩) ∨
      (b = false ∧ ¬ lit <+: s ∧ Is t' ⟨seen, s⟩) := by
  by_cases hp : lit <+: s
  · obtain ⟨rest, rfl⟩ := hp
    obtain ⟨t1, h1, h2⟩ := lit_ok lit rest hl h0 h
    rw [h1] at he
    simp only [Prod.mk.injEq] at he
    obtain ⟨rfl, rfl⟩ := he
    exact .inl ⟨rfl, rest, rfl, h2⟩
  · obtain ⟨t1, h1, h2⟩ := lit_no lit hl h0 h hp
    rw [h1] at he
    simp only [Prod.mk.injEq] at he
    obtain ⟨rfl, rfl⟩ := he
    exact .inr ⟨rfl, hp, h2⟩

theorem skip_ok {t : T} {seen rest : Bytes} (x : UInt8) (hx : x < 128) (h : Is t ⟨seen, x :: rest⟩) :
    ∃ t', buf_skip t x = (t', true) ∧ Is t' ⟨seen ++ [x], rest⟩ := by
  obtain ⟨t', h1, h2⟩ := buf_skip_is h x hx
  simp only [List.head?_cons, decide_true, if_true] at h1 h2
  rw [skip_one] at h2
  exact ⟨t', h1, h2⟩

theorem skip_inv {t : T} {seen s : Bytes} (x : UInt8) (hx : x < 128) (h : Is t ⟨seen, s⟩) {t' : T}
    (he : buf_skip t x = (t', true)) : ∃ rest, s = x :: rest ∧ Is t' ⟨seen ++ [x], rest⟩ := by
  obtain ⟨t1, h1, h2⟩ := buf_skip_is h x hx
  rw [h1] at he
  simp only [Prod.mk.injEq, decide_eq_true_eq] at he
  obtain ⟨rfl, hh⟩ := he
  cases s with
  | nil => cases hh
  | cons y rest =>
    simp only [List.head?_cons, Option.some.injEq] at hh
    subst hh
    simp only [List.head?_cons, if_true] at h2
    rw [skip_one] at h2
    exact ⟨rest, rfl, h2⟩

/-! ## The first line -/

theorem first_ok {t : T} {seen : Bytes} (m u v rest : Bytes) (hm : 32 ∉ m ∧ m.length < 10) (hu : 32 ∉ u ∧ u.length < 1024) (hv : 13 ∉ v ∧ v.length < 10)
    (h : Is t ⟨seen, m ++ [32] ++ u ++ [32] ++ v ++ [13, 10] ++ rest⟩) :
    ∃ t', readFirst t = (t', some (m, u, v)) ∧ Is t' ⟨seen ++ (m ++ [32] ++ u ++ [32] ++ v ++ [13, 10]), rest⟩ := by
  have e : m ++ [32] ++ u ++ [32] ++ v ++ [13, 10] ++ rest = m ++ 32 :: (u ++ 32 :: (v ++ 13 :: 10 :: rest)) := by simp
  rw [e] at h
  obtain ⟨t1, a1, b1⟩ := until_ok m _ 32 (by decide) hm.1 10 hm.2 h
  obtain ⟨t2, a2, b2⟩ := skip_ok 32 (by decide) b1
  obtain ⟨t3, a3, b3⟩ := until_ok u _ 32 (by decide) hu.1 1024 hu.2 b2
  obtain ⟨t4, a4, b4⟩ := skip_ok 32 (by decide) b3
  obtain ⟨t5, a5, b5⟩ := until_ok v (10 :: rest) 13 (by decide) hv.1 10 hv.2 b4
  obtain ⟨t6, a6, b6⟩ := lit_ok [13, 10] rest (by decide) (by decide) b5
  refine ⟨t6, ?_, by simpa using b6⟩
  simp [readFirst, a1, a2, a3, a4, a5, a6]

theorem first_inv {t : T} {seen s : Bytes} (h : Is t ⟨seen, s⟩) {t' : T} {m u v : Bytes} (he : readFirst t = (t', some (m, u, v))) :
    ∃ rest, s = m ++ [32] ++ u ++ [32] ++ v ++ [13, 10] ++ rest ∧ (32 ∉ m ∧ m.length < 10) ∧ (32 ∉ u ∧ u.length < 1024) ∧ (13 ∉ v ∧ v.length < 10) ∧
      Is t' ⟨seen ++ (m ++ [32] ++ u ++ [32] ++ v ++ [13, 10]), rest⟩ := by
  unfold readFirst at he
  obtain ⟨t1, o1, w1, e1⟩ : ∃ a b c, read_until t 32 10 = (a, b, c) := ⟨_, _, _, rfl⟩
  simp only [e1] at he
  cases o1 with
  | false => simp at he
  | true =>
  simp only [Bool.not_true, Bool.false_eq_true, if_false] at he
  obtain ⟨r1, s1, n1, l1, i1, _⟩ := until_inv 32 (by decide) 10 (by omega) h e1
  obtain ⟨t2, o2, e2⟩ : ∃ a b, buf_skip t1 32 = (a, b) := ⟨_, _, rfl⟩
  simp only [e2] at he
  cases o2 with
  | false => simp at he
  | true =>
  simp only [Bool.not_true, Bool.false_eq_true, if_false] at he
  obtain ⟨r2, s2, i2⟩ := skip_inv 32 (by decide) i1 e2
  obtain ⟨t3, o3, w3, e3⟩ : ∃ a b c, read_until t2 32 1024 = (a, b, c) := ⟨_, _, _, rfl⟩
  simp only [e3] at he
  cases o3 with
  | false => simp at he
  | true =>
  simp only [Bool.not_true, Bool.false_eq_true, if_false] at he
  obtain ⟨r3, s3, n3, l3, i3, _⟩ := until_inv 32 (by decide) 1024 (by omega) i2 e3
  obtain ⟨t4, o4, e4⟩ : ∃ a b, buf_skip t3 32 = (a, b) := ⟨_, _, rfl⟩
  simp only [e4] at he
  cases o4 with
  | false => simp at he
  | true =>
  simp only [Bool.not_true, Bool.false_eq_true, if_false] at he
  obtain ⟨r4, s4, i4⟩ := skip_inv 32 (by decide) i3 e4
  obtain ⟨t5, o5, w5, e5⟩ : ∃ a b c, read_until t4 13 10 = (a, b, c) := ⟨_, _, _, rfl⟩
  simp only [e5] at he
  cases o5 with
  | false => simp at he
  | true =>
  simp only [Bool.not_true, Bool.false_eq_true, if_false] at he
  obtain ⟨r5, s5, n5, l5, i5, _⟩ := until_inv 13 (by decide) 10 (by omega) i4 e5
  obtain ⟨t6, o6, e6⟩ : ∃ a b, skip_literal t5 [13, 10] = (a, b) := ⟨_, _, rfl⟩
  simp only [e6] at he
  rcases lit_inv [13, 10] (by decide) (by decide) i5 e6 with ⟨rfl, r6, s6, i6⟩ | ⟨rfl, _, _⟩
  · simp only [Bool.not_true, Bool.false_eq_true, if_false, Prod.mk.injEq, Option.some.injEq] at he
    obtain ⟨rfl, rfl, rfl, rfl⟩ := he
    refine ⟨r6, ?_, ⟨n1, l1⟩, ⟨n3, l3⟩, ⟨n5, l5⟩, ?_⟩
    · rw [s1, s2, s3, s4, s5, s6]; simp
    · simpa using i6
  · simp at he

/-! ## Headers -/

theorem header_ok {t : T} {seen : Bytes} (n v rest : Bytes) (hn : 58 ∉ n ∧ n.length < 1024) (hv : 13 ∉ v ∧ v.length < 1024)
    (h : Is t ⟨seen, n ++ [58, 32] ++ v ++ [13, 10] ++ rest⟩) :
    ∃ t', readHeader t = (t', some (n, v)) ∧ Is t' ⟨seen ++ (n ++ [58, 32] ++ v ++ [13, 10]), rest⟩ := by
  have e : n ++ [58, 32] ++ v ++ [13, 10] ++ rest = n ++ 58 :: (32 :: (v ++ 13 :: 10 :: rest)) := by simp
  rw [e] at h
  obtain ⟨t1, a1, b1⟩ := until_ok n _ 58 (by decide) hn.1 1024 hn.2 h
  obtain ⟨t2, a2, b2⟩ := lit_ok [58, 32] _ (by decide) (by decide) b1
  obtain ⟨t3, a3, b3⟩ := until_ok v (10 :: rest) 13 (by decide) hv.1 1024 hv.2 b2
  obtain ⟨t4, a4, b4⟩ := lit_ok [13, 10] rest (by decide) (by decide) b3
  refine ⟨t4, ?_, by simpa using b4⟩
  simp [readHeader, a1, a2, a3, a4]

theorem header_inv {t : T} {seen s : Bytes} (h : Is t ⟨seen, s⟩) {t' : T} {n v : Bytes} (he : readHeader t = (t', some (n, v))) :
    ∃ rest, s = n ++ [58, 32] ++ v ++ [13, 10] ++ rest ∧ (58 ∉ n ∧ n.length < 1024) ∧ (13 ∉ v ∧ v.length < 1024) ∧
      Is t' ⟨seen ++ (n ++ [58, 32] ++ v ++ [13, 10]), rest⟩ := by
  unfold readHeader at he
  obtain ⟨t1, o1, w1, e1⟩ : ∃ a b c, read_until t 58 1024 = (a, b, c) := ⟨_, _, _, rfl⟩
  simp only [e1] at he
  cases o1 with
  | false => simp at he
  | true =>
  simp only [Bool.not_true, Bool.false_eq_true, if_false] at he
  obtain ⟨r1, s1, n1, l1, i1, _⟩ := until_inv 58 (by decide) 1024 (by omega) h e1
  obtain ⟨t2, o2, e2⟩ : ∃ a b, skip_literal t1 [58, 32] = (a, b) := ⟨_, _, rfl⟩
  simp only [e2] at he
  rcases lit_inv [58, 32] (by decide) (by decide) i1 e2 with ⟨rfl, r2, s2, i2⟩ | ⟨rfl, _, _⟩
  · simp only [Bool.not_true, Bool.false_eq_true, if_false] at he
    obtain ⟨t3, o3, w3, e3⟩ : ∃ a b c, read_until t2 13 1024 = (a, b, c) := ⟨_, _, _, rfl⟩
    simp only [e3] at he
    cases o3 with
    | false => simp at he
    | true =>
    simp only [Bool.not_true, Bool.false_eq_true, if_false] at he
    obtain ⟨r3, s3, n3, l3, i3, _⟩ := until_inv 13 (by decide) 1024 (by omega) i2 e3
    obtain ⟨t4, o4, e4⟩ : ∃ a b, skip_literal t3 [13, 10] = (a, b) := ⟨_, _, rfl⟩
    simp only [e4] at he
    rcases lit_inv [13, 10] (by decide) (by decide) i3 e4 with ⟨rfl, r4, s4, i4⟩ | ⟨rfl, _, _⟩
    · simp only [Bool.not_true, Bool.false_eq_true, if_false, Prod.mk.injEq, Option.some.injEq] at he
      obtain ⟨rfl, rfl, rfl⟩ := he
      refine ⟨r4, ?_, ⟨n1, l1⟩, ⟨n3, l3⟩, ?_⟩
      · rw [s1, s2, s3, s4]; simp
      · simpa using i4
    · simp at he
  · simp at he

theorem lines_cons (h : Bytes × Bytes) (hs : List (Bytes × Bytes)) : lines (h :: hs) = h.1 ++ [58, 32] ++ h.2 ++ [13, 10] ++ lines hs := by
  simp [lines]

/-- A header line does not look like an empty line. -/
theorem not_end {h : Bytes × Bytes} (hh : Header h) (rest : Bytes) : ¬ [13, 10] <+: h.1 ++ [58, 32] ++ h.2 ++ [13, 10] ++ rest := by
  obtain ⟨h1, h2, h3, h4, h5⟩ := hh
  intro hp
  apply h3
  have e : h.1 ++ [58, 32] ++ h.2 ++ [13, 10] ++ rest = (h.1 ++ [58]) ++ (32 :: (h.2 ++ [13, 10] ++ rest)) := by simp
  rw [e] at hp
  by_cases hl : 2 ≤ (h.1 ++ [58]).length
  · exact List.prefix_of_prefix_length_le hp (List.prefix_append _ _) hl
  · obtain ⟨n, v⟩ := h
    cases n with
    | nil => obtain ⟨t, ht⟩ := hp; simp at ht
    | cons c n => simp at hl

theorem headers_ok (hs : List (Bytes × Bytes)) : ∀ (k : Nat) (t : T) (seen rest : Bytes) (acc : List (Bytes × Bytes)),
    (∀ h ∈ hs, Header h) → hs.length < k → acc.length + hs.length ≤ 100 → Is t ⟨seen, lines hs ++ [13, 10] ++ rest⟩ →
    ∃ t', readHeaders k t acc = .ok (t', some (acc ++ hs)) ∧ Is t' ⟨seen ++ (lines hs ++ [13, 10]), rest⟩ := by
  induction hs with
  | nil =>
    intro k t seen rest acc _ hk _ h
    obtain ⟨k, rfl⟩ : ∃ j, k = j + 1 := ⟨k - 1, by simp at hk; omega⟩
    obtain ⟨t', h1, h2⟩ := lit_ok [13, 10] rest (by decide) (by decide) (by simpa [lines] using h)
    exact ⟨t', by simp [readHeaders, h1], by simpa [lines] using h2⟩
  | cons hd hs ih =>
    intro k t seen rest acc hh hk hl h
    obtain ⟨k, rfl⟩ : ∃ j, k = j + 1 := ⟨k - 1, by simp at hk; omega⟩
    simp only [List.length_cons] at hk hl
    have hhd := hh hd (by simp)
    have e : lines (hd :: hs) ++ [13, 10] ++ rest = hd.1 ++ [58, 32] ++ hd.2 ++ [13, 10] ++ (lines hs ++ [13, 10] ++ rest) := by rw [lines_cons]; simp
    rw [e] at h
    obtain ⟨t1, h1, h2⟩ := lit_no [13, 10] (by decide) (by decide) h (not_end hhd _)
    obtain ⟨t2, h3, h4⟩ := header_ok hd.1 hd.2 _ ⟨hhd.1, hhd.2.2.2.1⟩ ⟨hhd.2.1, hhd.2.2.2.2⟩ h2
    obtain ⟨t3, h5, h6⟩ := ih k t2 _ rest (acc ++ [hd]) (fun x hx => hh x (by simp [hx])) (by omega) (by simp; omega) h4
    refine ⟨t3, ?_, ?_⟩
    · simp only [readHeaders, h1, Bool.false_eq_true, if_false]
      rw [if_neg (by omega), h3]
      simp only
      rw [h5]
      simp
    · have : seen ++ (lines (hd :: hs) ++ [13, 10]) = seen ++ (hd.1 ++ [58, 32] ++ hd.2 ++ [13, 10]) ++ (lines hs ++ [13, 10]) := by rw [lines_cons]; simp
      rw [this]
      exact h6

/-- What `readHeaders` returns. -/
theorem headers_inv : ∀ (k : Nat) (t : T) (seen s : Bytes) (acc : List (Bytes × Bytes)) , acc.length ≤ 100 → Is t ⟨seen, s⟩ →
    (∃ t', readHeaders k t acc = .ok (t', none)) ∨
    (∃ t' hs rest, readHeaders k t acc = .ok (t', some (acc ++ hs)) ∧ s = lines hs ++ [13, 10] ++ rest ∧ (∀ h ∈ hs, Header h) ∧
      acc.length + hs.length ≤ 100 ∧ Is t' ⟨seen ++ (lines hs ++ [13, 10]), rest⟩) ∨
    (readHeaders k t acc = .panic "undefined: write outside of an array" ∧
      ∃ hs rest, s = lines hs ++ rest ∧ (∀ h ∈ hs, Header h) ∧ acc.length + hs.length = 100 ∧ ¬ [13, 10] <+: rest) := by
  intro k
  induction k with
  | zero => intro t seen s acc _ h; exact .inl ⟨t, rfl⟩
  | succ k ih =>
    intro t seen s acc ha h
    obtain ⟨t1, b, e1⟩ : ∃ a b, skip_literal t [13, 10] = (a, b) := ⟨_, _, rfl⟩
    rcases lit_inv [13, 10] (by decide) (by decide) h e1 with ⟨rfl, rest, rfl, i1⟩ | ⟨rfl, hp, i1⟩
    · right; left
      refine ⟨t1, [], rest, by simp [readHeaders, e1], by simp [lines], (by intro x hx; cases hx), by simpa using ha, by simpa [lines] using i1⟩
    · by_cases hl : acc.length ≥ 100
      · right; right
        refine ⟨by simp [readHeaders, e1, hl], [], s, by simp [lines], (by intro x hx; cases hx), by simp; omega, hp⟩
      · obtain ⟨t2, o, e2⟩ : ∃ a b, readHeader t1 = (a, b) := ⟨_, _, rfl⟩
        have step : readHeaders (k + 1) t acc = match (t2, o) with | (b, none) => .ok (b, none) | (b, some h) => readHeaders k b (acc ++ [h]) := by
          simp only [readHeaders, e1, Bool.false_eq_true, if_false]
          rw [if_neg hl, e2]
          cases o <;> rfl
        rw [step]
        cases o with
        | none => exact .inl ⟨t2, rfl⟩
        | some hd =>
          obtain ⟨n, v⟩ := hd
          obtain ⟨r, rfl, hn, hv, i2⟩ := header_inv i1 e2
          have hh : Header (n, v) := by
            refine ⟨hn.1, hv.1, ?_, hn.2, hv.2⟩
            intro hpre
            apply hp
            have e : n ++ [58, 32] ++ v ++ [13, 10] ++ r = (n ++ [58]) ++ (32 :: (v ++ [13, 10] ++ r)) := by simp
            rw [e]
            exact hpre.trans (List.prefix_append _ _)
          simp only
          rcases ih t2 _ r (acc ++ [(n, v)]) (by simp; omega) i2 with ⟨t', h1⟩ | ⟨t', hs, rest, h1, h2, h3, h4, h5⟩ | ⟨h1, hs, rest, h2, h3, h4, h5⟩
          · exact .inl ⟨t', h1⟩
          · right; left
            refine ⟨t', (n, v) :: hs, rest, by rw [h1]; simp, ?_, ?_, ?_, ?_⟩
            · rw [lines_cons, h2]; simp
            · intro x hx
              rcases List.mem_cons.mp hx with rfl | hx
              · exact hh
              · exact h3 x hx
            · simp only [List.length_append, List.length_cons, List.length_nil] at h4 ⊢; omega
            · have : seen ++ (lines ((n, v) :: hs) ++ [13, 10]) = seen ++ (n ++ [58, 32] ++ v ++ [13, 10]) ++ (lines hs ++ [13, 10]) := by rw [lines_cons]; simp
              rw [this]
              exact h5
          · right; right
            refine ⟨h1, (n, v) :: hs, rest, ?_, ?_, ?_, h5⟩
            · rw [lines_cons, h2]; simp
            · intro x hx
              rcases List.mem_cons.mp hx with rfl | hx
              · exact hh
              · exact h3 x hx
            · simp only [List.length_append, List.length_cons, List.length_nil] at h4 ⊢; omega

theorem lines_length (hs : List (Bytes × Bytes)) : hs.length ≤ (lines hs).length := by
  induction hs with
  | nil => simp
  | cons h hs ih => rw [lines_cons]; simp; omega

/-- Too many headers. -/
theorem headers_many (hs : List (Bytes × Bytes)) : ∀ (k : Nat) (t : T) (seen rest : Bytes) (acc : List (Bytes × Bytes)),
    (∀ h ∈ hs, Header h) → hs.length < k → acc.length + hs.length = 100 → Is t ⟨seen, lines hs ++ rest⟩ → ¬ [13, 10] <+: rest →
    readHeaders k t acc = .panic "undefined: write outside of an array" := by
  induction hs with
  | nil =>
    intro k t seen rest acc _ hk hl h hp
    obtain ⟨k, rfl⟩ : ∃ j, k = j + 1 := ⟨k - 1, by simp at hk; omega⟩
    obtain ⟨t1, h1, h2⟩ := lit_no [13, 10] (by decide) (by decide) h (by simpa [lines] using hp)
    simp only [readHeaders, h1, Bool.false_eq_true, if_false]
    rw [if_pos (by simp at hl; omega)]
  | cons hd hs ih =>
    intro k t seen rest acc hh hk hl h hp
    obtain ⟨k, rfl⟩ : ∃ j, k = j + 1 := ⟨k - 1, by simp at hk; omega⟩
    simp only [List.length_cons] at hk hl
    have hhd := hh hd (by simp)
    have e : lines (hd :: hs) ++ rest = hd.1 ++ [58, 32] ++ hd.2 ++ [13, 10] ++ (lines hs ++ rest) := by rw [lines_cons]; simp
    rw [e] at h
    obtain ⟨t1, h1, h2⟩ := lit_no [13, 10] (by decide) (by decide) h (not_end hhd _)
    obtain ⟨t2, h3, h4⟩ := header_ok hd.1 hd.2 _ ⟨hhd.1, hhd.2.2.2.1⟩ ⟨hhd.2.1, hhd.2.2.2.2⟩ h2
    have h5 := ih k t2 _ rest (acc ++ [hd]) (fun x hx => hh x (by simp [hx])) (by omega) (by simp; omega) h4 hp
    simp only [readHeaders, h1, Bool.false_eq_true, if_false]
    rw [if_neg (by omega), h3]
    exact h5

/-! ## Addresses -/

theorem afterSlash_spec (p : Bytes) : (47 ∉ p ∧ afterSlash p = none) ∨ ∃ d f, p = d ++ [47] ++ f ∧ 47 ∉ f ∧ afterSlash p = some f := by
  induction p with
  | nil => exact .inl ⟨by simp, rfl⟩
  | cons c p ih =>
    unfold afterSlash
    rcases ih with ⟨h1, h2⟩ | ⟨d, f, h1, h2, h3⟩
    · rw [h2]
      simp only
      by_cases hc : c = 47
      · right; exact ⟨[], p, by simp [hc], h1, by rw [if_pos hc]⟩
      · left; exact ⟨by simp [h1, Ne.symm hc], by rw [if_neg hc]⟩
    · rw [h3]
      right
      exact ⟨c :: d, f, by rw [h1]; simp, h2, rfl⟩

theorem query_spec (r : Request) (h0 : 0 ∉ r.uri) (hq : r.query = []) (hf : r.filename = []) :
    Address r.uri (parse_query r).path (parse_query r).query ∧ FileName (parse_query r).path (parse_query r).filename := by
  have e0 : r.uri.takeWhile (· ≠ 0) = r.uri := by
    have : ∀ l : Bytes, 0 ∉ l → l.takeWhile (· ≠ 0) = l := by
      intro l
      induction l with
      | nil => intro _; rfl
      | cons a l ih =>
        intro h
        rw [List.takeWhile_cons, if_pos (by simpa using fun e : a = 0 => h (by simp [e])), ih (fun e => h (by simp [e]))]
    exact this _ h0
  unfold parse_query
  simp only [e0]
  constructor
  · constructor
    · intro hm
      have : ∀ (l : Bytes) y, y ∈ l.takeWhile (· ≠ 63) → y ≠ 63 := by
        intro l
        induction l with
        | nil => intro y hy; cases hy
        | cons a l ih =>
          intro y hy
          rw [List.takeWhile_cons] at hy
          split at hy
          · rename_i ha
            rcases List.mem_cons.mp hy with rfl | hy
            · simpa using ha
            · exact ih y hy
          · cases hy
      exact this _ _ hm rfl
    · have hs := List.takeWhile_append_dropWhile (p := fun x : UInt8 => decide (x ≠ 63)) (l := r.uri)
      cases hd : r.uri.dropWhile (· ≠ 63) with
      | nil => rw [hd, List.append_nil] at hs; exact .inl ⟨hs.symm, hq⟩
      | cons y q =>
        right
        have hy : y = 63 := by
          have : ∀ (l : Bytes) y r, l.dropWhile (· ≠ 63) = y :: r → y = 63 := by
            intro l
            induction l with
            | nil => intro y r h; simp at h
            | cons a l ih =>
              intro y r h
              rw [List.dropWhile_cons] at h
              split at h
              · exact ih y r h
              · rename_i ha
                simp only [List.cons.injEq] at h
                rw [← h.1]
                simpa using ha
          exact this _ _ _ hd
        rw [hd, hy] at hs
        conv => lhs; rw [← hs]
        simp
  · rcases afterSlash_spec (r.uri.takeWhile (· ≠ 63)) with ⟨h1, h2⟩ | ⟨d, f, h1, h2, h3⟩
    · rw [h2]; exact .inl ⟨h1, hf⟩
    · rw [h3]; exact .inr ⟨d, h1, h2⟩

/-! ## Requests -/

theorem request_ok (s m u v : Bytes) (hs : List (Bytes × Bytes)) (rest : Bytes) (h : IsRequest s m u v hs rest) (hl : hs.length ≤ 100)
    (br : Reader) (hw : whole br.src) (hb : bytes br.src = s) :
    ∃ t, read_request br = .ok (t, some { parse_query { empty with method := m, uri := u, version := v } with headers := hs }) ∧
      ∃ seen, Is t ⟨seen, rest⟩ := by
  have h0 := new_is br hw
  have e : bytes br.src = m ++ [32] ++ u ++ [32] ++ v ++ [13, 10] ++ (lines hs ++ [13, 10] ++ rest) := by rw [hb, h.text]; simp
  rw [e] at h0
  obtain ⟨t1, h1, i1⟩ := first_ok m u v _ h.method h.uri h.version h0
  obtain ⟨t2, h2, i2⟩ := headers_ok hs (rounds t1) t1 _ rest [] h.headers (by
    rw [i1.rounds]; have := lines_length hs; simp; omega) (by simpa using hl) i1
  refine ⟨t2, ?_, _, i2⟩
  unfold read_request
  rw [h1]
  simp only
  rw [h2]
  rfl

theorem request_inv (br : Reader) (hw : whole br.src) :
    (∃ t, read_request br = .ok (t, none)) ∨
    (∃ t m u v hs rest, read_request br = .ok (t, some { parse_query { empty with method := m, uri := u, version := v } with headers := hs }) ∧
      IsRequest (bytes br.src) m u v hs rest ∧ hs.length ≤ 100) ∨
    (read_request br = .panic "undefined: write outside of an array" ∧
      ∃ m u v hs rest, bytes br.src = m ++ [32] ++ u ++ [32] ++ v ++ [13, 10] ++ lines hs ++ rest ∧ (∀ h ∈ hs, Header h) ∧ hs.length = 100 ∧
        ¬ [13, 10] <+: rest) := by
  have h0 := new_is br hw
  obtain ⟨t1, o, e1⟩ : ∃ a b, readFirst (Tok.new br) = (a, b) := ⟨_, _, rfl⟩
  unfold read_request
  rw [e1]
  cases o with
  | none => exact .inl ⟨t1, rfl⟩
  | some x =>
    obtain ⟨m, u, v⟩ := x
    obtain ⟨r, hr, hm, hu, hv, i1⟩ := first_inv h0 e1
    simp only
    rcases headers_inv (rounds t1) t1 _ r [] (by simp) i1 with ⟨t', h1⟩ | ⟨t', hs, rest, h1, h2, h3, h4, h5⟩ | ⟨h1, hs, rest, h2, h3, h4, h5⟩
    · left; exact ⟨t', by rw [h1]; rfl⟩
    · right; left
      refine ⟨t', m, u, v, hs, rest, by rw [h1]; rfl, ⟨?_, hm, hu, hv, h3⟩, by simpa using h4⟩
      rw [hr, h2]; simp
    · right; right
      refine ⟨by rw [h1]; rfl, m, u, v, hs, rest, ?_, h3, by simpa using h4, h5⟩
      rw [hr, h2]; simp
end Che.Lib.Http
