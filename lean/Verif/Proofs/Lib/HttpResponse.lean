import Verif.Model.Lib.HttpResponse
import Verif.Proofs.Lib.Http
import Verif.Proofs.Lib.Opt

namespace Che.Lib.Http
open Che.Lib Che.Lib.Tok Che.Spec.Lib Che.Spec.Http

theorem byte_code (x : UInt8) : toByte (x.toNat : Int) = x := by
  unfold toByte
  have := x.toNat_lt
  have e : ((x.toNat : Int) % 256).toNat = x.toNat := by omega
  rw [e]
  simp

theorem get_cons {t : T} {seen rest : Bytes} {x : UInt8} (h : Is t ⟨seen, x :: rest⟩) : ∃ t', get t = (t', (x.toNat : Int)) ∧ Is t' ⟨seen ++ [x], rest⟩ := by
  obtain ⟨t', h1, h2⟩ := get_is h
  rw [skip_one] at h2
  exact ⟨t', h1, h2⟩

theorem get_nil {t : T} {seen : Bytes} (h : Is t ⟨seen, []⟩) : ∃ t', get t = (t', -1) ∧ Is t' ⟨seen, []⟩ := by
  obtain ⟨t', h1, h2⟩ := get_is h
  rw [skip_nil] at h2
  exact ⟨t', h1, h2⟩

theorem getN_is (n : Nat) : ∀ (t : T) (seen rest buf : Bytes), Is t ⟨seen, rest⟩ →
    ∃ t', getN n t buf = (t', buf ++ rest.take n ++ List.replicate (n - rest.length) 255) ∧ Is t' ⟨seen ++ rest.take n, rest.drop n⟩ := by
  induction n with
  | zero => intro t seen rest buf h; exact ⟨t, by simp [getN], by simpa using h⟩
  | succ n ih =>
    intro t seen rest buf h
    cases rest with
    | nil =>
      obtain ⟨t1, h1, h2⟩ := get_nil h
      obtain ⟨t2, h3, h4⟩ := ih t1 seen [] (buf ++ [255]) h2
      refine ⟨t2, ?_, by simpa using h4⟩
      simp only [getN, h1]
      rw [show toByte (-1) = 255 by decide, h3]
      simp [List.replicate_succ]
    | cons x rest =>
      obtain ⟨t1, h1, h2⟩ := get_cons h
      obtain ⟨t2, h3, h4⟩ := ih t1 (seen ++ [x]) rest (buf ++ [x]) h2
      refine ⟨t2, ?_, by simpa using h4⟩
      simp only [getN, h1, byte_code]
      rw [h3]
      simp

theorem takeUntil_is (x : UInt8) (n : Nat) : ∀ (t : T) (seen rest buf : Bytes), rest.length < n → Is t ⟨seen, rest⟩ →
    ∃ t', takeUntil x n t buf = (t', buf ++ rest.takeWhile (· ≠ x)) ∧ Is t' ⟨seen ++ rest.takeWhile (· ≠ x), rest.dropWhile (· ≠ x)⟩ := by
  induction n with
  | zero => intro t seen rest buf hl; omega
  | succ n ih =>
    intro t seen rest buf hl h
    obtain ⟨t1, h1, i1⟩ := more_is h
    cases rest with
    | nil => exact ⟨t1, by simp [takeUntil, h1], by simpa using i1⟩
    | cons y rest =>
      obtain ⟨t2, h2, i2⟩ := peek_is i1
      simp only [ne_eq, reduceCtorEq, not_false_eq_true, decide_true, List.head?_cons, code] at h1 h2
      by_cases hy : y = x
      · subst hy
        refine ⟨t2, ?_, ?_⟩
        · simp [takeUntil, h1, h2]
        · simpa using i2
      · obtain ⟨t3, h3, i3⟩ := get_cons i2
        obtain ⟨t4, h4, i4⟩ := ih t3 _ rest (buf ++ [y]) (by simpa using hl) i3
        have hn : ¬ ((y.toNat : Int) = (x.toNat : Int)) := by
          intro e
          apply hy
          apply UInt8.toNat_inj.mp
          omega
        refine ⟨t4, ?_, ?_⟩
        · simp only [takeUntil, h1, h2, h3, byte_code]
          rw [if_neg (by simp), if_neg hn, h4]
          rw [List.takeWhile_cons, if_pos (by simpa using hy)]
          simp
        · rw [List.takeWhile_cons, if_pos (by simpa using hy), List.dropWhile_cons, if_pos (by simpa using hy)]
          simpa using i4

/-! ## The status line -/

theorem asChar_byte (x : UInt8) : (Strings.num_from_ascii (asChar x.toNat) = if 48 ≤ x.toNat ∧ x.toNat ≤ 57 then ((x.toNat - 48 : Nat) : Int) else -1) := by
  have := x.toNat_lt
  unfold asChar Strings.num_from_ascii
  split <;> split <;> split <;> omega

/-- Three digits. -/
theorem status_ok (t : T) (seen rest : Bytes) (a b c : UInt8) (ha : 48 ≤ a.toNat ∧ a.toNat ≤ 57) (hb : 48 ≤ b.toNat ∧ b.toNat ≤ 57) (hc : 48 ≤ c.toNat ∧ c.toNat ≤ 57)
    (h : Is t ⟨seen, a :: b :: c :: rest⟩) :
    ∃ t', getStatus 3 t 0 = (t', some ((100 * (a.toNat - 48) + 10 * (b.toNat - 48) + (c.toNat - 48) : Nat) : Int)) ∧ Is t' ⟨seen ++ [a, b, c], rest⟩ := by
  obtain ⟨t1, h1, i1⟩ := get_cons h
  obtain ⟨t2, h2, i2⟩ := get_cons i1
  obtain ⟨t3, h3, i3⟩ := get_cons i2
  refine ⟨t3, ?_, by simpa using i3⟩
  simp only [getStatus, h1, h2, h3, asChar_byte, if_pos ha, if_pos hb, if_pos hc]
  rw [if_neg (by omega), if_neg (by omega), if_neg (by omega)]
  congr 2
  omega

theorem digit_inv (k : Nat) (t : T) (seen s : Bytes) (h : Is t ⟨seen, s⟩) (acc : Int) {t' : T} {r : Int} (he : getStatus (k + 1) t acc = (t', some r)) :
    ∃ a rest t1, s = a :: rest ∧ (48 ≤ a.toNat ∧ a.toNat ≤ 57) ∧ Is t1 ⟨seen ++ [a], rest⟩ ∧ getStatus k t1 (acc * 10 + ((a.toNat - 48 : Nat) : Int)) = (t', some r) := by
  unfold getStatus at he
  cases s with
  | nil =>
    obtain ⟨t1, h1, _⟩ := get_nil h
    simp only [h1] at he
    rw [if_pos (by decide)] at he
    simp at he
  | cons a rest =>
    obtain ⟨t1, h1, i1⟩ := get_cons h
    simp only [h1, asChar_byte] at he
    by_cases ha : 48 ≤ a.toNat ∧ a.toNat ≤ 57
    · rw [if_pos ha, if_neg (by omega)] at he
      exact ⟨a, rest, t1, rfl, ha, i1, he⟩
    · rw [if_neg ha, if_pos (by omega)] at he
      simp at he

theorem status_inv (t : T) (seen s : Bytes) (h : Is t ⟨seen, s⟩) {t' : T} {r : Int} (he : getStatus 3 t 0 = (t', some r)) :
    ∃ a b c rest, s = a :: b :: c :: rest ∧ (48 ≤ a.toNat ∧ a.toNat ≤ 57) ∧ (48 ≤ b.toNat ∧ b.toNat ≤ 57) ∧ (48 ≤ c.toNat ∧ c.toNat ≤ 57) ∧
      r = ((100 * (a.toNat - 48) + 10 * (b.toNat - 48) + (c.toNat - 48) : Nat) : Int) ∧ Is t' ⟨seen ++ [a, b, c], rest⟩ := by
  obtain ⟨a, s1, t1, rfl, ha, i1, e1⟩ := digit_inv 2 t seen s h 0 he
  obtain ⟨b, s2, t2, rfl, hb, i2, e2⟩ := digit_inv 1 t1 _ s1 i1 _ e1
  obtain ⟨c, s3, t3, rfl, hc, i3, e3⟩ := digit_inv 0 t2 _ s2 i2 _ e2
  simp only [getStatus, Prod.mk.injEq, Option.some.injEq] at e3
  obtain ⟨rfl, rfl⟩ := e3
  exact ⟨a, b, c, s3, rfl, ha, hb, hc, by omega, by simpa using i3⟩

theorem space_inv {t : T} {seen s : Bytes} (h : Is t ⟨seen, s⟩) {t' : T} (he : get t = (t', 32)) : ∃ rest, s = 32 :: rest ∧ Is t' ⟨seen ++ [32], rest⟩ := by
  cases s with
  | nil =>
    obtain ⟨t1, h1, _⟩ := get_nil h
    rw [h1] at he
    simp at he
  | cons a rest =>
    obtain ⟨t1, h1, i1⟩ := get_cons h
    rw [h1] at he
    simp only [Prod.mk.injEq] at he
    obtain ⟨rfl, e⟩ := he
    have : a = 32 := by
      apply UInt8.toNat_inj.mp
      have : (32 : UInt8).toNat = 32 := rfl
      omega
    subst this
    exact ⟨rest, rfl, i1⟩

theorem noZero (v : Bytes) (hv : v = cstr "HTTP/1.0" ∨ v = cstr "HTTP/1.1") : v.takeWhile (· ≠ 0) = v ∧ v.length = 8 := by
  rcases hv with rfl | rfl <;> decide

theorem drop_stop (x : UInt8) (w rest : Bytes) (hw : x ∉ w) : (w ++ x :: rest).takeWhile (· ≠ x) = w ∧ (w ++ x :: rest).dropWhile (· ≠ x) = x :: rest := by
  induction w with
  | nil => simp
  | cons y w ih =>
    simp only [List.mem_cons, not_or] at hw
    have := ih hw.2
    rw [List.cons_append, List.takeWhile_cons, List.dropWhile_cons, if_pos (by simpa using Ne.symm hw.1), if_pos (by simpa using Ne.symm hw.1), this.1, this.2]
    exact ⟨rfl, rfl⟩

theorem tw_mem (x : UInt8) (s : Bytes) : x ∉ s.takeWhile (· ≠ x) := by
  induction s with
  | nil => simp
  | cons a l ih =>
    rw [List.takeWhile_cons]
    split
    · rename_i ha
      intro hy
      rcases List.mem_cons.mp hy with rfl | hy
      · simp at ha
      · exact ih hy
    · simp

theorem line_ok {t : T} {seen : Bytes} (v txt rest : Bytes) (a b c : UInt8) (hv : v = cstr "HTTP/1.0" ∨ v = cstr "HTTP/1.1")
    (ha : 48 ≤ a.toNat ∧ a.toNat ≤ 57) (hb : 48 ≤ b.toNat ∧ b.toNat ≤ 57) (hc : 48 ≤ c.toNat ∧ c.toNat ≤ 57) (ht : 13 ∉ txt)
    (h : Is t ⟨seen, v ++ [32, a, b, c, 32] ++ txt ++ [13, 10] ++ rest⟩) :
    ∃ t', read_status_line t = (t', some (v, ((100 * (a.toNat - 48) + 10 * (b.toNat - 48) + (c.toNat - 48) : Nat) : Int))) ∧
      Is t' ⟨seen ++ (v ++ [32, a, b, c, 32] ++ txt ++ [13, 10]), rest⟩ := by
  obtain ⟨hz, hl⟩ := noZero v hv
  have e : v ++ [32, a, b, c, 32] ++ txt ++ [13, 10] ++ rest = v ++ (32 :: a :: b :: c :: 32 :: (txt ++ 13 :: 10 :: rest)) := by simp
  rw [e] at h
  obtain ⟨t1, h1, i1⟩ := getN_is 8 t _ _ [] h
  rw [← hl, List.take_left, List.drop_left] at i1
  rw [show (v ++ 32 :: a :: b :: c :: 32 :: (txt ++ 13 :: 10 :: rest)).take 8 = v by rw [← hl, List.take_left],
    show 8 - (v ++ 32 :: a :: b :: c :: 32 :: (txt ++ 13 :: 10 :: rest)).length = 0 by simp; omega] at h1
  simp only [List.nil_append, List.replicate_zero, List.append_nil] at h1
  obtain ⟨t2, h2, i2⟩ := get_cons i1
  obtain ⟨t3, h3, i3⟩ := status_ok t2 _ _ a b c ha hb hc i2
  obtain ⟨t4, h4, i4⟩ := get_cons i3
  obtain ⟨t5, h5, i5⟩ := takeUntil_is 13 (rounds t4) t4 _ _ [] (by rw [i4.rounds]; exact Nat.lt_succ_self _) i4
  obtain ⟨d1, d2⟩ := drop_stop 13 txt (10 :: rest) ht
  rw [d1, d2] at i5
  obtain ⟨t6, h6, i6⟩ := lit_ok [13, 10] rest (by decide) (by decide) i5
  refine ⟨t6, ?_, by simpa using i6⟩
  unfold read_status_line
  simp only [h1, hz]
  rw [if_neg (by intro ⟨n1, n2⟩; rcases hv with hv | hv; exact n1 hv; exact n2 hv)]
  simp only [h2]
  rw [if_neg (by decide), h3]
  simp only [h4]
  rw [if_neg (by decide)]
  simp only [h5, h6]
  rfl

theorem line_inv {t : T} {seen s : Bytes} (h : Is t ⟨seen, s⟩) {t' : T} {v : Bytes} {n : Int} (he : read_status_line t = (t', some (v, n))) :
    ∃ a b c txt rest, s = v ++ [32, a, b, c, 32] ++ txt ++ [13, 10] ++ rest ∧ (v = cstr "HTTP/1.0" ∨ v = cstr "HTTP/1.1") ∧
      (48 ≤ a.toNat ∧ a.toNat ≤ 57) ∧ (48 ≤ b.toNat ∧ b.toNat ≤ 57) ∧ (48 ≤ c.toNat ∧ c.toNat ≤ 57) ∧ 13 ∉ txt ∧
      n = ((100 * (a.toNat - 48) + 10 * (b.toNat - 48) + (c.toNat - 48) : Nat) : Int) ∧
      Is t' ⟨seen ++ (v ++ [32, a, b, c, 32] ++ txt ++ [13, 10]), rest⟩ := by
  unfold read_status_line at he
  obtain ⟨t1, h1, i1⟩ := getN_is 8 t _ _ [] h
  simp only [h1] at he
  generalize hw : ([] ++ s.take 8 ++ List.replicate (8 - s.length) 255).takeWhile (· ≠ (0 : UInt8)) = w at he
  by_cases hv : w ≠ cstr "HTTP/1.0" ∧ w ≠ cstr "HTTP/1.1"
  · rw [if_pos hv] at he; simp at he
  · rw [if_neg hv] at he
    have hv' : w = cstr "HTTP/1.0" ∨ w = cstr "HTTP/1.1" := by
      by_cases hq : w = cstr "HTTP/1.0"
      · exact .inl hq
      · right
        by_cases hq2 : w = cstr "HTTP/1.1"
        · exact hq2
        · exact absurd ⟨hq, hq2⟩ hv
    obtain ⟨hz, hl⟩ := noZero w hv'
    have hs : s.take 8 = w ∧ s = w ++ s.drop 8 := by
      have hlen : ([] ++ s.take 8 ++ List.replicate (8 - s.length) (255 : UInt8)).length = 8 := by simp; omega
      have hpre : w <+: [] ++ s.take 8 ++ List.replicate (8 - s.length) 255 := by rw [← hw]; exact List.takeWhile_prefix _
      have heq : w = [] ++ s.take 8 ++ List.replicate (8 - s.length) 255 := hpre.eq_of_length (by rw [hl, hlen])
      have h8 : 8 ≤ s.length := by
        by_cases h8 : 8 ≤ s.length
        · exact h8
        · exfalso
          have : (255 : UInt8) ∈ w := by rw [heq]; simp; omega
          rcases hv' with h | h <;> rw [h] at this <;> revert this <;> decide
      rw [show 8 - s.length = 0 by omega] at heq
      simp only [List.nil_append, List.replicate_zero, List.append_nil] at heq
      exact ⟨heq.symm, by rw [heq, List.take_append_drop]⟩
    rw [hs.1] at i1
    generalize hr : s.drop 8 = r at i1 hs
    obtain ⟨t2, c2, h2⟩ : ∃ a b, get t1 = (a, b) := ⟨_, _, rfl⟩
    simp only [h2] at he
    by_cases hc2 : c2 ≠ 32
    · rw [if_pos hc2] at he; simp at he
    · rw [if_neg hc2] at he
      have hc2' : c2 = 32 := Decidable.of_not_not hc2
      subst hc2'
      obtain ⟨r2, rfl, i2⟩ := space_inv i1 h2
      obtain ⟨t3, o3, h3⟩ : ∃ a b, getStatus 3 t2 0 = (a, b) := ⟨_, _, rfl⟩
      rw [h3] at he
      cases o3 with
      | none => simp at he
      | some st =>
        obtain ⟨a, b, c, r3, rfl, ha, hb, hc, rfl, i3⟩ := status_inv t2 _ r2 i2 h3
        simp only at he
        obtain ⟨t4, c4, h4⟩ : ∃ a b, get t3 = (a, b) := ⟨_, _, rfl⟩
        simp only [h4] at he
        by_cases hc4 : c4 ≠ 32
        · rw [if_pos hc4] at he; simp at he
        · rw [if_neg hc4] at he
          have hc4' : c4 = 32 := Decidable.of_not_not hc4
          subst hc4'
          obtain ⟨r4, rfl, i4⟩ := space_inv i3 h4
          obtain ⟨t5, h5, i5⟩ := takeUntil_is 13 (rounds t4) t4 _ _ [] (by rw [i4.rounds]; exact Nat.lt_succ_self _) i4
          simp only [h5] at he
          obtain ⟨t6, o6, h6⟩ : ∃ a b, skip_literal t5 [13, 10] = (a, b) := ⟨_, _, rfl⟩
          simp only [h6] at he
          rcases lit_inv [13, 10] (by decide) (by decide) i5 h6 with ⟨rfl, r6, s6, i6⟩ | ⟨rfl, _, _⟩
          · simp only [Bool.not_true, Bool.false_eq_true, if_false, Prod.mk.injEq, Option.some.injEq] at he
            obtain ⟨rfl, rfl, rfl⟩ := he
            refine ⟨a, b, c, r4.takeWhile (· ≠ 13), r6, ?_, hv', ha, hb, hc, tw_mem 13 r4, rfl, by simpa using i6⟩
            rw [hs.2]
            have : r4 = r4.takeWhile (· ≠ 13) ++ ([13, 10] ++ r6) := by rw [← s6, List.takeWhile_append_dropWhile]
            conv => lhs; rw [this]
            simp
          · simp at he

/-! ## Headers -/

theorem rheader_ok {t : T} {seen : Bytes} (n v rest : Bytes) (hn : 58 ∉ n ∧ n.length < 1024) (hv : 13 ∉ v ∧ v.length < 1024) (h0 : 0 ∉ n ∧ 0 ∉ v)
    (h : Is t ⟨seen, n ++ [58, 32] ++ v ++ [13, 10] ++ rest⟩) :
    ∃ t', read_header t = .ok (t', some (n, v)) ∧ Is t' ⟨seen ++ (n ++ [58, 32] ++ v ++ [13, 10]), rest⟩ := by
  have e : n ++ [58, 32] ++ v ++ [13, 10] ++ rest = n ++ 58 :: (32 :: (v ++ 13 :: 10 :: rest)) := by simp
  rw [e] at h
  obtain ⟨t1, h1, i1⟩ := takeUntil_is 58 (rounds t) t _ _ [] (by rw [h.rounds]; exact Nat.lt_succ_self _) h
  obtain ⟨d1, d2⟩ := drop_stop 58 n (32 :: (v ++ 13 :: 10 :: rest)) hn.1
  rw [d1, d2] at i1
  rw [d1] at h1
  obtain ⟨t2, h2, i2⟩ := lit_ok [58, 32] (v ++ 13 :: 10 :: rest) (by decide) (by decide) i1
  obtain ⟨t3, h3, i3⟩ := takeUntil_is 13 (rounds t2) t2 _ _ [] (by rw [i2.rounds]; exact Nat.lt_succ_self _) i2
  obtain ⟨d3, d4⟩ := drop_stop 13 v (10 :: rest) hv.1
  rw [d3, d4] at i3
  rw [d3] at h3
  obtain ⟨t4, h4, i4⟩ := lit_ok [13, 10] rest (by decide) (by decide) i3
  have z : ∀ x : Bytes, 0 ∉ x → x.takeWhile (· ≠ 0) = x := by
    intro x hx
    have := (drop_stop 0 x [] hx).1
    rw [List.takeWhile_append_of_pos (by intro y hy; simpa using fun e : y = 0 => hx (e ▸ hy))] at this
    have q : ∀ l : Bytes, 0 ∉ l → l.takeWhile (· ≠ 0) = l := by
      intro l
      induction l with
      | nil => intro _; rfl
      | cons a l ih =>
        intro h
        rw [List.takeWhile_cons, if_pos (by simpa using fun e : a = 0 => h (by simp [e])), ih (fun e => h (by simp [e]))]
    exact q x hx
  refine ⟨t4, ?_, by simpa using i4⟩
  simp only [List.nil_append] at h1 h3
  unfold read_header
  simp only [h1]
  rw [if_neg (by omega)]
  simp only [h2, h3]
  rw [if_neg (by simp), if_neg (by omega)]
  simp only [h4]
  rw [if_neg (by simp), z n h0.1, z v h0.2]

theorem rheaders_ok (hs : List (Bytes × Bytes)) : ∀ (k : Nat) (t : T) (seen rest : Bytes) (acc : List (Bytes × Bytes)),
    (∀ h ∈ hs, Header h ∧ 0 ∉ h.1 ∧ 0 ∉ h.2) → hs.length < k → acc.length + hs.length ≤ 100 → Is t ⟨seen, lines hs ++ [13, 10] ++ rest⟩ →
    ∃ t', parseHeaders k t acc = .ok (t', some (acc ++ hs)) ∧ Is t' ⟨seen ++ (lines hs ++ [13, 10]), rest⟩ := by
  induction hs with
  | nil =>
    intro k t seen rest acc _ hk _ h
    obtain ⟨k, rfl⟩ : ∃ j, k = j + 1 := ⟨k - 1, by simp at hk; omega⟩
    obtain ⟨t0, h0, i0⟩ := more_is h
    obtain ⟨t', h1, h2⟩ := lit_ok [13, 10] rest (by decide) (by decide) (by simpa [lines] using i0)
    exact ⟨t', by simp [parseHeaders, h0, h1], by simpa [lines] using h2⟩
  | cons hd hs ih =>
    intro k t seen rest acc hh hk hl h
    obtain ⟨k, rfl⟩ : ∃ j, k = j + 1 := ⟨k - 1, by simp at hk; omega⟩
    simp only [List.length_cons] at hk hl
    obtain ⟨hhd, hz⟩ := hh hd (by simp)
    have e : lines (hd :: hs) ++ [13, 10] ++ rest = hd.1 ++ [58, 32] ++ hd.2 ++ [13, 10] ++ (lines hs ++ [13, 10] ++ rest) := by rw [lines_cons]; simp
    rw [e] at h
    obtain ⟨t0, h0, i0⟩ := more_is h
    obtain ⟨t1, h1, h2⟩ := lit_no [13, 10] (by decide) (by decide) i0 (not_end hhd _)
    obtain ⟨t2, h3, h4⟩ := rheader_ok hd.1 hd.2 _ ⟨hhd.1, hhd.2.2.2.1⟩ ⟨hhd.2.1, hhd.2.2.2.2⟩ hz h2
    obtain ⟨t3, h5, h6⟩ := ih k t2 _ rest (acc ++ [hd]) (fun x hx => hh x (by simp [hx])) (by omega) (by simp; omega) h4
    refine ⟨t3, ?_, ?_⟩
    · simp only [parseHeaders, h0, h1]
      rw [if_neg (by simp), if_neg (by simp), if_neg (by omega), h3, ok_bind]
      simp only
      rw [h5]
      simp
    · have : seen ++ (lines (hd :: hs) ++ [13, 10]) = seen ++ (hd.1 ++ [58, 32] ++ hd.2 ++ [13, 10]) ++ (lines hs ++ [13, 10]) := by rw [lines_cons]; simp
      rw [this]
      exact h6

/-! ## The body -/

theorem asChar_ff (x : UInt8) : asChar x.toNat = -1 ↔ x = 255 := by
  constructor
  · intro h
    apply UInt8.toNat_inj.mp
    have : (255 : UInt8).toNat = 255 := rfl
    have := x.toNat_lt
    unfold asChar at h
    split at h <;> omega
  · rintro rfl; decide

/-- The body that fits. -/
theorem body_ok (n : Nat) : ∀ (t : T) (seen rest body : Bytes), Is t ⟨seen, rest⟩ → n ≤ rest.length → 255 ∉ rest.take n → body.length + n ≤ 1000 →
    ∃ t', bodyLoop n t body = .ok (t', some (body ++ rest.take n)) ∧ Is t' ⟨seen ++ rest.take n, rest.drop n⟩ := by
  induction n with
  | zero => intro t seen rest body h _ _ _; exact ⟨t, by simp [bodyLoop], by simpa using h⟩
  | succ n ih =>
    intro t seen rest body h hl hf hb
    cases rest with
    | nil => simp at hl
    | cons x rest =>
      obtain ⟨t1, h1, i1⟩ := get_cons h
      simp only [List.take_succ_cons, List.mem_cons, not_or] at hf
      simp only [List.length_cons] at hl
      obtain ⟨t2, h2, i2⟩ := ih t1 _ rest (body ++ [x]) i1 (by omega) hf.2 (by simp; omega)
      refine ⟨t2, ?_, by simpa using i2⟩
      simp only [bodyLoop, h1, byte_code]
      rw [if_neg (by rw [asChar_ff]; exact fun e => hf.1 e.symm), if_neg (by omega), h2]
      simp

/-- The byte 255 is taken for the end. -/
theorem body_ff (n : Nat) : ∀ (t : T) (seen rest body : Bytes), Is t ⟨seen, rest⟩ → (255 ∈ rest.take n ∨ rest.length < n) → body.length + (rest.takeWhile (· ≠ 255)).length ≤ 1000 →
    ∃ t', bodyLoop n t body = .ok (t', none) := by
  induction n with
  | zero => intro t seen rest body _ hf _; rcases hf with hf | hf; simp at hf; omega
  | succ n ih =>
    intro t seen rest body h hf hb
    cases rest with
    | nil =>
      obtain ⟨t1, h1, _⟩ := get_nil h
      exact ⟨t1, by simp only [bodyLoop, h1]; rw [if_pos (by decide)]⟩
    | cons x rest =>
      obtain ⟨t1, h1, i1⟩ := get_cons h
      by_cases hx : x = 255
      · refine ⟨t1, ?_⟩
        simp only [bodyLoop, h1]
        rw [if_pos (by rw [asChar_ff]; exact hx)]
      · rw [List.takeWhile_cons, if_pos (by simpa using hx), List.length_cons] at hb
        obtain ⟨t2, h2⟩ := ih t1 _ rest (body ++ [x]) i1 (by
          simp only [List.take_succ_cons, List.mem_cons, List.length_cons] at hf
          rcases hf with (hf | hf) | hf
          · exact absurd hf.symm hx
          · exact .inl hf
          · exact .inr (by omega)) (by simp only [List.length_append, List.length_cons, List.length_nil]; omega)
        refine ⟨t2, ?_⟩
        simp only [bodyLoop, h1, byte_code]
        rw [if_neg (by rw [asChar_ff]; exact hx), if_neg (by omega), h2]

/-- More than 1000 bytes. -/
theorem body_large (n : Nat) : ∀ (t : T) (seen rest body : Bytes), Is t ⟨seen, rest⟩ → body.length ≤ 1000 → 1000 < body.length + n → 1000 < body.length + (rest.takeWhile (· ≠ 255)).length →
    bodyLoop n t body = .panic "undefined: write outside of an array" := by
  induction n with
  | zero => intro t seen rest body _ _ hn _; omega
  | succ n ih =>
    intro t seen rest body h hb hn hf
    cases rest with
    | nil => simp at hf; omega
    | cons x rest =>
      obtain ⟨t1, h1, i1⟩ := get_cons h
      have hx : x ≠ 255 := by
        rintro rfl
        simp at hf; omega
      rw [List.takeWhile_cons, if_pos (by simpa using hx), List.length_cons] at hf
      simp only [bodyLoop, h1, byte_code]
      rw [if_neg (by rw [asChar_ff]; exact hx)]
      by_cases hb2 : body.length ≥ 1000
      · rw [if_pos hb2]
      · rw [if_neg hb2]
        exact ih t1 _ rest _ i1 (by simp; omega) (by simp; omega) (by simp only [List.length_append, List.length_cons, List.length_nil]; omega)

theorem rest_ok (n : Nat) : ∀ (t : T) (seen rest body : Bytes), Is t ⟨seen, rest⟩ → rest.length < n → body.length + rest.length ≤ 999 →
    ∃ t', restLoop n t body = .ok (t', body ++ rest) ∧ Is t' ⟨seen ++ rest, []⟩ := by
  induction n with
  | zero => intro t seen rest body _ hl; omega
  | succ n ih =>
    intro t seen rest body h hl hb
    obtain ⟨t0, h0, i0⟩ := more_is h
    cases rest with
    | nil => exact ⟨t0, by simp [restLoop, h0], by simpa using i0⟩
    | cons x rest =>
      obtain ⟨t1, h1, i1⟩ := get_cons i0
      simp only [List.length_cons] at hl hb
      obtain ⟨t2, h2, i2⟩ := ih t1 _ rest (body ++ [x]) i1 (by omega) (by simp; omega)
      refine ⟨t2, ?_, by simpa using i2⟩
      simp only [restLoop, h0, h1, byte_code]
      rw [if_neg (by simp), if_neg (by omega), h2]
      simp

theorem rest_large (n : Nat) : ∀ (t : T) (seen rest body : Bytes), Is t ⟨seen, rest⟩ → rest.length < n → body.length ≤ 999 → 999 < body.length + rest.length →
    restLoop n t body = .panic "body buffer too small" := by
  induction n with
  | zero => intro t seen rest body _ hl; omega
  | succ n ih =>
    intro t seen rest body h hl hb hb2
    obtain ⟨t0, h0, i0⟩ := more_is h
    cases rest with
    | nil => simp at hb2; omega
    | cons x rest =>
      obtain ⟨t1, h1, i1⟩ := get_cons i0
      simp only [List.length_cons] at hl hb2
      simp only [restLoop, h0, h1, byte_code]
      rw [if_neg (by simp)]
      by_cases h9 : body.length + 1 = 1000
      · rw [if_pos h9]
      · rw [if_neg h9]
        exact ih t1 _ rest _ i1 (by omega) (by simp; omega) (by simp; omega)

theorem atoi_minus (v : Bytes) (n : Nat) (h : Spec.Opt.Decimal v n) (hn : n ≤ 2 ^ 31) : atoi ([45] ++ v) = .ok (-(n : Int)) := by
  obtain ⟨h1, h2, h3⟩ := (Opt.decimal_iff v n).mp h
  have ed : ([45] ++ v).dropWhile (fun c : UInt8 => isspace c.toNat) = 45 :: v := by
    rw [List.singleton_append, List.dropWhile_cons, if_neg (by decide)]
  have et : v.takeWhile Opt.isdigit = v := by
    have : ∀ l : Bytes, l.all Opt.isdigit = true → l.takeWhile Opt.isdigit = l := by
      intro l
      induction l with
      | nil => intro _; rfl
      | cons x l ih =>
        intro hl
        rw [List.all_cons, Bool.and_eq_true] at hl
        rw [List.takeWhile_cons, if_pos hl.1, ih hl.2]
    exact this v h2
  unfold atoi
  simp only [ed, sign, et, h3]
  simp only [if_true]
  rw [if_pos hn]

theorem atoi_digits (v : Bytes) (n : Nat) (h : Spec.Opt.Decimal v n) (hn : n < 2 ^ 31) : atoi v = .ok n := by
  obtain ⟨h1, h2, h3⟩ := (Opt.decimal_iff v n).mp h
  cases v with
  | nil => exact absurd rfl h1
  | cons c v =>
    rw [List.all_cons, Bool.and_eq_true] at h2
    have hc : 48 ≤ c.toNat ∧ c.toNat ≤ 57 := by
      have := h2.1
      simp only [Opt.isdigit, Bool.and_eq_true, decide_eq_true_eq, UInt8.le_iff_toNat_le] at this
      exact this
    have hs : isspace (c.toNat : Int) = false := by
      unfold isspace
      simp only [Bool.or_eq_false_iff, beq_eq_false_iff_ne, Bool.and_eq_false_iff, decide_eq_false_iff_not]
      omega
    have ed : (c :: v).dropWhile (fun c : UInt8 => isspace c.toNat) = c :: v := by rw [List.dropWhile_cons, if_neg (by simp [hs])]
    unfold atoi
    simp only [ed]
    have ne45 : c ≠ 45 := by rintro rfl; revert hc; decide
    have ne43 : c ≠ 43 := by rintro rfl; revert hc; decide
    have e : sign (c :: v) = (false, c :: v) := by
      unfold sign
      split
      · rename_i heq; simp only [List.cons.injEq] at heq; exact absurd heq.1 ne45
      · rename_i heq; simp only [List.cons.injEq] at heq; exact absurd heq.1 ne43
      · rfl
    simp only [e]
    have et : (c :: v).takeWhile Opt.isdigit = c :: v := by
      have : ∀ l : Bytes, l.all Opt.isdigit = true → l.takeWhile Opt.isdigit = l := by
        intro l
        induction l with
        | nil => intro _; rfl
        | cons a l ih =>
          intro h
          rw [List.all_cons, Bool.and_eq_true] at h
          rw [List.takeWhile_cons, if_pos h.1, ih h.2]
      exact this _ (by rw [List.all_cons, h2.1, h2.2]; rfl)
    rw [et, h3]
    simp [hn]

/-! ## What has been read -/

/-- A header line that is read: the bytes after a zero are lost. -/
def stored (h : Bytes × Bytes) : Bytes × Bytes := (h.1.takeWhile (· ≠ 0), h.2.takeWhile (· ≠ 0))

theorem rheader_inv {t : T} {seen s : Bytes} (h : Is t ⟨seen, s⟩) {t' : T} {x : Bytes × Bytes} (he : read_header t = .ok (t', some x)) :
    ∃ n v rest, s = n ++ [58, 32] ++ v ++ [13, 10] ++ rest ∧ x = stored (n, v) ∧ (58 ∉ n ∧ n.length < 1024) ∧ (13 ∉ v ∧ v.length < 1024) ∧
      Is t' ⟨seen ++ (n ++ [58, 32] ++ v ++ [13, 10]), rest⟩ := by
  unfold read_header at he
  obtain ⟨t1, h1, i1⟩ := takeUntil_is 58 (rounds t) t _ _ [] (by rw [h.rounds]; exact Nat.lt_succ_self _) h
  rw [List.nil_append] at h1
  simp only [h1] at he
  split at he
  · cases he
  rename_i hl1
  obtain ⟨t2, o2, e2⟩ : ∃ a b, skip_literal t1 [58, 32] = (a, b) := ⟨_, _, rfl⟩
  simp only [e2] at he
  rcases lit_inv [58, 32] (by decide) (by decide) i1 e2 with ⟨rfl, r2, s2, i2⟩ | ⟨rfl, _, _⟩
  · simp only [Bool.not_true, Bool.false_eq_true, if_false] at he
    obtain ⟨t3, h3, i3⟩ := takeUntil_is 13 (rounds t2) t2 _ _ [] (by rw [i2.rounds]; exact Nat.lt_succ_self _) i2
    rw [List.nil_append] at h3
    simp only [h3] at he
    split at he
    · cases he
    rename_i hl3
    obtain ⟨t4, o4, e4⟩ : ∃ a b, skip_literal t3 [13, 10] = (a, b) := ⟨_, _, rfl⟩
    simp only [e4] at he
    rcases lit_inv [13, 10] (by decide) (by decide) i3 e4 with ⟨rfl, r4, s4, i4⟩ | ⟨rfl, _, _⟩
    · simp only [Bool.not_true, Bool.false_eq_true, if_false, Res.ok.injEq, Prod.mk.injEq, Option.some.injEq] at he
      obtain ⟨rfl, rfl⟩ := he
      refine ⟨s.takeWhile (· ≠ 58), r2.takeWhile (· ≠ 13), r4, ?_, rfl, ⟨tw_mem 58 s, by omega⟩, ⟨tw_mem 13 r2, by omega⟩, by simpa using i4⟩
      have a1 : s = s.takeWhile (· ≠ 58) ++ ([58, 32] ++ r2) := by rw [← s2, List.takeWhile_append_dropWhile]
      have a2 : r2 = r2.takeWhile (· ≠ 13) ++ ([13, 10] ++ r4) := by rw [← s4, List.takeWhile_append_dropWhile]
      conv => lhs; rw [a1, a2]
      simp
    · simp at he
  · simp at he

/-- What is after the headers: an empty line, or the end of the text. -/
def EndOf (s rest : Bytes) : Prop := s = [13, 10] ++ rest ∨ (s = [] ∧ rest = [])

theorem rheaders_inv : ∀ (k : Nat) (t : T) (seen s : Bytes) (acc : List (Bytes × Bytes)) {t' : T} {out : List (Bytes × Bytes)}, acc.length ≤ 100 → Is t ⟨seen, s⟩ →
    parseHeaders k t acc = .ok (t', some out) →
    ∃ hs tl rest seen', s = lines hs ++ tl ∧ EndOf tl rest ∧ (∀ h ∈ hs, Header h) ∧ out = acc ++ hs.map stored ∧ acc.length + hs.length ≤ 100 ∧ Is t' ⟨seen', rest⟩ := by
  intro k
  induction k with
  | zero => intro t seen s acc t' out _ _ he; simp [parseHeaders] at he
  | succ k ih =>
    intro t seen s acc t' out ha h he
    obtain ⟨t0, h0, i0⟩ := more_is h
    unfold parseHeaders at he
    simp only [h0] at he
    by_cases hs : s = []
    · subst hs
      rw [if_pos (by simp)] at he
      simp only [Res.ok.injEq, Prod.mk.injEq, Option.some.injEq] at he
      obtain ⟨rfl, rfl⟩ := he
      exact ⟨[], [], [], seen, by simp [lines], .inr ⟨rfl, rfl⟩, (by intro x hx; cases hx), by simp, by simpa using ha, i0⟩
    · rw [if_neg (by simp [hs])] at he
      obtain ⟨t1, b, e1⟩ : ∃ a b, skip_literal t0 [13, 10] = (a, b) := ⟨_, _, rfl⟩
      simp only [e1] at he
      rcases lit_inv [13, 10] (by decide) (by decide) i0 e1 with ⟨rfl, rest, rfl, i1⟩ | ⟨rfl, hp, i1⟩
      · rw [if_pos rfl] at he
        simp only [Res.ok.injEq, Prod.mk.injEq, Option.some.injEq] at he
        obtain ⟨rfl, rfl⟩ := he
        exact ⟨[], _, rest, _, by simp [lines], .inl rfl, (by intro x hx; cases hx), by simp, by simpa using ha, i1⟩
      · rw [if_neg (by simp)] at he
        split at he
        · cases he
        rename_i hl
        obtain ⟨⟨t2, o⟩, h2, h3⟩ := Res.bind_eq_ok' he
        cases o with
        | none => simp at h3
        | some x =>
          simp only at h3
          obtain ⟨n, v, r, rfl, rfl, hn, hv, i2⟩ := rheader_inv i1 h2
          obtain ⟨hs', tl, rest, seen', a1, a2, a3, a4, a5, a6⟩ := ih t2 _ r _ (by simp; omega) i2 h3
          have hh : Header (n, v) := by
            refine ⟨hn.1, hv.1, ?_, hn.2, hv.2⟩
            intro hpre
            apply hp
            have e : n ++ [58, 32] ++ v ++ [13, 10] ++ r = (n ++ [58]) ++ (32 :: (v ++ [13, 10] ++ r)) := by simp
            show [13, 10] <+: n ++ [58, 32] ++ v ++ [13, 10] ++ r
            rw [e]
            exact hpre.trans (List.prefix_append _ _)
          refine ⟨(n, v) :: hs', tl, rest, seen', by rw [lines_cons, a1]; simp, a2, ?_, by rw [a4]; simp, ?_, a6⟩
          · intro y hy
            rcases List.mem_cons.mp hy with rfl | hy
            · exact hh
            · exact a3 y hy
          · simp only [List.length_append, List.length_cons, List.length_nil] at a5 ⊢; omega

theorem body_inv (n : Nat) : ∀ (t : T) (seen rest body : Bytes) {t' : T} {out : Bytes}, Is t ⟨seen, rest⟩ → bodyLoop n t body = .ok (t', some out) →
    n ≤ rest.length ∧ out = body ++ rest.take n ∧ 255 ∉ rest.take n := by
  induction n with
  | zero =>
    intro t seen rest body t' out h he
    simp only [bodyLoop, Res.ok.injEq, Prod.mk.injEq, Option.some.injEq] at he
    exact ⟨Nat.zero_le _, by simp [he.2], by simp⟩
  | succ n ih =>
    intro t seen rest body t' out h he
    cases rest with
    | nil =>
      obtain ⟨t1, h1, _⟩ := get_nil h
      simp only [bodyLoop, h1] at he
      rw [if_pos (by decide)] at he
      simp at he
    | cons x rest =>
      obtain ⟨t1, h1, i1⟩ := get_cons h
      simp only [bodyLoop, h1, byte_code] at he
      split at he
      · simp at he
      rename_i hx
      rw [asChar_ff] at hx
      split at he
      · cases he
      obtain ⟨a1, a2, a3⟩ := ih t1 _ rest _ i1 he
      refine ⟨by simpa using a1, by rw [a2]; simp, ?_⟩
      simp only [List.take_succ_cons, List.mem_cons, not_or]
      exact ⟨fun e => hx e.symm, a3⟩
end Che.Lib.Http
