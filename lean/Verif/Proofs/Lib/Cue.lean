import Verif.Model.Lib.Cue
import Verif.Spec.Lib.Cue
import Verif.Proofs.Lib.Tok
import Verif.Proofs.Lib.Srt

namespace Che.Lib.Cue
open Che.Lib Che.Lib.Tok Che.Spec.Lib Che.Spec.Opt Che.Spec.Cue

private theorem bind_ok {α β : Type} (a : α) (f : α → Res String β) : (Res.ok a : Res String α).bind f = f a := rfl

/-- The tokenizer is before the given bytes. -/
def On (t : T) (rest : Bytes) : Prop := ∃ c : Cursor, Is t c ∧ c.rest = rest

theorem on_new (s : Bytes) : On (from_str s) s := ⟨_, new_is _ rfl, rfl⟩

theorem on_rounds {t : T} {s : Bytes} (h : On t s) : rounds t = s.length + 1 := by
  obtain ⟨c, h1, rfl⟩ := h
  exact h1.rounds

theorem on_more {t : T} {s : Bytes} (h : On t s) : ∃ t', more t = (t', decide (s ≠ [])) ∧ On t' s := by
  obtain ⟨c, h1, rfl⟩ := h
  obtain ⟨t', e, h2⟩ := more_is h1
  exact ⟨t', e, c, h2, rfl⟩

theorem on_peek {t : T} {s : Bytes} (h : On t s) : ∃ t', peek t = (t', code s.head?) ∧ On t' s := by
  obtain ⟨c, h1, rfl⟩ := h
  obtain ⟨t', e, h2⟩ := peek_is h1
  exact ⟨t', e, c, h2, rfl⟩

theorem on_get {t : T} {x : UInt8} {s : Bytes} (h : On t (x :: s)) : ∃ t', get t = (t', (x.toNat : Int)) ∧ On t' s := by
  obtain ⟨c, h1, h0⟩ := h
  obtain ⟨t', e, h2⟩ := get_is h1
  rw [h0] at e
  refine ⟨t', e, _, h2, ?_⟩
  show c.rest.drop 1 = s
  rw [h0]; rfl

theorem blanks_takeWhile {bl s : Bytes} (hb : Blanks bl) (hs : Solid s) : (bl ++ s).takeWhile (fun x => x = 32 || x = 9) = bl := by
  induction bl with
  | nil =>
    cases s with
    | nil => rfl
    | cons c s =>
      obtain ⟨h1, h2⟩ := hs c rfl
      simp [h1, h2]
  | cons c bl ih =>
    have := hb c (by simp)
    rw [List.cons_append, List.takeWhile_cons_of_pos (by simpa using this), ih fun x hx => hb x (by simp [hx])]

theorem on_hspaces {t : T} {bl s : Bytes} (h : On t (bl ++ s)) (hb : Blanks bl) (hs : Solid s) : On (hspaces t) s := by
  obtain ⟨c, h1, h0⟩ := h
  refine ⟨_, hspaces_is h1, ?_⟩
  rw [past_rest, h0, blanks_takeWhile hb hs, List.drop_left' rfl]

theorem until_takeWhile {x : UInt8} {a s : Bytes} (ha : x ∉ a) (hs : s = [] ∨ s.head? = some x) : (a ++ s).takeWhile (· ≠ x) = a := by
  induction a with
  | nil =>
    rcases hs with rfl | hs
    · rfl
    · cases s with
      | nil => rfl
      | cons c s => simp at hs; simp [hs]
  | cons c a ih =>
    simp only [List.mem_cons, not_or] at ha
    rw [List.cons_append, List.takeWhile_cons_of_pos (by simpa using fun e => ha.1 e.symm), ih ha.2]

theorem on_until {t : T} {x : UInt8} {a s : Bytes} {n : Nat} (h : On t (a ++ s)) (hx : x < 128) (ha : x ∉ a) (hs : s = [] ∨ s.head? = some x) (hn : a.length < n) :
    ∃ t', read_until t x n = (t', true, a) ∧ On t' s := by
  obtain ⟨c, h1, h0⟩ := h
  obtain ⟨t', e, h2⟩ := read_until_is h1 x hx n (by omega)
  rw [h0, until_takeWhile ha hs] at e h2
  have ht : a.take (n - 1) = a := List.take_of_length_le (by omega)
  rw [ht] at e h2
  refine ⟨t', by rw [e]; simp [hn], _, h2, ?_⟩
  rw [past_rest, h0, List.drop_left' rfl]

/-! ### Parts of lines -/

theorem on_title {t : T} {q s : Bytes} (h : On t (34 :: q ++ 34 :: s)) (hq : 34 ∉ q) (hl : q.length < 100) : ∃ t', title t 100 = .ok (t', q) ∧ On t' s := by
  obtain ⟨t1, e1, h1⟩ := on_get (s := q ++ 34 :: s) h
  obtain ⟨t2, e2, h2⟩ := on_until (n := 100) h1 (by decide) hq (.inr rfl) hl
  obtain ⟨t3, e3, h3⟩ := on_get h2
  refine ⟨t3, ?_, h3⟩
  unfold title
  rw [e1]
  simp only
  rw [if_neg (by decide), e2]
  simp only [Bool.not_true, Bool.false_eq_true, if_false]
  rw [e3]
  simp only
  rw [if_neg (by decide)]

theorem on_numLoop : ∀ (d : Bytes) (t : T) (s : Bytes) (n k : Nat) (ok : Bool), On t (d ++ s) → (∀ c ∈ d, 48 ≤ c ∧ c ≤ 57) → NoDigit s → Time.val n d < 2 ^ 31 → d.length < k →
    ∃ t', numLoop k t n ok = .ok (t', ((Time.val n d : Nat) : Int), ok || d ≠ []) ∧ On t' s := by
  intro d
  induction d with
  | nil =>
    intro t s n k ok h _ hs _ hk
    obtain ⟨k, rfl⟩ : ∃ j, k = j + 1 := ⟨k - 1, by simp at hk; omega⟩
    obtain ⟨t1, e1, h1⟩ := on_more h
    obtain ⟨t2, e2, h2⟩ := on_peek h1
    rw [List.nil_append] at e1 e2 h1 h2
    rw [numLoop, e1]
    cases s with
    | nil => exact ⟨t1, by simp [Time.val], h1⟩
    | cons c s =>
      refine ⟨t2, ?_, h2⟩
      simp only [ne_eq, reduceCtorEq, not_false_eq_true, decide_true, Bool.not_true, Bool.false_eq_true, if_false]
      rw [e2]
      have : Tok.isdigit (code (List.head? (c :: s))) = false := by
        show Tok.isdigit (c.toNat : Int) = false
        rw [isdigit_code]
        have := hs c rfl
        simp only [digit]
        rw [Bool.eq_false_iff]
        intro hd
        apply this
        simpa using hd
      simp only
      rw [this]
      simp [Time.val]
  | cons c d ih =>
    intro t s n k ok h hd hs hv hk
    obtain ⟨k, rfl⟩ : ∃ j, k = j + 1 := ⟨k - 1, by simp at hk; omega⟩
    obtain ⟨t1, e1, h1⟩ := on_more h
    obtain ⟨t2, e2, h2⟩ := on_peek h1
    obtain ⟨t3, e3, h3⟩ := on_get (s := d ++ s) h2
    have hc := hd c (by simp)
    have hc1 : 48 ≤ c.toNat := by have := UInt8.le_iff_toNat_le.1 hc.1; simpa using this
    have hv' : Time.val n (c :: d) = Time.val (10 * n + (c.toNat - 48)) d := rfl
    have hle := Time.val_le (10 * n + (c.toNat - 48)) d
    rw [hv'] at hv
    have p31 : (2 : Nat) ^ 31 = 2147483648 := rfl
    obtain ⟨t', e, h'⟩ := ih t3 s (10 * n + (c.toNat - 48)) k true h3 (fun x hx => hd x (by simp [hx])) hs hv (by simp at hk; omega)
    refine ⟨t', ?_, h'⟩
    rw [numLoop, e1]
    simp only [List.cons_append, ne_eq, reduceCtorEq, not_false_eq_true, decide_true, Bool.not_true, Bool.false_eq_true, if_false]
    rw [e2]
    have hdig : Tok.isdigit (code (List.head? (c :: d ++ s))) = true := by
      show Tok.isdigit (c.toNat : Int) = true
      rw [isdigit_code]
      simp [digit, hc]
    simp only
    rw [hdig]
    simp only [if_true]
    have i1 : Time.int ((n : Int) * 10) = .ok ((n : Int) * 10) := if_pos (by omega)
    have i2 : Time.int ((n : Int) * 10 + ((c.toNat : Int) - 48)) = .ok ((n : Int) * 10 + ((c.toNat : Int) - 48)) := if_pos (by omega)
    rw [i1, bind_ok, e3]
    simp only
    rw [i2, bind_ok, show (n : Int) * 10 + ((c.toNat : Int) - 48) = ((10 * n + (c.toNat - 48) : Nat) : Int) by omega, e, hv']
    simp

theorem on_num {t : T} {d s : Bytes} {n : Nat} (h : On t (d ++ s)) (hd : Decimal d n) (hn : n < 2 ^ 31) (hs : NoDigit s) : ∃ t', num t = .ok (t', (n : Int)) ∧ On t' s := by
  obtain ⟨h1, h2, h3⟩ := Srt.decimal_digits hd
  obtain ⟨t', e, h'⟩ := on_numLoop d t s 0 (rounds t) false h h2 hs (by rw [h3]; exact hn) (by rw [on_rounds h, List.length_append]; omega)
  refine ⟨t', ?_, h'⟩
  unfold num
  have e' : numLoop (rounds t) t 0 false = .ok (t', (n : Int), true) := by
    have := e
    rw [h3] at this
    simpa [h1] using this
  rw [e', bind_ok]
  rfl

theorem on_lineLoop : ∀ (x : Bytes) (t : T) (s val : Bytes) (k : Nat), On t (x ++ s) → 10 ∉ x → (s = [] ∨ s.head? = some 10) → x.length < k → val.length + x.length < 299 →
    ∃ t', lineLoop k t val = .ok (t', val ++ x ++ s.take 1) ∧ On t' (s.drop 1) := by
  intro x
  induction x with
  | nil =>
    intro t s val k h _ hs hk hl
    obtain ⟨k, rfl⟩ : ∃ j, k = j + 1 := ⟨k - 1, by simp at hk; omega⟩
    obtain ⟨t1, e1, h1⟩ := on_more h
    rw [List.nil_append] at e1 h1
    rw [lineLoop, e1]
    cases s with
    | nil => exact ⟨t1, by simp, h1⟩
    | cons c s =>
      simp only [List.head?_cons, Option.some.injEq, reduceCtorEq, false_or] at hs
      subst hs
      obtain ⟨t2, e2, h2⟩ := on_get h1
      refine ⟨t2, ?_, h2⟩
      simp only [ne_eq, reduceCtorEq, not_false_eq_true, decide_true, Bool.not_true, Bool.false_eq_true, if_false]
      rw [e2]
      simp only
      rw [if_neg (by simp at hl; omega), if_pos (by decide), toByte_code]
      simp
  | cons c x ih =>
    intro t s val k h hx hs hk hl
    simp only [List.mem_cons, not_or] at hx
    simp only [List.length_cons] at hk hl
    obtain ⟨k, rfl⟩ : ∃ j, k = j + 1 := ⟨k - 1, by omega⟩
    obtain ⟨t1, e1, h1⟩ := on_more h
    obtain ⟨t2, e2, h2⟩ := on_get (s := x ++ s) h1
    obtain ⟨t', e, h'⟩ := ih t2 s (val ++ [c]) k h2 hx.2 hs (by omega) (by rw [List.length_append, List.length_singleton]; omega)
    refine ⟨t', ?_, h'⟩
    rw [lineLoop, e1]
    simp only [List.cons_append, ne_eq, reduceCtorEq, not_false_eq_true, decide_true, Bool.not_true, Bool.false_eq_true, if_false]
    rw [e2]
    simp only
    have hne : ¬ (c.toNat : Int) = 10 := by
      intro e
      apply hx.1
      exact ((char_iff c 10 (by decide)).1 e).symm
    rw [if_neg (by omega), if_neg hne, toByte_code, e]
    simp

theorem scanInt_blanks {bl s : Bytes} (hb : ∀ c ∈ bl, Strings.isspace c = true) : Srt.scanInt (bl ++ s) = Srt.scanInt s := by
  unfold Srt.scanInt
  have : (bl ++ s).dropWhile Strings.isspace = s.dropWhile Strings.isspace := by
    induction bl with
    | nil => rfl
    | cons c bl ih => rw [List.cons_append, List.dropWhile_cons_of_pos (hb c (by simp)), ih fun x hx => hb x (by simp [hx])]
  rw [this]

theorem blank_space {bl : Bytes} (hb : Blanks bl) : ∀ c ∈ bl, Strings.isspace c = true := by
  intro c hc
  rcases hb c hc with rfl | rfl <;> decide

theorem noDigit_blanks {bl s : Bytes} (hb : Blanks bl) (hn : bl ≠ []) : Spec.Time.Stops (bl ++ s) := by
  cases bl with
  | nil => exact absurd rfl hn
  | cons c bl =>
    intro x hx
    simp only [List.cons_append, List.head?_cons, Option.some.injEq] at hx
    subst hx
    rcases hb c (by simp) with rfl | rfl <;> decide

theorem scan_index {d bl a b c tail : Bytes} {n m s f : Nat} (hd : Decimal d n) (hn : n < 2) (hb : Blanks bl) (hne : bl ≠ []) (ha : Decimal a m) (hs : Decimal b s) (hf : Decimal c f)
    (hr : 60 * m + s + f < 2 ^ 31) (ht : NoDigit tail) : scan (d ++ (bl ++ (a ++ 58 :: (b ++ 58 :: (c ++ tail))))) = .ok (some ((n : Int), (m : Int), (s : Int), (f : Int))) := by
  have p31 : (2 : Nat) ^ 31 = 2147483648 := rfl
  unfold scan
  rw [Srt.scanInt_num hd (noDigit_blanks hb hne) (by omega), bind_ok]
  simp only
  have e1 : Srt.scanMark 58 (bl ++ (a ++ 58 :: (b ++ 58 :: (c ++ tail)))) = Srt.scanMark 58 (a ++ 58 :: (b ++ 58 :: (c ++ tail))) := by
    unfold Srt.scanMark
    rw [scanInt_blanks (blank_space hb)]
  rw [e1, Srt.scanMark_num ha (by decide) (by omega), bind_ok]
  simp only
  rw [Srt.scanMark_num hs (by decide) (by omega), bind_ok]
  simp only
  rw [Srt.scanInt_num hf ht (by omega), bind_ok]

end Che.Lib.Cue

namespace Che.Lib.Cue
open Che.Lib Che.Lib.Tok Che.Spec.Lib Che.Spec.Opt Che.Spec.Cue

private theorem bind_ok' {α β : Type} (a : α) (f : α → Res String β) : (Res.ok a : Res String α).bind f = f a := rfl

/-- An entry that was read, and what the line says. -/
inductive Same : Entry → Spec.Cue.Entry → Prop
  | other : Same .other .other
  | title (s : Bytes) : Same (.title s) (.title s)
  | track : Same .track .track
  | index (n m s f : Nat) : 60 * m + s + f < 2 ^ 31 → Same (.index n m s f) (.index m s f)

theorem on_index {t : T} {d bl a b c tail r : Bytes} {n m s f : Nat} (hd : Decimal d n) (hn : n < 2) (hb : Blanks bl) (hne : bl ≠ []) (ha : Decimal a m) (hs : Decimal b s) (hf : Decimal c f)
    (hr : 60 * m + s + f < 2 ^ 31) (ht : NoDigit tail) (h10 : 10 ∉ tail) (hl : (d ++ (bl ++ (a ++ 58 :: (b ++ 58 :: (c ++ tail))))).length < 299) (hz : 0 ∉ tail)
    (h : On t ((d ++ (bl ++ (a ++ 58 :: (b ++ 58 :: (c ++ tail))))) ++ r)) (hr' : r = [] ∨ r.head? = some 10) :
    ∃ t', index t = .ok (t', .index n m s f) ∧ On t' (r.drop 1) := by
  have dig : ∀ {z : UInt8} {d : Bytes} {n : Nat}, Decimal d n → ¬ (48 ≤ z ∧ z ≤ 57) → z ∉ d := fun hd hz hm => hz ((Srt.decimal_digits hd).2.1 _ hm)
  have hmem : ∀ z : UInt8, ¬ (48 ≤ z ∧ z ≤ 57) → z ≠ 32 → z ≠ 9 → z ≠ 58 → z ∉ tail → z ∉ d ++ (bl ++ (a ++ 58 :: (b ++ 58 :: (c ++ tail)))) := by
    intro z hz h1 h2 h3 h4 hm
    simp only [List.mem_append, List.mem_cons] at hm
    rcases hm with hm | hm | hm | hm | hm | hm | hm | hm
    · exact dig hd hz hm
    · rcases hb z hm with e | e
      · exact h1 e
      · exact h2 e
    · exact dig ha hz hm
    · exact h3 hm
    · exact dig hs hz hm
    · exact h3 hm
    · exact dig hf hz hm
    · exact h4 hm
  obtain ⟨t', e, h'⟩ := on_lineLoop _ t r [] (rounds t) h (hmem 10 (by decide) (by decide) (by decide) (by decide) h10) hr'
    (by rw [on_rounds h, List.length_append (as := d ++ _) (bs := r)]; omega) (by rw [List.length_nil, Nat.zero_add]; exact hl)
  refine ⟨t', ?_, h'⟩
  have ht1 : NoDigit (tail ++ r.take 1) := by
    cases tail with
    | nil =>
      rcases hr' with rfl | hr'
      · exact ht
      · cases r with
        | nil => exact ht
        | cons x r =>
          simp only [List.head?_cons, Option.some.injEq] at hr'
          subst hr'
          intro z hz
          simp only [List.nil_append, List.take_succ_cons, List.head?_cons, Option.some.injEq] at hz
          subst hz
          decide
    | cons x tail => exact ht
  have hstr : Vtt.str ([] ++ (d ++ (bl ++ (a ++ 58 :: (b ++ 58 :: (c ++ tail))))) ++ r.take 1) = d ++ (bl ++ (a ++ 58 :: (b ++ 58 :: (c ++ (tail ++ r.take 1))))) := by
    rw [Srt.str_clean]
    · simp only [List.nil_append, List.append_assoc, List.cons_append]
    · rintro z hm rfl
      rw [List.nil_append, List.mem_append] at hm
      rcases hm with hm | hm
      · exact hmem 0 (by decide) (by decide) (by decide) (by decide) hz hm
      · rcases hr' with rfl | hr'
        · simp at hm
        · cases r with
          | nil => simp at hm
          | cons x r =>
            simp only [List.head?_cons, Option.some.injEq] at hr'
            subst hr'
            simp at hm
  have h1 : (r.take 1).length ≤ 1 := by rw [List.length_take]; omega
  unfold index
  rw [e, bind_ok']
  simp only
  rw [if_neg (by rw [List.nil_append, List.length_append]; omega), hstr, scan_index hd hn hb hne ha hs hf hr ht1, bind_ok']
  simp only
  rw [if_pos (by omega)]

theorem on_skip {t : T} {x : UInt8} {s : Bytes} (h : On t (x :: s)) : On (skip (x.toNat : Int) t) s := by
  obtain ⟨t1, e1, h1⟩ := on_peek h
  obtain ⟨t2, e2, h2⟩ := on_get h1
  unfold skip
  rw [e1]
  simp only [code, List.head?_cons, if_true]
  rw [e2]
  exact h2

theorem on_keep {t : T} {x : UInt8} {s : Bytes} (h : On t s) (hs : s.head? ≠ some x) : On (skip (x.toNat : Int) t) s := by
  obtain ⟨t1, e1, h1⟩ := on_peek h
  unfold skip
  rw [e1]
  have : ¬ code s.head? = (x.toNat : Int) := by
    cases s with
    | nil => simp only [code, List.head?_nil]; omega
    | cons c s =>
      simp only [code, List.head?_cons, ne_eq, Option.some.injEq] at hs ⊢
      intro e
      apply hs
      apply UInt8.toNat_inj.1
      omega
  simp only
  rw [if_neg this]
  exact h1

/-- What may be after a line. -/
def After (r : Bytes) : Prop := r = [] ∨ ∃ s, r = 10 :: s ∧ s.head? ≠ some 10 ∧ s.head? ≠ some 13

theorem After.head {r : Bytes} (h : After r) : r = [] ∨ r.head? = some 10 := by
  rcases h with rfl | ⟨s, rfl, _⟩
  · exact .inl rfl
  · exact .inr rfl

theorem skips {t : T} {cr r : Bytes} (h : On t (cr ++ r)) (hc : cr = [] ∨ cr = [13]) (hr : After r) : On (skip 10 (skip 13 t)) (r.drop 1) := by
  have h1 : On (skip 13 t) r := by
    rcases hc with rfl | rfl
    · refine on_keep (x := 13) h ?_
      rcases hr with rfl | ⟨s, rfl, _⟩ <;> simp
    · exact on_skip (x := 13) h
  rcases hr with rfl | ⟨s, rfl, _⟩
  · exact on_keep (x := 10) h1 (by simp)
  · exact on_skip (x := 10) h1

theorem skips_none {t : T} {r : Bytes} (h : On t r) (h1 : r.head? ≠ some 10) (h2 : r.head? ≠ some 13) : On (skip 10 (skip 13 t)) r := on_keep (x := 10) (on_keep (x := 13) h h2) h1

theorem on_data {t : T} {key x r : Bytes} {e : Spec.Cue.Entry} (hd : Data key e x) (h : On t (x ++ r)) (hr : After r) (hz : 0 ∉ x) :
    ∃ t' e', readdata key t = .ok (t', e') ∧ Same e' e ∧ On (skip 10 (skip 13 t')) (r.drop 1) := by
  cases hd with
  | rem x h1 h2 h3 =>
    obtain ⟨t1, e1, a1⟩ := on_until (n := 1000) h (by decide) h2 hr.head h3
    refine ⟨t1, _, ?_, .other, skips (cr := []) a1 (.inl rfl) hr⟩
    unfold readdata
    rw [if_pos rfl, e1]
  | performer q cr h1 h2 h3 =>
    obtain ⟨t1, e1, a1⟩ := on_title (s := cr ++ r) (by simpa using h) h1 h2
    refine ⟨t1, _, ?_, .other, skips a1 h3 hr⟩
    unfold readdata
    rw [if_neg (by decide +kernel), if_pos rfl, e1, bind_ok']
  | title q cr h1 h2 h3 =>
    obtain ⟨t1, e1, a1⟩ := on_title (s := cr ++ r) (by simpa using h) h1 h2
    refine ⟨t1, _, ?_, .title q, skips a1 h3 hr⟩
    unfold readdata
    rw [if_neg (by decide +kernel), if_neg (by decide +kernel), if_pos rfl, e1, bind_ok']
  | file q bl k h1 h2 h3 h4 h5 h6 =>
    obtain ⟨t1, e1, a1⟩ := on_title (s := bl ++ k ++ r) (by simpa using h) h1 h2
    have hs : Solid (k ++ r) := by
      cases k with
      | nil =>
        intro c hc
        rcases hr with rfl | ⟨s, rfl, _⟩
        · simp at hc
        · simp only [List.nil_append, List.head?_cons, Option.some.injEq] at hc
          subst hc; decide
      | cons c k => exact h4
    obtain ⟨t2, e2, a2⟩ := on_until (x := 10) (n := 20) (on_hspaces (s := k ++ r) (by simpa using a1) h3 hs) (by decide) h5 hr.head h6
    refine ⟨t2, _, ?_, .other, skips (cr := []) a2 (.inl rfl) hr⟩
    unfold readdata
    rw [if_neg (by decide +kernel), if_neg (by decide +kernel), if_neg (by decide +kernel), if_neg (by decide +kernel), if_neg (by decide +kernel), if_pos rfl, e1, bind_ok']
    simp only
    rw [e2]
  | track d bl k n h1 h2 h3 h4 h5 h6 h7 =>
    have hnd : NoDigit (bl ++ k ++ r) := by
      cases hbk : bl ++ k with
      | nil =>
        intro c hc
        rcases hr with rfl | ⟨s, rfl, _⟩
        · simp at hc
        · simp only [List.nil_append, List.head?_cons, Option.some.injEq] at hc
          subst hc; decide
      | cons c z => rw [hbk] at h5; exact h5
    obtain ⟨t1, e1, a1⟩ := on_num (s := bl ++ k ++ r) (by simpa using h) h1 h2 hnd
    have hs : Solid (k ++ r) := by
      cases k with
      | nil =>
        intro c hc
        rcases hr with rfl | ⟨s, rfl, _⟩
        · simp at hc
        · simp only [List.nil_append, List.head?_cons, Option.some.injEq] at hc
          subst hc; decide
      | cons c k => exact h4
    obtain ⟨t2, e2, a2⟩ := on_until (x := 10) (n := 20) (on_hspaces (s := k ++ r) (by simpa using a1) h3 hs) (by decide) h6 hr.head h7
    refine ⟨t2, _, ?_, .track, skips (cr := []) a2 (.inl rfl) hr⟩
    unfold readdata
    rw [if_neg (by decide +kernel), if_neg (by decide +kernel), if_neg (by decide +kernel), if_pos rfl, e1, bind_ok']
    simp only
    rw [e2]
  | index d bl a b c tail n m s f h1 h2 h3 h4 h5 h6 h7 h8 h9 h10 h11 =>
    obtain ⟨t1, e1, a1⟩ := on_index h1 h2 h3 h4 h5 h6 h7 h8 h9 h10 h11 (fun hm => hz (by simp [hm])) h hr.head
    refine ⟨t1, _, ?_, .index n m s f h8, ?_⟩
    · unfold readdata
      rw [if_neg (by decide +kernel), if_neg (by decide +kernel), if_neg (by decide +kernel), if_neg (by decide +kernel), if_pos rfl, e1]
    · rcases hr with rfl | ⟨s, rfl, x1, x2⟩
      · exact skips_none a1 (by simp) (by simp)
      · exact skips_none a1 x1 x2

theorem data_key {key x : Bytes} {e : Spec.Cue.Entry} (hd : Data key e x) : key ∈ [cstr "REM", cstr "PERFORMER", cstr "TITLE", cstr "FILE", cstr "TRACK", cstr "INDEX"] := by
  cases hd <;> simp

theorem keys : ∀ key ∈ [cstr "REM", cstr "PERFORMER", cstr "TITLE", cstr "FILE", cstr "TRACK", cstr "INDEX"], key ≠ [] ∧ 32 ∉ key ∧ 9 ∉ key ∧ 0 ∉ key ∧ 10 ∉ key ∧ 13 ∉ key ∧ key.length < 100 := by decide +kernel

theorem head_digit {d s : Bytes} {n : Nat} (hd : Decimal d n) : Solid (d ++ s) := by
  obtain ⟨h1, h2, _⟩ := Srt.decimal_digits hd
  cases d with
  | nil => exact absurd rfl h1
  | cons c d =>
    intro z hz
    simp only [List.cons_append, List.head?_cons, Option.some.injEq] at hz
    subst hz
    have := h2 c (by simp)
    constructor <;> rintro rfl <;> exact absurd this (by decide)

theorem data_solid {key x : Bytes} {e : Spec.Cue.Entry} (hd : Data key e x) : Solid x := by
  cases hd with
  | rem x h1 => exact h1
  | performer => intro c hc; simp at hc; subst hc; decide
  | title => intro c hc; simp at hc; subst hc; decide
  | file => intro c hc; simp at hc; subst hc; decide
  | track d bl k n h1 => exact head_digit h1
  | index d bl a b c tail n m s f h1 => exact head_digit h1

theorem on_line {t : T} {l r : Bytes} {e : Spec.Cue.Entry} (hl : Line e l) (h : On t (l ++ r)) (hr : After r) (hz : 0 ∉ l) :
    ∃ t' e', readentry t = .ok (t', some e') ∧ Same e' e ∧ On t' (r.drop 1) := by
  obtain ⟨b1, key, b2, x, _, hb1, hb2, hd⟩ := hl
  obtain ⟨k1, k2, k3, k4, _, _, k5⟩ := keys key (data_key hd)
  have hsol : Solid x := data_solid hd
  have hs : Solid (x ++ r) := by
    cases x with
    | nil =>
      intro c hc
      rcases hr with rfl | ⟨s, rfl, _⟩
      · simp at hc
      · simp only [List.nil_append, List.head?_cons, Option.some.injEq] at hc
        subst hc; decide
    | cons c x => exact hsol
  have hks : Solid (key ++ 32 :: (b2 ++ x ++ r)) := by
    cases key with
    | nil => exact absurd rfl k1
    | cons c key =>
      intro z hz
      simp only [List.cons_append, List.head?_cons, Option.some.injEq] at hz
      subst hz
      simp only [List.mem_cons, not_or] at k2 k3
      exact ⟨fun e => k2.1 e.symm, fun e => k3.1 e.symm⟩
  obtain ⟨t1, e1, a1⟩ := on_more h
  have a2 := on_hspaces (s := key ++ 32 :: (b2 ++ x ++ r)) (by simpa using a1) hb1 hks
  obtain ⟨t3, e3, a3⟩ := on_until (x := 32) (n := 100) a2 (by decide) k2 (.inr rfl) k5
  have a4 : On (hspaces t3) (x ++ r) := on_hspaces (bl := 32 :: b2) (by simpa using a3) (by intro c hc; rcases List.mem_cons.1 hc with rfl | hc; exacts [.inl rfl, hb2 c hc]) hs
  obtain ⟨t5, e', e5, s5, a5⟩ := on_data hd a4 hr (fun hm => hz (by simp [hm]))
  refine ⟨_, e', ?_, s5, a5⟩
  unfold readentry
  rw [e1]
  have hne : b1 ++ (key ++ 32 :: (b2 ++ x)) ++ r ≠ [] := by simp
  simp only [hne, ne_eq, not_false_eq_true, decide_true, Bool.not_true, Bool.false_eq_true, if_false]
  rw [e3]
  simp only
  rw [Srt.str_clean (fun c hc => by rintro rfl; exact k4 hc), e5, bind_ok']

theorem line_head {e : Spec.Cue.Entry} {l s : Bytes} (hl : Line e l) : (l ++ s).head? ≠ some 10 ∧ (l ++ s).head? ≠ some 13 := by
  obtain ⟨b1, key, b2, x, _, hb1, hb2, hd⟩ := hl
  obtain ⟨k1, _, _, _, k6, k7, _⟩ := keys key (data_key hd)
  cases b1 with
  | cons c b1 =>
    rcases hb1 c (by simp) with rfl | rfl <;> simp
  | nil =>
    cases key with
    | nil => exact absurd rfl k1
    | cons c key =>
      simp only [List.mem_cons, not_or] at k6 k7
      simp only [List.nil_append, List.cons_append, List.head?_cons, ne_eq, Option.some.injEq]
      exact ⟨fun e => k6.1 e.symm, fun e => k7.1 e.symm⟩

theorem sheet_head {es : List Spec.Cue.Entry} {s : Bytes} (h : Sheet es s) : s.head? ≠ some 10 ∧ s.head? ≠ some 13 := by
  cases h with
  | nil => simp
  | last e l hl => have := line_head (s := []) hl; simpa using this
  | cons e l es s hl _ => exact line_head hl

/-! ### Tracks -/

/-- Tracks of the specification, the last one first. -/
def conv (ts : List (Bytes × Nat)) : List Track := ts.reverse.map fun t => ⟨t.1, (t.2 : Int)⟩

theorem setLast_snoc (f : Track → Track) (l : List Track) (t : Track) : setLast f (l ++ [t]) = l ++ [f t] := by
  induction l with
  | nil => rfl
  | cons a l ih =>
    cases l with
    | nil => rfl
    | cons b l => show a :: setLast f (b :: l ++ [t]) = _; rw [ih]; rfl

theorem conv_cons (t : Bytes × Nat) (ts : List (Bytes × Nat)) : conv (t :: ts) = conv ts ++ [⟨t.1, (t.2 : Int)⟩] := by simp [conv]

theorem index_pos_ok {m s f : Nat} (h : 60 * m + s + f < 2 ^ 31) : index_pos m s f = .ok (((60 * m + s + f / 75) * 1000000 : Nat) : Int) := by
  have p31 : (2 : Nat) ^ 31 = 2147483648 := rfl
  have hd : ((f : Int).tdiv 75) = ((f / 75 : Nat) : Int) := rfl
  have hle : f / 75 ≤ f := Nat.div_le_self _ _
  unfold index_pos
  rw [hd, show Time.int (((f / 75 : Nat) : Int) + (s : Int)) = .ok (((f / 75 : Nat) : Int) + (s : Int)) from if_pos (by omega), bind_ok',
    show Time.int (60 * (m : Int)) = .ok (60 * (m : Int)) from if_pos (by omega), bind_ok',
    show Time.int (((f / 75 : Nat) : Int) + (s : Int) + 60 * (m : Int)) = .ok (((f / 75 : Nat) : Int) + (s : Int) + 60 * (m : Int)) from if_pos (by omega), bind_ok']
  have : ((f / 75 : Nat) : Int) + (s : Int) + 60 * (m : Int) = ((60 * m + s + f / 75 : Nat) : Int) := by omega
  rw [this, Int.natCast_mul]
  rfl

/-- One step of the specification. -/
theorem apply_spec {e' : Entry} {e : Spec.Cue.Entry} (h : Same e' e) (ts : List (Bytes × Nat)) (es : List Spec.Cue.Entry) (hl : ts.length ≤ 100) :
    (∃ ts', ts'.length ≤ 100 ∧ apply (conv ts) e' = .ok (conv ts') ∧ tracks (e :: es) ts = tracks es ts') ∨ ((∃ msg, apply (conv ts) e' = .err msg) ∧ tracks (e :: es) ts = none) := by
  cases h with
  | other => exact .inl ⟨ts, hl, rfl, rfl⟩
  | title s =>
    cases ts with
    | nil => exact .inl ⟨[], hl, rfl, rfl⟩
    | cons t ts =>
      refine .inl ⟨(s, t.2) :: ts, hl, ?_, rfl⟩
      rw [conv_cons, conv_cons]
      show Res.ok (setLast _ (conv ts ++ [_])) = _
      rw [setLast_snoc]
  | track =>
    by_cases hc : ts.length < 100
    · refine .inl ⟨([], 0) :: ts, by rw [List.length_cons]; omega, ?_, by rw [tracks, if_pos hc]⟩
      show (if (conv ts).length = 100 then _ else _) = _
      rw [if_neg (by simp [conv]; omega), conv_cons]
      rfl
    · refine .inr ⟨⟨"tracks limit reached (100)", ?_⟩, by rw [tracks, if_neg hc]⟩
      · show (if (conv ts).length = 100 then _ else _) = _
        rw [if_pos (by simp [conv]; omega)]
  | index n m s f hr =>
    cases ts with
    | nil => exact .inr ⟨⟨_, rfl⟩, rfl⟩
    | cons t ts =>
      refine .inl ⟨(t.1, (60 * m + s + f / 75) * 1000000) :: ts, hl, ?_, rfl⟩
      rw [conv_cons, conv_cons]
      show (if conv ts ++ [_] = [] then _ else (index_pos (m : Int) (s : Int) (f : Int)).bind _) = _
      rw [if_neg (by simp), index_pos_ok hr, bind_ok', setLast_snoc]

theorem readcue_sheet : ∀ (es : List Spec.Cue.Entry) (s : Bytes) (t : T) (ts : List (Bytes × Nat)) (k : Nat), Sheet es s → On t s → ts.length ≤ 100 → 0 ∉ s → es.length < k →
    (∀ ts', tracks es ts = some ts' → readcue k (conv ts) t = .ok (conv ts')) ∧ (tracks es ts = none → ∃ msg, readcue k (conv ts) t = .err msg) := by
  intro es
  induction es with
  | nil =>
    intro s t ts k hs h _ _ hk
    cases hs
    obtain ⟨k, rfl⟩ : ∃ j, k = j + 1 := ⟨k - 1, by simp at hk; omega⟩
    obtain ⟨t1, e1, _⟩ := on_more h
    refine ⟨?_, by simp [tracks]⟩
    intro ts' h'
    simp only [tracks, Option.some.injEq] at h'
    subst h'
    rw [readcue]
    unfold readentry
    rw [e1]
    rfl
  | cons e es ih =>
    intro s t ts k hs h hl hz hk
    obtain ⟨k, rfl⟩ : ∃ j, k = j + 1 := ⟨k - 1, by simp at hk; omega⟩
    have key : ∃ t' e' s', readentry t = .ok (t', some e') ∧ Same e' e ∧ On t' s' ∧ Sheet es s' ∧ 0 ∉ s' := by
      cases hs with
      | last _ _ hline =>
        obtain ⟨t', e', a1, a2, a3⟩ := on_line (r := []) hline (by simpa using h) (.inl rfl) hz
        exact ⟨t', e', [], a1, a2, a3, .nil, by simp⟩
      | cons _ l _ s hline hrest =>
        obtain ⟨x1, x2⟩ := sheet_head hrest
        obtain ⟨t', e', a1, a2, a3⟩ := on_line (r := 10 :: s) hline h (.inr ⟨s, rfl, x1, x2⟩) (fun hm => hz (by simp [hm]))
        exact ⟨t', e', s, a1, a2, a3, hrest, fun hm => hz (by simp [hm])⟩
    obtain ⟨t', e', s', k1, k2, k3, k4, k5⟩ := key
    rw [readcue, k1, bind_ok']
    simp only
    rcases apply_spec k2 ts es hl with ⟨ts', l1, l2, l3⟩ | ⟨⟨msg, l1⟩, l2⟩
    · rw [l2, bind_ok', l3]
      exact ih s' t' ts' k k4 k3 l1 k5 (by simp at hk; omega)
    · rw [l1, l2]
      exact ⟨fun _ h' => by simp at h', fun _ => ⟨msg, rfl⟩⟩

theorem sheet_length {es : List Spec.Cue.Entry} {s : Bytes} (h : Sheet es s) : es.length ≤ s.length := by
  induction h with
  | nil => simp
  | last e l hl =>
    obtain ⟨b1, key, b2, x, _, _, _, _⟩ := hl
    simp
    omega
  | cons e l es s _ _ ih => simp; omega

end Che.Lib.Cue
