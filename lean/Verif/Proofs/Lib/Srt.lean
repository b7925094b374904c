import Verif.Model.Lib.Srt
import Verif.Spec.Lib.Srt
import Verif.Proofs.Lib.Time
import Verif.Proofs.Lib.Vtt
import Verif.Props.Lib.Time

namespace Che.Lib.Srt
open Che.Lib Che.Spec.Opt Che.Spec.Time Che.Spec.Vtt Che.Spec.Srt

private theorem bind_ok {α β : Type} (a : α) (f : α → Res String β) : (Res.ok a : Res String α).bind f = f a := rfl

/-! ### Lines -/

def Clean (l : Bytes) : Prop := ∀ c ∈ l, c ≠ 10 ∧ c ≠ 13 ∧ c ≠ 0

theorem lineLoop_line {l e s : Bytes} (h : Clean l) (he : Eol e) : lineLoop (l ++ e ++ s) = (l ++ [10], s, false) := by
  induction l with
  | nil =>
    rcases he with rfl | rfl
    · rfl
    · rfl
  | cons c l ih =>
    obtain ⟨h1, h2, _⟩ := h c (by simp)
    have := ih fun c hc => h c (by simp [hc])
    show lineLoop (c :: (l ++ e ++ s)) = _
    rw [lineLoop, if_neg h2, if_neg h1, this]
    rfl

theorem lineLoop_end {l : Bytes} (h : Clean l) : lineLoop l = (l, [], true) := by
  induction l with
  | nil => rfl
  | cons c l ih =>
    obtain ⟨h1, h2, _⟩ := h c (by simp)
    rw [lineLoop, if_neg h2, if_neg h1, ih fun c hc => h c (by simp [hc])]

theorem str_clean {l : Bytes} (h : ∀ c ∈ l, c ≠ 0) : Vtt.str l = l := by
  unfold Vtt.str
  exact Vtt.takeWhile_all fun c hc => by simpa using h c hc

theorem loadline_line {r : R} {l e s : Bytes} (h : Clean l) (he : Eol e) (hl : l.length ≤ 4094) (hr : r.file = l ++ e ++ s) :
    loadline r = .ok ({ r with file := s, linebuf := l ++ [10] }, true) := by
  unfold loadline
  rw [hr, lineLoop_line h he]
  simp only [Bool.or_false]
  rw [if_neg (by simp; omega), if_neg (by simp), if_neg (by simp; omega), str_clean]
  intro c hc
  rcases List.mem_append.mp hc with hc | hc
  · exact (h c hc).2.2
  · rcases List.mem_singleton.mp hc with rfl; decide

theorem loadline_last {r : R} {l : Bytes} (h : Clean l) (hn : l ≠ []) (hl : l.length ≤ 4094) (hr : r.file = l) :
    loadline r = .ok ({ r with file := [], feof := true, linebuf := l }, true) := by
  unfold loadline
  rw [hr, lineLoop_end h]
  simp only [Bool.or_true]
  rw [if_neg (by omega), if_neg hn, if_neg (by omega), str_clean fun c hc => (h c hc).2.2]

theorem loadline_end {r : R} (hr : r.file = []) : loadline r = .ok ({ r with feof := true }, false) := by
  unfold loadline
  rw [hr]
  simp only [lineLoop, Bool.or_true, List.length_nil]
  rw [if_neg (by omega)]
  simp

/-! ### Numbers -/

theorem space_iff (c : UInt8) : Strings.isspace c = true ↔ Space c := by
  have : ∀ n : Fin 256, Strings.isspace (UInt8.ofNat n.val) = true ↔ UInt8.ofNat n.val ∈ ([32, 9, 10, 11, 12, 13] : Bytes) := by decide +kernel
  have h := this ⟨c.toNat, c.toNat_lt⟩
  simpa [Space] using h

theorem stops_append {w x : Bytes} (h : Stops w) (hx : Stops x) : Stops (w ++ x) := by
  cases w with
  | nil => exact hx
  | cons c w => exact fun d hd => h d hd

theorem dropWhile_nil {w : Bytes} : w.dropWhile Strings.isspace = [] ↔ ∀ c ∈ w, Space c := by
  induction w with
  | nil => simp
  | cons c w ih =>
    rw [List.dropWhile_cons]
    by_cases h : Strings.isspace c = true
    · rw [if_pos h, ih]
      simp [(space_iff c).mp h]
    · rw [if_neg h]
      have hn : ¬ Space c := fun x => h ((space_iff c).mpr x)
      simp [hn]

theorem parse_text {l x : Bytes} (h : TextLine l) (hx : x = [] ∨ x = [10]) : parse_num (l ++ x) = .ok 0 := by
  obtain ⟨_, d, w, n, rfl, h1, h2, h3, h4⟩ := h
  have hs : Stops (w ++ x) := stops_append h2 (by
    rcases hx with rfl | rfl
    · intro c hc; cases hc
    · intro c hc; simp only [List.head?_cons, Option.some.injEq] at hc; subst hc; decide)
  unfold parse_num
  rw [List.append_assoc, Time.readint_num h1 hs, if_pos h3, bind_ok]
  simp only
  split
  · rfl
  · next hw =>
    simp only [ne_eq, Decidable.not_not] at hw
    rcases h4 with rfl | ⟨c, hc, hn⟩
    · rfl
    · exact absurd (dropWhile_nil.mp hw c (by simp [hc])) hn

theorem parse_index {i : Bytes} {n : Nat} (h : Decimal i n) (hn : n < 2 ^ 31) : parse_num (i ++ [10]) = .ok (n : Int) := by
  unfold parse_num
  rw [Time.readint_num (.inr h) (by intro c hc; simp only [List.head?_cons, Option.some.injEq] at hc; subst hc; decide), if_pos hn, bind_ok]
  simp only
  rw [if_neg]
  simp only [ne_eq, Decidable.not_not]
  rfl

theorem decimal_digits {i : Bytes} {n : Nat} (h : Decimal i n) : i ≠ [] ∧ (∀ c ∈ i, 48 ≤ c ∧ c ≤ 57) ∧ Time.val 0 i = n := by
  obtain ⟨h1, h2, h3⟩ := (Opt.decimal_iff _ _).mp h
  refine ⟨h1, fun c hc => (Time.isdigit_iff c).mp ?_, by rw [Time.val_number, h3]⟩
  rw [Time.isdigit_eq]
  exact List.all_eq_true.mp h2 c hc

theorem digit_clean {c : UInt8} (h : 48 ≤ c ∧ c ≤ 57) : c ≠ 10 ∧ c ≠ 13 ∧ c ≠ 0 := by
  refine ⟨?_, ?_, ?_⟩ <;> rintro rfl <;> exact absurd h (by decide)

theorem decimal_clean {i : Bytes} {n : Nat} (h : Decimal i n) : Clean i := fun c hc => digit_clean ((decimal_digits h).2.1 c hc)

/-! ### The text of a subtitle -/

/-- A line is read, and then the text. -/
def lineText (k : Nat) (r : R) (acc : Bytes) : Res String (R × Bytes) :=
  (loadline r).bind fun (r, more) => if more then textLoop k r acc else .ok (r, acc)

theorem textLoop_text {k : Nat} {r : R} {acc l x : Bytes} (h : TextLine l) (hx : x = [] ∨ x = [10]) (hr : r.linebuf = l ++ x) (ha : acc.length + (l ++ x).length < 1000) :
    textLoop (k + 1) r acc = lineText k r (acc ++ (l ++ x)) := by
  rw [textLoop, hr, parse_text h hx, bind_ok]
  simp only [ne_eq, not_true_eq_false, if_false]
  rw [if_neg (by omega)]
  rfl

theorem lineText_next {s t : Bytes} (h : Body s t) : ∀ {k : Nat} {r : R} {acc i e rest : Bytes} {n : Nat}, Decimal i n → 0 < n → n < 2 ^ 31 → i.length ≤ 4094 → Eol e →
    r.file = s ++ (i ++ e ++ rest) → acc.length + t.length < 1000 → s.length < k →
    lineText k r acc = .ok ({ r with file := rest, linebuf := i ++ [10] }, acc ++ t) := by
  induction h with
  | nil =>
    intro k r acc i e rest n h1 h2 h3 h4 h5 hr ha hk
    obtain ⟨k, rfl⟩ : ∃ j, k = j + 1 := ⟨k - 1, by simp at hk; omega⟩
    unfold lineText
    rw [loadline_line (decimal_clean h1) h5 h4 hr, bind_ok]
    simp only [if_true]
    rw [textLoop, parse_index h1 h3, bind_ok, if_pos (by omega)]
    simp
  | cons l x s t hl hx _ ih =>
    intro k r acc i e rest n h1 h2 h3 h4 h5 hr ha hk
    obtain ⟨k, rfl⟩ : ∃ j, k = j + 1 := ⟨k - 1, by omega⟩
    simp only [List.length_append, List.length_cons] at ha hk
    have hx1 : 1 ≤ x.length := by rcases hx with rfl | rfl <;> simp
    unfold lineText
    rw [loadline_line (s := s ++ (i ++ e ++ rest)) hl.1 hx (by omega) (by rw [hr]; simp), bind_ok]
    simp only [if_true]
    rw [textLoop_text hl (.inr rfl) rfl (by simp; omega), ih h1 h2 h3 h4 h5 rfl (by simp; omega) (by omega)]
    simp

theorem lineText_end {s t : Bytes} (h : Body s t) : ∀ {k : Nat} {r : R} {acc : Bytes}, r.file = s → acc.length + t.length < 1000 → s.length ≤ k →
    ∃ r', lineText k r acc = .ok (r', acc ++ t) ∧ r'.feof = true := by
  induction h with
  | nil =>
    intro k r acc hr _ _
    refine ⟨{ r with feof := true }, ?_, rfl⟩
    unfold lineText
    rw [loadline_end hr, bind_ok]
    simp
  | cons l x s t hl hx _ ih =>
    intro k r acc hr ha hk
    simp only [List.length_append, List.length_cons] at ha hk
    have hx1 : 1 ≤ x.length := by rcases hx with rfl | rfl <;> simp
    obtain ⟨k, rfl⟩ : ∃ j, k = j + 1 := ⟨k - 1, by omega⟩
    obtain ⟨r', e1, e2⟩ := ih (k := k) (r := { r with file := s, linebuf := l ++ [10] }) (acc := acc ++ (l ++ [10])) rfl (by simp; omega) (by omega)
    refine ⟨r', ?_, e2⟩
    unfold lineText
    rw [loadline_line hl.1 hx (by omega) hr, bind_ok]
    simp only [if_true]
    rw [textLoop_text hl (.inr rfl) rfl (by simp; omega), e1]
    simp

theorem lineText_plain {s t l : Bytes} (h : Body s t) (hl : TextLine l) (hn : l ≠ []) : ∀ {k : Nat} {r : R} {acc : Bytes}, r.file = s ++ l → acc.length + (t ++ l).length < 1000 →
    (s ++ l).length ≤ k → ∃ r', lineText k r acc = .ok (r', acc ++ (t ++ l)) ∧ r'.feof = true := by
  induction h with
  | nil =>
    intro k r acc hr ha hk
    have hp := List.length_pos_iff.mpr hn
    simp only [List.nil_append] at ha hk
    obtain ⟨k, rfl⟩ : ∃ j, k = j + 1 := ⟨k - 1, by omega⟩
    refine ⟨{ r with file := [], feof := true, linebuf := l }, ?_, rfl⟩
    unfold lineText
    rw [loadline_last hl.1 hn (by omega) hr, bind_ok]
    simp only [if_true]
    rw [textLoop_text (x := []) hl (.inl rfl) (by simp) (by simpa using ha)]
    unfold lineText
    rw [loadline_end rfl, bind_ok]
    simp
  | cons m x s t hm hx _ ih =>
    intro k r acc hr ha hk
    simp only [List.length_append, List.length_cons] at ha hk
    have hx1 : 1 ≤ x.length := by rcases hx with rfl | rfl <;> simp
    obtain ⟨k, rfl⟩ : ∃ j, k = j + 1 := ⟨k - 1, by omega⟩
    obtain ⟨r', e1, e2⟩ := ih (k := k) (r := { r with file := s ++ l, linebuf := m ++ [10] }) (acc := acc ++ (m ++ [10])) rfl (by simp; omega) (by simp; omega)
    refine ⟨r', ?_, e2⟩
    unfold lineText
    rw [loadline_line (s := s ++ l) hm.1 hx (by omega) (by rw [hr]; simp), bind_ok]
    simp only [if_true]
    rw [textLoop_text hm (.inr rfl) rfl (by simp; omega), e1]
    simp

theorem lineText_last {s t : Bytes} (h : Last s t) {k : Nat} {r : R} (hr : r.file = s) (ht : t.length < 1000) (hk : s.length ≤ k) :
    ∃ r', lineText k r [] = .ok (r', t) ∧ r'.feof = true := by
  cases h with
  | ended _ _ hb _ =>
    obtain ⟨r', e1, e2⟩ := lineText_end hb (k := k) (acc := []) hr (by simpa using ht) hk
    exact ⟨r', by simpa using e1, e2⟩
  | plain s t l hb hl hn =>
    obtain ⟨r', e1, e2⟩ := lineText_plain hb hl hn (k := k) (acc := []) hr (by simpa using ht) hk
    exact ⟨r', by simpa using e1, e2⟩

/-! ### Times -/

theorem stamp_space {c : UInt8} (h : (48 ≤ c ∧ c ≤ 57) ∨ c = 58 ∨ c = 44) : Strings.isspace c = false ∧ c ≠ 10 ∧ c ≠ 13 ∧ c ≠ 0 := by
  refine ⟨?_, ?_, ?_, ?_⟩
  · rw [← Bool.not_eq_true, space_iff]
    intro hs
    simp only [Space, List.mem_cons, List.not_mem_nil, or_false] at hs
    rcases hs with rfl | rfl | rfl | rfl | rfl | rfl <;> exact absurd h (by decide)
  all_goals rintro rfl; exact absurd h (by decide)

theorem sign_digit {c : UInt8} {s : Bytes} (hc : 48 ≤ c ∧ c ≤ 57) : sign (c :: s) = (false, c :: s) := by
  unfold sign
  split
  · next e => injection e with e _; subst e; exact absurd hc (by decide)
  · next e => injection e with e _; subst e; exact absurd hc (by decide)
  · rfl

theorem scanInt_num {d rest : Bytes} {n : Nat} (h : Decimal d n) (hs : Stops rest) (hn : n < 2 ^ 31) : scanInt (d ++ rest) = .ok (some ((n : Int), rest)) := by
  obtain ⟨h1, h2, h3⟩ := decimal_digits h
  obtain ⟨t1, t2⟩ : (d ++ rest).takeWhile Time.isdigit = d ∧ (d ++ rest).dropWhile Time.isdigit = rest := by
    have ha : ∀ c ∈ d, Time.isdigit c = true := fun c hc => (Time.isdigit_iff c).mpr (h2 c hc)
    have hb : rest.takeWhile Time.isdigit = [] ∧ rest.dropWhile Time.isdigit = rest := by
      cases rest with
      | nil => exact ⟨rfl, rfl⟩
      | cons c rest =>
        have : Time.isdigit c = false := by
          rw [← Bool.not_eq_true, Time.isdigit_iff]; exact hs c rfl
        simp [this]
    rw [List.takeWhile_append_of_pos ha, List.dropWhile_append_of_pos ha, hb.1, hb.2]
    simp
  obtain ⟨c, d', rfl⟩ : ∃ c d', d = c :: d' := by cases d with | nil => exact absurd rfl h1 | cons c d' => exact ⟨c, d', rfl⟩
  have hc := h2 c (by simp)
  have hsp : ((c :: d') ++ rest).dropWhile Strings.isspace = (c :: d') ++ rest := by
    have : Strings.isspace c = false := (stamp_space (.inl hc)).1
    rw [List.cons_append, List.dropWhile_cons, this]; rfl
  unfold scanInt
  simp only [hsp]
  simp only [List.cons_append] at t1 t2 ⊢
  have hv : (c :: d').foldl (fun n d => 10 * n + (d.toNat - 48)) 0 = n := h3
  simp only [sign_digit hc, t1, t2, if_neg h1, hv, Bool.false_eq_true, if_false]
  unfold Time.int
  rw [if_pos (by omega), bind_ok]

theorem scanMark_num {d rest : Bytes} {c : UInt8} {n : Nat} (h : Decimal d n) (hc : ¬ (48 ≤ c ∧ c ≤ 57)) (hn : n < 2 ^ 31) :
    scanMark c (d ++ c :: rest) = .ok (some ((n : Int), rest)) := by
  unfold scanMark
  rw [scanInt_num h (by intro x hx; simp only [List.head?_cons, Option.some.injEq] at hx; subst hx; exact hc) hn, bind_ok]
  simp

theorem parsepos_stamp {s : Bytes} {t : Nat} (h : Stamp s t) (ht : t < 2 ^ 31) : parsepos s = .ok (1000 * (t : Int)) := by
  obtain ⟨a, b, c, d, h, m, sec, ms, h1, h2, h3, h4, rfl, rfl⟩ := h
  unfold parsepos
  rw [show a ++ [58] ++ b ++ [58] ++ c ++ [44] ++ d = a ++ 58 :: (b ++ 58 :: (c ++ 44 :: d)) by simp]
  rw [scanMark_num h1 (by decide) (by omega), bind_ok]
  simp only
  rw [scanMark_num h2 (by decide) (by omega), bind_ok]
  simp only
  rw [scanMark_num h3 (by decide) (by omega), bind_ok]
  simp only
  have := scanInt_num (rest := []) h4 (by intro x hx; cases hx) (show ms < 2 ^ 31 by omega)
  rw [List.append_nil] at this
  rw [this, bind_ok]
  simp only
  unfold position Time.int
  rw [if_pos (by omega), bind_ok, if_pos (by omega), bind_ok, if_pos (by omega), bind_ok, if_pos (by omega), bind_ok, if_pos (by omega), bind_ok, if_pos (by omega), bind_ok]
  congr 1

theorem stamp_bytes {s : Bytes} {t : Nat} (h : Stamp s t) : s ≠ [] ∧ ∀ c ∈ s, (48 ≤ c ∧ c ≤ 57) ∨ c = 58 ∨ c = 44 := by
  obtain ⟨a, b, c, d, _, _, _, _, h1, h2, h3, h4, rfl, _⟩ := h
  refine ⟨by simp, fun x hx => ?_⟩
  simp only [List.mem_append, List.mem_singleton] at hx
  rcases hx with (((((hx | hx) | hx) | hx) | hx) | hx) | hx
  · exact .inl ((decimal_digits h1).2.1 x hx)
  · exact .inr (.inl hx)
  · exact .inl ((decimal_digits h2).2.1 x hx)
  · exact .inr (.inl hx)
  · exact .inl ((decimal_digits h3).2.1 x hx)
  · exact .inr (.inr hx)
  · exact .inl ((decimal_digits h4).2.1 x hx)

theorem scanWord_word {a rest : Bytes} (ha : ∀ c ∈ a, Strings.isspace c = false) (hr : ∀ c, rest.head? = some c → Strings.isspace c = true) (hn : a ≠ []) (hl : a.length ≤ 19) :
    scanWord (a ++ rest) = .ok (a, rest) := by
  have h1 : (a ++ rest).dropWhile Strings.isspace = a ++ rest := by
    cases a with
    | nil => exact absurd rfl hn
    | cons c a => rw [List.cons_append, List.dropWhile_cons, ha c (by simp)]; rfl
  have hb : rest.takeWhile (fun c => !Strings.isspace c) = [] ∧ rest.dropWhile (fun c => !Strings.isspace c) = rest := by
    cases rest with
    | nil => exact ⟨rfl, rfl⟩
    | cons c rest => simp [hr c rfl]
  have hp : ∀ c ∈ a, (!Strings.isspace c) = true := fun c hc => by rw [ha c hc]; rfl
  unfold scanWord
  rw [h1]
  simp only
  rw [List.takeWhile_append_of_pos hp, List.dropWhile_append_of_pos hp, hb.1, hb.2]
  simp only [List.append_nil]
  rw [if_neg (by omega)]

theorem scanRange_times {a b : Bytes} {x y : Nat} (ha : Stamp a x) (hb : Stamp b y) (h1 : a.length ≤ 19) (h2 : b.length ≤ 19) :
    scanRange (a ++ cstr " --> " ++ b) = .ok (a, b) := by
  have hc : cstr " --> " = [32, 45, 45, 62, 32] := by decide +kernel
  have hd : cstr "-->" = [45, 45, 62] := by decide +kernel
  obtain ⟨na, ba⟩ := stamp_bytes ha
  obtain ⟨nb, bb⟩ := stamp_bytes hb
  unfold scanRange
  rw [hc, List.append_assoc, scanWord_word (fun c hc => (stamp_space (ba c hc)).1) (by intro c h; simp at h; subst h; decide) na h1, bind_ok]
  simp only
  have e1 : ([32, 45, 45, 62, 32] ++ b).dropWhile Strings.isspace = [45, 45, 62, 32] ++ b := by
    rw [List.cons_append, List.dropWhile_cons, show Strings.isspace 32 = true by decide, if_pos rfl, List.cons_append, List.dropWhile_cons, show Strings.isspace 45 = false by decide]
    rfl
  rw [e1, hd, if_pos ⟨na, by simp [List.isPrefixOf]⟩]
  have e2 : scanWord (([45, 45, 62, 32] ++ b).drop 3) = .ok (b, []) := by
    show scanWord (32 :: b) = _
    have := scanWord_word (a := b) (rest := []) (fun c hc => (stamp_space (bb c hc)).1) (by intro c h; cases h) nb h2
    rw [List.append_nil] at this
    rw [← this]
    unfold scanWord
    rw [List.dropWhile_cons, show Strings.isspace 32 = true by decide, if_pos rfl]
  rw [e2, bind_ok]

/-! ### Trimming -/

theorem endSpace_space {c : UInt8} (h : EndSpace c) : Space c := by
  simp only [EndSpace, Space, List.mem_cons, List.not_mem_nil, or_false] at h ⊢
  rcases h with rfl | rfl | rfl | rfl <;> simp

theorem leftSpaces_append {l s : Bytes} (h : ∀ c ∈ l, Space c) : Strings.leftSpaces (l ++ s) = l.length + Strings.leftSpaces s := by
  induction l with
  | nil => simp
  | cons c l ih =>
    rw [List.cons_append, Strings.leftSpaces, if_pos ((space_iff c).mpr (h c (by simp))), ih fun c hc => h c (by simp [hc]), List.length_cons]
    omega

theorem trim_eq {s o : Bytes} (h : Trimmed s o) : Strings.trim s = o := by
  obtain ⟨l, r, rfl, h1, h2, h3, h4⟩ := h
  have hdrop : ∀ s : Bytes, (if Strings.leftSpaces s > 0 then s.drop (Strings.leftSpaces s) else s) = s.drop (Strings.leftSpaces s) := by
    intro s
    split
    · rfl
    · next h => rw [show Strings.leftSpaces s = 0 by omega]; rfl
  unfold Strings.trim
  simp only
  rw [hdrop]
  cases o with
  | nil =>
    rw [List.append_nil, leftSpaces_append h1]
    have : Strings.leftSpaces r = r.length := by
      have := leftSpaces_append (s := []) fun c hc => endSpace_space (h2 c hc)
      simpa [Strings.leftSpaces] using this
    rw [this, ← List.length_append, List.drop_length]
    rfl
  | cons c o =>
    rw [List.append_assoc, leftSpaces_append h1]
    have : Strings.leftSpaces ((c :: o) ++ r) = 0 := by
      rw [List.cons_append, Strings.leftSpaces, if_neg]
      rw [space_iff]
      exact h3 c rfl
    rw [this, Nat.add_zero, List.drop_left]
    exact Vtt.rtrim_eq (fun x hx => h2 x hx) (fun x hx => h4 x hx)

theorem trim_line {a b : Bytes} {x y : Nat} (ha : Stamp a x) (hb : Stamp b y) : Strings.trim (a ++ cstr " --> " ++ b ++ [10]) = a ++ cstr " --> " ++ b := by
  obtain ⟨na, ba⟩ := stamp_bytes ha
  obtain ⟨nb, bb⟩ := stamp_bytes hb
  refine trim_eq ⟨[], [10], by simp, by simp, by unfold EndSpace; simp, ?_, ?_⟩
  · intro c hc hs
    cases a with
    | nil => exact na rfl
    | cons d a =>
      simp only [List.cons_append, List.head?_cons, Option.some.injEq] at hc
      subst hc
      have := (stamp_space (ba d (by simp))).1
      rw [(space_iff d).mpr hs] at this; cases this
  · intro c hc hs
    rw [List.getLast?_append_of_ne_nil _ nb] at hc
    have := (stamp_space (bb c (List.mem_of_getLast? hc))).1
    rw [(space_iff c).mpr (endSpace_space hs)] at this; cases this

theorem finish_times {a b t o : Bytes} {x y : Nat} {n : Int} (ha : Stamp a x) (hb : Stamp b y) (hx : x < 2 ^ 31) (hy : y < 2 ^ 31) (h1 : a.length ≤ 19) (h2 : b.length ≤ 19)
    (ht : Trimmed t o) : finish n (a ++ cstr " --> " ++ b ++ [10]) t = .ok { index := n, range := a ++ cstr " --> " ++ b, text := o, begin := 1000 * (x : Int), fin := 1000 * (y : Int) } := by
  unfold finish
  rw [trim_line ha hb, trim_eq ht]
  simp only
  rw [scanRange_times ha hb h1 h2, bind_ok]
  simp only
  rw [parsepos_stamp ha hx, bind_ok, parsepos_stamp hb hy, bind_ok]

/-! ### Blocks -/

/-- What the program sees of a subtitle. -/
def seen (p : Sub × Bytes) : Block := { index := p.1.index, range := p.2, text := p.1.text, begin := 1000 * (p.1.first : Int), fin := 1000 * (p.1.last : Int) }

theorem times_clean {a b : Bytes} {x y : Nat} (ha : Stamp a x) (hb : Stamp b y) : Clean (a ++ cstr " --> " ++ b) := by
  intro c hc
  simp only [List.mem_append] at hc
  rcases hc with (hc | hc) | hc
  · exact (stamp_space ((stamp_bytes ha).2 c hc)).2
  · rw [show cstr " --> " = [32, 45, 45, 62, 32] by decide +kernel] at hc
    simp only [List.mem_cons, List.not_mem_nil, or_false] at hc
    rcases hc with rfl | rfl | rfl | rfl | rfl <;> decide
  · exact (stamp_space ((stamp_bytes hb).2 c hc)).2

theorem readLoaded_eq {r : R} {i a b e s t o : Bytes} {n x y : Nat} {q : R} (hi : Decimal i n) (hn : n < 2 ^ 31) (ha : Stamp a x) (hb : Stamp b y) (hx : x < 2 ^ 31) (hy : y < 2 ^ 31)
    (h1 : a.length ≤ 19) (h2 : b.length ≤ 19) (h3 : a.length + b.length ≤ 33) (he : Eol e) (hl : r.linebuf = i ++ [10]) (hf : r.file = a ++ cstr " --> " ++ b ++ e ++ s) (ht : Trimmed t o)
    (hm : ∃ r', loadline { r with file := s, linebuf := a ++ cstr " --> " ++ b ++ [10] } = .ok (r', true) ∧ textLoop (r'.file.length + 1) r' [] = .ok (q, t)) :
    readLoaded r = .ok (q, seen ({ index := n, first := x, last := y, text := o }, a ++ cstr " --> " ++ b)) := by
  obtain ⟨r', m1, m2⟩ := hm
  have hc5 : (cstr " --> ").length = 5 := by decide +kernel
  unfold readLoaded
  rw [hl, parse_index hi hn, bind_ok, loadline_line (times_clean ha hb) he (by simp only [List.length_append, hc5]; omega) hf, bind_ok]
  simp only
  rw [if_neg (by simp only [List.length_append, List.length_cons, List.length_nil, hc5]; omega), m1, bind_ok]
  simp only
  rw [m2, bind_ok]
  simp only
  rw [finish_times ha hb hx hy h1 h2 ht, bind_ok]
  rfl

theorem lineText_more {k : Nat} {r r' : R} {x : R × Bytes} (h : loadline r = .ok (r', true)) (hx : lineText k r [] = .ok x) : textLoop k r' [] = .ok x := by
  unfold lineText at hx
  rw [h, bind_ok] at hx
  simpa using hx

theorem text_next {s t i e rest : Bytes} {n : Nat} (h : Body s t) (h1 : Decimal i n) (h2 : 0 < n) (h3 : n < 2 ^ 31) (h4 : i.length ≤ 4094) (h5 : Eol e) {r : R}
    (hr : r.file = s ++ (i ++ e ++ rest)) (ht : t.length < 1000) :
    ∃ r', loadline r = .ok (r', true) ∧ textLoop (r'.file.length + 1) r' [] = .ok ({ r with file := rest, linebuf := i ++ [10] }, t) := by
  by_cases hs : s = []
  · have ht0 : t = [] := by
      cases h with
      | nil => rfl
      | cons l x s t hl hx _ => exact absurd hs (by rcases hx with rfl | rfl <;> simp)
    subst hs ht0
    · have hl := loadline_line (decimal_clean h1) h5 h4 hr
      refine ⟨_, hl, lineText_more hl ?_⟩
      have := lineText_next .nil (k := rest.length + 1) (r := r) (acc := []) h1 h2 h3 h4 h5 hr (by simp) (by simp)
      simpa using this
  · cases h with
    | nil => exact absurd rfl hs
    | cons l x s t hl hx hb =>
      have hx1 : 1 ≤ x.length := by rcases hx with rfl | rfl <;> simp
      have ht' := ht
      simp only [List.length_append, List.length_cons] at ht'
      have hload := loadline_line (r := r) (s := s ++ (i ++ e ++ rest)) hl.1 hx (by omega) (by rw [hr]; simp)
      refine ⟨_, hload, ?_⟩
      rw [textLoop_text hl (.inr rfl) rfl (by simp; omega)]
      have hi : 0 < i.length := List.length_pos_iff.mpr (decimal_digits h1).1
      rw [lineText_next hb h1 h2 h3 h4 h5 rfl (by simp; omega) (by simp; omega)]
      simp

theorem text_last {s t : Bytes} (h : Last s t) {r : R} (hr : r.file = s) (ht : t.length < 1000) :
    ∃ r' q, loadline r = .ok (r', true) ∧ textLoop (r'.file.length + 1) r' [] = .ok (q, t) ∧ q.feof = true := by
  cases h with
  | ended _ _ hb hs =>
    cases hb with
    | nil => exact absurd rfl hs
    | cons l x s t hl hx hb =>
      have ht' := ht
      simp only [List.length_append, List.length_cons] at ht'
      have hload := loadline_line (r := r) (s := s) hl.1 hx (by omega) hr
      obtain ⟨q, e1, e2⟩ := lineText_end hb (k := s.length) (r := { r with file := s, linebuf := l ++ [10] }) (acc := [] ++ (l ++ [10])) rfl (by simp; omega) (Nat.le_refl _)
      refine ⟨_, q, hload, ?_, e2⟩
      rw [textLoop_text hl (.inr rfl) rfl (by simp; omega), e1]
      simp
  | plain s t l hb hl hn =>
    cases hb with
    | nil =>
      simp only [List.nil_append] at hr ht ⊢
      have hload := loadline_last (r := r) hl.1 hn (by omega) hr
      refine ⟨_, { r with file := [], feof := true, linebuf := l }, hload, ?_, rfl⟩
      rw [textLoop_text (x := []) hl (.inl rfl) (by simp) (by simpa using ht)]
      unfold lineText
      rw [loadline_end rfl, bind_ok]
      simp
    | cons m x s t hm hx hb =>
      have ht' := ht
      simp only [List.length_append, List.length_cons] at ht'
      have hload := loadline_line (r := r) (s := s ++ l) hm.1 hx (by omega) (by rw [hr]; simp)
      obtain ⟨q, e1, e2⟩ := lineText_plain hb hl hn (k := (s ++ l).length) (r := { r with file := s ++ l, linebuf := m ++ [10] }) (acc := [] ++ (m ++ [10])) rfl (by simp; omega) (Nat.le_refl _)
      refine ⟨_, q, hload, ?_, e2⟩
      rw [textLoop_text hm (.inr rfl) rfl (by simp; omega), e1]
      simp

/-- A file of subtitles starts with a number; the rest of it has the same subtitles. -/
theorem subs_number {f : Bytes} {bs : List (Sub × Bytes)} (h : Subs f bs) : ∃ i e rest n, Decimal i n ∧ 0 < n ∧ n < 2 ^ 31 ∧ i.length ≤ 4094 ∧ Eol e ∧ f = i ++ e ++ rest ∧
    ∀ (k : Nat) (r : R), bs.length < k → r.feof = false → r.line_loaded = true → r.linebuf = i ++ [10] → r.file = rest → readLoop k r = .ok (bs.map seen) := by
  induction h with
  | last i r line s t b hi hr hs ht ho =>
    obtain ⟨bi, bf, bl, bt⟩ := b
    dsimp only at hi hr ho
    cases hi with
    | mk i e n h1 h2 h3 h4 h5 =>
    cases hr with
    | mk a c x f l a1 a2 a3 a4 a5 a6 a7 a8 =>
      refine ⟨i, e, _, _, h1, h2, h3, h4, h5, by simp only [List.append_assoc]; rfl, ?_⟩
      intro k r hk e1 e2 e3 e4
      obtain ⟨k, rfl⟩ : ∃ j, k = j + 2 := ⟨k - 2, by simp at hk; omega⟩
      obtain ⟨r', q, l1, l2, l3⟩ := text_last hs (r := { r with file := s, linebuf := a ++ cstr " --> " ++ c ++ [10] }) rfl ht
      have := readLoaded_eq (e := x) (s := s) h1 h3 a1 a2 a3 a4 a5 a6 a7 a8 e3 (by rw [e4]; simp) ho ⟨r', l1, l2⟩
      rw [readLoop, readblock, e1, if_neg (by decide), if_pos e2, this, bind_ok, bind_ok]
      simp only
      rw [readLoop, readblock, l3, if_pos rfl, bind_ok, bind_ok]
      rfl
  | cons i r line s t rest b bs hi hr hs ht ho _ ih =>
    obtain ⟨bi, bf, bl, bt⟩ := b
    dsimp only at hi hr ho
    obtain ⟨i', e', rest', n', g1, g2, g3, g4, g5, rfl, g7⟩ := ih
    cases hi with
    | mk i e n h1 h2 h3 h4 h5 =>
    cases hr with
    | mk a c x f l a1 a2 a3 a4 a5 a6 a7 a8 =>
      refine ⟨i, e, _, _, h1, h2, h3, h4, h5, by simp only [List.append_assoc]; rfl, ?_⟩
      intro k r hk e1 e2 e3 e4
      obtain ⟨k, rfl⟩ : ∃ j, k = j + 1 := ⟨k - 1, by simp at hk; omega⟩
      obtain ⟨r', l1, l2⟩ := text_next hs g1 g2 g3 g4 g5 (r := { r with file := s ++ (i' ++ e' ++ rest'), linebuf := a ++ cstr " --> " ++ c ++ [10] }) rfl ht
      have := readLoaded_eq (e := x) (s := s ++ (i' ++ e' ++ rest')) h1 h3 a1 a2 a3 a4 a5 a6 a7 a8 e3 (by rw [e4]; simp) ho ⟨r', l1, l2⟩
      rw [readLoop, readblock, e1, if_neg (by decide), if_pos e2, this, bind_ok, bind_ok]
      simp only
      rw [g7 k { file := rest', feof := r.feof, linebuf := i' ++ [10], line_loaded := r.line_loaded } (by simp at hk; omega) e1 e2 rfl rfl, bind_ok]
      rfl

theorem readAll_subs {f : Bytes} {bs : List (Sub × Bytes)} (h : Subs f bs) {k : Nat} (hk : bs.length < k) : readAll k f = .ok (bs.map seen) := by
  obtain ⟨i, e, rest, n, h1, h2, h3, h4, h5, rfl, h7⟩ := subs_number h
  have := h7 k { file := rest, feof := false, linebuf := i ++ [10], line_loaded := true } hk rfl rfl rfl rfl
  rw [← this]
  obtain ⟨k, rfl⟩ : ∃ j, k = j + 1 := ⟨k - 1, by omega⟩
  unfold readAll
  rw [readLoop, readLoop, readblock, readblock, if_neg (by exact (by decide : ¬ false = true)), if_neg (by exact (by decide : ¬ false = true)), if_neg (by exact (by decide : ¬ false = true)), if_pos (by rfl), loadline_line (decimal_clean h1) h5 h4 rfl, bind_ok]

/-! ### Writing -/

theorem field_length {w k : Nat} {s : Bytes} {n : Nat} (h : Field w s n) (hn : n < 10 ^ k) : s.length ≤ max w k := by
  obtain ⟨h1, _, h3⟩ := h
  by_cases hw : w < s.length
  · obtain ⟨_, hd, hv⟩ := (Opt.decimal_iff _ _).mp h1
    cases s with
    | nil => simp
    | cons c s =>
      have := Time.lead_val c s (by rw [Time.isdigit_eq]; exact hd) (by intro hc; exact h3 hw (by rw [hc]; rfl))
      rw [Time.val_number, hv] at this
      have hlt : 10 ^ s.length < 10 ^ k := Nat.lt_of_le_of_lt this hn
      have := (Nat.pow_lt_pow_iff_right (by decide : 1 < 10)).mp hlt
      simp only [List.length_cons]
      omega
  · omega

theorem durText_stamp {x : Nat} (hx : x < 2 ^ 31) : ∃ s, Time.dur_fmt (1000 * (x : Int)) 20 .hhmmssms = .ok (s, true) ∧ Stamp s x ∧ s.length ≤ 13 := by
  obtain ⟨a, b, c, d, h, f1, f2, f3, f4⟩ := Props.C98_hhmmssms_partial (1000 * x) (by omega)
  have l1 := field_length (k := 3) f1 (by omega)
  have l2 := field_length (k := 2) f2 (by omega)
  have l3 := field_length (k := 2) f3 (by omega)
  have l4 := field_length (k := 3) f4 (by omega)
  have e : ((1000 * x : Nat) : Int) = 1000 * (x : Int) := by omega
  rw [e] at h
  have hl : (a ++ [58] ++ b ++ [58] ++ c ++ [44] ++ d).length ≤ 13 := by simp; omega
  refine ⟨_, ?_, ⟨a, b, c, d, _, _, _, _, f1.1, f2.1, f3.1, f4.1, rfl, by omega⟩, hl⟩
  unfold Time.dur_fmt
  rw [h, bind_ok, decide_eq_true (by omega)]
  unfold Time.cut
  rw [List.take_of_length_le (by omega)]

theorem body_append {s t s' t' : Bytes} (h : Body s t) (h' : Body s' t') : Body (s ++ s') (t ++ t') := by
  induction h with
  | nil => exact h'
  | cons l e s t hl he _ ih =>
    have := Body.cons l e _ _ hl he ih
    simpa using this

theorem textLine_nil : TextLine [] := ⟨by simp, [], [], 0, rfl, .inl ⟨rfl, rfl⟩, (by intro c hc; cases hc), by decide, .inl rfl⟩

theorem printblock_sub {b : Sub} (h : Writable b) (old : Bytes) : ∃ i r line, printblock (seen (b, old)) = .ok (i ++ r ++ (b.text ++ [10] ++ [10])) ∧ Number i b.index ∧ Times r line b.first b.last ∧
    Body (b.text ++ [10] ++ [10]) (b.text ++ [10] ++ [10]) ∧ (b.text ++ [10] ++ [10]).length < 1000 ∧ Trimmed (b.text ++ [10] ++ [10]) b.text := by
  obtain ⟨h1, h2, h3, h4, h5, h6, h7, h8⟩ := h
  obtain ⟨x, x1, x2, x3⟩ := durText_stamp h3
  obtain ⟨y, y1, y2, y3⟩ := durText_stamp h4
  have hf := Time.fmtInt_field 0 b.index
  have hl := field_length (k := 10) hf (by omega)
  refine ⟨Time.fmtInt 0 b.index ++ [10], x ++ cstr " --> " ++ y ++ [10], x ++ cstr " --> " ++ y, ?_, .mk _ _ _ hf.1 h1 h2 (by omega) (.inl rfl),
    .mk _ _ _ _ _ x2 y2 h3 h4 (by omega) (by omega) (by omega) (.inl rfl), ?_, by simp; omega, ?_⟩
  · unfold printblock seen
    simp only
    rw [x1, bind_ok]
    simp only
    rw [y1, bind_ok]
    simp
  · exact body_append h6 (.cons [] [10] [] [] textLine_nil (.inl rfl) .nil)
  · exact ⟨[], [10, 10], by simp, by simp, by simp [EndSpace], h7, h8⟩

theorem printAll_subs (bs : List Sub) (h : ∀ b ∈ bs, Writable b) (hn : bs ≠ []) (old : Bytes) :
    ∃ f lines, printAll (bs.map fun b => seen (b, old)) = .ok f ∧ Subs f (bs.zip lines) ∧ lines.length = bs.length := by
  induction bs with
  | nil => exact absurd rfl hn
  | cons b bs ih =>
    obtain ⟨i, r, line, p1, p2, p3, p4, p5, p6⟩ := printblock_sub (h b (by simp)) old
    by_cases hb : bs = []
    · subst hb
      refine ⟨_, [line], ?_, .last i r line _ _ b p2 p3 (.ended _ _ p4 (by simp)) p5 p6, rfl⟩
      rw [List.map_cons, printAll, p1, bind_ok, List.map_nil, printAll, bind_ok, List.append_nil]
    · obtain ⟨f, lines, e1, e2, e3⟩ := ih (fun b hb => h b (by simp [hb])) hb
      refine ⟨_, line :: lines, ?_, .cons i r line _ _ f b _ p2 p3 p4 p5 p6 e2, by simp [e3]⟩
      rw [List.map_cons, printAll, p1, bind_ok, e1, bind_ok]

end Che.Lib.Srt
