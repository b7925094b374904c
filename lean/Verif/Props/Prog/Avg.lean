import Verif.Model.Prog.Avg
import Verif.Spec.Prog.Avg
import Verif.Proofs.Lib.Vtt
import Verif.Proofs.Lib.Srt
import Verif.Props.Lib.Time

/-!
C169: what avg prints.
-/
namespace Che.Props
open Che.Lib Che.Prog.Avg Che.Spec.Avg Che.Spec.Time Che.Spec.Opt

private theorem bind_ok {α β : Type} (a : α) (f : α → Res String β) : (Res.ok a : Res String α).bind f = f a := rfl

private theorem digits_len : ∀ (k n : Nat), n < 10 ^ (k + 1) → (Time.digits n).length ≤ k + 1
  | 0, n, h => by rw [Time.digits, if_pos (by simpa using h)]; simp
  | k + 1, n, h => by
    rw [Time.digits]
    split
    · simp
    · have := digits_len k (n / 10) (by rw [Nat.div_lt_iff_lt_mul (by omega)]; rw [Nat.pow_succ] at h; exact h)
      simp; omega

private theorem fmt_len {w : Nat} {n : Nat} (hw : w ≤ 3) (h : (n : Int) < 2 ^ 31) : (Time.fmtInt w n).length ≤ 10 := by
  have := digits_len 9 n (by omega)
  unfold Time.fmtInt
  rw [if_neg (by omega)]
  simp
  omega

private theorem row_len {l : Bytes} {r : Time.Iso × Int} (h : RowText l r) : (Time.isoText r.1).length < 100 := by
  obtain ⟨h1, h2, _, _, _⟩ := h
  obtain ⟨_, _, _, _, _, _, _, y, mo, d, ho, mi, se, ms, zh, zm, _, _, _, _, _, _, _⟩ := h1
  obtain ⟨a1, a2, a3, a4, a5, a6, a7, _, _⟩ := h2
  have b1 := fmt_len (w := 0) (by omega) a1
  have b2 := fmt_len (w := 2) (by omega) a2
  have b3 := fmt_len (w := 2) (by omega) a3
  have b4 := fmt_len (w := 2) (by omega) a4
  have b5 := fmt_len (w := 2) (by omega) a5
  have b6 := fmt_len (w := 2) (by omega) a6
  have b7 := fmt_len (w := 3) (by omega) a7
  simp only [Time.isoText, List.length_append, List.length_cons, List.length_nil]
  omega

private theorem scan_neg {d : Bytes} {n : Nat} (h : Decimal d n) (hn : n ≤ 2 ^ 31) : Srt.scanInt (45 :: (d ++ [10])) = .ok (some (-(n : Int), [10])) := by
  obtain ⟨h1, h2, h3⟩ := Srt.decimal_digits h
  have ha : ∀ c ∈ d, Time.isdigit c = true := fun c hc => (Time.isdigit_iff c).mpr (h2 c hc)
  have t1 : (d ++ [10]).takeWhile Time.isdigit = d := by rw [List.takeWhile_append_of_pos ha]; simp [Time.isdigit]
  have t2 : (d ++ [10]).dropWhile Time.isdigit = [10] := by rw [List.dropWhile_append_of_pos ha]; simp [Time.isdigit]
  have hv : d.foldl (fun n d => 10 * n + (d.toNat - 48)) 0 = n := h3
  have hsp : (45 :: (d ++ [10])).dropWhile Strings.isspace = 45 :: (d ++ [10]) := by
    rw [List.dropWhile_cons, show Strings.isspace 45 = false by decide]; rfl
  unfold Srt.scanInt
  simp only [hsp, Srt.sign, t1, t2, if_neg h1, hv, if_true]
  unfold Time.int
  rw [if_pos (by omega), bind_ok]

private theorem scan_int {d : Bytes} {z : Int} (h : IntText d z) : Srt.scanInt (d ++ [10]) = .ok (some (z, [10])) := by
  obtain ⟨h, hn⟩ | ⟨h, hn⟩ := h
  · exact Srt.scanInt_num h (by intro c hc; simp only [List.head?_cons, Option.some.injEq] at hc; subst hc; decide) hn
  · exact scan_neg h hn

private theorem int_bytes {d : Bytes} {z : Int} (h : IntText d z) : ∀ c ∈ d, c ≠ 0 ∧ c ≠ 10 := by
  have hd : ∀ {d : Bytes} {n : Nat}, Decimal d n → ∀ c ∈ d, c ≠ 0 ∧ c ≠ 10 := by
    intro d n h c hc
    have := (Srt.decimal_digits h).2.1 c hc
    constructor <;> (rintro rfl; exact absurd this (by decide))
  obtain ⟨h, hn⟩ | ⟨h, hn⟩ := h
  · exact hd h
  · intro c hc
    rcases List.mem_cons.mp hc with rfl | hc
    · decide
    · exact hd h c hc

private theorem read_row {l : Bytes} {r : Time.Iso × Int} (h : RowText l r) (rest : Bytes) :
    l ++ rest ≠ [] ∧ (Vtt.fgets 4095 (l ++ rest)).2 = rest ∧ parse_line (Vtt.str (Vtt.fgets 4095 (l ++ rest)).1) = .ok r := by
  obtain @⟨t, d, v, n, h1, h2, h3, h4, h6⟩ := h
  have hd' := int_bytes h4
  have e : Vtt.fgets 4095 (t ++ [9] ++ d ++ [10] ++ rest) = (t ++ [9] ++ d ++ [10], rest) := by
    have := Vtt.fgets_line (n := 4095) (l := t ++ [9] ++ d) (s := rest) (by
      intro hx
      simp only [List.mem_append, List.mem_singleton] at hx
      rcases hx with (hx | hx) | hx
      · exact (h3 _ hx).2.2 rfl
      · exact absurd hx (by decide)
      · exact (hd' _ hx).2 rfl) h6
    rw [← this]; simp
  refine ⟨by simp, by rw [e], ?_⟩
  rw [e, Srt.str_clean (by
    intro c hx
    simp only [List.mem_append, List.mem_singleton] at hx
    rcases hx with ((hx | rfl) | hx) | rfl
    · exact (h3 _ hx).1
    · decide
    · exact (hd' _ hx).1
    · decide)]
  have ht : ∀ c ∈ t, (decide (c ≠ 9)) = true := fun c hc => by simpa using (h3 c hc).2.1
  unfold parse_line
  rw [List.append_assoc, List.append_assoc, List.takeWhile_append_of_pos ht, List.dropWhile_append_of_pos ht]
  simp only [List.cons_append, List.nil_append, List.takeWhile_cons, List.dropWhile_cons, ne_eq, not_true_eq_false, decide_false, Bool.false_eq_true, if_false, List.append_nil]
  rw [(C99_parse_partial t v).mpr ⟨h1, h2⟩, bind_ok,
    scan_int h4, bind_ok]

private theorem fill_rows : ∀ (w : Nat) {s : Bytes} {rows : List (Time.Iso × Int)}, RowTexts s rows →
    (rows.length < w → fill w s = .ok none) ∧
    (w ≤ rows.length → ∃ s', fill w s = .ok (some (rows.take w, s')) ∧ RowTexts s' (rows.drop w))
  | 0, s, rows, h => ⟨fun x => absurd x (by omega), fun _ => ⟨s, by simp [fill], by simpa using h⟩⟩
  | w + 1, _, _, .nil => ⟨fun _ => by rw [fill, if_pos rfl], fun x => absurd x (by simp)⟩
  | w + 1, _, _, .cons (s := s) (r := r) (rs := rs) hl hs => by
    obtain ⟨a1, a2, a3⟩ := read_row hl s
    obtain ⟨b1, b2⟩ := fill_rows w hs
    constructor
    · intro hw
      rw [fill, if_neg a1, a3, a2, bind_ok, b1 (by simpa using hw)]; rfl
    · intro hw
      obtain ⟨s', c1, c2⟩ := b2 (by simpa using hw)
      refine ⟨s', ?_, by simpa using c2⟩
      rw [fill, if_neg a1, a3, a2, bind_ok, c1]; rfl

private theorem slide_rows (quot : Int → Nat → Bytes) : ∀ {s : Bytes} {rows : List (Time.Iso × Int)}, RowTexts s rows →
    ∀ (k : Nat) (win : List (Time.Iso × Int)), rows.length ≤ k → win ≠ [] →
    slide quot k win s = .ok ((List.range rows.length).flatMap fun i => emit quot (((win ++ rows).drop (i + 1)).take win.length))
  | _, _, .nil, k, win, _, _ => by cases k <;> simp [slide]
  | _, _, .cons (s := s) (r := r) (rs := rs) hl hs, 0, win, hk, _ => absurd hk (by simp)
  | _, _, .cons (s := s) (r := r) (rs := rs) hl hs, k + 1, win, hk, hw => by
    obtain ⟨a1, a2, a3⟩ := read_row hl s
    obtain ⟨x, win, rfl⟩ := List.exists_cons_of_ne_nil hw
    rw [slide, if_neg a1, a3, a2, bind_ok, slide_rows quot hs k (shift (x :: win) r) (by simpa using hk) (by simp [shift]), bind_ok,
      show (r :: rs).length = rs.length + 1 from rfl, List.range_succ_eq_map, List.flatMap_cons, List.flatMap_map]
    have e : shift (x :: win) r = win ++ [r] := rfl
    rw [e]
    congr 2
    · have : ((x :: win ++ r :: rs).drop (0 + 1)).take (x :: win).length = win ++ [r] := by
        rw [show (x :: win ++ r :: rs).drop (0 + 1) = (win ++ [r]) ++ rs by simp, List.take_left' (by simp)]
      rw [this]
    · simp

private theorem sum_eq (l : List (Time.Iso × Int)) : Che.Prog.Avg.sum l = (l.map Prod.snd).sum := by
  have : ∀ (l : List (Time.Iso × Int)) (a : Int), l.foldl (fun s r => s + r.2) a = a + (l.map Prod.snd).sum := by
    intro l
    induction l with
    | nil => simp
    | cons x l ih => intro a; simp [ih]; omega
  have h := this l 0
  rw [Int.zero_add] at h
  exact h

private theorem rows_len : ∀ {s : Bytes} {rows : List (Time.Iso × Int)}, RowTexts s rows → rows.length ≤ s.length ∧ ∀ r ∈ rows, (Time.isoText r.1).length < 100
  | _, _, .nil => by simp
  | _, _, .cons (l := l) (s := s) hl hs => by
    obtain ⟨a, b⟩ := rows_len hs
    have h := (read_row hl []).1
    have : 0 < l.length := List.length_pos_iff.mpr (by simpa using h)
    refine ⟨by simp; omega, ?_⟩
    intro r hr
    rcases List.mem_cons.mp hr with rfl | hr
    · exact row_len hl
    · exact b r hr

private theorem emit_window (quot : Int → Nat → Bytes) (w : Nat) (hw : 0 < w) (rows : List (Time.Iso × Int)) (i : Nat) (hi : i + w ≤ rows.length)
    (h : ∀ r ∈ rows, (Time.isoText r.1).length < 100) : emit quot ((rows.drop i).take w) = windowLine quot w rows i := by
  have hl : ((rows.drop i).take w).length = w := by simp; omega
  unfold emit windowLine
  have e : ((rows.drop i).take w)[w / 2]? = rows[i + w / 2]? := by
    rw [List.getElem?_take_of_lt (Nat.div_lt_self hw (by omega)), List.getElem?_drop]
  rw [hl, e, sum_eq]
  cases hr : rows[i + w / 2]? with
  | none => rfl
  | some r =>
    have := (C99_format r.1 100).2 (h r (List.mem_of_getElem? hr))
    simp only [this]

/-- C169: with a window of at least one line, a line is printed for each window of consecutive lines of the input. -/
theorem C169_partial (quot : Int → Nat → Bytes) (w : Nat) (hw : 0 < w) {s : Bytes} {rows : List (Time.Iso × Int)} (h : RowTexts s rows) :
    Che.Prog.Avg.main quot w s = .ok ((List.range (rows.length + 1 - w)).flatMap (windowLine quot w rows)) := by
  obtain ⟨b1, b2⟩ := fill_rows w h
  obtain ⟨_, hl⟩ := rows_len h
  unfold Che.Prog.Avg.main
  rw [if_neg (by omega)]
  by_cases hn : rows.length < w
  · rw [b1 hn, bind_ok, show rows.length + 1 - w = 0 by omega]; rfl
  · obtain ⟨s', c1, c2⟩ := b2 (by omega)
    rw [c1, bind_ok]
    simp only
    have hl1 : (rows.take w).length = w := by simp; omega
    rw [slide_rows quot c2 s'.length (rows.take w) (rows_len c2).1 (by intro e; rw [e] at hl1; simp at hl1; omega), bind_ok,
      List.take_append_drop, hl1, List.length_drop,
      show rows.length + 1 - w = (rows.length - w) + 1 by omega, List.range_succ_eq_map, List.flatMap_cons, List.flatMap_map]
    have e0 := emit_window quot w hw rows 0 (by omega) hl
    rw [List.drop_zero] at e0
    rw [e0]
    have e1 : (List.range (rows.length - w)).flatMap (fun i => emit quot ((rows.drop (i + 1)).take w)) =
        (List.range (rows.length - w)).flatMap (fun i => windowLine quot w rows (i + 1)) := by
      rw [List.flatMap_def, List.flatMap_def]
      congr 1
      refine List.map_congr_left fun i hi => ?_
      exact emit_window quot w hw rows (i + 1) (by have := List.mem_range.mp hi; omega) hl
    rw [e1]

/-- C169: a line whose time is not a time stops the program. -/
theorem C169_refused (quot : Int → Nat → Bytes) (w : Nat) (hw : 0 < w) (l rest : Bytes) (h10 : 10 ∉ l) (h0 : ∀ c ∈ l, c ≠ 0) (hl : l.length < 4095)
    (h : ¬ ∃ v, IsoText ((l ++ [10]).takeWhile (· ≠ 9)) v ∧ InRange v) : ∃ m, Che.Prog.Avg.main quot w (l ++ 10 :: rest) = .panic m := by
  have e := Vtt.fgets_line (n := 4095) (s := rest) h10 hl
  obtain ⟨w, rfl⟩ : ∃ k, w = k + 1 := ⟨w - 1, by omega⟩
  rcases C99_refused ((l ++ [10]).takeWhile (· ≠ 9)) with ⟨v, hv⟩ | ⟨m, hm⟩
  · exact absurd ⟨v, (C99_parse_partial _ v).mp hv⟩ h
  · refine ⟨m, ?_⟩
    unfold Che.Prog.Avg.main
    rw [if_neg (by omega), fill, if_neg (by simp), e, Srt.str_clean (by
      intro c hc
      rcases List.mem_append.mp hc with hc | hc
      · exact h0 c hc
      · rw [List.mem_singleton.mp hc]; decide), parse_line, hm]
    rfl

/-- C169 is false of lines without numbers: zero is taken. -/
theorem C169_counterexample_number (quot : Int → Nat → Bytes) : Che.Prog.Avg.main quot 1 (cstr "2024-01-02T03:04:05Z\tx\n") =
    .ok (cstr "2024-01-02T03:04:05.000Z\t" ++ quot 0 1 ++ [10]) := by
  have e : fill 1 (cstr "2024-01-02T03:04:05Z\tx\n") = .ok (some ([(⟨2024, 1, 2, 3, 4, 5, 0, 0, 0⟩, 0)], [])) := by decide +kernel
  have e' : (Time.fmt_iso_iso ⟨2024, 1, 2, 3, 4, 5, 0, 0, 0⟩ 100).1 ++ [9] = cstr "2024-01-02T03:04:05.000Z\t" := by decide +kernel
  unfold Che.Prog.Avg.main
  rw [if_neg (by omega), e, bind_ok]
  simp only [slide, List.length_nil, bind_ok, List.append_nil]
  rw [← e']; rfl

/-- C169 is false of lines without a second column: the number is read from what is left in the buffer. -/
theorem C169_counterexample_column (quot : Int → Nat → Bytes) : Che.Prog.Avg.main quot 1 (cstr "2024-01-02T03:04:05Z\n") =
    .panic "undefined: no second column" := by
  have e : fill 1 (cstr "2024-01-02T03:04:05Z\n") = .panic "undefined: no second column" := by decide +kernel
  unfold Che.Prog.Avg.main
  rw [if_neg (by omega), e]; rfl

example (quot : Int → Nat → Bytes) : Che.Prog.Avg.main quot 2
    (cstr "2024-1-2T3:4:5Z\t10\n2024-1-2T3:4:6Z\t20\n2024-1-2T3:4:7Z\t-5\n") =
    .ok (cstr "2024-01-02T03:04:06.000Z\t" ++ quot 30 2 ++ [10] ++ (cstr "2024-01-02T03:04:07.000Z\t" ++ quot 15 2 ++ [10])) := by
  have e : fill 2 (cstr "2024-1-2T3:4:5Z\t10\n2024-1-2T3:4:6Z\t20\n2024-1-2T3:4:7Z\t-5\n") =
    .ok (some ([(⟨2024, 1, 2, 3, 4, 5, 0, 0, 0⟩, 10), (⟨2024, 1, 2, 3, 4, 6, 0, 0, 0⟩, 20)], cstr "2024-1-2T3:4:7Z\t-5\n")) := by decide +kernel
  have p : parse_line (Vtt.str (Vtt.fgets 4095 (cstr "2024-1-2T3:4:7Z\t-5\n")).1) = .ok (⟨2024, 1, 2, 3, 4, 7, 0, 0, 0⟩, -5) := by decide +kernel
  have p2 : (Vtt.fgets 4095 (cstr "2024-1-2T3:4:7Z\t-5\n")).2 = [] := by decide +kernel
  have p3 : cstr "2024-1-2T3:4:7Z\t-5\n" ≠ [] := by decide +kernel
  have p4 : (cstr "2024-1-2T3:4:7Z\t-5\n").length = 17 + 1 + 1 := by decide +kernel
  have e1 : (Time.fmt_iso_iso ⟨2024, 1, 2, 3, 4, 6, 0, 0, 0⟩ 100).1 ++ [9] = cstr "2024-01-02T03:04:06.000Z\t" := by decide +kernel
  have e2 : (Time.fmt_iso_iso ⟨2024, 1, 2, 3, 4, 7, 0, 0, 0⟩ 100).1 ++ [9] = cstr "2024-01-02T03:04:07.000Z\t" := by decide +kernel
  unfold Che.Prog.Avg.main
  rw [if_neg (by omega), e, bind_ok]
  simp only
  rw [p4, slide, if_neg p3, p, bind_ok, p2, slide, if_pos rfl, bind_ok, bind_ok, List.append_nil, ← e1, ← e2]; rfl

/-- There are such lines. -/
example : RowTexts (cstr "2024-1-2T3:4:5Z\t-10\n") [(⟨2024, 1, 2, 3, 4, 5, 0, 0, 0⟩, -10)] := by
  have h := (C99_parse_partial (cstr "2024-1-2T3:4:5Z") ⟨2024, 1, 2, 3, 4, 5, 0, 0, 0⟩).mp (by decide +kernel)
  have hd : Decimal (cstr "10") 10 := by
    have := Time.digits_decimal 10
    rwa [show Time.digits 10 = cstr "10" by decide +kernel] at this
  have := RowTexts.cons (RowText.mk h.1 h.2 (by decide +kernel) (.neg hd (by omega)) (by decide +kernel)) .nil
  rwa [show cstr "2024-1-2T3:4:5Z" ++ [9] ++ 45 :: cstr "10" ++ [10] ++ [] = cstr "2024-1-2T3:4:5Z\t-10\n" by decide +kernel] at this

end Che.Props
