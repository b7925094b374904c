import Verif.Model.Prog.Multicut
import Verif.Spec.Prog.Multicut

/-!
C164: what multicut prints.
-/
namespace Che.Props
open Che.Lib Che.Prog.Multicut Che.Spec.Multicut

private theorem space_iff (c : UInt8) : Strings.isspace c = true ↔ Blank c := by
  unfold Strings.isspace Blank
  simp only [Bool.or_eq_true, beq_iff_eq, Bool.and_eq_true, decide_eq_true_eq, UInt8.le_iff_toNat_le]
  rfl

private theorem word_nonspace {w : Bytes} (h : Word w) : ∀ c ∈ w, (!Strings.isspace c) = true := by
  intro c hc
  have := (h.2 c hc).1
  rw [← space_iff] at this
  simpa using this

private theorem row_head : ∀ {ws : List Bytes} {t : Bytes}, Row ws t → ∃ c r, t = c :: r ∧ Strings.isspace c = false := by
  intro ws t h
  have key : ∀ w x : Bytes, Word w → ∃ c r, w ++ x = c :: r ∧ Strings.isspace c = false := by
    intro w x hw
    cases w with
    | nil => exact absurd rfl hw.1
    | cons c w => exact ⟨c, w ++ x, rfl, by simpa using word_nonspace hw c List.mem_cons_self⟩
  cases h with
  | last w g h1 _ => exact key w g h1
  | cons w g ws t h1 _ _ _ => rw [List.append_assoc]; exact key w _ h1

private theorem sep_word (w : Bytes) (h : Word w) (g : Bytes) (hg : ∀ c ∈ g, Blank c) (h0 : g ≠ []) (t : Bytes) (ht : t = [] ∨ ∃ c r, t = c :: r ∧ Strings.isspace c = false) :
    sep (w ++ (g ++ t)) = (w, t) := by
  obtain ⟨b, g, rfl⟩ : ∃ b g', g = b :: g' := by
    cases g with
    | nil => exact absurd rfl h0
    | cons b g => exact ⟨b, g, rfl⟩
  have hb : Strings.isspace b = true := (space_iff b).mpr (hg b List.mem_cons_self)
  have h1 : (w ++ (b :: g ++ t)).takeWhile (fun c => !Strings.isspace c) = w := by
    rw [List.takeWhile_append_of_pos (word_nonspace h), List.cons_append, List.takeWhile_cons_of_neg (by simp [hb]), List.append_nil]
  have h2 : (w ++ (b :: g ++ t)).dropWhile (fun c => !Strings.isspace c) = b :: (g ++ t) := by
    rw [List.dropWhile_append_of_pos (word_nonspace h), List.cons_append, List.dropWhile_cons_of_neg (by simp [hb])]
  have h3 : (g ++ t).dropWhile Strings.isspace = t := by
    rw [List.dropWhile_append_of_pos (fun c hc => (space_iff c).mpr (hg c (List.mem_cons_of_mem _ hc)))]
    rcases ht with rfl | ⟨c, r, rfl, hc⟩
    · rfl
    · rw [List.dropWhile_cons_of_neg (by simp [hc])]
  unfold sep
  rw [h1, h2]
  simp only
  rw [h3]

private theorem cols_row {ws : List Bytes} {t : Bytes} (h : Row ws t) : ∀ (k n : Nat), t.length < k → n + ws.length ≤ 101 → colsLoop k n (t ++ [10]) = some ws := by
  induction h with
  | last w g h1 h2 =>
    intro k n hk _
    obtain ⟨k, rfl⟩ : ∃ j, k = j + 1 := ⟨k - 1, by omega⟩
    have e : w ++ g ++ [10] = w ++ ((g ++ [10]) ++ []) := by simp
    rw [colsLoop, e, sep_word w h1 (g ++ [10]) ?_ (by simp) [] (.inl rfl)]
    · rfl
    · intro c hc
      rcases List.mem_append.mp hc with hc | hc
      · exact (h2 c hc).1
      · rw [List.mem_singleton.mp hc]; exact .inr ⟨by decide, by decide⟩
  | cons w g ws t h1 h2 h3 h4 ih =>
    intro k n hk hn
    obtain ⟨k, rfl⟩ : ∃ j, k = j + 1 := ⟨k - 1, by omega⟩
    obtain ⟨c, r, e, hc⟩ := row_head h4
    have hw : ws ≠ [] := by cases h4 <;> simp
    have hwl : 0 < ws.length := List.length_pos_iff.mpr hw
    rw [List.length_cons] at hn
    have e2 : w ++ g ++ t ++ [10] = w ++ (g ++ (t ++ [10])) := by simp
    rw [colsLoop, e2, sep_word w h1 g (fun c hc => (h2 c hc).1) h3 (t ++ [10]) (.inr ⟨c, r ++ [10], by rw [e]; rfl, hc⟩)]
    simp only
    rw [if_neg (by simp), if_neg (by omega), ih k (n + 1) ?_ (by omega)]
    · rfl
    · have : 0 < g.length := List.length_pos_iff.mpr h3
      simp only [List.length_append] at hk
      omega

private theorem row_bytes {ws : List Bytes} {t : Bytes} (h : Row ws t) : ∀ c ∈ t, c ≠ 10 ∧ c ≠ 0 := by
  have hw : ∀ w : Bytes, Word w → ∀ c ∈ w, c ≠ 10 ∧ c ≠ 0 := by
    intro w h c hc
    refine ⟨?_, (h.2 c hc).2⟩
    rintro rfl
    exact (h.2 10 hc).1 (.inr ⟨by decide, by decide⟩)
  have hg : ∀ g : Bytes, Gap g → ∀ c ∈ g, c ≠ 10 ∧ c ≠ 0 := by
    intro g h c hc
    refine ⟨(h c hc).2, ?_⟩
    rintro rfl
    have := (h 0 hc).1
    unfold Blank at this
    revert this
    decide
  induction h with
  | last w g h1 h2 =>
    intro c hc
    rcases List.mem_append.mp hc with hc | hc
    · exact hw w h1 c hc
    · exact hg g h2 c hc
  | cons w g ws t h1 h2 _ _ ih =>
    intro c hc
    rcases List.mem_append.mp hc with hc | hc
    · rcases List.mem_append.mp hc with hc | hc
      · exact hw w h1 c hc
      · exact hg g h2 c hc
    · exact ih c hc

private theorem fgets_row : ∀ (t rest : Bytes) (n : Nat), (∀ c ∈ t, c ≠ 10) → t.length < n → Vtt.fgets n (t ++ (10 :: rest)) = (t ++ [10], rest)
  | [], rest, n + 1, _, _ => by rw [List.nil_append, Vtt.fgets, if_pos rfl]; rfl
  | c :: t, rest, n + 1, h, hl => by
    rw [List.cons_append, Vtt.fgets, if_neg (h c List.mem_cons_self), fgets_row t rest n (fun x hx => h x (List.mem_cons_of_mem _ hx)) (by simpa using hl)]
    rfl

private theorem str_row {t : Bytes} (h : ∀ c ∈ t, c ≠ 10 ∧ c ≠ 0) : Vtt.str (t ++ [10]) = t ++ [10] := by
  unfold Vtt.str
  rw [List.takeWhile_append_of_pos (fun c hc => by simpa using (h c hc).2)]
  rfl

private theorem print_one (ws : List Bytes) (n : Int) : (if 0 ≤ n - 1 ∧ n - 1 < (ws.length : Int) then ws.getD (n - 1).toNat [] else []) = pick ws n := by
  unfold pick
  by_cases h : n ≤ 0
  · rw [if_pos h, if_neg (by omega)]
  · rw [if_neg h]
    rw [show (n - 1).toNat = n.toNat - 1 by omega]
    by_cases h2 : n - 1 < (ws.length : Int)
    · rw [if_pos ⟨by omega, h2⟩, List.getD_eq_getElem?_getD]
    · rw [if_neg (by omega), List.getElem?_eq_none (by omega)]; rfl

private theorem print_next (ws : List Bytes) : ∀ (ns : List Int) (i : Nat), 0 < i → printLoop ws i (ns.map (· - 1)) = (ns.flatMap fun n => [9] ++ pick ws n)
  | [], _, _ => rfl
  | n :: ns, i, hi => by
    rw [List.map_cons, printLoop, print_one, print_next ws ns (i + 1) (by omega), if_pos hi]
    rfl

private theorem intercalate_flat (ws : List Bytes) : ∀ (n : Int) (ns : List Int), [9].intercalate ((n :: ns).map (pick ws)) = pick ws n ++ ns.flatMap fun n => [9] ++ pick ws n
  | n, [] => by simp [List.intercalate]
  | n, m :: ns => by
    have := intercalate_flat ws m ns
    rw [List.flatMap_cons, List.append_assoc, ← this]
    simp [List.intercalate, List.intersperse]

private theorem print_row (ws : List Bytes) (ns : List Int) : printLoop ws 0 (ns.map (· - 1)) ++ [10] = row ns ws := by
  unfold row
  cases ns with
  | nil => rfl
  | cons n ns =>
    rw [intercalate_flat, List.map_cons, printLoop, print_one, print_next ws ns 1 (by decide)]
    rfl

private theorem lines_ok (ns : List Int) : ∀ (ls : List (List Bytes × Bytes)) (k : Nat), (∀ l ∈ ls, Row l.1 l.2 ∧ l.1.length ≤ 100 ∧ l.2.length < 4095) → ls.length ≤ k →
    linesLoop (ns.map (· - 1)) k (ls.flatMap fun l => l.2 ++ [10]) = (ls.flatMap fun l => row ns l.1, 0)
  | [], k, _, _ => by cases k <;> rfl
  | l :: ls, k, h, hk => by
    obtain ⟨k, rfl⟩ : ∃ j, k = j + 1 := ⟨k - 1, by simp at hk; omega⟩
    obtain ⟨h1, h2, h3⟩ := h l List.mem_cons_self
    have hb := row_bytes h1
    have e : (l :: ls).flatMap (fun l => l.2 ++ [10]) = l.2 ++ (10 :: ls.flatMap fun l => l.2 ++ [10]) := by simp
    rw [e, linesLoop, if_neg (by simp), fgets_row l.2 _ 4095 (fun c hc => (hb c hc).1) h3]
    simp only
    have hc : columns (l.2 ++ [10]) = some l.1 := cols_row h1 _ 1 (by simp; omega) (by omega)
    rw [str_row hb, hc]
    simp only
    rw [lines_ok ns ls k (fun x hx => h x (List.mem_cons_of_mem _ hx)) (by simpa using hk), print_row]
    rfl

/-- multicut prints for every line the words with the numbers that are its arguments, in the order of the arguments, with tabs between them; there is nothing for numbers of words that are not there. -/
theorem C164_partial (ns : List Int) (hn : ns.length ≤ 10) (ls : List (List Bytes × Bytes)) (h : ∀ l ∈ ls, Row l.1 l.2 ∧ l.1.length ≤ 100 ∧ l.2.length < 4095) :
    main ns (ls.flatMap fun l => l.2 ++ [10]) = (ls.flatMap fun l => row ns l.1, 0) := by
  unfold main
  rw [if_neg (by omega)]
  refine lines_ok ns ls _ h ?_
  clear h
  induction ls with
  | nil => simp
  | cons l ls ih => rw [List.flatMap_cons, List.length_append, List.length_append, List.length_cons, List.length_singleton]; omega

/-- More than ten numbers are refused. -/
theorem C164_refused (ns : List Int) (hn : 10 < ns.length) (file : Bytes) : main ns file = ([], 1) := by
  unfold main
  rw [if_pos hn]

/-- White space at the beginning of a line counts as a word before it: the first word of `" a"` is empty, the second is `a`. -/
theorem C164_counterexample_indented : main [1, 2] [32, 97, 10] = ([9, 97, 10], 0) := by decide +kernel

/-- A line of 101 words stops the program; the lines before it have been printed. -/
theorem C164_counterexample_many : main [1] ([98, 10] ++ (List.replicate 101 [97, 32]).flatten ++ [10]) = ([98, 10], 1) := by decide +kernel

private theorem fgets_full : ∀ (t rest : Bytes), (∀ c ∈ t, c ≠ 10) → Vtt.fgets t.length (t ++ rest) = (t, rest)
  | [], _, _ => rfl
  | c :: t, rest, h => by
    rw [List.cons_append, List.length_cons, Vtt.fgets, if_neg (h c List.mem_cons_self), fgets_full t rest (fun x hx => h x (List.mem_cons_of_mem _ hx))]

private theorem sep_whole (w : Bytes) (h : Word w) : sep w = (w, []) := by
  have h1 : w.takeWhile (fun c => !Strings.isspace c) = w := by
    have := List.takeWhile_append_of_pos (l₂ := []) (word_nonspace h)
    simpa using this
  have h2 : w.dropWhile (fun c => !Strings.isspace c) = [] := by
    have := List.dropWhile_append_of_pos (l₂ := []) (word_nonspace h)
    simpa using this
  unfold sep
  rw [h1, h2]

/-- A line of more than 4095 bytes, of one word, is printed as two: the word is cut. -/
theorem C164_counterexample_long (w v : Bytes) (hw : Word w) (hl : w.length = 4095) (hv : Word v) (hvl : v.length < 4095) : main [1] (w ++ v ++ [10]) = (w ++ [10] ++ v ++ [10], 0) := by
  have hw0 : ∀ c ∈ w, c ≠ 10 ∧ c ≠ 0 := row_bytes (by simpa using Row.last w [] hw (by unfold Gap; simp))
  have hv0 : Row [v] v := by simpa using Row.last v [] hv (by unfold Gap; simp)
  have hne : v ≠ [] := hv.1
  unfold main
  rw [if_neg (by decide)]
  obtain ⟨k, hk⟩ : ∃ k, (w ++ v ++ [10]).length = k + 1 + 1 := ⟨w.length + v.length - 1, by simp; omega⟩
  have e := fgets_full w (v ++ [10]) (fun c hc => (hw0 c hc).1)
  rw [hl] at e
  have hs : Vtt.str w = w := by
    unfold Vtt.str
    have := List.takeWhile_append_of_pos (l₂ := []) (p := fun c : UInt8 => decide (c ≠ 0)) (l₁ := w) (fun c hc => by simpa using (hw0 c hc).2)
    simpa using this
  have hc : columns w = some [w] := by
    unfold columns
    rw [colsLoop, sep_whole w hw]
    rfl
  rw [hk, linesLoop, if_neg (by simp), List.append_assoc, e]
  simp only
  rw [hs, hc]
  simp only
  have := lines_ok [1] [([v], v)] (k + 1) (by intro l hl; rw [List.mem_singleton.mp hl]; exact ⟨hv0, by simp, hvl⟩) (by simp)
  simp only [List.flatMap_cons, List.flatMap_nil, List.append_nil] at this
  rw [this, print_row]
  simp [row, pick, List.intercalate]

example : Word (List.replicate 4095 97) := ⟨fun h => (by have := congrArg List.length h; rw [List.length_replicate, List.length_nil] at this; omega), fun c hc => by rw [(List.mem_replicate.mp hc).2]; unfold Blank; decide⟩

example : main [3, 1, 7] ([97, 98, 32, 32, 99, 9, 100, 10] ++ [101, 32, 10]) = ([100, 9, 97, 98, 9, 10] ++ [9, 101, 9, 10], 0) := by
  have w1 : Word [97, 98] := ⟨by decide, by unfold Blank; decide⟩
  have w2 : Word [99] := ⟨by decide, by unfold Blank; decide⟩
  have w3 : Word [100] := ⟨by decide, by unfold Blank; decide⟩
  have w4 : Word [101] := ⟨by decide, by unfold Blank; decide⟩
  have g1 : Gap [32, 32] := by unfold Gap Blank; decide
  have g2 : Gap [9] := by unfold Gap Blank; decide
  have g3 : Gap [32] := by unfold Gap Blank; decide
  have g0 : Gap [] := by unfold Gap; simp
  have r1 : Row [[97, 98], [99], [100]] [97, 98, 32, 32, 99, 9, 100] := .cons _ _ _ _ w1 g1 (by decide) (.cons _ _ _ _ w2 g2 (by decide) (.last _ _ w3 g0))
  have r2 : Row [[101]] [101, 32] := .last _ _ w4 g3
  exact C164_partial [3, 1, 7] (by decide) [([[97, 98], [99], [100]], [97, 98, 32, 32, 99, 9, 100]), ([[101]], [101, 32])] (by
    intro l hl
    rcases List.mem_cons.mp hl with rfl | hl
    · exact ⟨r1, by decide, by decide⟩
    · rw [List.mem_singleton.mp hl]; exact ⟨r2, by decide, by decide⟩)
end Che.Props
