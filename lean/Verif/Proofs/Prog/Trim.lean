import Verif.Spec.Prog.Trim

namespace Che.Prog.Trim
open Che Che.Lib

theorem rstrip_append (t : Bytes) (c : UInt8) : rstrip (t ++ [c]) = if Strings.isspace c then rstrip t else t ++ [c] := by
  unfold rstrip
  rw [List.reverse_append, List.reverse_singleton, List.singleton_append, List.dropWhile_cons]
  split <;> simp

theorem rstrip_prefix (t : Bytes) : ∃ w, t = rstrip t ++ w ∧ ∀ c ∈ w, Strings.isspace c = true := by
  refine ⟨(t.reverse.takeWhile Strings.isspace).reverse, ?_, fun c hc => ?_⟩
  · unfold rstrip
    rw [← List.reverse_append, List.takeWhile_append_dropWhile, List.reverse_reverse]
  · rw [List.mem_reverse] at hc
    have : ∀ (l : List UInt8), c ∈ l.takeWhile Strings.isspace → Strings.isspace c = true := by
      intro l
      induction l with
      | nil => simp
      | cons d l ih =>
        rw [List.takeWhile_cons]
        split
        · intro h
          rcases List.mem_cons.1 h with rfl | h
          · assumption
          · exact ih h
        · simp
    exact this _ hc

theorem rstrip_take (t : Bytes) : t.take (rstrip t).length = rstrip t := by
  obtain ⟨w, e, _⟩ := rstrip_prefix t
  generalize rstrip t = s at *
  subst e
  simp

theorem rstrip_le (t : Bytes) : (rstrip t).length ≤ t.length := by
  obtain ⟨w, e, _⟩ := rstrip_prefix t
  rw [← rstrip_take, List.length_take]
  omega

theorem rstrip_eq {t : Bytes} (h : (rstrip t).length = t.length) : rstrip t = t := by
  rw [← rstrip_take t, h, List.take_length]

theorem rstrip_rstrip (t : Bytes) : rstrip (rstrip t) = rstrip t := by
  unfold rstrip
  rw [List.reverse_reverse]
  refine congrArg List.reverse ?_
  generalize t.reverse = l
  induction l with
  | nil => rfl
  | cons d l ih =>
    by_cases h : Strings.isspace d = true
    · simp only [List.dropWhile_cons, h, if_true]; exact ih
    · simp [List.dropWhile_cons, h]

theorem Text.rstrip {t : Bytes} (h : Text t) : Text (rstrip t) := fun c hc => by
  rw [← rstrip_take] at hc
  exact h c (List.mem_of_mem_take hc)

theorem readChars_text : ∀ (t : Bytes) {text rest : Bytes}, Text t →
    readChars (t ++ rest) text ((rstrip text).length - 1) = readChars rest (text ++ t) ((rstrip (text ++ t)).length - 1)
  | [], text, rest, _ => by simp
  | c :: t, text, rest, h => by
    obtain ⟨h1, h2⟩ := h c (by simp)
    have ht : Text t := fun d hd => h d (by simp [hd])
    rw [List.cons_append, readChars, if_neg h2, if_neg h1]
    have e : (if !Strings.isspace c then (text.length : Int) else ((rstrip text).length : Int) - 1) = ((rstrip (text ++ [c])).length : Int) - 1 := by
      rw [rstrip_append]
      cases Strings.isspace c <;> simp
    rw [e, readChars_text t ht]
    simp

theorem read_line_end {t rest : Bytes} (h : Text t) {e : Lf} (he : e = .unix ∨ e = .win) : read_line (t ++ (eol e ++ rest)) = some (⟨t, (rstrip t).length - 1, e⟩, rest) := by
  unfold read_line
  rw [if_neg (by rcases he with rfl | rfl <;> simp [eol])]
  have := readChars_text t (text := []) (rest := eol e ++ rest) h
  simp only [rstrip, List.reverse_nil, List.dropWhile_nil, List.length_nil, List.nil_append] at this
  rw [show ((0 : Nat) : Int) - 1 = -1 by omega] at this
  rw [this]
  rcases he with rfl | rfl <;> simp [eol, readChars, afterCr, rstrip]

theorem read_line_last {t : Bytes} (h : Text t) (ht : t ≠ []) : read_line t = some (⟨t, (rstrip t).length - 1, .none⟩, []) := by
  unfold read_line
  rw [if_neg ht]
  have := readChars_text t (text := []) (rest := []) h
  simp only [rstrip, List.reverse_nil, List.dropWhile_nil, List.length_nil, List.nil_append, List.append_nil] at this
  rw [show ((0 : Nat) : Int) - 1 = -1 by omega] at this
  rw [this]
  simp [readChars, rstrip]

theorem foldl_put : ∀ (t : Bytes) (out : Bytes), (∀ c ∈ t, c ≠ 255) → t.foldl put out = out ++ t
  | [], out, _ => by simp
  | c :: t, out, h => by
    rw [List.foldl_cons, put, if_neg (h c (by simp)), foldl_put t _ fun d hd => h d (by simp [hd])]
    simp

theorem trimLine_eq {lf e : Lf} {t out : Bytes} {ch : Bool} (h : ∀ c ∈ t, c ≠ 255) (hc : chosen lf e = .unix ∨ chosen lf e = .win) :
    trimLine lf ⟨t, (rstrip t).length - 1, e⟩ out ch = .ok (out ++ (rstrip t ++ eol (chosen lf e)), ch || decide (rstrip t ≠ t ∨ chosen lf e ≠ e)) := by
  have hle := rstrip_le t
  have hput : ∀ out, write_line ⟨t, (rstrip t).length - 1, e⟩ (rstrip t).length (chosen lf e) out = .ok (out ++ (rstrip t ++ eol (chosen lf e))) := by
    intro out
    unfold write_line
    simp only
    rw [rstrip_take, foldl_put _ _ fun c hc => h c (List.mem_of_mem_take (rstrip_take t ▸ hc))]
    rcases hc with hc | hc <;> rw [hc] <;> simp [eol, put]
  unfold trimLine
  simp only
  have e1 : (if ((rstrip t).length : Int) - 1 + 1 < t.length then (((rstrip t).length : Int) - 1 + 1).toNat else t.length) = (rstrip t).length := by
    split <;> omega
  have e2 : (if lf ≠ .same ∧ e ≠ lf then lf else e) = chosen lf e := by
    unfold chosen
    cases lf <;> cases e <;> simp
  rw [e1, e2, hput]
  simp only [Res.bind]
  refine congrArg Res.ok (congrArg (Prod.mk _) ?_)
  have e3 : decide (((rstrip t).length : Int) - 1 + 1 < t.length) = decide (rstrip t ≠ t) := by
    rw [decide_eq_decide]
    refine ⟨fun h0 e0 => by rw [e0] at h0; omega, fun h0 => ?_⟩
    have : (rstrip t).length ≠ t.length := fun h1 => h0 (rstrip_eq h1)
    omega
  have e4 : decide (lf ≠ .same ∧ e ≠ lf) = decide (chosen lf e ≠ e) := by
    rw [decide_eq_decide]
    unfold chosen
    cases lf <;> cases e <;> simp
  rw [e3, e4, Bool.or_assoc]
  by_cases h1 : rstrip t = t <;> by_cases h2 : chosen lf e = e <;> simp [h1, h2]

theorem chosen_end {lf e : Lf} (hl : lf = .same ∨ lf = .unix ∨ lf = .win) (he : e = .unix ∨ e = .win) : chosen lf e = .unix ∨ chosen lf e = .win := by
  unfold chosen
  rcases hl with rfl | rfl | rfl <;> simp [he]

/-- Some line is not as it must be. -/
def odd (lf : Lf) (ls : List (Bytes × Lf)) (last : Bytes) : Bool := ls.any (fun l => decide (rstrip l.1 ≠ l.1 ∨ chosen lf l.2 ≠ l.2)) || decide (last ≠ [])

theorem ftrim_eq {lf : Lf} (hl : lf = .same ∨ lf = .unix ∨ lf = .win) {last : Bytes} (hs : lf = .same → last = []) : ∀ (ls : List (Bytes × Lf)) {n : Nat} {out : Bytes} {ch : Bool}, Plain ls last → ls.length + 2 ≤ n →
    ftrim lf n (file ls last) out ch = .ok (out ++ trimmed lf ls last, ch || odd lf ls last)
  | [], n, out, ch, hp, hn => by
    obtain ⟨n, rfl⟩ : ∃ k, n = k + 2 := ⟨n - 2, by simp at hn; omega⟩
    by_cases h : last = []
    · subst h
      simp [ftrim, file, read_line, trimmed, odd]
    · have hne : lf ≠ .same := fun h0 => h (hs h0)
      have hc : chosen lf .none = lf := by simp [chosen, hne]
      have e : file [] last = last := by simp [file]
      rw [e, ftrim, read_line_last hp.last.1 h]
      simp only
      rw [trimLine_eq hp.last.2 (by rw [hc]; rcases hl with h | h | h <;> simp_all)]
      simp only [Res.bind]
      rw [ftrim]
      have e2 : read_line [] = Option.none := rfl
      rw [e2, hc]
      have hn : lf ≠ .none := by rcases hl with h | h | h <;> simp [h]
      simp [trimmed, odd, h, hn]
  | (t, e) :: ls, n, out, ch, hp, hn => by
    obtain ⟨n, rfl⟩ : ∃ k, n = k + 1 := ⟨n - 1, by omega⟩
    obtain ⟨h1, h2, h3⟩ := hp.text (t, e) (by simp)
    have e1 : file ((t, e) :: ls) last = t ++ (eol e ++ file ls last) := by simp [file]
    rw [e1, ftrim, read_line_end h1 h3]
    simp only
    rw [trimLine_eq h2 (chosen_end hl h3)]
    simp only [Res.bind]
    rw [ftrim_eq hl hs ls ⟨fun l hl => hp.text l (by simp [hl]), hp.last⟩ (by simp at hn; omega)]
    refine congrArg Res.ok (Prod.ext ?_ ?_)
    · simp [trimmed]
    · simp [odd, Bool.or_assoc]

theorem file_length (ls : List (Bytes × Lf)) (last : Bytes) (hp : Plain ls last) : ls.length + last.length ≤ (file ls last).length := by
  induction ls with
  | nil => simp [file]
  | cons l ls ih =>
    have := ih ⟨fun l hl => hp.text l (by simp [hl]), hp.last⟩
    have h0 : 0 < (eol l.2).length := by
      rcases (hp.text l (by simp)).2.2 with h | h <;> rw [h] <;> simp [eol]
    simp only [file, List.map_cons, List.flatten_cons, List.length_append, List.length_cons] at this ⊢
    omega

theorem odd_false {lf : Lf} {ls : List (Bytes × Lf)} {last : Bytes} (h : odd lf ls last = false) : trimmed lf ls last = file ls last := by
  unfold odd at h
  rw [Bool.or_eq_false_iff] at h
  obtain ⟨h1, h2⟩ := h
  have : last = [] := by simpa using h2
  subst this
  unfold trimmed file
  simp only [if_true, List.append_nil]
  refine congrArg List.flatten (List.map_congr_left fun l hl => ?_)
  have := List.any_eq_false.1 h1 l hl
  simp at this
  rw [this.1, this.2]

theorem trim_file_eq {lf : Lf} (hl : lf = .same ∨ lf = .unix ∨ lf = .win) {ls : List (Bytes × Lf)} {last : Bytes} (hs : lf = .same → last = []) (hp : Plain ls last) :
    trim_file lf (file ls last) = .ok (trimmed lf ls last, odd lf ls last) := by
  unfold trim_file
  have main : ftrim lf ((file ls last).length + 2) (file ls last) [] false = .ok (trimmed lf ls last, odd lf ls last) := by
    have := file_length ls last hp
    rw [ftrim_eq hl hs ls hp (by omega)]
    simp
  rw [main]
  simp only [Res.bind]
  cases h : odd lf ls last with
  | true => rfl
  | false => rw [odd_false h]; rfl

theorem file_cons (t : Bytes) (e : Lf) (ls : List (Bytes × Lf)) (last : Bytes) : file ((t, e) :: ls) last = t ++ (eol e ++ file ls last) := by simp [file]

theorem file_inj : ∀ {ls ls' : List (Bytes × Lf)} {last last' : Bytes}, Plain ls last → Plain ls' last' → file ls last = file ls' last' → ls = ls' ∧ last = last'
  | [], [], last, last', _, _, h => by simpa [file] using h
  | [], (t, e) :: ls, last, last', h1, h2, h => by
    have e1 : read_line (file [] last) = read_line last := by simp [file]
    obtain ⟨g1, _, g3⟩ := h2.text (t, e) (by simp)
    rw [h, file_cons, read_line_end g1 g3] at e1
    by_cases hl : last = []
    · subst hl; simp [read_line] at e1
    · rw [read_line_last h1.last.1 hl] at e1
      injection e1 with e1
      injection e1 with e1 _
      injection e1 with _ _ e1
      simp only at e1 g3
      rcases g3 with g | g <;> rw [g] at e1 <;> exact Lf.noConfusion e1
  | (t, e) :: ls, [], last, last', h1, h2, h => by
    have e1 : read_line (file [] last') = read_line last' := by simp [file]
    obtain ⟨g1, _, g3⟩ := h1.text (t, e) (by simp)
    rw [← h, file_cons, read_line_end g1 g3] at e1
    by_cases hl : last' = []
    · subst hl; simp [read_line] at e1
    · rw [read_line_last h2.last.1 hl] at e1
      injection e1 with e1
      injection e1 with e1 _
      injection e1 with _ _ e1
      simp only at e1 g3
      rcases g3 with g | g <;> rw [g] at e1 <;> exact Lf.noConfusion e1
  | (t, e) :: ls, (t', e') :: ls', last, last', h1, h2, h => by
    obtain ⟨g1, _, g3⟩ := h1.text (t, e) (by simp)
    obtain ⟨f1, _, f3⟩ := h2.text (t', e') (by simp)
    have e1 := read_line_end g1 g3 (rest := file ls last)
    have e2 := read_line_end f1 f3 (rest := file ls' last')
    rw [file_cons, file_cons] at h
    rw [h, e2] at e1
    injection e1 with e1
    injection e1 with e3 e4
    injection e3 with e5 e6 e7
    obtain ⟨r1, r2⟩ := file_inj ⟨fun l hl => h1.text l (by simp [hl]), h1.last⟩ ⟨fun l hl => h2.text l (by simp [hl]), h2.last⟩ e4.symm
    simp only at e5 e7
    rw [e5, e7, r1, r2]
    exact ⟨rfl, rfl⟩

/-- The lines of a trimmed file. -/
def lines (lf : Lf) (ls : List (Bytes × Lf)) (last : Bytes) : List (Bytes × Lf) := ls.map (fun l => (rstrip l.1, chosen lf l.2)) ++ if last = [] then [] else [(rstrip last, lf)]

theorem trimmed_file (lf : Lf) (ls : List (Bytes × Lf)) (last : Bytes) : trimmed lf ls last = file (lines lf ls last) [] := by
  unfold trimmed lines file
  split <;> simp [List.map_map, Function.comp_def]

theorem lines_plain {lf : Lf} (hl : lf = .same ∨ lf = .unix ∨ lf = .win) {ls : List (Bytes × Lf)} {last : Bytes} (hs : lf = .same → last = []) (hp : Plain ls last) : Plain (lines lf ls last) [] := by
  have hff : ∀ {t : Bytes}, (∀ c ∈ t, c ≠ 255) → ∀ c ∈ rstrip t, c ≠ 255 := fun h c hc => h c (List.mem_of_mem_take (rstrip_take _ ▸ hc))
  refine ⟨fun l h => ?_, fun c hc => by simp at hc, fun c hc => by simp at hc⟩
  unfold lines at h
  rw [List.mem_append] at h
  rcases h with h | h
  · obtain ⟨l0, h0, rfl⟩ := List.mem_map.1 h
    obtain ⟨g1, g2, g3⟩ := hp.text l0 h0
    exact ⟨g1.rstrip, hff g2, chosen_end hl g3⟩
  · split at h
    · simp at h
    · rename_i hne
      rw [List.mem_singleton] at h
      subst h
      refine ⟨hp.last.1.rstrip, hff hp.last.2, ?_⟩
      rcases hl with h | h | h
      · exact absurd (hs h) hne
      · exact .inl h
      · exact .inr h

/-- A file is said to be changed exactly when it is another one then. -/
theorem odd_iff {lf : Lf} (hl : lf = .same ∨ lf = .unix ∨ lf = .win) {ls : List (Bytes × Lf)} {last : Bytes} (hs : lf = .same → last = []) (hp : Plain ls last) : odd lf ls last = true ↔ trimmed lf ls last ≠ file ls last := by
  refine ⟨fun h e => ?_, fun h => ?_⟩
  · rw [trimmed_file] at e
    obtain ⟨e1, e2⟩ := file_inj (lines_plain hl hs hp) hp e
    subst e2
    unfold odd at h
    simp only [ne_eq, not_true_eq_false, decide_false, Bool.or_false] at h
    obtain ⟨l, h1, h2⟩ := List.any_eq_true.1 h
    simp only [lines, if_true, List.append_nil] at e1
    have : (rstrip l.1, chosen lf l.2) = l := by
      have key : ∀ ls : List (Bytes × Lf), ls.map (fun l => (rstrip l.1, chosen lf l.2)) = ls → ∀ l ∈ ls, (rstrip l.1, chosen lf l.2) = l := by
        intro ls
        induction ls with
        | nil => simp
        | cons a ls ih =>
          intro h l hl
          rw [List.map_cons] at h
          injection h with h3 h4
          rcases List.mem_cons.1 hl with rfl | hl
          · exact h3
          · exact ih h4 l hl
      exact key ls e1 l h1
    have h3 : rstrip l.1 = l.1 := congrArg Prod.fst this
    have h4 : chosen lf l.2 = l.2 := congrArg Prod.snd this
    simp [h3, h4] at h2
  · cases ho : odd lf ls last with
    | true => rfl
    | false => exact absurd (odd_false ho) h

theorem lines_lines {lf : Lf} (ls : List (Bytes × Lf)) (last : Bytes) : lines lf (lines lf ls last) [] = lines lf ls last := by
  unfold lines
  have hc : ∀ e, chosen lf (chosen lf e) = chosen lf e := by intro e; cases lf <;> rfl
  have hc2 : chosen lf lf = lf := by cases lf <;> rfl
  split <;> simp [rstrip_rstrip, hc, hc2]
end Che.Prog.Trim
