import Verif.Model.Prog.Stats
import Verif.Spec.Prog.Stats
import Verif.Proofs.Lib.Vtt
import Verif.Proofs.Lib.Srt

/-!
C172: the series of stats.
-/
namespace Che.Props
open Che.Lib Che.Spec.Stats

variable {α : Type} {strtod : Bytes → Option (α × Bytes)}

private theorem bind_ok {β γ : Type} (a : β) (f : β → Res String γ) : (Res.ok a : Res String β).bind f = f a := rfl

private theorem stats_values {p : Bytes} {vs : List α} (h : Values strtod p vs) : ∀ (k : Nat) (vals : List α), p.length < k →
    (vals.length + vs.length ≤ 10 → Che.Prog.Stats.readLoop strtod k p vals = .ok (vals ++ vs)) ∧
    (vals.length ≤ 10 → 10 < vals.length + vs.length → Che.Prog.Stats.readLoop strtod k p vals = .panic "undefined: more than ten values") := by
  induction h with
  | nil h =>
    intro k vals hk
    obtain ⟨k, rfl⟩ : ∃ j, k = j + 1 := ⟨k - 1, by omega⟩
    exact ⟨fun _ => by simp [Che.Prog.Stats.readLoop, h], fun h1 h2 => absurd h2 (by simp; omega)⟩
  | @cons p q x vs h hq _ ih =>
    intro k vals hk
    obtain ⟨k, rfl⟩ : ∃ j, k = j + 1 := ⟨k - 1, by omega⟩
    obtain ⟨i1, i2⟩ := ih k (vals ++ [x]) (by omega)
    simp only [List.length_append, List.length_cons, List.length_nil] at i1 i2 ⊢
    constructor
    · intro hl
      simp only [Che.Prog.Stats.readLoop, h]
      rw [if_neg (by omega), i1 (by omega)]; simp
    · intro h1 h2
      simp only [Che.Prog.Stats.readLoop, h]
      by_cases he : vals.length = 10
      · rw [if_pos he]
      · rw [if_neg he, i2 (by omega) (by omega)]

private theorem stats_line {l s : Bytes} (h : ∀ c ∈ l, c ≠ 0 ∧ c ≠ 10) (hl : l.length < 4095) :
    Vtt.fgets 4095 (l ++ 10 :: s) = (l ++ [10], s) ∧ Vtt.str (l ++ [10]) = l ++ [10] := by
  refine ⟨Vtt.fgets_line (fun hx => (h _ hx).2 rfl) hl, Srt.str_clean ?_⟩
  intro c hc
  rcases List.mem_append.mp hc with hc | hc
  · exact (h c hc).1
  · rw [List.mem_singleton.mp hc]; decide

private theorem stats_read {l s : Bytes} {vs : List α} (h : ∀ c ∈ l, c ≠ 0 ∧ c ≠ 10) (hl : l.length < 4095) (hv : Values strtod (l ++ [10]) vs) :
    (vs.length ≤ 10 → Che.Prog.Stats.readvals strtod (l ++ 10 :: s) = .ok (vs, s, false)) ∧
    (10 < vs.length → Che.Prog.Stats.readvals strtod (l ++ 10 :: s) = .panic "undefined: more than ten values") := by
  obtain ⟨e1, e2⟩ := stats_line (s := s) h hl
  obtain ⟨i1, i2⟩ := stats_values hv ((l ++ [10]).length + 1) [] (by omega)
  unfold Che.Prog.Stats.readvals
  rw [if_neg (by simp)]
  simp only [e1, e2]
  constructor
  · intro h10
    rw [i1 (by simpa using h10), bind_ok]
    simp
  · intro h10
    rw [i2 (by simp) (by simpa using h10)]; rfl

private theorem stats_column (done : List (List α)) (r : List α) :
    List.zipWith (fun s v => s ++ [v]) ((List.range r.length).map (column done)) r = (List.range r.length).map (column (done ++ [r])) := by
  refine List.ext_getElem (by simp) fun j h1 h2 => ?_
  have hj : j < r.length := by simpa using h2
  simp [column, List.filterMap_append, hj]

private theorem stats_loop {n : Nat} (hn : 0 < n) (h10 : n ≤ 10) {s : Bytes} {rows : List (List α)} (h : Rows strtod s rows) :
    ∀ (k : Nat) (done : List (List α)), s.length < k → (∀ r ∈ rows, r.length = n) →
    Che.Prog.Stats.loop strtod n k ((List.range n).map (column done)) s = .ok ((List.range n).map (column (done ++ rows))) := by
  induction h with
  | nil =>
    intro k done hk _
    obtain ⟨k, rfl⟩ : ∃ j, k = j + 1 := ⟨k - 1, by omega⟩
    simp [Che.Prog.Stats.loop, Che.Prog.Stats.readvals, bind_ok]
  | @cons l s vs rs h1 h2 h3 _ ih =>
    intro k done hk hr
    obtain ⟨k, rfl⟩ : ∃ j, k = j + 1 := ⟨k - 1, by omega⟩
    have hv : vs.length = n := hr vs List.mem_cons_self
    have hk' : s.length < k := by simp at hk; omega
    rw [Che.Prog.Stats.loop, (stats_read h1 h2 h3).1 (by omega), bind_ok]
    simp only
    rw [if_neg (by simp), if_neg (by simp [hv])]
    have e := stats_column done vs
    rw [hv] at e
    rw [e, ih k (done ++ [vs]) hk' (fun r hx => hr r (List.mem_cons_of_mem _ hx))]
    simp

private theorem stats_first (r : List α) : r.map (fun v => [v]) = (List.range r.length).map (column [r]) := by
  refine List.ext_getElem (by simp) fun j h1 h2 => ?_
  have hj : j < r.length := by simpa using h1
  simp [column, hj]

/-- C172: if each line has as many values as the first one, the series are the columns. -/
theorem C172_partial {s : Bytes} {r : List α} {rs : List (List α)} (h : Rows strtod s (r :: rs)) (h0 : 0 < r.length) (h10 : r.length ≤ 10)
    (hr : ∀ x ∈ rs, x.length = r.length) :
    Che.Prog.Stats.main strtod s = .ok ((List.range r.length).map (column (r :: rs))) := by
  cases h with
  | @cons l s _ _ h1 h2 h3 h4 =>
    unfold Che.Prog.Stats.main
    rw [(stats_read h1 h2 h3).1 h10, bind_ok]
    simp only
    rw [if_neg (by omega), stats_first, stats_loop h0 h10 h4 _ _ (by omega) hr]
    rfl

private theorem stats_uneven {n : Nat} {s : Bytes} {rows : List (List α)} (h : Rows strtod s rows) :
    ∀ (k : Nat) (series : List (List α)), s.length < k → (∀ r ∈ rows, r.length ≤ 10) → (∃ r ∈ rows, r.length ≠ n) →
    Che.Prog.Stats.loop strtod n k series s = .panic "expected other values" := by
  induction h with
  | nil => intro k series _ _ h; obtain ⟨r, h, _⟩ := h; cases h
  | @cons l s vs rs h1 h2 h3 _ ih =>
    intro k series hk hr hx
    obtain ⟨k, rfl⟩ : ∃ j, k = j + 1 := ⟨k - 1, by omega⟩
    have hk' : s.length < k := by simp at hk; omega
    rw [Che.Prog.Stats.loop, (stats_read h1 h2 h3).1 (hr vs List.mem_cons_self), bind_ok]
    simp only
    rw [if_neg (by simp)]
    by_cases hv : vs.length = n
    · rw [if_neg (by simp [hv]), ih k _ hk' (fun r hx => hr r (List.mem_cons_of_mem _ hx))]
      obtain ⟨r, h5, h6⟩ := hx
      rcases List.mem_cons.mp h5 with rfl | h5
      · exact absurd hv h6
      · exact ⟨r, h5, h6⟩
    · rw [if_pos hv]

/-- C172: an input without values on its first line is refused. -/
theorem C172_empty {s : Bytes} {rs : List (List α)} (h : Rows strtod s ([] :: rs)) :
    Che.Prog.Stats.main strtod s = .panic "no values on the first line" := by
  cases h with
  | @cons l s _ _ h1 h2 h3 h4 =>
    unfold Che.Prog.Stats.main
    rw [(stats_read h1 h2 h3).1 (by simp), bind_ok]
    simp

/-- C172: a line with more or less values than the first one is refused, also one without values. -/
theorem C172_uneven {s : Bytes} {r : List α} {rs : List (List α)} (h : Rows strtod s (r :: rs)) (h0 : 0 < r.length)
    (h10 : ∀ x ∈ r :: rs, x.length ≤ 10) (hx : ∃ x ∈ rs, x.length ≠ r.length) :
    Che.Prog.Stats.main strtod s = .panic "expected other values" := by
  cases h with
  | @cons l s _ _ h1 h2 h3 h4 =>
    unfold Che.Prog.Stats.main
    rw [(stats_read h1 h2 h3).1 (h10 r List.mem_cons_self), bind_ok]
    simp only
    rw [if_neg (by omega)]
    exact stats_uneven h4 _ _ (by omega) (fun x hx => h10 x (List.mem_cons_of_mem _ hx)) hx

/-- C172 is false of more than ten columns: the array has ten cells. -/
theorem C172_counterexample_columns {s : Bytes} {r : List α} {rs : List (List α)} (h : Rows strtod s (r :: rs)) (h10 : 10 < r.length) :
    Che.Prog.Stats.main strtod s = .panic "undefined: more than ten values" := by
  cases h with
  | @cons l s _ _ h1 h2 h3 h4 =>
    unfold Che.Prog.Stats.main
    rw [(stats_read h1 h2 h3).2 h10]; rfl

/-- A reader of single digits after blanks, for the examples. -/
private def digit : Bytes → Option (Nat × Bytes)
  | [] => none
  | 32 :: c :: q => if 48 ≤ c ∧ c ≤ 57 then some (c.toNat - 48, q) else none
  | c :: q => if 48 ≤ c ∧ c ≤ 57 then some (c.toNat - 48, q) else none

example : Che.Prog.Stats.main digit (cstr "1 2 3\n4 5 6\n") = .ok [[1, 4], [2, 5], [3, 6]] := by decide +kernel
example : Che.Prog.Stats.main digit (cstr "1 2 3\n4 5\n") = .panic "expected other values" := by decide +kernel

/-- There are such lines. -/
example : Rows digit (cstr "1 2\n") [[1, 2]] := by
  have h : Values digit (cstr "1 2" ++ [10]) [1, 2] :=
    .cons (q := cstr " 2" ++ [10]) (by decide +kernel) (by decide +kernel) (.cons (q := [10]) (by decide +kernel) (by decide +kernel) (.nil (by decide +kernel)))
  have := Rows.cons (s := []) (by decide +kernel) (by decide +kernel) h .nil
  rwa [show cstr "1 2" ++ 10 :: [] = cstr "1 2\n" by decide +kernel] at this

end Che.Props
