import Verif.Model.Prog.Datelog
import Verif.Spec.Prog.Datelog
import Verif.Proofs.Lib.Vtt
import Verif.Proofs.Prog.Tracklist

/-!
C166: where datelog writes lines.
-/
namespace Che.Props
open Che.Lib Che.Prog.Datelog Che.Spec.Datelog

private theorem digits_one (n : Nat) (h : n < 10) : Time.digits n = [UInt8.ofNat (48 + n)] := by rw [Time.digits, if_pos h]
private theorem digits_more (n : Nat) (h : ¬ n < 10) : Time.digits n = Time.digits (n / 10) ++ [UInt8.ofNat (48 + n % 10)] := by rw [Time.digits, if_neg h]

/-- The name of the file is the year and the month. -/
theorem C166_name (t : Int × Int) (h : Month t) : name t = fileOf t := by
  obtain ⟨y, m⟩ := t
  obtain ⟨h1, h2, h3, h4⟩ := h
  simp only at h1 h2 h3 h4
  obtain ⟨y, rfl⟩ := Int.eq_ofNat_of_zero_le (show 0 ≤ y by omega)
  obtain ⟨m, rfl⟩ := Int.eq_ofNat_of_zero_le (show 0 ≤ m by omega)
  have e1 : Time.fmtInt 0 (y : Int) = [digit (y / 1000), digit (y / 100), digit (y / 10), digit y] := by
    unfold Time.fmtInt
    rw [if_neg (by omega)]
    simp only [Int.toNat_natCast, Nat.zero_sub, List.replicate_zero, List.nil_append]
    rw [digits_more y (by omega), digits_more (y / 10) (by omega), digits_more (y / 10 / 10) (by omega), digits_one _ (by omega)]
    simp only [List.cons_append, List.nil_append, digit]
    rw [show ((y : Int) / 1000 % 10).toNat = y / 10 / 10 / 10 by omega, show ((y : Int) / 100 % 10).toNat = y / 10 / 10 % 10 by omega,
      show ((y : Int) / 10 % 10).toNat = y / 10 % 10 by omega, show ((y : Int) % 10).toNat = y % 10 by omega]
  have e2 : Time.fmtInt 2 (m : Int) = [digit (m / 10), digit m] := by
    unfold Time.fmtInt
    rw [if_neg (by omega)]
    simp only [Int.toNat_natCast, digit]
    rw [show ((m : Int) / 10 % 10).toNat = m / 10 by omega, show ((m : Int) % 10).toNat = m % 10 by omega]
    by_cases hm : m < 10
    · rw [digits_one m hm, show m / 10 = 0 by omega, show m % 10 = m by omega]
      rfl
    · rw [digits_more m hm, digits_one _ (by omega)]
      rfl
  unfold name
  simp only
  rw [e1, e2]
  rfl

private theorem digit_inj {a b : Int} (h : digit a = digit b) : a % 10 = b % 10 := by
  unfold digit at h
  have := congrArg UInt8.toNat h
  simp only [UInt8.toNat_ofNat'] at this
  omega

/-- Different months have different files. -/
theorem C166_apart (s t : Int × Int) (hs : Month s) (ht : Month t) (h : name s = name t) : s = t := by
  rw [C166_name s hs, C166_name t ht] at h
  obtain ⟨a, b⟩ := s
  obtain ⟨c, d⟩ := t
  obtain ⟨h1, h2, h3, h4⟩ := hs
  obtain ⟨g1, g2, g3, g4⟩ := ht
  unfold fileOf at h
  simp only [List.cons.injEq, and_true, true_and] at h
  obtain ⟨k1, k2, k3, k4, k5, k6⟩ := h
  have := digit_inj k1
  have := digit_inj k2
  have := digit_inj k3
  have := digit_inj k4
  have := digit_inj k5
  have := digit_inj k6
  simp only at *
  rw [Prod.mk.injEq]
  omega

/-- The files after lines. -/
private def after (w : World) : Nat → List Bytes → Files → Files
  | _, [], f => f
  | i, l :: ls, f => after w (i + 1) ls (append f (name (w.now i)) l)

private theorem after_linesOf (w : World) (t : Int × Int) (ht : Month t) (hw : ∀ i, Month (w.now i)) : ∀ (ls : List Bytes) (i : Nat) (f : Files),
    after w i ls f (fileOf t) = f (fileOf t) ++ linesOf w.now t i ls
  | [], _, f => by simp [after, linesOf]
  | l :: ls, i, f => by
    rw [after, after_linesOf w t ht hw ls, linesOf, append, ← C166_name t ht]
    by_cases h : w.now i = t
    · rw [if_pos (by rw [h]), if_pos h, List.append_assoc]
    · rw [if_neg (fun e => h (C166_apart _ _ ht (hw i) e).symm), if_neg h, List.nil_append]

private theorem after_other (w : World) (p : Bytes) (hp : ∀ i, name (w.now i) ≠ p) : ∀ (ls : List Bytes) (i : Nat) (f : Files), after w i ls f p = f p
  | [], _, _ => rfl
  | l :: ls, i, f => by rw [after, after_other w p hp ls, append, if_neg (fun e => hp i e.symm)]

/-- The file of a line can be opened, or it is open. -/
def DatelogOpens (w : World) (i : Nat) : Prop := w.opens i = true ∨ (0 < i ∧ w.now i = w.now (i - 1))

/-- The file of the line before is open. -/
private def Open (w : World) (i : Nat) (log : Log) : Prop :=
  (i = 0 ∧ log.fp = none) ∨ (0 < i ∧ log.fp = some (name (w.now (i - 1))) ∧ log.current = name (w.now (i - 1)))

private theorem put_ok (w : World) (i : Nat) (log : Log) (f : Files) (l : Bytes) (h : Open w i log) (ho : DatelogOpens w i) (hp : w.puts i = true) :
    ∃ log', Open w (i + 1) log' ∧ dlog_put w i log f l = (log', append f (name (w.now i)) l, 0) := by
  have re : w.opens i = true → reopen w i f l = ({ current := name (w.now i), fp := some (name (w.now i)) }, append f (name (w.now i)) l, 0) := by
    intro ho
    unfold reopen fputs
    rw [if_pos ho, if_pos hp]
  have go : Open w (i + 1) { current := name (w.now i), fp := some (name (w.now i)) } := .inr ⟨by omega, rfl, rfl⟩
  unfold dlog_put
  rcases h with ⟨h0, h⟩ | ⟨_, h1, h2⟩
  · rw [h]
    exact ⟨_, go, re (ho.resolve_right (by omega))⟩
  · rw [h1]
    simp only
    by_cases e : name (w.now i) = log.current
    · rw [if_neg (fun h => h e)]
      refine ⟨log, .inr ⟨by omega, ?_, ?_⟩, ?_⟩
      · rw [h1, Nat.add_sub_cancel, e, h2]
      · rw [Nat.add_sub_cancel, e]
      · unfold fputs
        rw [if_pos hp, ← h2, ← e]
    · rw [if_pos e]
      exact ⟨_, go, re (ho.resolve_right (fun h => e (by rw [h.2, h2])))⟩

/-- A line cannot be written, or its file, which is not open yet, cannot be opened. -/
private def Fails (w : World) (i : Nat) : Prop := w.puts i = false ∨ (w.opens i = false ∧ (i = 0 ∨ w.now i ≠ w.now (i - 1)))

private theorem put_fails (w : World) (hw : ∀ i, Month (w.now i)) (i : Nat) (log : Log) (f : Files) (l : Bytes) (h : Open w i log) (hf : Fails w i) :
    ∃ log' e, dlog_put w i log f l = (log', f, e + 1) := by
  have re : ∃ log' e, reopen w i f l = (log', f, e + 1) ∨ w.puts i = true := by
    unfold reopen fputs
    by_cases ho : w.opens i = true
    · rw [if_pos ho]
      by_cases hp : w.puts i = true
      · exact ⟨log, 0, .inr hp⟩
      · rw [if_neg hp]; exact ⟨_, 1, .inl rfl⟩
    · rw [if_neg ho]; exact ⟨_, 0, .inl rfl⟩
  have shut : w.opens i = false → ∃ log' e, reopen w i f l = (log', f, e + 1) := by
    intro ho
    unfold reopen
    rw [if_neg (by rw [ho]; decide)]
    exact ⟨_, 0, rfl⟩
  have re' : (w.puts i = false ∨ w.opens i = false) → ∃ log' e, reopen w i f l = (log', f, e + 1) := by
    rintro (h | h)
    · obtain ⟨a, b, e | e⟩ := re
      · exact ⟨a, b, e⟩
      · rw [h] at e; cases e
    · exact shut h
  unfold dlog_put
  rcases h with ⟨_, h⟩ | ⟨h0, h1, h2⟩
  · rw [h]
    exact re' (hf.imp id fun h => h.1)
  · rw [h1]
    simp only
    by_cases e : name (w.now i) = log.current
    · rw [if_neg (fun h => h e)]
      have same := C166_apart _ _ (hw i) (hw (i - 1)) (e.trans h2)
      rcases hf with hf | ⟨_, hf | hf⟩
      · unfold fputs
        rw [if_neg (by rw [hf]; decide)]
        exact ⟨_, 1, rfl⟩
      · omega
      · exact absurd same hf
    · rw [if_pos e]
      exact re' (hf.imp id fun h => h.1)

private theorem str_clean : ∀ {l : Bytes}, (0 : UInt8) ∉ l → Vtt.str l = l
  | [], _ => rfl
  | c :: l, h => by
    rw [List.mem_cons, not_or] at h
    have hc : (decide (c ≠ 0)) = true := decide_eq_true (fun e => h.1 e.symm)
    unfold Vtt.str
    rw [List.takeWhile_cons, if_pos hc]
    exact congrArg (c :: ·) (str_clean h.2)

private theorem line_read {n : Nat} {l : Bytes} (h : Line n l) (rest : Bytes) : Vtt.fgets (n - 1) (l ++ rest) = (l, rest) ∧ Vtt.str l = l ∧ l ++ rest ≠ [] := by
  obtain ⟨x, rfl, h1, h2, h3⟩ := h
  rw [List.length_append, List.length_singleton] at h3
  refine ⟨?_, str_clean ?_, by simp⟩
  · rw [List.append_assoc]
    exact Vtt.fgets_line h1 (by omega)
  · rw [List.mem_append, not_or]
    exact ⟨h2, by decide⟩

private theorem loop_lines (w : World) (n : Nat) (o : Bool) : ∀ (ls : List Bytes) (k i : Nat) (log : Log) (f : Files) (rest : Bytes), Open w i log →
    (∀ l ∈ ls, Line n l) → (∀ j, i ≤ j → j < i + ls.length → DatelogOpens w j ∧ w.puts j = true) → ∃ log', Open w (i + ls.length) log' ∧
    loop w n o (ls.length + k) i log f (ls.flatten ++ rest) =
      ((loop w n o k (i + ls.length) log' (after w i ls f) rest).1, (if o then ls.flatten else []) ++ (loop w n o k (i + ls.length) log' (after w i ls f) rest).2.1,
        (loop w n o k (i + ls.length) log' (after w i ls f) rest).2.2)
  | [], k, i, log, f, rest, h, _, _ => ⟨log, h, by simp [after]⟩
  | l :: ls, k, i, log, f, rest, h, hl, hw => by
    obtain ⟨r1, r2, r3⟩ := line_read (hl l List.mem_cons_self) (ls.flatten ++ rest)
    obtain ⟨ho, hp⟩ := hw i (Nat.le_refl i) (by simp)
    obtain ⟨log1, g1, g2⟩ := put_ok w i log f l h ho hp
    obtain ⟨log2, g3, g4⟩ := loop_lines w n o ls k (i + 1) log1 (append f (name (w.now i)) l) rest g1 (fun x hx => hl x (List.mem_cons_of_mem _ hx))
      (fun j h1 h2 => hw j (by omega) (by rw [List.length_cons]; omega))
    rw [show i + 1 + ls.length = i + (l :: ls).length by rw [List.length_cons]; omega] at g3 g4
    refine ⟨log2, g3, ?_⟩
    rw [show (l :: ls).length + k = (ls.length + k) + 1 by rw [List.length_cons]; omega, loop, List.flatten_cons, List.append_assoc, if_neg r3, r1]
    simp only
    rw [r2, g2]
    simp only
    rw [g4]
    simp only [after]
    cases o <;> simp

private theorem length_flatten {n : Nat} : ∀ (ls : List Bytes), (∀ l ∈ ls, Line n l) → ls.length ≤ ls.flatten.length
  | [], _ => Nat.le_refl _
  | l :: ls, h => by
    obtain ⟨x, e, _⟩ := h l List.mem_cons_self
    have := length_flatten ls (fun x hx => h x (List.mem_cons_of_mem _ hx))
    rw [List.flatten_cons, List.length_append, e, List.length_append, List.length_cons, List.length_singleton]
    omega

/-- All lines are at the ends of the files of their months, in order; other files are as before.
Missing: what is false of the code (see the counterexamples). -/
theorem C166_partial (w : World) (hw : ∀ i, Month (w.now i)) (ho : ∀ i, DatelogOpens w i) (hp : ∀ i, w.puts i = true) (bufsiz : Nat) (o : Bool) (f : Files)
    (ls : List Bytes) (last : Bytes) (hl : ∀ l ∈ ls, Line bufsiz l) (hlast : Last bufsiz last) :
    ∃ f', main w bufsiz o f (ls.flatten ++ last) = (f', if o then ls.flatten ++ last else [], 0) ∧
      (∀ t, Month t → f' (fileOf t) = f (fileOf t) ++ linesOf w.now t 0 (ls ++ [last])) ∧ ∀ p, (∀ i, fileOf (w.now i) ≠ p) → f' p = f p := by
  have hlen := length_flatten ls hl
  obtain ⟨log, h1, h2⟩ := loop_lines w bufsiz o ls ((ls.flatten ++ last).length - ls.length) 0 { current := [], fp := none } f last (.inl ⟨rfl, rfl⟩) hl (fun j _ _ => ⟨ho j, hp j⟩)
  rw [show ls.length + ((ls.flatten ++ last).length - ls.length) = (ls.flatten ++ last).length by rw [List.length_append]; omega] at h2
  have tail : ∀ (ls : List Bytes) (i : Nat) (f : Files), after w i (ls ++ [last]) f = append (after w i ls f) (name (w.now (i + ls.length))) last := by
    intro ls
    induction ls with
    | nil => intro i f; rfl
    | cons l ls ih => intro i f; rw [List.cons_append, after, ih, after, List.length_cons, show i + 1 + ls.length = i + (ls.length + 1) by omega]
  refine ⟨after w 0 (ls ++ [last]) f, ?_, fun t ht => after_linesOf w t ht hw _ 0 f, fun p h => after_other w p (fun i => by rw [C166_name _ (hw i)]; exact h i) _ 0 f⟩
  unfold main
  rw [h2, tail]
  generalize hk : (ls.flatten ++ last).length - ls.length = k
  by_cases he : last = []
  · subst he
    have nothing : ∀ k, loop w bufsiz o k (0 + ls.length) log (after w 0 ls f) [] = (after w 0 ls f, [], 0) := by
      intro k
      cases k with
      | zero => rfl
      | succ k => rw [loop, if_pos rfl]
    rw [nothing]
    simp only [List.append_nil]
    congr 1
    funext p
    unfold append
    split <;> simp
  · obtain ⟨k, rfl⟩ : ∃ j, k = j + 1 := ⟨k - 1, by
      rw [List.length_append] at hk
      have := List.length_pos_iff.mpr he
      omega⟩
    obtain ⟨log', _, g⟩ := put_ok w (0 + ls.length) log (after w 0 ls f) last h1 (ho _) (hp _)
    have nothing : ∀ k i log f, loop w bufsiz o k i log f [] = (f, [], 0) := by
      intro k i log f
      cases k with
      | zero => rfl
      | succ k => rw [loop, if_pos rfl]
    have hb : last.length < bufsiz - 1 ∨ last.length = bufsiz - 1 := by have := hlast.2.2; omega
    have rd : Vtt.fgets (bufsiz - 1) last = (last, []) := by
      have all : ∀ (n : Nat) (l : Bytes), (10 : UInt8) ∉ l → l.length ≤ n → Vtt.fgets n l = (l, []) := by
        intro n
        induction n with
        | zero => intro l _ h; rw [show l = [] from List.length_eq_zero_iff.mp (by omega)]; rfl
        | succ n ih =>
          intro l h1 h2
          cases l with
          | nil => rfl
          | cons c l =>
            rw [List.mem_cons, not_or] at h1
            rw [Vtt.fgets, if_neg (fun e => h1.1 e.symm), ih l h1.2 (by simpa using h2)]
      exact all _ _ hlast.1 (by omega)
    rw [loop, if_neg he, rd]
    simp only
    rw [str_clean hlast.2.1, g]
    simp only
    rw [nothing]
    cases o <;> simp

/-- If a line cannot be written, or its file not opened, then the lines before it are in their files, and the status is 1. -/
theorem C166_failure (w : World) (hw : ∀ i, Month (w.now i)) (bufsiz : Nat) (o : Bool) (f : Files) (ls : List Bytes) (l rest : Bytes)
    (hl : ∀ x ∈ ls, Line bufsiz x) (hl' : Line bufsiz l) (hok : ∀ j, j < ls.length → DatelogOpens w j ∧ w.puts j = true)
    (hf : w.puts ls.length = false ∨ (w.opens ls.length = false ∧ (ls = [] ∨ w.now ls.length ≠ w.now (ls.length - 1)))) :
    ∃ f', main w bufsiz o f (ls.flatten ++ (l ++ rest)) = (f', if o then ls.flatten ++ l else [], 1) ∧
      (∀ t, Month t → f' (fileOf t) = f (fileOf t) ++ linesOf w.now t 0 ls) ∧ ∀ p, (∀ i, fileOf (w.now i) ≠ p) → f' p = f p := by
  have hlen := length_flatten ls hl
  obtain ⟨r1, r2, r3⟩ := line_read hl' rest
  obtain ⟨log, h1, h2⟩ := loop_lines w bufsiz o ls ((ls.flatten ++ (l ++ rest)).length - ls.length) 0 { current := [], fp := none } f (l ++ rest) (.inl ⟨rfl, rfl⟩) hl
    (fun j _ h => hok j (by omega))
  rw [show ls.length + ((ls.flatten ++ (l ++ rest)).length - ls.length) = (ls.flatten ++ (l ++ rest)).length by rw [List.length_append]; omega] at h2
  rw [Nat.zero_add] at h1 h2
  refine ⟨after w 0 ls f, ?_, fun t ht => after_linesOf w t ht hw _ 0 f, fun p h => after_other w p (fun i => by rw [C166_name _ (hw i)]; exact h i) _ 0 f⟩
  unfold main
  rw [h2]
  obtain ⟨k, hk⟩ : ∃ k, (ls.flatten ++ (l ++ rest)).length - ls.length = k + 1 := ⟨(ls.flatten ++ (l ++ rest)).length - ls.length - 1, by
    rw [List.length_append]
    have := List.length_pos_iff.mpr r3
    omega⟩
  obtain ⟨log', e, g⟩ := put_fails w hw ls.length log (after w 0 ls f) l h1 (hf.imp id fun h => ⟨h.1, h.2.imp (fun e => by rw [e]; rfl) id⟩)
  rw [hk, loop, if_neg r3, r1]
  simp only
  rw [r2, g]
  cases o <;> simp

private def year : World := { now := fun i => if i = 0 then (2025, 12) else (2026, 1), opens := fun _ => true, puts := fun _ => true }

/-- A line as long as the buffer is in two files if the month ends meanwhile (with a buffer of 4 bytes). -/
theorem C166_counterexample_long : let r := main year 4 false (fun _ => []) (cstr "abcd\n")
    r.1 (cstr "2025-12.log") = cstr "abc" ∧ r.1 (cstr "2026-01.log") = cstr "d\n" := by decide +kernel

/-- What follows a zero byte in a line is not written, and neither is the end of the line. -/
theorem C166_counterexample_zero : let r := main year 8192 true (fun _ => []) (cstr "a" ++ [0] ++ cstr "b\nc\n")
    r.1 (cstr "2025-12.log") = cstr "a" ∧ r.2.1 = cstr "ac\n" := by decide +kernel

/-- Two lines of two months. -/
example : let r := main year 8192 true (fun p => if p = cstr "2025-12.log" then cstr "x\n" else []) (cstr "ab\ncd\n")
    r.1 (cstr "2025-12.log") = cstr "x\nab\n" ∧ r.1 (cstr "2026-01.log") = cstr "cd\n" ∧ r.2.1 = cstr "ab\ncd\n" := by decide +kernel

example : Line 8192 (cstr "ab\n") := ⟨cstr "ab", by decide +kernel, by decide +kernel, by decide +kernel, by decide +kernel⟩
example : fileOf (2026, 1) = cstr "2026-01.log" := by decide +kernel
example : linesOf year.now (2026, 1) 0 [cstr "ab\n", cstr "cd\n"] = cstr "cd\n" := by decide +kernel
end Che.Props
