import Verif.Model.Prog.Exab
import Verif.Proofs.Lib.ThreadsSeq

/-!
Proofs about the threads of `prog/exab`.
-/
namespace Che.Prog.Exab
open Che.Lib.Threads
variable {V : Type}

theorem PRun.run {f : Nat → Script V} {s s' : State V} {es : List (Nat × Event V)} (h : PRun f s es s') : Run s es s' := by
  induction h with
  | nil => exact .nil
  | snoc _ hs _ ih => exact .snoc ih hs

/-- What one thread does. -/
inductive Local (f : Script V) : List (Event V) → Phase V → Prop
  | nil : Local f [] .out
  | snoc {es : List (Event V)} {p q : Phase V} {e : Event V} : Local f es p → Proto p e q → (∀ op, e = .call op → f (rets es) = some op) → Local f (es ++ [e]) q

theorem prun_local [Inhabited V] {f : Nat → Script V} {m : Nat} {s' : State V} {es : List (Nat × Event V)} (h : PRun f (init m) es s') :
    ∀ i b, s'.threads[i]? = some b → Local (f i) (of i es) (phase b) := by
  induction h with
  | nil =>
    intro i b hb
    have : b ∈ List.replicate m Pc.idle := List.mem_of_getElem? hb
    rw [List.eq_of_mem_replicate this]
    exact .nil
  | snoc hr hs hf ih =>
    rename_i t u es j e
    intro i b hb
    obtain ⟨l2, ⟨a', b', h1, h2, h3⟩, h4⟩ := step_phase hs.2
    rw [of_snoc]
    by_cases h : j = i
    · subst h
      rw [if_pos rfl]
      rw [h2] at hb
      have := Option.some.inj hb
      subst this
      exact .snoc (ih _ a' h1) h3 hf
    · rw [if_neg h]
      have := h4 i (fun e => h e.symm)
      rw [hb] at this
      cases hc : t.threads[i]? with
      | none => rw [hc] at this; simp at this
      | some c =>
        rw [hc] at this
        have e := Option.some.inj this
        rw [e]
        exact ih i c hc

def isCall : Event V → Bool | .call _ => true | _ => false
def isPut : Event V → Bool | .put _ => true | _ => false
def isTake : Event V → Bool | .take _ => true | _ => false
def isShut : Event V → Bool | .shut => true | _ => false
def isEof : Event V → Bool | .eof => true | _ => false
def isWakeup : Event V → Bool | .wakeup => true | _ => false
/-- A read that has returned an item. -/
def isItem : Event V → Bool | .ret (some (some _)) => true | _ => false

theorem rets_snoc (es : List (Event V)) (e : Event V) : rets (es ++ [e]) = rets es ++ (match e with | .ret v => [v] | _ => []) := by
  unfold rets
  rw [List.filterMap_append]
  cases e <;> rfl

/-- What the main thread has done. -/
def MainAt (n : Nat) (es : List (Event Unit)) : Phase Unit → Prop
  | .out => es.countP isCall = (rets es).length ∧ es.countP isPut = min (rets es).length n ∧ es.countP isShut = (rets es).length - n ∧ (rets es).length ≤ n + 1
  | .writing _ => es.countP isCall = (rets es).length + 1 ∧ es.countP isPut = (rets es).length ∧ es.countP isShut = 0 ∧ (rets es).length < n
  | .closing => es.countP isCall = (rets es).length + 1 ∧ es.countP isPut = n ∧ es.countP isShut = 0 ∧ (rets es).length = n
  | .done => es.countP isCall = (rets es).length + 1 ∧
    ((rets es).length < n ∧ es.countP isPut = (rets es).length + 1 ∧ es.countP isShut = 0 ∨ (rets es).length = n ∧ es.countP isPut = n ∧ es.countP isShut = 1)
  | _ => False

theorem countP_snoc {α : Type} (f : α → Bool) (es : List α) (e : α) : (es ++ [e]).countP f = es.countP f + (f e).toNat := by
  rw [List.countP_append, List.countP_singleton]
  cases f e <;> rfl

theorem main_local {n : Nat} {es : List (Event Unit)} {p : Phase Unit} (h : Local (main n) es p) : MainAt n es p ∧ es.countP isTake = 0 ∧ es.countP isItem = 0 ∧ es.countP isEof = 0 := by
  induction h with
  | nil => exact ⟨by simp [MainAt, rets], by simp, by simp, by simp⟩
  | @snoc es p q e _ hp hf ih =>
    obtain ⟨ih, i2, i3, i4⟩ := ih
    cases hp with
    | callRead =>
      have := hf _ rfl
      unfold main at this
      split at this
      · simp at this
      · split at this <;> simp at this
    | callWrite =>
      have := hf _ rfl
      unfold main at this
      split at this
      · simp only [MainAt, rets_snoc, List.append_nil, countP_snoc, isCall, isPut, isShut, isTake, isItem, isEof, Bool.toNat_true, Bool.toNat_false, Nat.add_zero] at ih ⊢
        omega
      · split at this <;> simp at this
    | callClose =>
      have := hf _ rfl
      unfold main at this
      split at this
      · simp at this
      · split at this
        · simp only [MainAt, rets_snoc, List.append_nil, countP_snoc, isCall, isPut, isShut, isTake, isItem, isEof, Bool.toNat_true, Bool.toNat_false, Nat.add_zero] at ih ⊢
          omega
        · simp at this
    | take => exact ih.elim
    | eof => exact ih.elim
    | retRead => exact ih.elim
    | wakeup =>
      have e : MainAt n (es ++ [.wakeup]) p = MainAt n es p := by
        cases p with
        | read v => cases v <;> simp only [MainAt, rets_snoc, List.append_nil, countP_snoc, isCall, isPut, isShut, isTake, isItem, isEof, Bool.toNat_true, Bool.toNat_false, Nat.add_zero]
        | _ => simp only [MainAt, rets_snoc, List.append_nil, countP_snoc, isCall, isPut, isShut, isTake, isItem, isEof, Bool.toNat_true, Bool.toNat_false, Nat.add_zero]
      rw [e]
      simp only [countP_snoc, isCall, isPut, isShut, isTake, isItem, isEof, Bool.toNat_true, Bool.toNat_false, Nat.add_zero]
      exact ⟨ih, i2, i3, i4⟩
    | tau =>
      have e : MainAt n (es ++ [.tau]) p = MainAt n es p := by
        cases p with
        | read v => cases v <;> simp only [MainAt, rets_snoc, List.append_nil, countP_snoc, isCall, isPut, isShut, isTake, isItem, isEof, Bool.toNat_true, Bool.toNat_false, Nat.add_zero]
        | _ => simp only [MainAt, rets_snoc, List.append_nil, countP_snoc, isCall, isPut, isShut, isTake, isItem, isEof, Bool.toNat_true, Bool.toNat_false, Nat.add_zero]
      rw [e]
      simp only [countP_snoc, isCall, isPut, isShut, isTake, isItem, isEof, Bool.toNat_true, Bool.toNat_false, Nat.add_zero]
      exact ⟨ih, i2, i3, i4⟩
    | die =>
      have e : MainAt n (es ++ [.die]) p = MainAt n es p := by
        cases p with
        | read v => cases v <;> simp only [MainAt, rets_snoc, List.append_nil, countP_snoc, isCall, isPut, isShut, isTake, isItem, isEof, Bool.toNat_true, Bool.toNat_false, Nat.add_zero]
        | _ => simp only [MainAt, rets_snoc, List.append_nil, countP_snoc, isCall, isPut, isShut, isTake, isItem, isEof, Bool.toNat_true, Bool.toNat_false, Nat.add_zero]
      rw [e]
      simp only [countP_snoc, isCall, isPut, isShut, isTake, isItem, isEof, Bool.toNat_true, Bool.toNat_false, Nat.add_zero]
      exact ⟨ih, i2, i3, i4⟩
    | _ =>
      simp only [MainAt, rets_snoc, List.append_nil, List.length_append, List.length_singleton, countP_snoc, isCall, isPut, isShut, isTake, isItem, isEof, Bool.toNat_true, Bool.toNat_false, Nat.add_zero] at ih ⊢
      omega

/-- What a worker has done. -/
def WorkerAt (es : List (Event Unit)) : Phase Unit → Prop
  | .out => es.countP isItem = es.countP isTake ∧ ((rets es).getLast? ≠ some (some none) ∧ es.countP isCall = es.countP isTake ∨
    (rets es).getLast? = some (some none) ∧ es.countP isCall = es.countP isTake + 1 ∧ 0 < es.countP isEof)
  | .reading => (rets es).getLast? ≠ some (some none) ∧ es.countP isItem = es.countP isTake ∧ es.countP isCall = es.countP isTake + 1
  | .read (some _) => (rets es).getLast? ≠ some (some none) ∧ es.countP isItem + 1 = es.countP isTake ∧ es.countP isCall = es.countP isTake
  | .read none => es.countP isItem = es.countP isTake ∧ es.countP isCall = es.countP isTake + 1 ∧ 0 < es.countP isEof
  | _ => False

theorem worker_local {es : List (Event Unit)} {p : Phase Unit} (h : Local worker es p) : WorkerAt es p ∧ es.countP isPut = 0 ∧ es.countP isShut = 0 := by
  induction h with
  | nil => exact ⟨by simp [WorkerAt, rets], by simp, by simp⟩
  | @snoc es p q e _ hp hf ih =>
    obtain ⟨ih, i2, i3⟩ := ih
    cases hp with
    | callRead =>
      have := hf _ rfl
      unfold worker at this
      split at this
      · simp at this
      · rename_i hl
        simp only [WorkerAt, rets_snoc, List.append_nil, countP_snoc, isCall, isPut, isShut, isTake, isItem, isEof, Bool.toNat_true, Bool.toNat_false, Nat.add_zero] at ih ⊢
        rcases ih with ⟨h1, ⟨h2, h3⟩ | ⟨h2, _⟩⟩
        · exact ⟨⟨hl, by omega, by omega⟩, i2, i3⟩
        · exact absurd h2 hl
    | callWrite =>
      have := hf _ rfl
      unfold worker at this
      split at this <;> simp at this
    | callClose =>
      have := hf _ rfl
      unfold worker at this
      split at this <;> simp at this
    | put => exact ih.elim
    | shut => exact ih.elim
    | retDone => exact ih.elim
    | take =>
      simp only [WorkerAt, rets_snoc, List.append_nil, countP_snoc, isCall, isPut, isShut, isTake, isItem, isEof, Bool.toNat_true, Bool.toNat_false, Nat.add_zero] at ih ⊢
      obtain ⟨h1, h2, h3⟩ := ih
      exact ⟨⟨h1, by omega, by omega⟩, i2, i3⟩
    | eof =>
      simp only [WorkerAt, rets_snoc, List.append_nil, countP_snoc, isCall, isPut, isShut, isTake, isItem, isEof, Bool.toNat_true, Bool.toNat_false, Nat.add_zero] at ih ⊢
      obtain ⟨h1, h2, h3⟩ := ih
      exact ⟨⟨by omega, by omega, by omega⟩, i2, i3⟩
    | @retRead v =>
      cases v with
      | some u =>
        simp only [WorkerAt, rets_snoc, List.getLast?_concat, countP_snoc, isCall, isPut, isShut, isTake, isItem, isEof, Bool.toNat_true, Bool.toNat_false, Nat.add_zero] at ih ⊢
        obtain ⟨h1, h2, h3⟩ := ih
        exact ⟨⟨by omega, .inl ⟨by simp, by omega⟩⟩, i2, i3⟩
      | none =>
        simp only [WorkerAt, rets_snoc, List.getLast?_concat, countP_snoc, isCall, isPut, isShut, isTake, isItem, isEof, Bool.toNat_true, Bool.toNat_false, Nat.add_zero] at ih ⊢
        obtain ⟨h1, h2, h3⟩ := ih
        exact ⟨⟨by omega, .inr ⟨trivial, by omega, by omega⟩⟩, i2, i3⟩
    | wakeup =>
      have e : WorkerAt (es ++ [.wakeup]) p = WorkerAt es p := by
        cases p with
        | read v => cases v <;> simp only [WorkerAt, rets_snoc, List.append_nil, countP_snoc, isCall, isPut, isShut, isTake, isItem, isEof, Bool.toNat_true, Bool.toNat_false, Nat.add_zero]
        | _ => simp only [WorkerAt, rets_snoc, List.append_nil, countP_snoc, isCall, isPut, isShut, isTake, isItem, isEof, Bool.toNat_true, Bool.toNat_false, Nat.add_zero]
      rw [e]
      simp only [countP_snoc, isCall, isPut, isShut, isTake, isItem, isEof, Bool.toNat_true, Bool.toNat_false, Nat.add_zero]
      exact ⟨ih, i2, i3⟩
    | tau =>
      have e : WorkerAt (es ++ [.tau]) p = WorkerAt es p := by
        cases p with
        | read v => cases v <;> simp only [WorkerAt, rets_snoc, List.append_nil, countP_snoc, isCall, isPut, isShut, isTake, isItem, isEof, Bool.toNat_true, Bool.toNat_false, Nat.add_zero]
        | _ => simp only [WorkerAt, rets_snoc, List.append_nil, countP_snoc, isCall, isPut, isShut, isTake, isItem, isEof, Bool.toNat_true, Bool.toNat_false, Nat.add_zero]
      rw [e]
      simp only [countP_snoc, isCall, isPut, isShut, isTake, isItem, isEof, Bool.toNat_true, Bool.toNat_false, Nat.add_zero]
      exact ⟨ih, i2, i3⟩
    | die =>
      have e : WorkerAt (es ++ [.die]) p = WorkerAt es p := by
        cases p with
        | read v => cases v <;> simp only [WorkerAt, rets_snoc, List.append_nil, countP_snoc, isCall, isPut, isShut, isTake, isItem, isEof, Bool.toNat_true, Bool.toNat_false, Nat.add_zero]
        | _ => simp only [WorkerAt, rets_snoc, List.append_nil, countP_snoc, isCall, isPut, isShut, isTake, isItem, isEof, Bool.toNat_true, Bool.toNat_false, Nat.add_zero]
      rw [e]
      simp only [countP_snoc, isCall, isPut, isShut, isTake, isItem, isEof, Bool.toNat_true, Bool.toNat_false, Nat.add_zero]
      exact ⟨ih, i2, i3⟩

/-- A sum over threads. -/
def sum (m : Nat) (g : Nat → Nat) : Nat := ((List.range m).map g).sum

theorem sum_succ (m : Nat) (g : Nat → Nat) : sum (m + 1) g = sum m g + g m := by simp [sum, List.range_succ]

theorem sum_le : ∀ {m : Nat} {g h : Nat → Nat}, (∀ i, i < m → g i ≤ h i) → sum m g ≤ sum m h
  | 0, _, _, _ => by simp [sum]
  | m + 1, g, h, hl => by
    rw [sum_succ, sum_succ]
    have := sum_le (m := m) (g := g) (h := h) fun i hi => hl i (by omega)
    have := hl m (by omega)
    omega

theorem sum_congr : ∀ {m : Nat} {g h : Nat → Nat}, (∀ i, i < m → g i = h i) → sum m g = sum m h
  | 0, _, _, _ => by simp [sum]
  | m + 1, g, h, hl => by rw [sum_succ, sum_succ, sum_congr (m := m) (g := g) (h := h) fun i hi => hl i (by omega), hl m (by omega)]

/-- The sum of what only the first thread has. -/
theorem sum_first : ∀ {m : Nat} {g : Nat → Nat}, (∀ i, 0 < i → i < m + 1 → g i = 0) → sum (m + 1) g = g 0
  | 0, g, _ => by simp [sum]
  | m + 1, g, h => by rw [sum_succ, sum_first fun i h0 h1 => h i h0 (by omega), h (m + 1) (by omega) (by omega), Nat.add_zero]

/-- The first thread and the others. -/
theorem sum_rest (g h : Nat → Nat) (k : Nat) : ∀ {m : Nat}, (∀ i, 0 < i → i < m + 1 → g i ≤ h i + k) → sum (m + 1) g ≤ g 0 + sum (m + 1) h + m * k
  | 0, _ => by simp [sum]
  | m + 1, hl => by
    rw [sum_succ, sum_succ (m + 1) h]
    have := sum_rest g h k (m := m) fun i h0 h1 => hl i h0 (by omega)
    have := hl (m + 1) (by omega) (by omega)
    rw [Nat.succ_mul]
    omega

theorem sum_add_one (j : Nat) (b : Nat) (g : Nat → Nat) : ∀ {m : Nat}, j < m → sum m (fun i => if j = i then g i + b else g i) = sum m g + b
  | 0, h => by omega
  | m + 1, h => by
    rw [sum_succ, sum_succ]
    by_cases e : j = m
    · rw [if_pos e, sum_congr (h := g) fun i hi => if_neg (by omega)]
      omega
    · rw [if_neg e, sum_add_one j b g (m := m) (by omega)]
      omega

theorem step_lt {s s' : State V} {i : Nat} {e : Event V} (hs : Core s i e s') : i < s.threads.length := by
  obtain ⟨_, ⟨a, _, h, _⟩, _⟩ := step_phase hs
  rcases Nat.lt_or_ge i s.threads.length with h' | h'
  · exact h'
  · rw [List.getElem?_eq_none h'] at h; simp at h

theorem count_sum {s s' : State V} {es : List (Nat × Event V)} (hr : Run s es s') (f : Event V → Bool) :
    es.countP (fun e => f e.2) = sum s.threads.length fun i => (of i es).countP f := by
  induction hr with
  | nil =>
    have : ∀ m, sum m (fun i => (of i ([] : List (Nat × Event V))).countP f) = 0 := by
      intro m
      induction m with
      | zero => rfl
      | succ m ih => rw [sum_succ, ih]; rfl
    rw [this]
    rfl
  | @snoc t u es i e hr hs ih =>
    have hl := (run_phase hr).1
    have hi := step_lt hs.2
    rw [hl] at hi
    rw [countP_snoc (fun e : Nat × Event V => f e.2), ih, ← sum_add_one i ((f e).toNat) (fun i => (of i es).countP f) hi]
    refine sum_congr fun j hj => ?_
    rw [of_snoc]
    split
    · rw [countP_snoc]
    · rfl

theorem qrun_fifo {x : List V × Bool} {es : List (Nat × Event V)} (h : QRun ([], false) es x) :
    puts es = takes es ++ x.1 ∧ (x.2 = true ↔ 0 < es.countP fun e => isShut e.2) := by
  induction h with
  | nil => exact ⟨rfl, by simp⟩
  | @snoc y z es i e _ hs ih =>
    obtain ⟨h1, h2⟩ := ih
    have e1 : puts (es ++ [(i, e)]) = puts es ++ puts [(i, e)] := List.filterMap_append ..
    have e2 : takes (es ++ [(i, e)]) = takes es ++ takes [(i, e)] := List.filterMap_append ..
    rw [e1, e2, h1, countP_snoc (fun e : Nat × Event V => isShut e.2)]
    cases hs with
    | put _ => exact ⟨by simp [puts, takes], by simpa [isShut] using h2⟩
    | take => exact ⟨by simp [puts, takes], by simpa [isShut] using h2⟩
    | shut => exact ⟨by simp [puts, takes], by simp [isShut]⟩
    | eof => exact ⟨by simp [puts, takes], by simpa [isShut] using h2⟩
    | _ => exact ⟨by simp [puts, takes], by simpa [isShut] using h2⟩

theorem puts_length (es : List (Nat × Event V)) : (puts es).length = es.countP fun e => isPut e.2 := by
  induction es with
  | nil => rfl
  | cons e es ih =>
    obtain ⟨i, e⟩ := e
    have : puts ((i, e) :: es) = puts [(i, e)] ++ puts es := List.filterMap_append (l := [(i, e)]) ..
    rw [this, List.length_append, List.countP_cons, ih]
    cases e <;> simp [puts, isPut] <;> omega

theorem takes_length (es : List (Nat × Event V)) : (takes es).length = es.countP fun e => isTake e.2 := by
  induction es with
  | nil => rfl
  | cons e es ih =>
    obtain ⟨i, e⟩ := e
    have : takes ((i, e) :: es) = takes [(i, e)] ++ takes es := List.filterMap_append (l := [(i, e)]) ..
    rw [this, List.length_append, List.countP_cons, ih]
    cases e <;> simp [takes, isTake] <;> omega

section
variable {n c : Nat} {es : List (Nat × Event Unit)} {s : State Unit}

theorem threads_length (h : PRun (scripts n) (init (c + 1)) es s) : s.threads.length = c + 1 := by
  rw [(run_phase h.run).1]
  simp [init]

theorem main_at (h : PRun (scripts n) (init (c + 1)) es s) :
    ∃ b, s.threads[0]? = some b ∧ MainAt n (of 0 es) (phase b) ∧ (of 0 es).countP isTake = 0 ∧ (of 0 es).countP isItem = 0 ∧ (of 0 es).countP isEof = 0 := by
  have hl := threads_length h
  refine ⟨s.threads[0], List.getElem?_eq_getElem (by omega), ?_⟩
  exact main_local (prun_local h 0 _ (List.getElem?_eq_getElem (by omega)))

theorem worker_at (h : PRun (scripts n) (init (c + 1)) es s) {i : Nat} (h0 : 0 < i) (h1 : i < c + 1) :
    ∃ b, s.threads[i]? = some b ∧ WorkerAt (of i es) (phase b) ∧ (of i es).countP isPut = 0 ∧ (of i es).countP isShut = 0 := by
  have hl := threads_length h
  refine ⟨s.threads[i], List.getElem?_eq_getElem (by omega), ?_⟩
  have := prun_local h i _ (List.getElem?_eq_getElem (by omega))
  rw [show scripts n i = worker from if_neg (by omega)] at this
  exact worker_local this

theorem count_first (h : PRun (scripts n) (init (c + 1)) es s) (f : Event Unit → Bool) (hf : ∀ i, 0 < i → i < c + 1 → (of i es).countP f = 0) :
    es.countP (fun e => f e.2) = (of 0 es).countP f := by
  rw [count_sum h.run f, show (init (c + 1) : State Unit).threads.length = c + 1 by simp [init]]
  exact sum_first hf

/-- The main thread writes no more than it has to. -/
theorem puts_le (h : PRun (scripts n) (init (c + 1)) es s) : (puts es).length ≤ n := by
  rw [puts_length, count_first h isPut fun i h0 h1 => by obtain ⟨_, _, _, h, _⟩ := worker_at h h0 h1; exact h]
  obtain ⟨b, _, h1, _⟩ := main_at h
  cases e : phase b <;> rw [e] at h1 <;> simp only [MainAt] at h1 <;> omega

theorem worker_calls {es : List (Event Unit)} {p : Phase Unit} (h : WorkerAt es p) : es.countP isCall ≤ es.countP isTake + 1 := by
  cases p with
  | read v => cases v <;> simp only [WorkerAt] at h <;> omega
  | out =>
    simp only [WorkerAt] at h
    rcases h.2 with h | h <;> omega
  | reading => simp only [WorkerAt] at h; omega
  | _ => exact h.elim

/-- The calls of all threads. -/
theorem calls_le (h : PRun (scripts n) (init (c + 1)) es s) : es.countP (fun e => isCall e.2) ≤ 2 * n + c + 1 := by
  have hx := count_sum h.run isCall
  have hy := count_sum h.run isTake
  rw [show (init (c + 1) : State Unit).threads.length = c + 1 by simp [init]] at hx hy
  have := sum_rest (fun i => (of i es).countP isCall) (fun i => (of i es).countP isTake) 1 (m := c) fun i h0 h1 => by
    obtain ⟨b, _, h2, _⟩ := worker_at h h0 h1
    exact worker_calls h2
  obtain ⟨b, _, h1, _⟩ := main_at h
  have hm : (of 0 es).countP isCall ≤ n + 1 := by
    cases e : phase b <;> rw [e] at h1 <;> simp only [MainAt] at h1 <;> omega
  obtain ⟨x, hq, _⟩ := run_inv (inv_init (c + 1)) h.run
  have hp := puts_le h
  rw [(qrun_fifo hq).1, List.length_append, takes_length] at hp
  omega

theorem costs_eq (m : Nat) (es : List (Nat × Event V)) : costs m es = (13 + 4 * m) * es.countP (fun e => isCall e.2) + 5 * es.countP (fun e => isWakeup e.2) := by
  induction es with
  | nil => simp [costs]
  | cons e es ih =>
    obtain ⟨i, e⟩ := e
    have : costs m ((i, e) :: es) = cost m e + costs m es := by simp [costs]
    rw [this, ih, List.countP_cons, List.countP_cons]
    cases e <;> simp [cost, isCall, isWakeup, Nat.mul_add] <;> omega

/-- Whether the pipe is closed. -/
theorem shut_first (h : PRun (scripts n) (init (c + 1)) es s) : es.countP (fun e => isShut e.2) = (of 0 es).countP isShut :=
  count_first h isShut fun i h0 h1 => by obtain ⟨_, _, _, _, h⟩ := worker_at h h0 h1; exact h

/-- The program does not fail. -/
theorem not_dead (h : PRun (scripts n) (init (c + 1)) es s) : s.dead = none := by
  cases h with
  | nil => rfl
  | @snoc t _ es i e hr hs hf =>
    obtain ⟨h0, hs⟩ := hs
    obtain ⟨x, hq, hx⟩ := run_inv (inv_init (c + 1)) hr.run
    by_cases he : e = .die
    · subst he
      cases hs with
      | panic hi hb ho =>
        obtain ⟨_, h2, d, rfl⟩ := no_panic hx hb
        rw [hx.1.closed, (qrun_fifo hq).2, shut_first hr] at h2
        rcases Nat.eq_zero_or_pos i with rfl | hi0
        · obtain ⟨b, h3, h4, _⟩ := main_at hr
          rw [hi] at h3
          have := Option.some.inj h3
          subst this
          simp only [phase, MainAt] at h4
          omega
        · have hl := step_lt (.panic hi hb ho)
          rw [threads_length hr] at hl
          obtain ⟨b, h3, h4, _⟩ := worker_at hr hi0 hl
          rw [hi] at h3
          have := Option.some.inj h3
          subst this
          exact h4.elim
      | race hi hn ho => exact absurd (no_race hx hi hn) ho
      | body hi hb ho => exact absurd h0 (fun _ => (step_die (.body hi hb ho)).2 h0)
    · exact step_dead hs he h0

/-- After a read that has found the end, everything has been taken. -/
theorem eof_takes (h : PRun (scripts n) (init (c + 1)) es s) : 0 < es.countP (fun e => isEof e.2) → (takes es).length = n ∧ 0 < es.countP fun e => isShut e.2 := by
  induction h with
  | nil => intro h; simp at h
  | @snoc t u es i e hr hs hf ih =>
    intro h
    have hall := puts_le (.snoc hr hs hf)
    obtain ⟨x, hq, hx⟩ := run_inv (inv_init (c + 1)) hr.run
    obtain ⟨y, hq2, hy⟩ := step_inv hx hs.2
    rw [(qrun_fifo (.snoc hq hq2)).1, List.length_append] at hall
    have e2 : takes (es ++ [(i, e)]) = takes es ++ takes [(i, e)] := List.filterMap_append ..
    rw [countP_snoc (fun e : Nat × Event Unit => isEof e.2)] at h
    rw [countP_snoc (fun e : Nat × Event Unit => isShut e.2)]
    rw [e2, List.length_append] at hall ⊢
    by_cases he : 0 < es.countP (fun e => isEof e.2)
    · obtain ⟨h1, h2⟩ := ih he
      omega
    · have : e = .eof := by
        generalize es.countP (fun e => isEof e.2) = k at h he
        cases e <;> first | rfl | (simp only [isEof, Bool.toNat_false] at h; omega)
      subst this
      cases hq2
      obtain ⟨h1, h2⟩ := qrun_fifo hq
      have h3 := h2.1 rfl
      have h4 : (puts es).length = (takes es).length := by rw [h1]; simp
      rw [shut_first hr] at h3
      obtain ⟨b, _, h5, _⟩ := main_at hr
      have h6 : (of 0 es).countP isPut = n := by
        cases e : phase b <;> rw [e] at h5 <;> simp only [MainAt] at h5 <;> omega
      rw [puts_length, count_first hr isPut fun i h0 h1 => by obtain ⟨_, _, _, h, _⟩ := worker_at hr h0 h1; exact h] at h4
      have h7 := shut_first hr
      exact ⟨by simp [takes]; simp [takes] at h4; omega, by omega⟩

theorem stuck_quiet {f : Nat → Script V} {es : List (Nat × Event V)} {s : State V} (h : Stuck f es s) : Quiet s := by
  intro i e s' hs
  by_cases hc : ∃ op, e = .call op
  · exact .inl hc
  · exact .inr (h i e s' hs fun op ho => absurd ⟨op, ho⟩ hc)

theorem stuck_idle {f : Nat → Script V} {es : List (Nat × Event V)} {s : State V} (h : Stuck f es s) (hd : s.dead = none) {i : Nat} (hi : s.threads[i]? = some .idle) : f i (rets (of i es)) = none := by
  cases e : f i (rets (of i es)) with
  | none => rfl
  | some op =>
    have := h i (.call op) _ ⟨hd, .call hi⟩ fun op' ho => by injection ho with ho; rw [e, ho]
    simp at this

/-- The events of one thread are events. -/
theorem count_of_le (f : Event V → Bool) (i : Nat) : ∀ es : List (Nat × Event V), (of i es).countP f ≤ es.countP fun e => f e.2
  | [] => by simp [of]
  | (j, e) :: es => by
    have := count_of_le f i es
    have e1 : of i ((j, e) :: es) = if j = i then e :: of i es else of i es := by
      unfold of
      by_cases h : j = i
      · simp [h]
      · simp [h]
    rw [e1, List.countP_cons]
    split
    · rw [List.countP_cons]
      simp only
      omega
    · omega

/-- When nothing happens any more, everything has been done. -/
theorem stuck_done (h : PRun (scripts n) (init (c + 1)) es s) (hc : 0 < c) (hs : Stuck (scripts n) es s) :
    (∀ i, i < c + 1 → s.threads[i]? = some .idle) ∧ es.countP (fun e => isItem e.2) = n := by
  have hd := not_dead h
  have hq := stuck_quiet hs
  obtain ⟨x, hqr, hx⟩ := run_inv (inv_init (c + 1)) h.run
  obtain ⟨hf1, hf2⟩ := qrun_fifo hqr
  -- an idle worker has found the end
  have worker_idle : ∀ i, 0 < i → i < c + 1 → s.threads[i]? = some .idle → 0 < (of i es).countP isEof ∧ (of i es).countP isItem = (of i es).countP isTake := by
    intro i h0 h1 hi
    obtain ⟨b, h2, h3, _⟩ := worker_at h h0 h1
    rw [hi] at h2
    have := Option.some.inj h2
    subst this
    simp only [phase, WorkerAt] at h3
    have h4 := stuck_idle hs hd hi
    rw [show scripts n i = worker from if_neg (by omega)] at h4
    unfold worker at h4
    split at h4
    · rename_i h5
      rcases h3 with ⟨h6, ⟨h7, _⟩ | ⟨_, _, h8⟩⟩
      · exact absurd h5 h7
      · exact ⟨h8, h6⟩
    · simp at h4
  have worker_wait : ∀ i, 0 < i → i < c + 1 → s.threads[i]? = some .idle ∨ x = ([], false) := by
    intro i h0 h1
    obtain ⟨b, h2, h3, _⟩ := worker_at h h0 h1
    rcases quiet_waits hx hd hq h2 with rfl | ⟨_, h4⟩ | ⟨d, rfl, _⟩
    · exact .inl h2
    · exact .inr h4
    · exact h3.elim
  obtain ⟨b, m1, m2, m3, m4, m5⟩ := main_at h
  rcases quiet_waits hx hd hq m1 with rfl | ⟨rfl, _⟩ | ⟨d, rfl, hlen⟩
  · have h4 := stuck_idle hs hd m1
    rw [show scripts n 0 = main n from if_pos rfl] at h4
    unfold main at h4
    simp only [phase, MainAt] at m2
    have hr : (rets (of 0 es)).length = n + 1 := by
      split at h4
      · simp at h4
      · split at h4
        · simp at h4
        · omega
    have hcl : x.2 = true := by
      rw [hf2, shut_first h]
      omega
    have all : ∀ i, i < c + 1 → s.threads[i]? = some .idle := by
      intro i hi
      rcases Nat.eq_zero_or_pos i with rfl | h0
      · exact m1
      · rcases worker_wait i h0 hi with h | h
        · exact h
        · rw [h] at hcl; simp at hcl
    refine ⟨all, ?_⟩
    have h1 := (worker_idle 1 (by omega) (by omega) (all 1 (by omega))).1
    have h2 := count_of_le isEof 1 es
    have h3 := (eof_takes h (by omega)).1
    rw [takes_length] at h3
    rw [← h3, count_sum h.run isItem, count_sum h.run isTake]
    refine sum_congr fun i hi => ?_
    rw [show (init (c + 1) : State Unit).threads.length = c + 1 by simp [init]] at hi
    rcases Nat.eq_zero_or_pos i with rfl | h0
    · rw [m3, m4]
    · exact (worker_idle i h0 hi (all i hi)).2
  · exact m2.elim
  · exfalso
    rcases worker_wait 1 (by omega) (by omega) with h1 | h1
    · have h2 := count_of_le isEof 1 es
      have h3 := (worker_idle 1 (by omega) (by omega) h1).1
      have h4 := (eof_takes h (by omega)).2
      rw [shut_first h] at h4
      simp only [phase, MainAt] at m2
      omega
    · rw [h1] at hlen
      simp at hlen
end

/-- A run of threads that call what their scripts say goes on with the calls of one of them. -/
theorem PRun.append {f : Nat → Script V} {s t u : State V} {es fs : List (Nat × Event V)} (h : PRun f s es t) (hr : Run t fs u)
    (hf : ∀ gs hs i op, fs = gs ++ (i, .call op) :: hs → f i (rets (of i (es ++ gs))) = some op) : PRun f s (es ++ fs) u := by
  induction hr with
  | nil => rw [List.append_nil]; exact h
  | @snoc t' u fs i e _ hs ih =>
    rw [← List.append_assoc]
    refine .snoc (ih fun gs hs i' op he => hf gs (hs ++ [(i, e)]) i' op (by rw [he]; simp)) hs fun op he => ?_
    subst he
    exact hf fs [] i op rfl

theorem of_append (i : Nat) (es fs : List (Nat × Event V)) : of i (es ++ fs) = of i es ++ of i fs := by simp [of]

theorem rets_append (es fs : List (Event V)) : rets (es ++ fs) = rets es ++ rets fs := by simp [rets]

/-- The calls are what the scripts say. -/
def Check (f : Nat → Script V) (es : List (Nat × Event V)) : List (Nat × Event V) → Prop
  | [] => True
  | (i, e) :: fs => (match e with | .call op => f i (rets (of i es)) = some op | _ => True) ∧ Check f (es ++ [(i, e)]) fs

theorem check_calls {f : Nat → Script V} : ∀ {fs es : List (Nat × Event V)}, Check f es fs → ∀ gs hs i op, fs = gs ++ (i, .call op) :: hs → f i (rets (of i (es ++ gs))) = some op
  | [], es, _, gs, hs, i, op, e => by simp at e
  | (j, e') :: fs, es, h, [], hs, i, op, e => by
    simp only [List.nil_append, List.cons.injEq, Prod.mk.injEq] at e
    obtain ⟨⟨rfl, rfl⟩, _⟩ := e
    rw [List.append_nil]
    exact h.1
  | (j, e') :: fs, es, h, g :: gs, hs, i, op, e => by
    simp only [List.cons_append, List.cons.injEq] at e
    obtain ⟨rfl, e⟩ := e
    have := check_calls h.2 gs hs i op e
    rw [List.append_assoc] at this
    exact this

theorem PRun.check {f : Nat → Script V} {s t u : State V} {es fs : List (Nat × Event V)} (h : PRun f s es t) (hr : Run t fs u) (hf : Check f es fs) : PRun f s (es ++ fs) u :=
  h.append hr (check_calls hf)

/-- When each thread waits or has ended, nothing happens. -/
theorem stuck_of {f : Nat → Script V} {es : List (Nat × Event V)} {s : State V}
    (h : ∀ i pc, s.threads[i]? = some pc → (pc = .rWaiting ∨ ∃ d, pc = .wWaiting d) ∨ pc = .idle ∧ f i (rets (of i es)) = none) : Stuck f es s := by
  intro i e s' hs hf
  cases hs.2 with
  | call hi =>
    rcases h i _ hi with (h | ⟨d, h⟩) | ⟨_, h⟩
    · simp at h
    · simp at h
    · have := hf _ rfl
      rw [h] at this
      simp at this
  | wakeup hi hr => rfl
  | ret hi hr => rcases h i _ hi with (rfl | ⟨d, rfl⟩) | ⟨rfl, h⟩ <;> simp [result] at hr
  | lock hi hr => rcases h i _ hi with (rfl | ⟨d, rfl⟩) | ⟨rfl, h⟩ <;> simp [afterLock] at hr
  | unlock hi hr => rcases h i _ hi with (rfl | ⟨d, rfl⟩) | ⟨rfl, h⟩ <;> simp [afterUnlock] at hr
  | wait hi hr => rcases h i _ hi with (rfl | ⟨d, rfl⟩) | ⟨rfl, h⟩ <;> simp [afterWait] at hr
  | body hi hr => rcases h i _ hi with (rfl | ⟨d, rfl⟩) | ⟨rfl, h⟩ <;> simp [body] at hr
  | panic hi hr => rcases h i _ hi with (rfl | ⟨d, rfl⟩) | ⟨rfl, h⟩ <;> simp [body] at hr
  | race hi hr => rcases h i _ hi with (rfl | ⟨d, rfl⟩) | ⟨rfl, h⟩ <;> simp [needsLock, body, afterUnlock, afterWait] at hr
  | signal hi hr => rcases h i _ hi with (rfl | ⟨d, rfl⟩) | ⟨rfl, h⟩ <;> simp [signal] at hr
  | signalNone hi hr => rcases h i _ hi with (rfl | ⟨d, rfl⟩) | ⟨rfl, h⟩ <;> simp [signal] at hr
  | wakeAll hi => rcases h i _ hi with (h | ⟨d, h⟩) | ⟨h, _⟩ <;> simp at h

theorem check_append (f : Nat → Script V) : ∀ (as : List (Nat × Event V)) {bs es : List (Nat × Event V)}, Check f es as → Check f (es ++ as) bs → Check f es (as ++ bs)
  | [], bs, es, _, h => by rw [List.append_nil] at h; exact h
  | (i, e) :: as, bs, es, h1, h2 => ⟨h1.1, check_append f as h1.2 (by rw [List.append_assoc]; exact h2)⟩

/-- The main thread has written `k` times. -/
theorem rets_writes (es : List (Nat × Event Unit)) : ∀ k, (rets (of 0 (es ++ writesEvents 0 () k))).length = (rets (of 0 es)).length + k
  | 0 => by simp [writesEvents]
  | k + 1 => by
    rw [writesEvents, ← List.append_assoc, of_append, rets_append, List.length_append, rets_writes es k]
    rfl

theorem check_writes {f : Nat → Script Unit} {n : Nat} (hf : f 0 = main n) (es : List (Nat × Event Unit)) : ∀ k, (rets (of 0 es)).length + k ≤ n → Check f es (writesEvents 0 () k)
  | 0, _ => trivial
  | k + 1, h => by
    refine check_append f _ (check_writes hf es k (by omega)) ⟨?_, trivial, trivial, trivial, trivial, trivial, trivial, trivial, trivial, trivial⟩
    simp only
    rw [hf]
    unfold main
    rw [rets_writes, if_pos (by omega)]
end Che.Prog.Exab
