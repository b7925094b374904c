import Verif.Proofs.Lib.Threads

/-!
Proofs about the pipe between threads: no thread waits in vain, and executions end.
-/
namespace Che.Lib.Threads
variable {V : Type}

/-- Nothing happens any more, unless a thread begins a call or wakes for no reason. -/
def Quiet (s : State V) : Prop := ∀ i e s', Step s i e s' → (∃ op, e = .call op) ∨ e = .wakeup

/-- The thread that holds the mutex can go on. -/
theorem holder_steps {s : State V} {i : Nat} {q : Pc V} (hi : s.threads[i]? = some q) (hq : holds q = true) (ho : s.owner = some i) :
    ∃ e s', Core s i e s' ∧ (∀ op, e ≠ .call op) ∧ e ≠ .wakeup := by
  have hb : ∀ {d}, body s.pipe q = some d → ∃ e s', Core s i e s' ∧ (∀ op, e ≠ .call op) ∧ e ≠ .wakeup := by
    intro d hd
    cases d with
    | dead m => exact ⟨_, _, .panic hi hd ho, by simp, by simp⟩
    | next e p q' =>
      refine ⟨_, _, .body hi hd ho, ?_⟩
      cases q <;> simp only [body, Option.some.injEq, reduceCtorEq] at hd <;> (try split at hd) <;> (try (simp at hd; done)) <;> obtain ⟨rfl, rfl, rfl⟩ := Done.next.inj hd <;> simp
  cases q <;> simp [holds] at hq
  case rUnlock => exact ⟨_, _, .unlock hi rfl ho, by simp, by simp⟩
  case rEofUnlock => exact ⟨_, _, .unlock hi rfl ho, by simp, by simp⟩
  case wUnlock => exact ⟨_, _, .unlock hi rfl ho, by simp, by simp⟩
  case cUnlock => exact ⟨_, _, .unlock hi rfl ho, by simp, by simp⟩
  case rBlock => exact ⟨_, _, .wait hi rfl ho, by simp, by simp⟩
  case wBlock => exact ⟨_, _, .wait hi rfl ho, by simp, by simp⟩
  case cWake => exact ⟨_, _, .wakeAll hi, by simp, by simp⟩
  all_goals exact hb rfl

theorem queue_le {s : State V} {x : List V × Bool} (h : InvA s x) (ho : s.owner = none) : x.1.length ≤ 32 := by
  rw [h.free ho, contents_length]
  exact h.len

theorem signal_steps {s : State V} {i : Nat} {q q' : Pc V} {f : Pc V → Bool} (hi : s.threads[i]? = some q) (hq : signal q = some (f, q')) : ∃ s', Core s i .tau s' := by
  by_cases h : ∃ r ∈ s.threads, f r = true
  · obtain ⟨r, h1, h2⟩ := h
    obtain ⟨j, hj⟩ := List.mem_iff_getElem?.1 h1
    have : ∃ r', afterWake r = some r' := by
      cases q <;> simp [signal] at hq <;> obtain ⟨rfl, _⟩ := hq <;> cases r <;> simp at h2 <;> exact ⟨_, rfl⟩
    obtain ⟨r', hr'⟩ := this
    exact ⟨_, .signal hi hq hj h2 hr'⟩
  · refine ⟨_, .signalNone hi hq fun r hr => ?_⟩
    cases e : f r with
    | false => rfl
    | true => exact absurd ⟨r, hr, e⟩ h

theorem quiet_free {s : State V} {x : List V × Bool} (h : Inv s x) (hd : s.dead = none) (hq : Quiet s) : s.owner = none := by
  cases ho : s.owner with
  | none => rfl
  | some i =>
    obtain ⟨pc, h1, h2, _⟩ := h.1.own i ho
    obtain ⟨e, s', h3, h4, h5⟩ := holder_steps h1 h2 ho
    rcases hq i e s' ⟨hd, h3⟩ with ⟨op, h6⟩ | h6
    · exact absurd h6 (h4 op)
    · exact absurd h6 h5

theorem quiet_pc {s : State V} {x : List V × Bool} (h : Inv s x) (hd : s.dead = none) (hq : Quiet s) {i : Nat} {pc : Pc V} (hi : s.threads[i]? = some pc) :
    pc = .idle ∨ pc = .rWaiting ∨ ∃ d, pc = .wWaiting d := by
  have ho := quiet_free h hd hq
  have no : ∀ {s'}, ¬ Core s i .tau s' := fun h => by
    rcases hq i _ _ ⟨hd, h⟩ with ⟨op, h6⟩ | h6 <;> simp at h6
  have hh : holds pc = false := by
    cases e : holds pc with
    | false => rfl
    | true => have := h.1.holds i pc hi e; rw [ho] at this; simp at this
  have ret : ∀ {v}, result pc = some v → False := fun hv => by
    rcases hq i _ _ ⟨hd, .ret hi hv⟩ with ⟨op, h6⟩ | h6 <;> simp at h6
  have sig : ∀ {f q'}, signal pc = some (f, q') → False := fun hf => by
    obtain ⟨s', hs⟩ := signal_steps hi hf
    exact no hs
  cases pc <;> simp [holds] at hh
  case idle => exact .inl rfl
  case rWaiting => exact .inr (.inl rfl)
  case wWaiting => exact .inr (.inr ⟨_, rfl⟩)
  case rLock => exact absurd (.lock hi rfl ho) no
  case rWoken => exact absurd (.lock hi rfl ho) no
  case wLock => exact absurd (.lock hi rfl ho) no
  case wWoken => exact absurd (.lock hi rfl ho) no
  case cLock => exact absurd (.lock hi rfl ho) no
  case rSignal => exact (sig rfl).elim
  case wSignal => exact (sig rfl).elim
  case rRet => exact (ret rfl).elim
  case wRet => exact (ret rfl).elim
  case cRet => exact (ret rfl).elim

/-- When nothing happens any more, readers wait only for items and writers only for a place. -/
theorem quiet_waits {s : State V} {x : List V × Bool} (h : Inv s x) (hd : s.dead = none) (hq : Quiet s) {i : Nat} {pc : Pc V} (hi : s.threads[i]? = some pc) :
    pc = .idle ∨ (pc = .rWaiting ∧ x = ([], false)) ∨ ∃ d, pc = .wWaiting d ∧ x.1.length = 32 := by
  have zero : ∀ f : Pc V → Bool, f .idle = false → f .rWaiting = false → (∀ d, f (.wWaiting d) = false) → s.threads.countP f = 0 := by
    intro f h1 h2 h3
    rw [List.countP_eq_zero]
    intro r hr
    obtain ⟨j, hj⟩ := List.mem_iff_getElem?.1 hr
    rcases quiet_pc h hd hq hj with rfl | rfl | ⟨d, rfl⟩
    · simp [h1]
    · simp [h2]
    · simp [h3]
  have hm := List.mem_of_getElem? hi
  rcases quiet_pc h hd hq hi with rfl | rfl | ⟨d, rfl⟩
  · exact .inl rfl
  · have h0 : 0 < s.threads.countP isRW := List.countP_pos_iff.2 ⟨_, hm, rfl⟩
    have h1 := h.2.r h0
    rw [zero aR rfl rfl (fun _ => rfl)] at h1
    have h2 := h.2.c h0
    rw [zero isCW rfl rfl (fun _ => rfl)] at h2
    obtain ⟨q, c⟩ := x
    have e1 : q = [] := List.eq_nil_of_length_eq_zero (by simp only at h1; omega)
    have e2 : c = false := by
      cases c with
      | false => rfl
      | true => exact absurd (h2 rfl) (by omega)
    rw [e1, e2]
    exact .inr (.inl ⟨rfl, rfl⟩)
  · have h0 : 0 < s.threads.countP isWW := List.countP_pos_iff.2 ⟨_, hm, rfl⟩
    have h1 := h.2.w h0
    rw [zero aW rfl rfl (fun _ => rfl)] at h1
    have := queue_le h.1 (quiet_free h hd hq)
    exact .inr (.inr ⟨d, rfl, by omega⟩)

/-- How many steps a thread may still take, with those of the threads it wakes. -/
def weight (n : Nat) : Pc V → Nat
  | .idle => 0
  | .rLock => 12
  | .rTop => 11
  | .rGet => 10
  | .rStart _ => 9
  | .rLen _ => 8
  | .rUnlock _ => 7
  | .rSignal _ => 6
  | .rEof => 10
  | .rEofUnlock => 2
  | .rBlock => 9
  | .rWaiting => 8
  | .rWoken => 12
  | .rRet _ => 1
  | .wLock _ => 12
  | .wTest _ => 11
  | .wTop _ => 10
  | .wPut _ => 9
  | .wLen _ => 8
  | .wUnlock => 7
  | .wSignal => 6
  | .wBlock _ => 9
  | .wWaiting _ => 8
  | .wWoken _ => 11
  | .wRet => 1
  | .cLock => 5 + 4 * n
  | .cSet => 4 + 4 * n
  | .cWake => 3 + 4 * n
  | .cUnlock => 2
  | .cRet => 1

def total (s : State V) : Nat := (s.threads.map (weight s.threads.length)).sum

theorem sum_set {α : Type} (f : α → Nat) : ∀ {l : List α} {i : Nat} {a b : α}, l[i]? = some a → ((l.set i b).map f).sum + f a = (l.map f).sum + f b
  | [], i, a, b, h => by simp at h
  | c :: l, 0, a, b, h => by
    simp only [List.getElem?_cons_zero, Option.some.injEq] at h
    subst h
    simp only [List.set_cons_zero, List.map_cons, List.sum_cons]
    omega
  | c :: l, i + 1, a, b, h => by
    simp only [List.getElem?_cons_succ] at h
    have := sum_set f h (b := b)
    simp only [List.set_cons_succ, List.map_cons, List.sum_cons]
    omega

/-- What an event costs. -/
def cost (n : Nat) : Event V → Nat
  | .call _ => 13 + 4 * n
  | .wakeup => 5
  | _ => 0

theorem total_wakeAll (n : Nat) : ∀ l : List (Pc V), ((l.map wakeAll).map (weight n)).sum ≤ (l.map (weight n)).sum + 4 * l.length
  | [] => by simp
  | a :: l => by
    have := total_wakeAll n l
    have h : weight n (wakeAll a) ≤ weight n a + 4 := by cases a <;> simp [wakeAll, weight]
    simp only [List.map_cons, List.sum_cons, List.length_cons]
    omega

theorem step_total {s s' : State V} {i : Nat} {e : Event V} (hs : Core s i e s') (he : e ≠ .die) : total s' + 1 ≤ total s + cost s.threads.length e := by
  have key : ∀ {a b : Pc V}, s.threads[i]? = some a → weight s.threads.length b + 1 ≤ weight s.threads.length a + cost s.threads.length e →
      ((s.threads.set i b).map (weight (s.threads.set i b).length)).sum + 1 ≤ total s + cost s.threads.length e := by
    intro a b ha hw
    rw [List.length_set]
    have := sum_set (weight s.threads.length) ha (b := b)
    unfold total
    omega
  cases hs with
  | call hi =>
    refine key hi ?_
    rename_i op
    cases op <;> simp only [enter, weight, cost] <;> omega
  | ret hi hr =>
    refine key hi ?_
    rename_i q v
    cases q <;> simp [result] at hr <;> simp [weight]
  | lock hi hr ho =>
    refine key hi ?_
    rename_i q q'
    cases q <;> simp [afterLock] at hr <;> subst hr <;> simp only [weight, cost] <;> omega
  | unlock hi hr ho =>
    refine key hi ?_
    rename_i q q'
    cases q <;> simp [afterUnlock] at hr <;> subst hr <;> simp only [weight, cost] <;> omega
  | wait hi hr ho =>
    refine key hi ?_
    rename_i q q'
    cases q <;> simp [afterWait] at hr <;> subst hr <;> simp only [weight, cost] <;> omega
  | wakeup hi hr =>
    refine key hi ?_
    rename_i q q'
    cases q <;> simp [afterWake] at hr <;> subst hr <;> simp only [weight, cost] <;> omega
  | body hi hr ho =>
    refine key hi ?_
    rename_i q q' p
    cases q <;> simp only [body, Option.some.injEq, reduceCtorEq] at hr <;> (try split at hr) <;> (try (simp at hr; done)) <;> obtain ⟨rfl, rfl, rfl⟩ := Done.next.inj hr <;> simp only [weight, cost] <;> omega
  | panic hi hb ho => exact absurd rfl he
  | race hi hn ho => exact absurd rfl he
  | signal hi hq hj hf hr =>
    rename_i q q' r r' f j
    have hne : i ≠ j := by
      intro e
      subst e
      rw [hi] at hj
      have := Option.some.inj hj
      subst this
      cases q <;> simp [signal, afterWake] at hq hr
    have hi' : (s.threads.set j r')[i]? = some q := by rw [List.getElem?_set, if_neg (fun e => hne e.symm), hi]
    have e1 := sum_set (weight s.threads.length) hj (b := r')
    have e2 := sum_set (weight s.threads.length) hi' (b := q')
    have e3 : weight s.threads.length r' ≤ weight s.threads.length r + 4 := by cases r <;> simp [afterWake] at hr <;> subst hr <;> simp [weight]
    have e4 : weight s.threads.length q' + 5 ≤ weight s.threads.length q := by cases q <;> simp [signal] at hq <;> obtain ⟨_, rfl⟩ := hq <;> simp [weight]
    unfold total
    simp only [List.length_set]
    omega
  | signalNone hi hq hn =>
    refine key hi ?_
    rename_i q q' f
    cases q <;> simp [signal] at hq <;> obtain ⟨_, rfl⟩ := hq <;> simp only [weight, cost] <;> omega
  | wakeAll hi =>
    have hi' : (s.threads.map wakeAll)[i]? = some .cWake := by rw [List.getElem?_map, hi]; rfl
    have e1 := sum_set (weight s.threads.length) hi' (b := .cUnlock)
    have e2 := total_wakeAll s.threads.length s.threads
    simp only [weight] at e1
    unfold total
    simp only [List.length_set, List.length_map]
    omega

theorem step_die {s s' : State V} {i : Nat} (hs : Core s i .die s') : total s' = total s ∧ s'.dead ≠ none := by
  cases hs with
  | panic hi hb ho => exact ⟨rfl, by simp⟩
  | race hi hn ho => exact ⟨rfl, by simp⟩
  | body hi hr ho =>
    rename_i q q' p
    cases q <;> simp only [body, Option.some.injEq, reduceCtorEq] at hr <;> (try split at hr) <;> (simp at hr)

def costs (n : Nat) (es : List (Nat × Event V)) : Nat := (es.map fun e => cost n e.2).sum

theorem step_dead {s s' : State V} {i : Nat} {e : Event V} (hs : Core s i e s') (he : e ≠ .die) (hd : s.dead = none) : s'.dead = none := by
  cases hs with
  | panic hi hb ho => exact absurd rfl he
  | race hi hn ho => exact absurd rfl he
  | _ => exact hd

/-- The length of a run is limited by its calls. -/
theorem run_total {s s' : State V} {es : List (Nat × Event V)} (hr : Run s es s') (hd : s.dead = none) :
    total s' + es.length ≤ total s + costs s.threads.length es + (if s'.dead = none then 0 else 1) := by
  induction hr with
  | nil => simp [costs]
  | snoc hr hs ih =>
    rename_i t u es i e
    have hl := (run_phase hr).1
    obtain ⟨h0, hs⟩ := hs
    rw [if_pos h0] at ih
    have hc : costs s.threads.length (es ++ [(i, e)]) = costs s.threads.length es + cost s.threads.length e := by simp [costs]
    rw [hc, List.length_append, List.length_singleton]
    by_cases he : e = .die
    · subst he
      obtain ⟨h1, h2⟩ := step_die hs
      rw [if_neg h2, h1]
      omega
    · have h1 := step_total hs he
      rw [hl] at h1
      omega
end Che.Lib.Threads
