import Verif.Proofs.Prog.Exab

/-!
C129: the pipe of `lib/os/threads.c` is a queue for any number of threads.
C130: no thread waits in vain in it, and executions end.
-/
namespace Che.Props
open Che.Lib.Threads

/-- C129: whatever `n` threads call and in whatever order they take their steps: the calls have their effects on a queue of 32 items at single moments, one after another;
each call has its effect once between its beginning and its end, and a read returns the item it took; and the program only fails when a thread begins to write to a closed pipe. -/
theorem C129_queue {V : Type} [Inhabited V] {n : Nat} {es : List (Nat × Event V)} {s : State V} (h : Run (init n) es s) :
    (∃ x, QRun ([], false) es x) ∧ (∀ i, i < n → ∃ p, Protos .out (of i es) p) ∧ (s.dead = none ∨ s.dead = some "writing to a closed pipe" ∧ s.pipe.closed = true) := by
  obtain ⟨x, h1, _⟩ := run_inv (inv_init n) h
  obtain ⟨h2, h3⟩ := run_phase h
  refine ⟨⟨x, h1⟩, fun i hi => ?_, run_dead (inv_init n) rfl h⟩
  have hl : (init n : State V).threads.length = n := by simp [init]
  have hi' : (init n : State V).threads[i]? = some .idle := by
    show (List.replicate n Pc.idle)[i]? = _
    rw [List.getElem?_replicate, if_pos hi]
  exact ⟨_, h3 i _ _ hi' (List.getElem?_eq_getElem (by omega))⟩

/-- C129: so items come out as they were put in: none is lost, none comes twice and none comes before its turn; no more than 32 are in the pipe. -/
theorem C129_fifo {V : Type} [Inhabited V] {n : Nat} {es : List (Nat × Event V)} {s : State V} (h : Run (init n) es s) :
    ∃ q, puts es = takes es ++ q ∧ q.length ≤ 32 := by
  obtain ⟨x, h1, _⟩ := run_inv (inv_init n) h
  refine ⟨x.1, (Che.Prog.Exab.qrun_fifo h1).1, ?_⟩
  have : ∀ {a b : List V × Bool} {es : List (Nat × Event V)}, QRun a es b → a.1.length ≤ 32 → b.1.length ≤ 32 := by
    intro a b es hr
    induction hr with
    | nil => exact id
    | snoc _ hs ih =>
      intro ha
      have := ih ha
      cases hs <;> (try simp only [List.length_append, List.length_cons, List.length_nil] at this ⊢) <;> omega
  exact this h1 (by simp)

/-- C129: a read finds the end only when the pipe is closed, and then all that was put into it has been taken. -/
theorem C129_end {V : Type} [Inhabited V] {n : Nat} {es : List (Nat × Event V)} {i : Nat} {s : State V} (h : Run (init n) (es ++ [(i, .eof)]) s) :
    puts es = takes es ∧ ∃ j, (j, .shut) ∈ es := by
  obtain ⟨x, h1, _⟩ := run_inv (inv_init n) h
  generalize hg : es ++ [(i, Event.eof)] = gs at h1
  cases h1 with
  | nil => simp at hg
  | snoc hq hs =>
    obtain ⟨rfl, he⟩ := List.append_inj' hg rfl
    simp only [List.cons.injEq, Prod.mk.injEq, and_true] at he
    obtain ⟨_, rfl⟩ := he
    cases hs
    obtain ⟨h2, h3⟩ := Che.Prog.Exab.qrun_fifo hq
    refine ⟨by simpa using h2, ?_⟩
    obtain ⟨⟨j, e⟩, h4, h5⟩ := List.countP_pos_iff.1 (h3.1 rfl)
    cases e <;> simp [Che.Prog.Exab.isShut] at h5
    exact ⟨j, h4⟩

/-- One thread puts an item, another takes it. -/
example : ∃ s, Run (init 2) (writeEvents 0 'a' ++ readEvents 1 'a') s := by
  have h1 := run_write (V := Char) (ts := [.idle, .idle]) (i := 0) (p := (init 2).pipe) rfl rfl (by decide) (by simp [isRW]) 'a'
  have h2 := run_read (V := Char) (ts := [.idle, .idle]) (i := 1) (p := ((init 2).pipe.put 'a')) rfl (by decide) (by decide) (by simp [isWW])
  exact ⟨_, Run.trans (s := init 2) h1 h2⟩

/-- C129 is false for threads that write while another one closes the pipe: a thread that has waited for a place writes into the closed pipe, after the reader was told that nothing more comes,
and its item is lost without an error. -/
theorem C129_counterexample_closed : ∃ es s, Run (init 2 : State Char) (es ++ [(1, .ret (some none))] ++ [(0, .tau), (0, .tau), (0, .tau), (0, .put 'x'), (0, .tau), (0, .tau), (0, .ret none)]) s ∧
    s.dead = none ∧ (1, .shut) ∈ es := by
  obtain ⟨p1, h1, c1, l1, s1⟩ := run_writes (V := Char) (ts := [.idle, .idle]) (i := 0) rfl (by simp [isRW]) 'x' (p := (init 2).pipe) rfl 32 (by decide)
  have l1 : p1.len = 32 := l1
  have s1 : p1.start = 0 := s1
  have h2 := run_block (ts := [.idle, .idle]) (i := 0) (p := p1) rfl c1 l1 'x'
  have h3 := run_close (ts := [.wWaiting 'x', .idle]) (i := 1) (p := p1) rfl (by simp [isRW])
  have h4 := run_read_wake (ts := [.wWaiting 'x', .idle]) (i := 1) (j := 0) (p := { p1 with closed := true }) rfl (by show p1.start < 32; omega) (by show 0 < p1.len; omega) (by omega) rfl
  obtain ⟨p5, es5, h5, c5, l5, s5⟩ := run_reads (V := Char) (ts := [.wWoken 'x', .idle]) (i := 1) rfl (by simp [isWW]) 31 (p := ({ p1 with closed := true } : Pipe Char).drop)
    (by show p1.len - 1 = 31; omega) (Nat.mod_lt _ (by omega))
  have h6 := run_eof (ts := [.wWoken 'x', .idle]) (i := 1) (p := p5) rfl c5 l5
  have h7 := run_woken (ts := [.wWoken 'x', .idle]) (i := 0) (p := p5) rfl (by omega) (by simp [isRW])
  have h := (((((Run.trans (s := init 2) h1 h2).trans h3).trans h4).trans h5).trans h6).trans h7
  refine ⟨_, _, by
    rw [show [((1 : Nat), Event.call Op.read), (1, .tau), (1, .tau), (1, .eof), (1, .tau), (1, .ret (some none))] = [((1 : Nat), Event.call Op.read), (1, .tau), (1, .tau), (1, .eof), (1, .tau)] ++ [((1 : Nat), (Event.ret (some none) : Event Char))] from rfl,
      ← List.append_assoc] at h
    exact h, rfl, by simp⟩

/-- C130: when nothing happens any more unless a new call begins, a thread is in no call; or in a read, and the pipe is empty and not closed; or in a write, and the pipe is full.
So no thread waits although it could go on, whichever threads were woken. -/
theorem C130_waits {V : Type} [Inhabited V] {n : Nat} {es : List (Nat × Event V)} {s : State V} (h : Run (init n) es s) (hd : s.dead = none)
    (hq : ∀ i e s', Step s i e s' → (∃ op, e = .call op) ∨ e = .wakeup) :
    ∃ x, QRun ([], false) es x ∧ ∀ i, i < n → Protos .out (of i es) .out ∨ (Protos .out (of i es) .reading ∧ x = ([], false)) ∨ ∃ d, Protos .out (of i es) (.writing d) ∧ x.1.length = 32 := by
  obtain ⟨x, h1, hx⟩ := run_inv (inv_init n) h
  obtain ⟨h2, h3⟩ := run_phase h
  refine ⟨x, h1, fun i hi => ?_⟩
  have hl : (init n : State V).threads.length = n := by simp [init]
  have hi' : (init n : State V).threads[i]? = some .idle := by
    show (List.replicate n Pc.idle)[i]? = _
    rw [List.getElem?_replicate, if_pos hi]
  have hb := List.getElem?_eq_getElem (l := s.threads) (i := i) (by omega)
  have hp := h3 i _ _ hi' hb
  rcases quiet_waits hx hd hq hb with e | ⟨e, e2⟩ | ⟨d, e, e2⟩ <;> rw [e] at hp
  · exact .inl hp
  · exact .inr (.inl ⟨hp, e2⟩)
  · exact .inr (.inr ⟨d, hp, e2⟩)

/-- C130: an execution has no more steps than its calls and the wakings without a reason allow, whichever thread takes the next step: so calls do not go on for ever. -/
theorem C130_ends {V : Type} [Inhabited V] {n : Nat} {es : List (Nat × Event V)} {s : State V} (h : Run (init n) es s) :
    es.length ≤ (13 + 4 * n) * (es.countP fun e => match e.2 with | .call _ => true | _ => false) + 5 * (es.countP fun e => match e.2 with | .wakeup => true | _ => false) + 1 := by
  have h1 := run_total h rfl
  have hl : (init n : State V).threads.length = n := by simp [init]
  have h0 : total (init n : State V) = 0 := by
    unfold total
    rw [hl]
    simp [init, weight]
  rw [hl, h0, Che.Prog.Exab.costs_eq] at h1
  have e1 : (fun e : Nat × Event V => match e.2 with | .call _ => true | _ => false) = fun e => Che.Prog.Exab.isCall e.2 := by funext e; cases e.2 <;> rfl
  have e2 : (fun e : Nat × Event V => match e.2 with | .wakeup => true | _ => false) = fun e => Che.Prog.Exab.isWakeup e.2 := by funext e; cases e.2 <;> rfl
  rw [e1, e2]
  split at h1 <;> omega
end Che.Props
