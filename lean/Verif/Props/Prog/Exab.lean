import Verif.Proofs.Prog.Exab

/-!
C131: the threads of `prog/exab` share the requests.
-/
namespace Che.Props
open Che.Lib.Threads Che.Prog.Exab

/-- C131: with one worker or more, whichever thread takes the next step: the program does not fail, its steps are limited by the requests, the workers and the wakings without a reason;
and when nothing happens any more, all threads have ended and `n` requests have been made. -/
theorem C131_requests_partial {n c : Nat} (hc : 0 < c) {es : List (Nat × Event Unit)} {s : State Unit} (h : PRun (scripts n) (init (workers c n + 1)) es s) :
    s.dead = none ∧ es.length ≤ (17 + 4 * workers c n) * (2 * n + workers c n + 1) + 5 * (es.countP fun e => match e.2 with | .wakeup => true | _ => false) ∧
    (Stuck (scripts n) es s → (∀ i, i < workers c n + 1 → s.threads[i]? = some .idle ∧ scripts n i (rets (of i es)) = none) ∧
      (es.countP fun e => match e.2 with | .ret (some (some _)) => true | _ => false) = n) := by
  have hd := not_dead h
  have e2 : (fun e : Nat × Event Unit => match e.2 with | .wakeup => true | _ => false) = fun e => isWakeup e.2 := by funext e; cases e.2 <;> rfl
  have e3 : (fun e : Nat × Event Unit => match e.2 with | .ret (some (some _)) => true | _ => false) = fun e => isItem e.2 := by
    funext e
    cases e.2 with
    | ret v => cases v with
      | none => rfl
      | some v => cases v <;> rfl
    | _ => rfl
  refine ⟨hd, ?_, fun hs => ?_⟩
  · have h1 := run_total h.run rfl
    have hl : (init (workers c n + 1) : State Unit).threads.length = workers c n + 1 := by simp [init]
    have h0 : total (init (workers c n + 1) : State Unit) = 0 := by
      unfold total
      rw [hl]
      simp [init, weight]
    rw [hl, h0, costs_eq, if_pos hd] at h1
    have h2 := Nat.mul_le_mul_left (13 + 4 * (workers c n + 1)) (calls_le h)
    rw [e2]
    have h3 : 13 + 4 * (workers c n + 1) = 17 + 4 * workers c n := by omega
    rw [h3] at h1 h2
    omega
  · have key : (∀ i, i < workers c n + 1 → s.threads[i]? = some .idle) ∧ es.countP (fun e => isItem e.2) = n := by
      rcases Nat.eq_zero_or_pos n with rfl | hn
      · have hw : workers c 0 = 0 := by unfold workers; rw [if_pos (by omega)]
        rw [hw] at h ⊢
        obtain ⟨x, _, hx⟩ := run_inv (inv_init _) h.run
        obtain ⟨b, m1, m2, m3, m4, m5⟩ := main_at h
        constructor
        · intro i hi
          have : i = 0 := by omega
          subst this
          rcases quiet_waits hx hd (stuck_quiet hs) m1 with rfl | ⟨rfl, _⟩ | ⟨d, rfl, _⟩
          · exact m1
          · exact m2.elim
          · simp only [phase, MainAt] at m2
            omega
        · rw [count_first h isItem fun i h0 h1 => by omega, m4]
      · refine stuck_done h ?_ hs
        unfold workers
        split <;> omega
    rw [e3]
    exact ⟨fun i hi => ⟨key.1 i hi, stuck_idle hs hd (key.1 i hi)⟩, key.2⟩

/-- One request by one worker, from the beginning to the end. -/
example : ∃ es s, PRun (scripts 1) (init (workers 4 1 + 1)) es s ∧ Stuck (scripts 1) es s := by
  have h1 := run_write (V := Unit) (ts := [.idle, .idle]) (i := 0) (p := (init 2).pipe) rfl rfl (by decide) (by simp [isRW]) ()
  have h2 := run_read (V := Unit) (ts := [.idle, .idle]) (i := 1) (p := ((init 2).pipe.put ())) rfl (by decide) (by decide) (by simp [isWW])
  have h3 := run_close (V := Unit) (ts := [.idle, .idle]) (i := 0) (p := ((init 2).pipe.put ()).drop) rfl (by simp [isRW])
  have h4 := run_eof (V := Unit) (ts := [.idle, .idle]) (i := 1) (p := { ((init 2).pipe.put ()).drop with closed := true }) rfl rfl rfl
  refine ⟨_, _, PRun.check (es := []) .nil (((Run.trans (s := init 2) h1 h2).trans h3).trans h4) ?_, stuck_of ?_⟩
  · simp [Check, writeEvents, readEvents, scripts, main, worker, rets, of]
  · intro i pc hi
    match i, hi with
    | 0, hi => exact .inr ⟨(Option.some.inj hi).symm, rfl⟩
    | 1, hi => exact .inr ⟨(Option.some.inj hi).symm, rfl⟩
    | i + 2, hi => simp at hi

/-- C131 is false with no workers (`-c 0`): with more than 32 requests the program waits for ever. -/
theorem C131_counterexample_none : ∃ es s, PRun (scripts 33) (init (workers 0 33 + 1)) es s ∧ Stuck (scripts 33) es s ∧ s.dead = none ∧ s.threads = [.wWaiting ()] := by
  obtain ⟨p1, h1, c1, l1, s1⟩ := run_writes (V := Unit) (ts := [.idle]) (i := 0) rfl (by simp [isRW]) () (p := (init 1).pipe) rfl 32 (by decide)
  have h2 := run_block (ts := [.idle]) (i := 0) (p := p1) rfl c1 l1 ()
  refine ⟨_, _, PRun.check (es := []) .nil (Run.trans (s := init 1) h1 h2) ?_, stuck_of ?_, rfl, rfl⟩
  · refine check_append _ _ (check_writes (n := 33) rfl [] 32 (by decide)) ⟨?_, trivial, trivial, trivial, trivial, trivial⟩
    simp only
    rw [show scripts 33 0 = main 33 from rfl, main, rets_writes, if_pos (by decide)]
  · intro i pc hi
    match i, hi with
    | 0, hi => exact .inl (.inr ⟨(), (Option.some.inj hi).symm⟩)
    | i + 1, hi => simp at hi

/-- C131 is false when workers cannot connect: they end, and with more than 33 requests the program waits for ever. -/
theorem C131_counterexample_connect : ∃ es s, PRun (fun i => if i = 0 then main 34 else failing) (init (workers 1 34 + 1)) es s ∧ Stuck (fun i => if i = 0 then main 34 else failing) es s ∧
    s.dead = none ∧ s.threads = [.wWaiting (), .idle] := by
  have h1 := run_write (V := Unit) (ts := [.idle, .idle]) (i := 0) (p := (init 2).pipe) rfl rfl (by decide) (by simp [isRW]) ()
  have h2 := run_read (V := Unit) (ts := [.idle, .idle]) (i := 1) (p := ((init 2).pipe.put ())) rfl (by decide) (by decide) (by simp [isWW])
  obtain ⟨p3, h3, c3, l3, s3⟩ := run_writes (V := Unit) (ts := [.idle, .idle]) (i := 0) rfl (by simp [isRW]) () (p := ((init 2).pipe.put ()).drop) rfl 32 (by decide)
  have h4 := run_block (ts := [.idle, .idle]) (i := 0) (p := p3) rfl c3 l3 ()
  refine ⟨_, _, PRun.check (es := []) .nil (((Run.trans (s := init 2) h1 h2).trans h3).trans h4) ?_, stuck_of ?_, rfl, rfl⟩
  · refine check_append _ _ (check_append _ _ ?_ (check_writes (n := 34) rfl _ 32 (by decide))) ⟨?_, trivial, trivial, trivial, trivial, trivial⟩
    · simp [Check, writeEvents, readEvents, main, failing, rets, of]
    · simp only
      rw [if_pos trivial, main, List.nil_append, rets_writes, if_pos (by decide)]
  · intro i pc hi
    match i, hi with
    | 0, hi => exact .inl (.inr ⟨(), (Option.some.inj hi).symm⟩)
    | 1, hi =>
      refine .inr ⟨(Option.some.inj hi).symm, ?_⟩
      rw [List.nil_append, of_append, of_append, rets_append, rets_append]
      simp [failing, writeEvents, readEvents, of, rets]
    | i + 2, hi => simp at hi
end Che.Props
