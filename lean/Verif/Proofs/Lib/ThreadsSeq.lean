import Verif.Proofs.Lib.ThreadsLive

/-!
Executions of the pipe in which one thread makes a whole call while the others stand still.
-/
namespace Che.Lib.Threads
variable {V : Type}

theorem Run.trans {s t u : State V} {es fs : List (Nat × Event V)} (h1 : Run s es t) (h2 : Run t fs u) : Run s (es ++ fs) u := by
  induction h2 with
  | nil => rw [List.append_nil]; exact h1
  | snoc _ hs ih => rw [← List.append_assoc]; exact .snoc ih hs

theorem Run.step {s t u : State V} {i : Nat} {e : Event V} {es : List (Nat × Event V)} (h : Step s i e t) (hr : Run t es u) : Run s ((i, e) :: es) u :=
  Run.trans (es := [(i, e)]) (.snoc .nil h) hr

section
variable {ts : List (Pc V)} {i : Nat} {a0 : Pc V} {p : Pipe V} {o : Option Nat}

theorem st_call (h : ts[i]? = some .idle) (op : Op V) : Step ⟨p, o, ts, none⟩ i (.call op) ⟨p, o, ts.set i (enter op), none⟩ := ⟨rfl, .call h⟩

theorem st_lock (h : ts[i]? = some a0) {q q' : Pc V} (hq : afterLock q = some q') : Step ⟨p, none, ts.set i q, none⟩ i .tau ⟨p, some i, ts.set i q', none⟩ := by
  have := Core.lock (s := ⟨p, none, ts.set i q, none⟩) (set_get h) hq rfl
  rw [List.set_set] at this
  exact ⟨rfl, this⟩

theorem st_unlock (h : ts[i]? = some a0) {q q' : Pc V} (hq : afterUnlock q = some q') : Step ⟨p, some i, ts.set i q, none⟩ i .tau ⟨p, none, ts.set i q', none⟩ := by
  have := Core.unlock (s := ⟨p, some i, ts.set i q, none⟩) (set_get h) hq rfl
  rw [List.set_set] at this
  exact ⟨rfl, this⟩

theorem st_wait (h : ts[i]? = some a0) {q q' : Pc V} (hq : afterWait q = some q') : Step ⟨p, some i, ts.set i q, none⟩ i .tau ⟨p, none, ts.set i q', none⟩ := by
  have := Core.wait (s := ⟨p, some i, ts.set i q, none⟩) (set_get h) hq rfl
  rw [List.set_set] at this
  exact ⟨rfl, this⟩

theorem st_body (h : ts[i]? = some a0) {q q' : Pc V} {e : Event V} {p' : Pipe V} (hq : body p q = some (.next e p' q')) :
    Step ⟨p, some i, ts.set i q, none⟩ i e ⟨p', some i, ts.set i q', none⟩ := by
  have := Core.body (s := ⟨p, some i, ts.set i q, none⟩) (set_get h) hq rfl
  rw [List.set_set] at this
  exact ⟨rfl, this⟩

theorem st_signalNone (h : ts[i]? = some a0) {q q' : Pc V} {f : Pc V → Bool} (hq : signal q = some (f, q')) (hf : f q = false) (hn : ∀ r ∈ ts, f r = false) :
    Step ⟨p, o, ts.set i q, none⟩ i .tau ⟨p, o, ts.set i q', none⟩ := by
  have := Core.signalNone (s := ⟨p, o, ts.set i q, none⟩) (set_get h) hq (by
    intro r hr
    rcases List.mem_or_eq_of_mem_set hr with h | h
    · exact hn r h
    · rw [h, hf])
  rw [List.set_set] at this
  exact ⟨rfl, this⟩

theorem st_signal (h : ts[i]? = some a0) {q q' r r' : Pc V} {f : Pc V → Bool} {j : Nat} (hq : signal q = some (f, q')) (hij : i ≠ j) (hj : ts[j]? = some r) (hf : f r = true) (hr : afterWake r = some r') :
    Step ⟨p, o, ts.set i q, none⟩ i .tau ⟨p, o, (ts.set j r').set i q', none⟩ := by
  have := Core.signal (s := ⟨p, o, ts.set i q, none⟩) (j := j) (set_get h) hq (by show (ts.set i q)[j]? = _; rw [List.getElem?_set, if_neg hij, hj]) hf hr
  rw [show ((ts.set i q).set j r').set i q' = (ts.set j r').set i q' by rw [List.set_comm _ _ hij, List.set_set]] at this
  exact ⟨rfl, this⟩

theorem st_ret (h : ts[i]? = some .idle) {q : Pc V} {v : Option (Option V)} (hq : result q = some v) : Step ⟨p, o, ts.set i q, none⟩ i (.ret v) ⟨p, o, ts, none⟩ := by
  have := Core.ret (s := ⟨p, o, ts.set i q, none⟩) (set_get h) hq
  rw [List.set_set, show ts.set i .idle = ts from ?_] at this
  · exact ⟨rfl, this⟩
  · have hl : i < ts.length := by
      rcases Nat.lt_or_ge i ts.length with h' | h'
      · exact h'
      · rw [List.getElem?_eq_none h'] at h; simp at h
    rw [List.getElem?_eq_getElem hl] at h
    rw [← Option.some.inj h, List.set_getElem_self]
end

/-- The events of a write that is not disturbed. -/
def writeEvents (i : Nat) (d : V) : List (Nat × Event V) :=
  [(i, .call (.write d)), (i, .tau), (i, .tau), (i, .tau), (i, .tau), (i, .put d), (i, .tau), (i, .tau), (i, .ret none)]

/-- The events of a read that is not disturbed. -/
def readEvents (i : Nat) (v : V) : List (Nat × Event V) :=
  [(i, .call .read), (i, .tau), (i, .tau), (i, .tau), (i, .tau), (i, .take v), (i, .tau), (i, .tau), (i, .ret (some (some v)))]

/-- The pipe after a write. -/
def Pipe.put (p : Pipe V) (d : V) : Pipe V := { p with items := fun k => if k = (p.start + p.len) % 32 then d else p.items k, len := p.len + 1 }

/-- The pipe after a read. -/
def Pipe.drop (p : Pipe V) : Pipe V := { p with start := (p.start + 1) % 32, len := p.len - 1 }

theorem run_write {ts : List (Pc V)} {i : Nat} {p : Pipe V} (h : ts[i]? = some .idle) (hc : p.closed = false) (hl : p.len < 32) (hn : ∀ r ∈ ts, isRW r = false) (d : V) :
    Run ⟨p, none, ts, none⟩ (writeEvents i d) ⟨p.put d, none, ts, none⟩ := by
  refine .step (st_call h (.write d)) (.step (st_lock h rfl) (.step (st_body h (q' := .wTop d) (e := .tau) (p' := p) ?_) (.step (st_body h (q' := .wPut d) (e := .tau) (p' := p) ?_)
    (.step (st_body h (q' := .wLen d) (e := .tau) (p' := { p with items := fun k => if k = (p.start + p.len) % 32 then d else p.items k }) ?_)
    (.step (st_body h rfl) (.step (st_unlock h rfl) (.step (st_signalNone h rfl rfl ?_) (.step (st_ret h rfl) .nil))))))))
  · simp [body, hc]
  · exact congrArg some (if_pos (show p.len < THPIPESIZE from hl))
  · exact congrArg some (if_pos (Nat.mod_lt _ (show 0 < THPIPESIZE by decide)))
  · intro r hr
    have := hn r hr
    cases r <;> first | rfl | simp [isRW] at this

theorem run_read {ts : List (Pc V)} {i : Nat} {p : Pipe V} (h : ts[i]? = some .idle) (hs : p.start < 32) (hl : 0 < p.len) (hn : ∀ r ∈ ts, isWW r = false) :
    Run ⟨p, none, ts, none⟩ (readEvents i (p.items p.start)) ⟨p.drop, none, ts, none⟩ := by
  refine .step (st_call h .read) (.step (st_lock h rfl) (.step (st_body h (q' := .rGet) (e := .tau) (p' := p) ?_) (.step (st_body h (q' := .rStart (p.items p.start)) (e := .tau) (p' := p) ?_)
    (.step (st_body h rfl) (.step (st_body h rfl) (.step (st_unlock h rfl) (.step (st_signalNone h rfl rfl ?_) (.step (st_ret h rfl) .nil))))))))
  · exact congrArg some (if_pos hl)
  · exact congrArg some (if_pos (show p.start < THPIPESIZE from hs))
  · intro r hr
    have := hn r hr
    cases r <;> first | rfl | simp [isWW] at this

/-- A read that wakes a writer. -/
theorem run_read_wake {ts : List (Pc V)} {i j : Nat} {d : V} {p : Pipe V} (h : ts[i]? = some .idle) (hs : p.start < 32) (hl : 0 < p.len) (hij : i ≠ j) (hj : ts[j]? = some (.wWaiting d)) :
    Run ⟨p, none, ts, none⟩ (readEvents i (p.items p.start)) ⟨p.drop, none, ts.set j (.wWoken d), none⟩ := by
  have h' : (ts.set j (.wWoken d))[i]? = some .idle := by rw [List.getElem?_set, if_neg (fun e => hij e.symm), h]
  refine .step (st_call h .read) (.step (st_lock h rfl) (.step (st_body h (q' := .rGet) (e := .tau) (p' := p) ?_) (.step (st_body h (q' := .rStart (p.items p.start)) (e := .tau) (p' := p) ?_)
    (.step (st_body h rfl) (.step (st_body h rfl) (.step (st_unlock h rfl) (.step (st_signal h rfl hij hj rfl rfl) (.step (st_ret h' rfl) .nil))))))))
  · exact congrArg some (if_pos hl)
  · exact congrArg some (if_pos (show p.start < THPIPESIZE from hs))

/-- A write into a full pipe waits. -/
theorem run_block {ts : List (Pc V)} {i : Nat} {p : Pipe V} (h : ts[i]? = some .idle) (hc : p.closed = false) (hl : p.len = 32) (d : V) :
    Run ⟨p, none, ts, none⟩ [(i, .call (.write d)), (i, .tau), (i, .tau), (i, .tau), (i, .tau)] ⟨p, none, ts.set i (.wWaiting d), none⟩ := by
  refine .step (st_call h (.write d)) (.step (st_lock h rfl) (.step (st_body h (q' := .wTop d) (e := .tau) (p' := p) ?_) (.step (st_body h (q' := .wBlock d) (e := .tau) (p' := p) ?_)
    (.step (st_wait h rfl) .nil))))
  · simp [body, hc]
  · exact congrArg some (if_neg (show ¬ p.len < THPIPESIZE by unfold THPIPESIZE; omega))

/-- The pipe is closed. -/
theorem run_close {ts : List (Pc V)} {i : Nat} {p : Pipe V} (h : ts[i]? = some .idle) (hn : ∀ r ∈ ts, isRW r = false) :
    Run ⟨p, none, ts, none⟩ [(i, .call .close), (i, .tau), (i, .shut), (i, .tau), (i, .tau), (i, .ret none)] ⟨{ p with closed := true }, none, ts, none⟩ := by
  refine .step (st_call h .close) (.step (st_lock h rfl) (.step (st_body h rfl) (.step (t := ⟨_, some i, ts.set i .cUnlock, none⟩) ⟨rfl, ?_⟩ (.step (st_unlock h rfl) (.step (st_ret h rfl) .nil)))))
  have := Core.wakeAll (s := ⟨{ p with closed := true }, some i, ts.set i .cWake, none⟩) (set_get h)
  have e : (ts.set i .cWake).map wakeAll = ts.set i .cWake := by
    rw [List.map_congr_left (g := id), List.map_id]
    intro r hr
    rcases List.mem_or_eq_of_mem_set hr with h | h
    · have := hn r h
      cases r <;> first | rfl | simp [isRW] at this
    · rw [h]; rfl
  rw [e, List.set_set] at this
  exact this

/-- A read from a closed and empty pipe. -/
theorem run_eof {ts : List (Pc V)} {i : Nat} {p : Pipe V} (h : ts[i]? = some .idle) (hc : p.closed = true) (hl : p.len = 0) :
    Run ⟨p, none, ts, none⟩ [(i, .call .read), (i, .tau), (i, .tau), (i, .eof), (i, .tau), (i, .ret (some none))] ⟨p, none, ts, none⟩ := by
  refine .step (st_call h .read) (.step (st_lock h rfl) (.step (st_body h (q' := .rEof) (e := .tau) (p' := p) ?_) (.step (st_body h (q' := .rEofUnlock) (e := .eof) (p' := p) ?_)
    (.step (st_unlock h rfl) (.step (st_ret h rfl) .nil)))))
  · simp [body, hl]
  · simp [body, hc]

/-- A woken writer writes. -/
theorem run_woken {ts : List (Pc V)} {i : Nat} {p : Pipe V} {d : V} (h : ts[i]? = some (.wWoken d)) (hl : p.len < 32) (hn : ∀ r ∈ ts, isRW r = false) :
    Run ⟨p, none, ts, none⟩ [(i, .tau), (i, .tau), (i, .tau), (i, .put d), (i, .tau), (i, .tau), (i, .ret none)] ⟨p.put d, none, ts.set i .idle, none⟩ := by
  have e : ts = ts.set i (.wWoken d) := by
    have hl : i < ts.length := by
      rcases Nat.lt_or_ge i ts.length with h' | h'
      · exact h'
      · rw [List.getElem?_eq_none h'] at h; simp at h
    rw [List.getElem?_eq_getElem hl] at h
    rw [← Option.some.inj h, List.set_getElem_self]
  have e2 : ts.set i .idle = (ts.set i .idle).set i .idle := by rw [List.set_set]
  have h2 : (ts.set i .idle)[i]? = some .idle := set_get h
  have e3 : ∀ a : Pc V, ts.set i a = (ts.set i .idle).set i a := fun a => by rw [List.set_set]
  conv =>
    arg 1
    rw [e]
  refine .step (st_lock h rfl) (.step (st_body h (q' := .wPut d) (e := .tau) (p' := p) ?_)
    (.step (st_body h (q' := .wLen d) (e := .tau) (p' := { p with items := fun k => if k = (p.start + p.len) % 32 then d else p.items k }) ?_)
    (.step (st_body h rfl) (.step (st_unlock h rfl) (.step (st_signalNone h rfl rfl ?_) ?_)))))
  · exact congrArg some (if_pos (show p.len < THPIPESIZE from hl))
  · exact congrArg some (if_pos (Nat.mod_lt _ (show 0 < THPIPESIZE by decide)))
  · intro r hr
    have := hn r hr
    cases r <;> first | rfl | simp [isRW] at this
  · rw [e3 .wRet]
    exact .step (st_ret h2 rfl) .nil

def writesEvents (i : Nat) (d : V) : Nat → List (Nat × Event V)
  | 0 => []
  | k + 1 => writesEvents i d k ++ writeEvents i d

/-- Writes one after another. -/
theorem run_writes {ts : List (Pc V)} {i : Nat} (h : ts[i]? = some .idle) (hn : ∀ r ∈ ts, isRW r = false) (d : V) {p : Pipe V} (hc : p.closed = false) :
    ∀ k, p.len + k ≤ 32 → ∃ p' : Pipe V, Run ⟨p, none, ts, none⟩ (writesEvents i d k) ⟨p', none, ts, none⟩ ∧ p'.closed = false ∧ p'.len = p.len + k ∧ p'.start = p.start
  | 0, _ => ⟨p, .nil, hc, rfl, rfl⟩
  | k + 1, hk => by
    obtain ⟨p', h1, h2, h3, h4⟩ := run_writes h hn d hc k (by omega)
    exact ⟨p'.put d, h1.trans (run_write h h2 (by omega) hn d), h2, by show p'.len + 1 = _; omega, h4⟩

/-- Reads one after another, until nothing is left. -/
theorem run_reads {ts : List (Pc V)} {i : Nat} (h : ts[i]? = some .idle) (hn : ∀ r ∈ ts, isWW r = false) :
    ∀ (k : Nat) {p : Pipe V}, p.len = k → p.start < 32 → ∃ (p' : Pipe V) (es : List (Nat × Event V)), Run ⟨p, none, ts, none⟩ es ⟨p', none, ts, none⟩ ∧ p'.closed = p.closed ∧ p'.len = 0 ∧ p'.start < 32
  | 0, p, hk, hs => ⟨p, [], .nil, rfl, hk, hs⟩
  | k + 1, p, hk, hs => by
    obtain ⟨p', es, h1, h2, h3, h4⟩ := run_reads h hn k (p := p.drop) (by show p.len - 1 = k; omega) (Nat.mod_lt _ (by omega))
    exact ⟨p', _, (run_read h hs (by omega) hn).trans h1, h2, h3, h4⟩
end Che.Lib.Threads
