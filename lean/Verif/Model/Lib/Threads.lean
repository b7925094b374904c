/-!
Model of the pipe between threads of `lib/os/threads.c` (lines 65-73, 92-186): a mutex, two condition variables and a ring of 32 items.

Any number of threads call `pread`, `pwrite` and `pclose` in any order.  A step is one statement of one thread; the threads take steps in any order.
Mutexes and condition variables behave as POSIX says: a waiting thread may wake without a signal, and a signal wakes one waiting thread, whichever it is.
Statements that use the pipe without holding its mutex, or give back a mutex that is not held, are undefined.
Not modelled: that `pthread` functions fail (their results are not looked at, lines 143-184), `freepipe`, and `pread` with a null pointer (which does not store the item).
-/
namespace Che.Lib.Threads

/-- `THPIPESIZE` (lib/os/threads.c:111). -/
def THPIPESIZE : Nat := 32

/-- The fields of `pipe_t` that are not mutexes (lib/os/threads.c:117-119). -/
structure Pipe (V : Type) where
  items : Nat → V
  start : Nat
  len : Nat
  closed : Bool

/-- A call of a thread (lib/os/threads.c:142, 170, 163). -/
inductive Op (V : Type) where
  | read
  | write (d : V)
  | close

/-- Where a thread is: the line that it executes next. -/
inductive Pc (V : Type) where
  /-- Not in a function of the pipe. -/
  | idle
  /-- `pread`, 143 -/
  | rLock
  /-- 145 -/
  | rTop
  /-- 147 -/
  | rGet
  /-- 149 -/
  | rStart (v : V)
  /-- 150 -/
  | rLen (v : V)
  /-- 151 -/
  | rUnlock (v : V)
  /-- 152 -/
  | rSignal (v : V)
  /-- 155 -/
  | rEof
  /-- 156 -/
  | rEofUnlock
  /-- 159 -/
  | rBlock
  /-- In 159, waiting for the condition. -/
  | rWaiting
  /-- In 159, waiting for the mutex. -/
  | rWoken
  /-- 153 with the item, or 157. -/
  | rRet (v : Option V)
  /-- `pwrite`, 171 -/
  | wLock (d : V)
  /-- 172 -/
  | wTest (d : V)
  /-- 176 -/
  | wTop (d : V)
  /-- 177, 178 -/
  | wPut (d : V)
  /-- 179 -/
  | wLen (d : V)
  /-- 180 -/
  | wUnlock
  /-- 181 -/
  | wSignal
  /-- 184 -/
  | wBlock (d : V)
  /-- In 184, waiting for the condition. -/
  | wWaiting (d : V)
  /-- In 184, waiting for the mutex. -/
  | wWoken (d : V)
  /-- 182 -/
  | wRet
  /-- `pclose`, 164 -/
  | cLock
  /-- 165 -/
  | cSet
  /-- 166 -/
  | cWake
  /-- 167 -/
  | cUnlock
  /-- 168 -/
  | cRet

/-- What a step does, seen from outside. -/
inductive Event (V : Type) where
  | call (op : Op V)
  | ret (v : Option (Option V))
  | put (d : V)
  | take (v : V)
  | eof
  | shut
  | wakeup
  | tau
  | die

/-- The mutex, the pipe, the threads, and why the program has ended. -/
structure State (V : Type) where
  pipe : Pipe V
  owner : Option Nat
  threads : List (Pc V)
  dead : Option String

/-- `newpipe` (lib/os/threads.c:122-129) and `n` threads. -/
def init {V : Type} [Inhabited V] (n : Nat) : State V :=
  { pipe := { items := fun _ => default, start := 0, len := 0, closed := false }, owner := none, threads := List.replicate n .idle, dead := none }

/-- The first line of each function (lib/os/threads.c:143, 171, 164). -/
def enter {V : Type} : Op V → Pc V
  | .read => .rLock
  | .write d => .wLock d
  | .close => .cLock

/-- `lock` (lib/os/threads.c:143, 171, 164), and the end of `pthread_cond_wait`, after which the loop begins again (159, 184). -/
def afterLock {V : Type} : Pc V → Option (Pc V)
  | .rLock => some .rTop
  | .rWoken => some .rTop
  | .wLock d => some (.wTest d)
  | .wWoken d => some (.wTop d)
  | .cLock => some .cSet
  | _ => none

/-- `unlock` (lib/os/threads.c:151, 156, 180, 167). -/
def afterUnlock {V : Type} : Pc V → Option (Pc V)
  | .rUnlock v => some (.rSignal v)
  | .rEofUnlock => some (.rRet none)
  | .wUnlock => some .wSignal
  | .cUnlock => some .cRet
  | _ => none

/-- `unlock_wait_lock`: the mutex is given back and the thread waits (lib/os/threads.c:159, 184). -/
def afterWait {V : Type} : Pc V → Option (Pc V)
  | .rBlock => some .rWaiting
  | .wBlock d => some (.wWaiting d)
  | _ => none

/-- A thread that waits is woken. -/
def afterWake {V : Type} : Pc V → Option (Pc V)
  | .rWaiting => some .rWoken
  | .wWaiting d => some (.wWoken d)
  | _ => none

/-- What a statement on the pipe leads to. -/
inductive Done (V : Type) where
  | next (e : Event V) (p : Pipe V) (q : Pc V)
  | dead (m : String)

/-- The statements that use the pipe (lib/os/threads.c:145-150, 155, 165, 172-179). -/
def body {V : Type} (p : Pipe V) : Pc V → Option (Done V)
  | .rTop => some (if p.len > 0 then .next .tau p .rGet else .next .tau p .rEof)
  | .rGet => some (if p.start < THPIPESIZE then .next .tau p (.rStart (p.items p.start)) else .dead "undefined: index out of the items")
  | .rStart v => some (.next .tau { p with start := (p.start + 1) % THPIPESIZE } (.rLen v))
  | .rLen v => some (.next (.take v) { p with len := p.len - 1 } (.rUnlock v))
  | .rEof => some (if p.closed then .next .eof p .rEofUnlock else .next .tau p .rBlock)
  | .wTest d => some (if p.closed then .dead "writing to a closed pipe" else .next .tau p (.wTop d))
  | .wTop d => some (if p.len < THPIPESIZE then .next .tau p (.wPut d) else .next .tau p (.wBlock d))
  | .wPut d =>
    let pos := (p.start + p.len) % THPIPESIZE
    some (if pos < THPIPESIZE then .next .tau { p with items := fun k => if k = pos then d else p.items k } (.wLen d) else .dead "undefined: index out of the items")
  | .wLen d => some (.next (.put d) { p with len := p.len + 1 } .wUnlock)
  | .cSet => some (.next .shut { p with closed := true } .cWake)
  | _ => none

/-- `wake_one` (lib/os/threads.c:152, 181): the threads it may wake, and the next line. -/
def signal {V : Type} : Pc V → Option ((Pc V → Bool) × Pc V)
  | .rSignal v => some (fun | .wWaiting _ => true | _ => false, .rRet (some v))
  | .wSignal => some (fun | .rWaiting => true | _ => false, .wRet)
  | _ => none

/-- `wake_all(p->sig_wrote)` (lib/os/threads.c:166). -/
def wakeAll {V : Type} : Pc V → Pc V
  | .rWaiting => .rWoken
  | q => q

/-- The end of a function, and what it returns (lib/os/threads.c:153, 157, 168, 182). -/
def result {V : Type} : Pc V → Option (Option (Option V))
  | .rRet v => some (some v)
  | .wRet => some none
  | .cRet => some none
  | _ => none

/-- The statements that need the mutex. -/
def needsLock {V : Type} (p : Pipe V) (q : Pc V) : Bool := (body p q).isSome || (afterUnlock q).isSome || (afterWait q).isSome

/-- A step of thread `i`. -/
inductive Core {V : Type} (s : State V) (i : Nat) : Event V → State V → Prop
  | call {op : Op V} : s.threads[i]? = some .idle → Core s i (.call op) { s with threads := s.threads.set i (enter op) }
  | ret {q : Pc V} {v : Option (Option V)} : s.threads[i]? = some q → result q = some v → Core s i (.ret v) { s with threads := s.threads.set i .idle }
  | lock {q q' : Pc V} : s.threads[i]? = some q → afterLock q = some q' → s.owner = none → Core s i .tau { s with owner := some i, threads := s.threads.set i q' }
  | unlock {q q' : Pc V} : s.threads[i]? = some q → afterUnlock q = some q' → s.owner = some i → Core s i .tau { s with owner := none, threads := s.threads.set i q' }
  | wait {q q' : Pc V} : s.threads[i]? = some q → afterWait q = some q' → s.owner = some i → Core s i .tau { s with owner := none, threads := s.threads.set i q' }
  | wakeup {q q' : Pc V} : s.threads[i]? = some q → afterWake q = some q' → Core s i .wakeup { s with threads := s.threads.set i q' }
  | body {q q' : Pc V} {e : Event V} {p : Pipe V} : s.threads[i]? = some q → body s.pipe q = some (.next e p q') → s.owner = some i →
    Core s i e { s with pipe := p, threads := s.threads.set i q' }
  | panic {q : Pc V} {m : String} : s.threads[i]? = some q → body s.pipe q = some (.dead m) → s.owner = some i → Core s i .die { s with dead := some m }
  | race {q : Pc V} : s.threads[i]? = some q → needsLock s.pipe q = true → s.owner ≠ some i → Core s i .die { s with dead := some "undefined: the mutex is not held" }
  | signal {q q' r r' : Pc V} {f : Pc V → Bool} {j : Nat} : s.threads[i]? = some q → signal q = some (f, q') → s.threads[j]? = some r → f r = true → afterWake r = some r' →
    Core s i .tau { s with threads := (s.threads.set j r').set i q' }
  | signalNone {q q' : Pc V} {f : Pc V → Bool} : s.threads[i]? = some q → signal q = some (f, q') → (∀ r ∈ s.threads, f r = false) → Core s i .tau { s with threads := s.threads.set i q' }
  | wakeAll : s.threads[i]? = some .cWake → Core s i .tau { s with threads := (s.threads.map wakeAll).set i .cUnlock }

/-- A step of the program, which has not ended. -/
def Step {V : Type} (s : State V) (i : Nat) (e : Event V) (s' : State V) : Prop := s.dead = none ∧ Core s i e s'

/-- An execution and its events. -/
inductive Run {V : Type} : State V → List (Nat × Event V) → State V → Prop
  | nil {s : State V} : Run s [] s
  | snoc {s t u : State V} {es : List (Nat × Event V)} {i : Nat} {e : Event V} : Run s es t → Step t i e u → Run s (es ++ [(i, e)]) u
end Che.Lib.Threads
