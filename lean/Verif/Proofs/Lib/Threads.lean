import Verif.Spec.Lib.Threads

/-!
Proofs about the pipe between threads.
-/
namespace Che.Lib.Threads
variable {V : Type}

/-- The statements at which the mutex is held. -/
def holds : Pc V → Bool
  | .rTop | .rGet | .rStart _ | .rLen _ | .rUnlock _ | .rEof | .rEofUnlock | .rBlock => true
  | .wTest _ | .wTop _ | .wPut _ | .wLen _ | .wUnlock | .wBlock _ => true
  | .cSet | .cWake | .cUnlock => true
  | _ => false

/-- `n` items of the ring from place `a`. -/
def contents (p : Pipe V) (a n : Nat) : List V := (List.range n).map fun k => p.items ((a + k) % 32)

/-- What is true of the pipe when the thread that holds the mutex is at a statement. -/
def Own (p : Pipe V) (q : List V) : Pc V → Prop
  | .rGet => 0 < p.len ∧ q = contents p p.start p.len
  | .rStart v => 0 < p.len ∧ q = contents p p.start p.len ∧ v = p.items p.start
  | .rLen v => 0 < p.len ∧ q = v :: contents p p.start (p.len - 1)
  | .rEof => p.len = 0 ∧ q = contents p p.start p.len
  | .rBlock => p.len = 0 ∧ p.closed = false ∧ q = contents p p.start p.len
  | .wPut _ => p.len < 32 ∧ q = contents p p.start p.len
  | .wLen d => p.len < 32 ∧ q = contents p p.start p.len ∧ d = p.items ((p.start + p.len) % 32)
  | .wBlock _ => p.len = 32 ∧ q = contents p p.start p.len
  | _ => q = contents p p.start p.len

/-- The threads that will look for an item, or wake a thread that will. -/
def aR : Pc V → Bool
  | .rTop | .rGet | .rStart _ | .rLen _ | .rWoken | .wUnlock | .wSignal => true
  | _ => false

/-- The threads that will look for a free place, or wake a thread that will. -/
def aW : Pc V → Bool
  | .wTop _ | .wPut _ | .wLen _ | .wWoken _ | .rUnlock _ | .rSignal _ => true
  | _ => false

def isRW : Pc V → Bool
  | .rWaiting => true
  | _ => false

def isWW : Pc V → Bool
  | .wWaiting _ => true
  | _ => false

def isCW : Pc V → Bool
  | .cWake => true
  | _ => false

structure InvA (s : State V) (x : List V × Bool) : Prop where
  start : s.pipe.start < 32
  len : s.pipe.len ≤ 32
  closed : s.pipe.closed = x.2
  free : s.owner = none → x.1 = contents s.pipe s.pipe.start s.pipe.len
  own : ∀ i, s.owner = some i → ∃ pc, s.threads[i]? = some pc ∧ holds pc = true ∧ Own s.pipe x.1 pc
  holds : ∀ i pc, s.threads[i]? = some pc → holds pc = true → s.owner = some i

/-- No waiting thread is forgotten. -/
structure InvB (ts : List (Pc V)) (x : List V × Bool) : Prop where
  r : 0 < ts.countP isRW → x.1.length ≤ ts.countP aR
  w : 0 < ts.countP isWW → 32 ≤ x.1.length + ts.countP aW
  c : 0 < ts.countP isRW → x.2 = true → 0 < ts.countP isCW

theorem countP_set' {α : Type} (f : α → Bool) : ∀ {l : List α} {i : Nat} {a b : α}, l[i]? = some a → (l.set i b).countP f + (f a).toNat = l.countP f + (f b).toNat
  | [], i, a, b, h => by simp at h
  | c :: l, 0, a, b, h => by
    simp only [List.getElem?_cons_zero, Option.some.injEq] at h
    subst h
    simp only [List.set_cons_zero, List.countP_cons]
    cases f c <;> cases f b <;> simp
  | c :: l, i + 1, a, b, h => by
    simp only [List.getElem?_cons_succ] at h
    have := countP_set' f h (b := b)
    simp only [List.set_cons_succ, List.countP_cons]
    omega

theorem contents_cons {p : Pipe V} (h : 0 < p.len) (hs : p.start < 32) :
    contents p p.start p.len = p.items p.start :: contents p ((p.start + 1) % 32) (p.len - 1) := by
  obtain ⟨n, hn⟩ : ∃ n, p.len = n + 1 := ⟨p.len - 1, by omega⟩
  rw [hn]
  unfold contents
  rw [List.range_succ_eq_map, List.map_cons, Nat.add_zero, Nat.mod_eq_of_lt hs, List.map_map]
  refine congrArg _ ?_
  show _ = List.map _ (List.range (n + 1 - 1))
  rw [Nat.add_sub_cancel]
  refine List.map_congr_left fun k _ => ?_
  show p.items ((p.start + (k + 1)) % 32) = p.items (((p.start + 1) % 32 + k) % 32)
  refine congrArg _ ?_
  omega

theorem contents_put {p : Pipe V} {d : V} (h : p.len < 32) (k : Nat) (hk : k ≤ p.len) :
    contents { p with items := fun k => if k = (p.start + p.len) % 32 then d else p.items k } p.start k = contents p p.start k := by
  unfold contents
  refine List.map_congr_left fun j hj => ?_
  rw [List.mem_range] at hj
  show (if (p.start + j) % 32 = (p.start + p.len) % 32 then d else _) = _
  rw [if_neg (by omega)]

theorem contents_snoc (p : Pipe V) (a n : Nat) : contents p a (n + 1) = contents p a n ++ [p.items ((a + n) % 32)] := by
  unfold contents
  rw [List.range_succ, List.map_append]
  rfl

theorem contents_length (p : Pipe V) (a n : Nat) : (contents p a n).length = n := by simp [contents]

/-- One thread goes on. -/
theorem invB_set {ts : List (Pc V)} {x x' : List V × Bool} {i : Nat} {a b : Pc V} (h : InvB ts x) (hi : ts[i]? = some a)
    (hr : x'.1 = [] ∨ isRW b = false ∧ x'.1.length + (aR a).toNat ≤ x.1.length + (aR b).toNat)
    (hw : 32 ≤ x'.1.length ∨ isWW b = false ∧ x.1.length + (aW a).toNat ≤ x'.1.length + (aW b).toNat)
    (hc : x'.2 = false ∨ isCW b = true ∨ isRW b = false ∧ isCW a = false ∧ x'.2 = x.2) : InvB (ts.set i b) x' := by
  have e1 := countP_set' isRW hi (b := b)
  have e2 := countP_set' isWW hi (b := b)
  have e3 := countP_set' isCW hi (b := b)
  have e4 := countP_set' aR hi (b := b)
  have e5 := countP_set' aW hi (b := b)
  refine ⟨fun h0 => ?_, fun h0 => ?_, fun h0 h1 => ?_⟩
  · rcases hr with hr | ⟨h2, h3⟩
    · rw [hr]; simp
    · rw [h2] at e1
      have := h.r (by simp at e1; omega)
      omega
  · rcases hw with hw | ⟨h2, h3⟩
    · omega
    · rw [h2] at e2
      have := h.w (by simp at e2; omega)
      omega
  · rcases hc with hc | hc | ⟨h2, h3, h4⟩
    · rw [hc] at h1; simp at h1
    · rw [hc] at e3
      simp at e3
      have : (isCW a).toNat ≤ 1 := by cases isCW a <;> simp
      rcases Nat.eq_zero_or_pos (ts.countP isCW) with hz | hz
      · have : isCW a = false := by
          cases hh : isCW a with
          | false => rfl
          | true =>
            have : a ∈ ts := List.mem_of_getElem? hi
            have := List.countP_pos_iff.2 ⟨a, this, hh⟩
            omega
        rw [this] at e3
        simp at e3
        omega
      · omega
    · rw [h2] at e1
      rw [h4] at h1
      have := h.c (by simp at e1; omega) h1
      rw [h3] at e3
      simp at e3
      omega

theorem get_set {ts : List (Pc V)} {i j : Nat} {a b c : Pc V} (hi : ts[i]? = some a) (h : (ts.set i b)[j]? = some c) : i = j ∧ c = b ∨ i ≠ j ∧ ts[j]? = some c := by
  rw [List.getElem?_set] at h
  by_cases e : i = j
  · rw [if_pos e] at h
    have : i < ts.length := by
      rcases Nat.lt_or_ge i ts.length with h' | h'
      · exact h'
      · rw [List.getElem?_eq_none h'] at hi; simp at hi
    rw [if_pos (by omega)] at h
    exact .inl ⟨e, (Option.some.inj h).symm⟩
  · rw [if_neg e] at h
    exact .inr ⟨e, h⟩

theorem set_get {ts : List (Pc V)} {i : Nat} {a b : Pc V} (hi : ts[i]? = some a) : (ts.set i b)[i]? = some b := by
  have : i < ts.length := by
    rcases Nat.lt_or_ge i ts.length with h' | h'
    · exact h'
    · rw [List.getElem?_eq_none h'] at hi; simp at hi
  rw [List.getElem?_set, if_pos rfl, if_pos this]

/-- A thread that does not hold the mutex goes on without it. -/
theorem invA_out {s : State V} {x : List V × Bool} {i : Nat} {a b : Pc V} (h : InvA s x) (hi : s.threads[i]? = some a) (ha : holds a = false) (hb : holds b = false) :
    InvA { s with threads := s.threads.set i b } x := by
  refine ⟨h.start, h.len, h.closed, h.free, fun j hj => ?_, fun j pc hj hp => ?_⟩
  · obtain ⟨pc, h1, h2, h3⟩ := h.own j hj
    refine ⟨pc, ?_, h2, h3⟩
    show (s.threads.set i b)[j]? = _
    rw [List.getElem?_set, if_neg, h1]
    intro e
    subst e
    rw [hi] at h1
    have := Option.some.inj h1
    subst this
    rw [ha] at h2
    simp at h2
  · rcases get_set hi hj with ⟨_, e⟩ | ⟨_, e⟩
    · rw [e, hb] at hp; simp at hp
    · exact h.holds j pc e hp

/-- A thread takes the mutex. -/
theorem invA_lock {s : State V} {x : List V × Bool} {i : Nat} {a b : Pc V} (h : InvA s x) (hi : s.threads[i]? = some a) (ho : s.owner = none) (hb : holds b = true)
    (hown : x.1 = contents s.pipe s.pipe.start s.pipe.len → Own s.pipe x.1 b) : InvA { s with owner := some i, threads := s.threads.set i b } x := by
  refine ⟨h.start, h.len, h.closed, fun e => by simp at e, fun j hj => ?_, fun j pc hj hp => ?_⟩
  · have e : i = j := Option.some.inj hj
    subst e
    exact ⟨b, set_get hi, hb, hown (h.free ho)⟩
  · rcases get_set hi hj with ⟨e, _⟩ | ⟨_, e⟩
    · rw [e]
    · have := h.holds j pc e hp
      rw [ho] at this
      simp at this

/-- A thread gives the mutex back. -/
theorem invA_unlock {s : State V} {x : List V × Bool} {i : Nat} {a b : Pc V} (h : InvA s x) (hi : s.threads[i]? = some a) (ho : s.owner = some i) (hb : holds b = false)
    (hown : Own s.pipe x.1 a → x.1 = contents s.pipe s.pipe.start s.pipe.len) : InvA { s with owner := none, threads := s.threads.set i b } x := by
  refine ⟨h.start, h.len, h.closed, fun _ => ?_, fun j hj => by simp at hj, fun j pc hj hp => ?_⟩
  · obtain ⟨pc, h1, _, h3⟩ := h.own i ho
    rw [hi] at h1
    have := Option.some.inj h1
    subst this
    exact hown h3
  · rcases get_set hi hj with ⟨_, e⟩ | ⟨ne, e⟩
    · rw [e, hb] at hp; simp at hp
    · have := h.holds j pc e hp
      rw [ho] at this
      exact absurd (Option.some.inj this) ne

/-- The thread that holds the mutex does something with the pipe. -/
theorem invA_in {s : State V} {x x' : List V × Bool} {i : Nat} {a b : Pc V} {p : Pipe V} (h : InvA s x) (hi : s.threads[i]? = some a) (ho : s.owner = some i) (hb : holds b = true)
    (h1 : p.start < 32) (h2 : p.len ≤ 32) (h3 : p.closed = x'.2) (hown : Own p x'.1 b) : InvA { s with pipe := p, threads := s.threads.set i b } x' := by
  refine ⟨h1, h2, h3, fun e => by rw [show s.owner = none from e] at ho; simp at ho, fun j hj => ?_, fun j pc hj hp => ?_⟩
  · have e : i = j := by
      have hj : s.owner = some j := hj
      rw [ho] at hj
      exact Option.some.inj hj
    subst e
    exact ⟨b, set_get hi, hb, hown⟩
  · rcases get_set hi hj with ⟨e, _⟩ | ⟨_, e⟩
    · show s.owner = some j
      rw [ho, e]
    · exact h.holds j pc e hp

theorem own_of {s : State V} {x : List V × Bool} {i : Nat} {a : Pc V} (h : InvA s x) (hi : s.threads[i]? = some a) (ho : s.owner = some i) : Own s.pipe x.1 a := by
  obtain ⟨pc, h1, _, h3⟩ := h.own i ho
  rw [hi] at h1
  have := Option.some.inj h1
  subst this
  exact h3

def Inv (s : State V) (x : List V × Bool) : Prop := InvA s x ∧ InvB s.threads x

theorem inv_call {s : State V} {x : List V × Bool} {i : Nat} {op : Op V} (h : Inv s x) (hi : s.threads[i]? = some .idle) : Inv { s with threads := s.threads.set i (enter op) } x := by
  refine ⟨invA_out h.1 hi rfl (by cases op <;> rfl), invB_set h.2 hi (.inr ?_) (.inr ?_) (.inr (.inr ?_))⟩ <;> cases op <;> simp [enter, isRW, isWW, isCW, aR, aW]

theorem inv_ret {s : State V} {x : List V × Bool} {i : Nat} {q : Pc V} {v : Option (Option V)} (h : Inv s x) (hi : s.threads[i]? = some q) (hr : result q = some v) :
    Inv { s with threads := s.threads.set i .idle } x := by
  refine ⟨invA_out h.1 hi ?_ rfl, invB_set h.2 hi (.inr ?_) (.inr ?_) (.inr (.inr ?_))⟩ <;> cases q <;> simp [result, holds, isRW, isWW, isCW, aR, aW] at hr ⊢

theorem inv_lock {s : State V} {x : List V × Bool} {i : Nat} {q q' : Pc V} (h : Inv s x) (hi : s.threads[i]? = some q) (hr : afterLock q = some q') (ho : s.owner = none) :
    Inv { s with owner := some i, threads := s.threads.set i q' } x := by
  refine ⟨invA_lock h.1 hi ho ?_ ?_, invB_set h.2 hi (.inr ?_) (.inr ?_) (.inr (.inr ?_))⟩ <;> cases q <;> simp [afterLock] at hr <;> subst hr <;> simp [holds, isRW, isWW, isCW, aR, aW, Own]

theorem inv_unlock {s : State V} {x : List V × Bool} {i : Nat} {q q' : Pc V} (h : Inv s x) (hi : s.threads[i]? = some q) (hr : afterUnlock q = some q') (ho : s.owner = some i) :
    Inv { s with owner := none, threads := s.threads.set i q' } x := by
  refine ⟨invA_unlock h.1 hi ho ?_ ?_, invB_set h.2 hi (.inr ?_) (.inr ?_) (.inr (.inr ?_))⟩ <;> cases q <;> simp [afterUnlock] at hr <;> subst hr <;> simp [holds, isRW, isWW, isCW, aR, aW, Own]

theorem inv_wait {s : State V} {x : List V × Bool} {i : Nat} {q q' : Pc V} (h : Inv s x) (hi : s.threads[i]? = some q) (hr : afterWait q = some q') (ho : s.owner = some i) :
    Inv { s with owner := none, threads := s.threads.set i q' } x := by
  have hown := own_of h.1 hi ho
  cases q <;> simp [afterWait] at hr
  · subst hr
    obtain ⟨h1, h2, h3⟩ := hown
    rw [h1] at h3
    refine ⟨invA_unlock h.1 hi ho rfl (fun h => h.2.2), invB_set h.2 hi (.inl h3) (.inr ⟨rfl, Nat.le_refl _⟩) (.inl (by rw [← h.1.closed, h2]))⟩
  · subst hr
    obtain ⟨h1, h3⟩ := hown
    refine ⟨invA_unlock h.1 hi ho rfl (fun h => h.2), invB_set h.2 hi (.inr ⟨rfl, Nat.le_refl _⟩) (.inl (by rw [h3, contents_length]; omega)) (.inr (.inr ⟨rfl, rfl, rfl⟩))⟩

theorem inv_wakeup {s : State V} {x : List V × Bool} {i : Nat} {q q' : Pc V} (h : Inv s x) (hi : s.threads[i]? = some q) (hr : afterWake q = some q') :
    Inv { s with threads := s.threads.set i q' } x := by
  refine ⟨invA_out h.1 hi ?_ ?_, invB_set h.2 hi (.inr ?_) (.inr ?_) (.inr (.inr ?_))⟩ <;> cases q <;> simp [afterWake] at hr <;> subst hr <;> simp [holds, isRW, isWW, isCW, aR, aW]

theorem inv_body {s : State V} {x : List V × Bool} {i : Nat} {q q' : Pc V} {e : Event V} {p : Pipe V} (h : Inv s x) (hi : s.threads[i]? = some q) (hb : body s.pipe q = some (.next e p q'))
    (ho : s.owner = some i) : ∃ x', QStep x e x' ∧ Inv { s with pipe := p, threads := s.threads.set i q' } x' := by
  have hown := own_of h.1 hi ho
  obtain ⟨hA, hB⟩ := h
  have hs := hA.start
  have hl := hA.len
  obtain ⟨q0, c0⟩ := x
  have hc := hA.closed
  simp only at hown hc
  cases q <;> simp only [body, Option.some.injEq, reduceCtorEq] at hb
  case rTop =>
    have hq : q0 = contents s.pipe s.pipe.start s.pipe.len := hown
    split at hb <;> obtain ⟨rfl, rfl, rfl⟩ := Done.next.inj hb
    · rename_i hlen
      exact ⟨_, .tau, invA_in hA hi ho rfl hs hl hc ⟨hlen, hq⟩, invB_set hB hi (.inr ⟨rfl, Nat.le_refl _⟩) (.inr ⟨rfl, Nat.le_refl _⟩) (.inr (.inr ⟨rfl, rfl, rfl⟩))⟩
    · rename_i hlen
      have hlen : s.pipe.len = 0 := by omega
      have hq' : q0 = [] := by rw [hq, hlen]; rfl
      exact ⟨_, .tau, invA_in hA hi ho rfl hs hl hc ⟨hlen, hq⟩, invB_set hB hi (.inl hq') (.inr ⟨rfl, Nat.le_refl _⟩) (.inr (.inr ⟨rfl, rfl, rfl⟩))⟩
  case rGet =>
    split at hb
    · obtain ⟨rfl, rfl, rfl⟩ := Done.next.inj hb
      exact ⟨_, .tau, invA_in hA hi ho rfl hs hl hc ⟨hown.1, hown.2, rfl⟩, invB_set hB hi (.inr ⟨rfl, Nat.le_refl _⟩) (.inr ⟨rfl, Nat.le_refl _⟩) (.inr (.inr ⟨rfl, rfl, rfl⟩))⟩
    · simp at hb
  case rStart v =>
    obtain ⟨rfl, rfl, rfl⟩ := Done.next.inj hb
    obtain ⟨h1, h2, h3⟩ := hown
    refine ⟨_, .tau, invA_in hA hi ho rfl (Nat.mod_lt _ (by unfold THPIPESIZE; omega)) hl hc ⟨h1, ?_⟩, invB_set hB hi (.inr ⟨rfl, Nat.le_refl _⟩) (.inr ⟨rfl, Nat.le_refl _⟩) (.inr (.inr ⟨rfl, rfl, rfl⟩))⟩
    rw [h2, contents_cons h1 hs, h3]
    rfl
  case rLen v =>
    obtain ⟨rfl, rfl, rfl⟩ := Done.next.inj hb
    obtain ⟨h1, rfl⟩ := hown
    refine ⟨_, .take, invA_in hA hi ho rfl hs (by simp only; omega) hc rfl, invB_set hB hi (.inr ⟨rfl, ?_⟩) (.inr ⟨rfl, ?_⟩) (.inr (.inr ⟨rfl, rfl, rfl⟩))⟩
    · simp [aR]
    · simp [aW]
  case rEof =>
    obtain ⟨h1, h2⟩ := hown
    have hq' : q0 = [] := by rw [h2, h1]; rfl
    split at hb <;> obtain ⟨rfl, rfl, rfl⟩ := Done.next.inj hb
    · rename_i hcl
      rw [hcl] at hc
      subst hc hq'
      exact ⟨_, .eof, invA_in hA hi ho rfl hs hl hcl h2, invB_set hB hi (.inl rfl) (.inr ⟨rfl, Nat.le_refl _⟩) (.inr (.inr ⟨rfl, rfl, rfl⟩))⟩
    · rename_i hcl
      exact ⟨_, .tau, invA_in hA hi ho rfl hs hl hc ⟨h1, by simpa using hcl, h2⟩, invB_set hB hi (.inl hq') (.inr ⟨rfl, Nat.le_refl _⟩) (.inr (.inr ⟨rfl, rfl, rfl⟩))⟩
  case wTest d =>
    split at hb
    · simp at hb
    · obtain ⟨rfl, rfl, rfl⟩ := Done.next.inj hb
      exact ⟨_, .tau, invA_in hA hi ho rfl hs hl hc hown, invB_set hB hi (.inr ⟨rfl, Nat.le_refl _⟩) (.inr ⟨rfl, by simp [aW]⟩) (.inr (.inr ⟨rfl, rfl, rfl⟩))⟩
  case wTop d =>
    have hq : q0 = contents s.pipe s.pipe.start s.pipe.len := hown
    split at hb <;> obtain ⟨rfl, rfl, rfl⟩ := Done.next.inj hb
    · rename_i hlen
      exact ⟨_, .tau, invA_in hA hi ho rfl hs hl hc ⟨hlen, hq⟩, invB_set hB hi (.inr ⟨rfl, Nat.le_refl _⟩) (.inr ⟨rfl, Nat.le_refl _⟩) (.inr (.inr ⟨rfl, rfl, rfl⟩))⟩
    · rename_i hlen
      have hlen : s.pipe.len = 32 := by unfold THPIPESIZE at hlen; omega
      exact ⟨_, .tau, invA_in hA hi ho rfl hs hl hc ⟨hlen, hq⟩, invB_set hB hi (.inr ⟨rfl, Nat.le_refl _⟩) (.inl (by simp only; rw [hq, contents_length]; omega)) (.inr (.inr ⟨rfl, rfl, rfl⟩))⟩
  case wPut d =>
    obtain ⟨h1, h2⟩ := hown
    split at hb
    · obtain ⟨rfl, rfl, rfl⟩ := Done.next.inj hb
      refine ⟨_, .tau, invA_in hA hi ho rfl hs hl hc ⟨h1, ?_, ?_⟩, invB_set hB hi (.inr ⟨rfl, Nat.le_refl _⟩) (.inr ⟨rfl, Nat.le_refl _⟩) (.inr (.inr ⟨rfl, rfl, rfl⟩))⟩
      · exact h2.trans (contents_put h1 _ (Nat.le_refl _)).symm
      · exact (if_pos rfl).symm
    · simp at hb
  case wLen d =>
    obtain ⟨rfl, rfl, rfl⟩ := Done.next.inj hb
    obtain ⟨h1, rfl, h3⟩ := hown
    refine ⟨_, .put (by rw [contents_length]; exact h1), invA_in hA hi ho rfl hs h1 hc ?_, invB_set hB hi (.inr ⟨rfl, ?_⟩) (.inr ⟨rfl, ?_⟩) (.inr (.inr ⟨rfl, rfl, rfl⟩))⟩
    · show _ = contents s.pipe s.pipe.start (s.pipe.len + 1)
      rw [contents_snoc, h3]
    · simp [aR]
    · simp [aW]
  case cSet =>
    obtain ⟨rfl, rfl, rfl⟩ := Done.next.inj hb
    exact ⟨_, .shut, invA_in hA hi ho rfl hs hl rfl hown, invB_set hB hi (.inr ⟨rfl, Nat.le_refl _⟩) (.inr ⟨rfl, Nat.le_refl _⟩) (.inr (.inl rfl))⟩

theorem inv_signal {s : State V} {x : List V × Bool} {i j : Nat} {q q' r r' : Pc V} {f : Pc V → Bool} (h : Inv s x) (hi : s.threads[i]? = some q) (hq : signal q = some (f, q'))
    (hj : s.threads[j]? = some r) (hf : f r = true) (hr : afterWake r = some r') : Inv { s with threads := (s.threads.set j r').set i q' } x := by
  obtain ⟨hA, hB⟩ := h
  have hne : i ≠ j := by
    intro e
    subst e
    rw [hi] at hj
    have := Option.some.inj hj
    subst this
    cases q <;> simp [signal, afterWake] at hq hr
  have hi' : (s.threads.set j r')[i]? = some q := by rw [List.getElem?_set, if_neg (fun e => hne e.symm), hi]
  have e1 := countP_set' isRW hj (b := r')
  have e2 := countP_set' isWW hj (b := r')
  have e3 := countP_set' isCW hj (b := r')
  have e4 := countP_set' aR hj (b := r')
  have e5 := countP_set' aW hj (b := r')
  have f1 := countP_set' isRW hi' (b := q')
  have f2 := countP_set' isWW hi' (b := q')
  have f3 := countP_set' isCW hi' (b := q')
  have f4 := countP_set' aR hi' (b := q')
  have f5 := countP_set' aW hi' (b := q')
  cases q <;> simp [signal] at hq
  · obtain ⟨rfl, rfl⟩ := hq
    cases r <;> simp at hf
    simp only [afterWake, Option.some.injEq] at hr
    subst hr
    refine ⟨invA_out (s := { s with threads := s.threads.set j _ }) (invA_out hA hj rfl rfl) hi' rfl rfl, ?_⟩
    simp only [isRW, isWW, isCW, aR, aW, Bool.toNat_true, Bool.toNat_false] at *
    exact ⟨fun h0 => by have := hB.r (by omega); omega, fun h0 => by have := hB.w (by omega); omega, fun h0 h1 => by have := hB.c (by omega) h1; omega⟩
  · obtain ⟨rfl, rfl⟩ := hq
    cases r <;> simp at hf
    simp only [afterWake, Option.some.injEq] at hr
    subst hr
    refine ⟨invA_out (s := { s with threads := s.threads.set j _ }) (invA_out hA hj rfl rfl) hi' rfl rfl, ?_⟩
    simp only [isRW, isWW, isCW, aR, aW, Bool.toNat_true, Bool.toNat_false] at *
    exact ⟨fun h0 => by have := hB.r (by omega); omega, fun h0 => by have := hB.w (by omega); omega, fun h0 h1 => by have := hB.c (by omega) h1; omega⟩

theorem inv_signalNone {s : State V} {x : List V × Bool} {i : Nat} {q q' : Pc V} {f : Pc V → Bool} (h : Inv s x) (hi : s.threads[i]? = some q) (hq : signal q = some (f, q'))
    (hn : ∀ r ∈ s.threads, f r = false) : Inv { s with threads := s.threads.set i q' } x := by
  obtain ⟨hA, hB⟩ := h
  have f1 := countP_set' isRW hi (b := q')
  have f2 := countP_set' isWW hi (b := q')
  have f3 := countP_set' isCW hi (b := q')
  have f4 := countP_set' aR hi (b := q')
  have f5 := countP_set' aW hi (b := q')
  cases q <;> simp [signal] at hq
  · obtain ⟨rfl, rfl⟩ := hq
    have hz : s.threads.countP isWW = 0 := by
      rw [List.countP_eq_zero]
      intro r hr hw
      have := hn r hr
      cases r <;> simp [isWW] at hw this
    refine ⟨invA_out hA hi rfl rfl, ?_⟩
    simp only [isRW, isWW, isCW, aR, aW, Bool.toNat_true, Bool.toNat_false] at *
    exact ⟨fun h0 => by have := hB.r (by omega); omega, fun h0 => by omega, fun h0 h1 => by have := hB.c (by omega) h1; omega⟩
  · obtain ⟨rfl, rfl⟩ := hq
    have hz : s.threads.countP isRW = 0 := by
      rw [List.countP_eq_zero]
      intro r hr hw
      have := hn r hr
      cases r <;> simp [isRW] at hw this
    refine ⟨invA_out hA hi rfl rfl, ?_⟩
    simp only [isRW, isWW, isCW, aR, aW, Bool.toNat_true, Bool.toNat_false] at *
    exact ⟨fun h0 => by omega, fun h0 => by have := hB.w (by omega); omega, fun h0 h1 => by omega⟩

theorem holds_wakeAll (a : Pc V) : holds (wakeAll a) = holds a := by cases a <;> rfl

theorem own_wakeAll {a : Pc V} (h : holds a = true) : wakeAll a = a := by cases a <;> first | rfl | simp [holds] at h

theorem inv_wakeAll {s : State V} {x : List V × Bool} {i : Nat} (h : Inv s x) (hi : s.threads[i]? = some .cWake) : Inv { s with threads := (s.threads.map wakeAll).set i .cUnlock } x := by
  obtain ⟨hA, hB⟩ := h
  have ho := hA.holds i _ hi rfl
  have hown := own_of hA hi ho
  have hi' : (s.threads.map wakeAll)[i]? = some .cWake := by rw [List.getElem?_map, hi]; rfl
  have hA' : InvA { s with threads := s.threads.map wakeAll } x := by
    refine ⟨hA.start, hA.len, hA.closed, hA.free, fun j hj => ?_, fun j pc hj hp => ?_⟩
    · obtain ⟨pc, h1, h2, h3⟩ := hA.own j hj
      refine ⟨pc, ?_, h2, h3⟩
      show (s.threads.map wakeAll)[j]? = _
      rw [List.getElem?_map, h1, Option.map_some, own_wakeAll h2]
    · have hj : (s.threads.map wakeAll)[j]? = some pc := hj
      rw [List.getElem?_map] at hj
      cases h : s.threads[j]? with
      | none => rw [h] at hj; simp at hj
      | some a =>
        rw [h] at hj
        have := Option.some.inj hj
        subst this
        exact hA.holds j a h (by rw [← holds_wakeAll]; exact hp)
  refine ⟨invA_in (p := s.pipe) hA' hi' ho rfl hA.start hA.len hA.closed hown, ?_⟩
  have f1 := countP_set' isRW hi' (b := .cUnlock)
  have f2 := countP_set' isWW hi' (b := .cUnlock)
  have f5 := countP_set' aW hi' (b := .cUnlock)
  have z : (s.threads.map wakeAll).countP isRW = 0 := by
    rw [List.countP_eq_zero]
    intro r hr
    obtain ⟨a, _, rfl⟩ := List.mem_map.1 hr
    cases a <;> simp [wakeAll, isRW]
  have e2 : (s.threads.map wakeAll).countP isWW = s.threads.countP isWW := by
    rw [List.countP_map]
    exact List.countP_congr fun a _ => by cases a <;> simp [wakeAll, isWW]
  have e5 : (s.threads.map wakeAll).countP aW = s.threads.countP aW := by
    rw [List.countP_map]
    exact List.countP_congr fun a _ => by cases a <;> simp [wakeAll, aW]
  rw [e2] at f2
  rw [e5] at f5
  simp only [isRW, isWW, isCW, aR, aW, Bool.toNat_true, Bool.toNat_false] at *
  exact ⟨fun h0 => by omega, fun h0 => by have := hB.w (by omega); omega, fun h0 h1 => by omega⟩

/-- The mutex is always held where it is needed. -/
theorem needs_holds {p : Pipe V} {q : Pc V} (h : needsLock p q = true) : holds q = true := by cases q <;> first | rfl | simp [needsLock, body, afterUnlock, afterWait] at h

theorem no_race {s : State V} {x : List V × Bool} {i : Nat} {q : Pc V} (h : Inv s x) (hi : s.threads[i]? = some q) (hn : needsLock s.pipe q = true) : s.owner = some i :=
  h.1.holds i q hi (needs_holds hn)

theorem no_panic {s : State V} {x : List V × Bool} {q : Pc V} {m : String} (h : Inv s x) (hb : body s.pipe q = some (.dead m)) :
    m = "writing to a closed pipe" ∧ s.pipe.closed = true ∧ ∃ d, q = .wTest d := by
  cases q <;> simp only [body, Option.some.injEq, reduceCtorEq] at hb <;> (try split at hb) <;> (try (simp at hb; done))
  · have := h.1.start
    rename_i h'
    unfold THPIPESIZE at h'
    omega
  · exact ⟨(Done.dead.inj hb).symm, by assumption, _, rfl⟩
  · have := Nat.mod_lt (s.pipe.start + s.pipe.len) (show 0 < 32 by omega)
    rename_i h'
    unfold THPIPESIZE at h'
    omega

/-- The invariant, and the effect of a step on the queue. -/
theorem step_inv {s s' : State V} {x : List V × Bool} {i : Nat} {e : Event V} (h : Inv s x) (hs : Core s i e s') : ∃ x', QStep x e x' ∧ Inv s' x' := by
  cases hs with
  | call hi => exact ⟨x, .call, inv_call h hi⟩
  | ret hi hr => exact ⟨x, .ret, inv_ret h hi hr⟩
  | lock hi hr ho => exact ⟨x, .tau, inv_lock h hi hr ho⟩
  | unlock hi hr ho => exact ⟨x, .tau, inv_unlock h hi hr ho⟩
  | wait hi hr ho => exact ⟨x, .tau, inv_wait h hi hr ho⟩
  | wakeup hi hr => exact ⟨x, .wakeup, inv_wakeup h hi hr⟩
  | body hi hr ho => exact inv_body h hi hr ho
  | panic hi hb ho => exact ⟨x, .die, ⟨h.1.start, h.1.len, h.1.closed, h.1.free, h.1.own, h.1.holds⟩, h.2⟩
  | race hi hn ho => exact ⟨x, .die, ⟨h.1.start, h.1.len, h.1.closed, h.1.free, h.1.own, h.1.holds⟩, h.2⟩
  | signal hi hq hj hf hr => exact ⟨x, .tau, inv_signal h hi hq hj hf hr⟩
  | signalNone hi hq hn => exact ⟨x, .tau, inv_signalNone h hi hq hn⟩
  | wakeAll hi => exact ⟨x, .tau, inv_wakeAll h hi⟩

theorem inv_init [Inhabited V] (n : Nat) : Inv (init n : State V) ([], false) := by
  refine ⟨⟨by show 0 < 32; omega, by show 0 ≤ 32; omega, rfl, fun _ => rfl, fun i h => by simp [init] at h, fun i pc h hp => ?_⟩, ⟨fun h => ?_, fun h => ?_, fun h => ?_⟩⟩
  · have : pc ∈ List.replicate n Pc.idle := List.mem_of_getElem? h
    rw [List.eq_of_mem_replicate this] at hp
    simp [holds] at hp
  all_goals
    simp only [init, List.countP_replicate, isRW, isWW] at h
    simp at h

theorem run_inv {s s' : State V} {x : List V × Bool} {es : List (Nat × Event V)} (h : Inv s x) (hr : Run s es s') : ∃ x', QRun x es x' ∧ Inv s' x' := by
  induction hr with
  | nil => exact ⟨x, .nil, h⟩
  | snoc _ hs ih =>
    obtain ⟨y, h1, h2⟩ := ih
    obtain ⟨z, h3, h4⟩ := step_inv h2 hs.2
    exact ⟨z, .snoc h1 h3, h4⟩

/-- How a run ends: it goes on, or a thread has written to a closed pipe. -/
theorem run_dead {s s' : State V} {x : List V × Bool} {es : List (Nat × Event V)} (h : Inv s x) (hd : s.dead = none) (hr : Run s es s') :
    s'.dead = none ∨ s'.dead = some "writing to a closed pipe" ∧ s'.pipe.closed = true := by
  cases hr with
  | nil => exact .inl hd
  | snoc hr hs =>
    obtain ⟨y, _, hy⟩ := run_inv h hr
    obtain ⟨h0, hs⟩ := hs
    cases hs with
    | panic hi hb ho =>
      obtain ⟨h1, h2, _⟩ := no_panic hy hb
      exact .inr ⟨by rw [h1], h2⟩
    | race hi hn ho => exact absurd (no_race hy hi hn) ho
    | _ => exact .inl h0

/-- The phase of a thread. -/
def phase : Pc V → Phase V
  | .idle => .out
  | .rLock | .rTop | .rGet | .rStart _ | .rLen _ | .rEof | .rBlock | .rWaiting | .rWoken => .reading
  | .rUnlock v | .rSignal v => .read (some v)
  | .rEofUnlock => .read none
  | .rRet v => .read v
  | .wLock d | .wTest d | .wTop d | .wPut d | .wLen d | .wBlock d | .wWaiting d | .wWoken d => .writing d
  | .wUnlock | .wSignal | .wRet | .cWake | .cUnlock | .cRet => .done
  | .cLock | .cSet => .closing

/-- The step of a thread is one of its phases, and all others stay where they are. -/
theorem step_phase {s s' : State V} {i : Nat} {e : Event V} (hs : Core s i e s') :
    s'.threads.length = s.threads.length ∧ (∃ a b, s.threads[i]? = some a ∧ s'.threads[i]? = some b ∧ Proto (phase a) e (phase b)) ∧
    ∀ j, j ≠ i → s'.threads[j]?.map phase = s.threads[j]?.map phase := by
  have key : ∀ {a b : Pc V}, s.threads[i]? = some a → Proto (phase a) e (phase b) → (s.threads.set i b).length = s.threads.length ∧
      (∃ a' b', s.threads[i]? = some a' ∧ (s.threads.set i b)[i]? = some b' ∧ Proto (phase a') e (phase b')) ∧ ∀ j, j ≠ i → (s.threads.set i b)[j]?.map phase = s.threads[j]?.map phase := by
    intro a b ha hp
    refine ⟨List.length_set, ⟨a, b, ha, set_get ha, hp⟩, fun j hj => ?_⟩
    rw [List.getElem?_set, if_neg (fun e => hj e.symm)]
  cases hs with
  | call hi =>
    refine key hi ?_
    rename_i op
    cases op <;> constructor
  | ret hi hr =>
    refine key hi ?_
    rename_i q v
    cases q <;> simp [result] at hr <;> subst hr <;> constructor
  | lock hi hr ho =>
    refine key hi ?_
    rename_i q q'
    cases q <;> simp [afterLock] at hr <;> subst hr <;> constructor
  | unlock hi hr ho =>
    refine key hi ?_
    rename_i q q'
    cases q <;> simp [afterUnlock] at hr <;> subst hr <;> constructor
  | wait hi hr ho =>
    refine key hi ?_
    rename_i q q'
    cases q <;> simp [afterWait] at hr <;> subst hr <;> constructor
  | wakeup hi hr =>
    refine key hi ?_
    rename_i q q'
    cases q <;> simp [afterWake] at hr <;> subst hr <;> constructor
  | body hi hr ho =>
    refine key hi ?_
    rename_i q q' p
    cases q <;> simp only [body, Option.some.injEq, reduceCtorEq] at hr <;> (try split at hr) <;> (try (simp at hr; done)) <;> obtain ⟨rfl, rfl, rfl⟩ := Done.next.inj hr <;> constructor
  | panic hi hb ho => exact ⟨rfl, ⟨_, _, hi, hi, .die⟩, fun _ _ => rfl⟩
  | race hi hn ho => exact ⟨rfl, ⟨_, _, hi, hi, .die⟩, fun _ _ => rfl⟩
  | signal hi hq hj hf hr =>
    rename_i q q' r r' f j
    have hne : i ≠ j := by
      intro e
      subst e
      rw [hi] at hj
      have := Option.some.inj hj
      subst this
      cases q <;> simp [signal, afterWake] at hq hr
    have hi' : (s.threads.set j r')[i]? = some q := by rw [List.getElem?_set, if_neg (fun e => hne e.symm), hi]
    refine ⟨by simp, ⟨q, q', hi, set_get hi', ?_⟩, fun k hk => ?_⟩
    · cases q <;> simp [signal] at hq <;> obtain ⟨_, rfl⟩ := hq <;> constructor
    · show ((s.threads.set j r').set i q')[k]?.map phase = _
      rw [List.getElem?_set, if_neg (fun e => hk e.symm)]
      by_cases e : j = k
      · subst e
        rw [set_get hj, hj]
        cases r <;> simp [afterWake] at hr <;> subst hr <;> rfl
      · rw [List.getElem?_set, if_neg e]
  | signalNone hi hq hn =>
    refine key hi ?_
    rename_i q q' f
    cases q <;> simp [signal] at hq <;> obtain ⟨_, rfl⟩ := hq <;> constructor
  | wakeAll hi =>
    have hi' : (s.threads.map wakeAll)[i]? = some .cWake := by rw [List.getElem?_map, hi]; rfl
    refine ⟨by simp, ⟨_, _, hi, set_get hi', .tau⟩, fun k hk => ?_⟩
    show ((s.threads.map wakeAll).set i _)[k]?.map phase = _
    rw [List.getElem?_set, if_neg (fun e => hk e.symm), List.getElem?_map]
    cases s.threads[k]? with
    | none => rfl
    | some a => cases a <;> rfl

theorem of_snoc (i j : Nat) (es : List (Nat × Event V)) (e : Event V) : of i (es ++ [(j, e)]) = if j = i then of i es ++ [e] else of i es := by
  unfold of
  rw [List.filter_append, List.map_append]
  by_cases h : j = i
  · rw [if_pos h]
    simp [h]
  · rw [if_neg h]
    simp [h]

theorem run_phase {s s' : State V} {es : List (Nat × Event V)} (hr : Run s es s') : s'.threads.length = s.threads.length ∧
    ∀ i a b, s.threads[i]? = some a → s'.threads[i]? = some b → Protos (phase a) (of i es) (phase b) := by
  induction hr with
  | nil =>
    refine ⟨rfl, fun i a b ha hb => ?_⟩
    rw [ha] at hb
    have := Option.some.inj hb
    subst this
    exact .nil
  | snoc _ hs ih =>
    rename_i t u es j e _
    obtain ⟨l1, ih⟩ := ih
    obtain ⟨l2, ⟨a', b', h1, h2, h3⟩, h4⟩ := step_phase hs.2
    refine ⟨by rw [l2, l1], fun i a b ha hb => ?_⟩
    rw [of_snoc]
    by_cases h : j = i
    · subst h
      rw [if_pos rfl]
      rw [h2] at hb
      have := Option.some.inj hb
      subst this
      exact .snoc (ih _ a a' ha h1) h3
    · rw [if_neg h]
      have := h4 i (fun e => h e.symm)
      rw [hb] at this
      cases hc : t.threads[i]? with
      | none => rw [hc] at this; simp at this
      | some c =>
        rw [hc] at this
        have e := Option.some.inj this
        rw [e]
        exact ih i a c ha hc
end Che.Lib.Threads
