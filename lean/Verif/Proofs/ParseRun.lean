import Verif.Model.Parser
/-!
# Running the parser: progress, budgets and crashes

One judgement `J` compares a parser call with two budgets on the same tokens.  It
collects what all parser functions have in common: the tokens left over are the
end of the given ones, a large enough budget gives the answer any budget gives, and a crash has a reason.
-/
namespace Che

/-- `ts` is what is left of `ts0` after at least `k` tokens. -/
def Left (ts0 : List Token) (k : Nat) (ts : List Token) : Prop :=
  ∃ c, ts0 = c ++ ts ∧ k ≤ c.length

theorem Left.refl (ts : List Token) : Left ts 0 ts := ⟨[], rfl, by simp⟩

theorem Left.trans {ts0 k ts k' ts'} (h : Left ts0 k ts) (h' : Left ts k' ts') :
    Left ts0 (k + k') ts' := by
  obtain ⟨c, rfl, hk⟩ := h
  obtain ⟨c', rfl, hk'⟩ := h'
  exact ⟨c ++ c', by simp, by simp only [List.length_append]; omega⟩

theorem Left.weaken {ts0 k ts k'} (h : Left ts0 k ts) (hk : k' ≤ k) : Left ts0 k' ts := by
  obtain ⟨c, rfl, h1⟩ := h
  exact ⟨c, rfl, by omega⟩

theorem Left.length {ts0 k ts} (h : Left ts0 k ts) : ts.length + k ≤ ts0.length := by
  obtain ⟨c, rfl, h1⟩ := h
  simp only [List.length_append]; omega

theorem Left.mem {ts0 k ts} (h : Left ts0 k ts) {t : Token} (ht : t ∈ ts) : t ∈ ts0 := by
  obtain ⟨c, rfl, _⟩ := h
  simp [ht]

theorem Left.cons {ts0 k t ts} (h : Left ts0 k (t :: ts)) : Left ts0 (k + 1) ts :=
  h.trans ⟨[t], rfl, by simp⟩

/-- The crash sites that need the tokens to run out. -/
def endSites : List String :=
  ["parser.rs:146", "parser.rs:165", "parser.rs:215", "parser.rs:229", "parser.rs:245",
   "parser.rs:290", "parser.rs:297", "parser.rs:402", "parser.rs:560", "parser.rs:584",
   "parser.rs:621", "parser.rs:625", "parser.rs:639", "parser.rs:734", "parser.rs:737",
   "parser.rs:745", "parser.rs:772", "parser.rs:791", "parser.rs:810", "parser.rs:880",
   "parser.rs:1050", "parser.rs:1199"]

/-- Why the parser can crash on these tokens. -/
inductive Bad (ts : List Token) : String → Prop
  /-- The tokens ran out. -/
  | ended {m} : m ∈ endSites → Bad ts m
  /-- `~`, `++` or `--` where a binary operator could stand. -/
  | operator {t} : t ∈ ts → t.kind = "~" ∨ t.kind = "++" ∨ t.kind = "--" → Bad ts "parser.rs:469"
  /-- A long text cut inside of a character for an error message. -/
  | cut {t} : t ∈ ts → tokenToString t = none → Bad ts "parser.rs:1229"
  /-- The array size in a typedef is not a plain decimal number. -/
  | size {t} : t ∈ ts → t.kind = "num" → parseUsize t.content = none → Bad ts "parser.rs:1181"
  /-- A macro that does not begin with a one-byte character. -/
  | define {t a b} : t ∈ ts → t.kind = "macro" → splitAtSpace t.content.toList = some (a, b) →
      dropBytes 1 a = none → Bad ts "parser.rs:138"

theorem Bad.mono {ts ts' : List Token} (hs : ∀ t ∈ ts, t ∈ ts') {m : String} (h : Bad ts m) :
    Bad ts' m := by
  cases h with
  | ended h => exact .ended h
  | operator h h' => exact .operator (hs _ h) h'
  | cut h h' => exact .cut (hs _ h) h'
  | size h h' h'' => exact .size (hs _ h) h' h''
  | define h h1 h2 h3 => exact .define (hs _ h) h1 h2 h3

/-- The tokens left over by a result. -/
def Rest (ts0 : List Token) (K : Nat) {α : Type} : PR α → Prop
  | .ok _ ts => Left ts0 K ts
  | .err _ ts => Left ts0 0 ts
  | .panic _ => True
  | .diverge => True

/-- `r` is the result with some budget, `s` the result with a large enough one. -/
structure J (ts0 : List Token) (K : Nat) (T : Prop) {α : Type} (r s : PR α) : Prop where
  left : Rest ts0 K r
  right : Rest ts0 K s
  stable : r ≠ .diverge → s = r
  stops : T → s ≠ .diverge
  reason : ∀ m, s = .panic m → Bad ts0 m

variable {α β : Type} {ts0 ts : List Token} {k K K1 : Nat} {T T1 : Prop}

theorem P.bind_eq (m : P α) (f : α → P β) (ts : List Token) : (m >>= f) ts =
    match m ts with
    | .ok a ts' => f a ts'
    | .err e ts' => .err e ts'
    | .panic s => .panic s
    | .diverge => .diverge := rfl

theorem J.bind {m1 m2 : P α} {f1 f2 : α → P β} (hat : Left ts0 k ts)
    (h1 : J ts K1 T1 (m1 ts) (m2 ts)) (hT : T → T1)
    (h2 : ∀ a ts', Left ts0 (k + K1) ts' → J ts0 K T (f1 a ts') (f2 a ts')) :
    J ts0 K T ((m1 >>= f1) ts) ((m2 >>= f2) ts) := by
  obtain ⟨hl, hr, hs, ht, hp⟩ := h1
  rw [P.bind_eq, P.bind_eq]
  have cont : ∀ (r : PR α), Rest ts K1 r → r ≠ .diverge →
      (∀ m, r = .panic m → Bad ts m) →
      J ts0 K T
        (match r with
          | .ok a ts' => f1 a ts'
          | .err e ts' => .err e ts'
          | .panic s => .panic s
          | .diverge => .diverge)
        (match r with
          | .ok a ts' => f2 a ts'
          | .err e ts' => .err e ts'
          | .panic s => .panic s
          | .diverge => .diverge) := by
    intro r hr hne hp
    cases r with
    | ok a ts' => exact h2 a ts' (hat.trans hr)
    | err e ts' =>
      have : Left ts0 0 ts' := (hat.trans hr).weaken (by omega)
      exact ⟨this, this, fun _ => rfl, fun _ => by simp, fun m h => by cases h⟩
    | panic s =>
      exact ⟨trivial, trivial, fun _ => rfl, fun _ => by simp,
        fun m h => by cases h; exact (hp _ rfl).mono fun t ht => hat.mem ht⟩
    | diverge => exact absurd rfl hne
  by_cases hd : m1 ts = .diverge
  · rw [hd]
    by_cases hd2 : m2 ts = .diverge
    · rw [hd2]
      exact ⟨trivial, trivial, fun h => absurd rfl h, fun hT' => absurd hd2 (ht (hT hT')),
        fun m h => by cases h⟩
    · have := cont (m2 ts) hr hd2 hp
      exact ⟨trivial, this.right, fun h => absurd rfl h, this.stops, this.reason⟩
  · have e := hs hd
    have := cont (m1 ts) hl hd (e ▸ hp)
    rw [e]; exact this

/-- A call that does not use a budget. -/
theorem J.same {r : PR α} (h : Rest ts0 K r) (hd : r ≠ .diverge)
    (hp : ∀ m, r = .panic m → Bad ts0 m) : J ts0 K T r r :=
  ⟨h, h, fun _ => rfl, fun _ => hd, hp⟩

theorem J.pure {a : α} (hat : Left ts0 k ts) (hk : K ≤ k) :
    J ts0 K T ((pure a : P α) ts) ((pure a : P α) ts) :=
  .same (hat.weaken hk) (by intro h; cases h) (by intro m h; cases h)

theorem J.err {msg : String} {pos : Pos} (hat : Left ts0 k ts) :
    J ts0 K T ((P.err msg pos : P α) ts) ((P.err msg pos : P α) ts) :=
  .same (hat.weaken (by omega)) (by intro h; cases h) (by intro m h; cases h)

theorem J.panic {m : String} (h : Bad ts0 m) :
    J ts0 K T ((P.panic m : P α) ts) ((P.panic m : P α) ts) :=
  .same trivial (by intro h; cases h) (by intro m h'; cases h'; exact h)

/-- No budget on the left. -/
theorem J.start {s : PR α} (h : Rest ts0 K s) (ht : T → s ≠ .diverge)
    (hp : ∀ m, s = .panic m → Bad ts0 m) : J ts0 K T .diverge s :=
  ⟨trivial, h, fun h => absurd rfl h, ht, hp⟩

theorem J.weaken {r s : PR α} {K' : Nat} {T' : Prop} (h : J ts0 K T r s)
    (hk : K' ≤ K) (hT : T' → T) : J ts0 K' T' r s := by
  obtain ⟨hl, hr, hs, ht, hp⟩ := h
  have key : ∀ {r : PR α}, Rest ts0 K r → Rest ts0 K' r := by
    intro r h
    cases r with
    | ok a ts => exact Left.weaken h hk
    | err e ts => exact h
    | _ => trivial
  exact ⟨key hl, key hr, hs, fun h => ht (hT h), hp⟩

/-- The rest of a call, after some tokens. -/
theorem J.tail {r s : PR α} (hat : Left ts0 k ts) (h : J ts K1 T1 r s) (hk : K ≤ k + K1)
    (hT : T → T1) : J ts0 K T r s := by
  obtain ⟨hl, hr, hs, ht, hp⟩ := h
  have key : ∀ {r : PR α}, Rest ts K1 r → Rest ts0 K r := by
    intro r h
    cases r with
    | ok a ts => exact (hat.trans h).weaken hk
    | err e ts => exact (hat.trans h).weaken (by omega)
    | _ => trivial
  exact ⟨key hl, key hr, hs, fun h => ht (hT h), fun m h => (hp m h).mono fun t => hat.mem⟩

/-! ## Primitive calls -/

theorem J.bind_peek {f1 f2 : Option Token → P β}
    (h : J ts0 K T (f1 ts.head? ts) (f2 ts.head? ts)) :
    J ts0 K T ((P.peek >>= f1) ts) ((P.peek >>= f2) ts) := h

theorem J.bind_more {f1 f2 : Bool → P β} (h : J ts0 K T (f1 (!ts.isEmpty) ts) (f2 (!ts.isEmpty) ts)) :
    J ts0 K T ((P.more >>= f1) ts) ((P.more >>= f2) ts) := h

theorem J.bind_get {t : Token} {f1 f2 : Option Token → P β}
    (h : J ts0 K T (f1 (some t) ts) (f2 (some t) ts)) :
    J ts0 K T ((P.get >>= f1) (t :: ts)) ((P.get >>= f2) (t :: ts)) := h

theorem J.bind_getU {t : Token} {msg : String} {f1 f2 : Token → P β}
    (h : J ts0 K T (f1 t ts) (f2 t ts)) :
    J ts0 K T ((P.getU msg >>= f1) (t :: ts)) ((P.getU msg >>= f2) (t :: ts)) := h

theorem J.bind_unget {t : Token} {f1 f2 : Unit → P β}
    (h : J ts0 K T (f1 () (t :: ts)) (f2 () (t :: ts))) :
    J ts0 K T ((P.unget t >>= f1) ts) ((P.unget t >>= f2) ts) := h

theorem J.bind_peekU {msg : String} {f1 f2 : Token → P β} (hm : msg ∈ endSites)
    (h : ∀ t rest, ts = t :: rest → J ts0 K T (f1 t (t :: rest)) (f2 t (t :: rest))) :
    J ts0 K T ((P.peekU msg >>= f1) ts) ((P.peekU msg >>= f2) ts) := by
  cases ts with
  | nil => exact J.panic (α := β) (ts := []) (.ended hm)
  | cons t rest => exact h t rest rfl

/-- `get().unwrap()` where the tokens may have run out. -/
theorem J.bind_getU' {msg : String} {f1 f2 : Token → P β} (hm : msg ∈ endSites)
    (h : ∀ t rest, ts = t :: rest → J ts0 K T (f1 t rest) (f2 t rest)) :
    J ts0 K T ((P.getU msg >>= f1) ts) ((P.getU msg >>= f2) ts) := by
  cases ts with
  | nil => exact J.panic (α := β) (ts := []) (.ended hm)
  | cons t rest => exact h t rest rfl

theorem J.bind_follows {kind : String} {f1 f2 : Bool → P β}
    (hf : J ts0 K T (f1 false ts) (f2 false ts))
    (ht : ∀ t rest, ts = t :: rest → t.kind = kind →
      J ts0 K T (f1 true (t :: rest)) (f2 true (t :: rest))) :
    J ts0 K T ((P.follows kind >>= f1) ts) ((P.follows kind >>= f2) ts) := by
  cases ts with
  | nil => exact hf
  | cons t rest =>
    by_cases hk : t.kind = kind
    · have := ht t rest rfl hk
      simpa [P.bind_eq, P.follows, hk] using this
    · have hb : (t.kind == kind) = false := by simpa using hk
      simpa [P.bind_eq, P.follows, hb] using hf

theorem J.bind_eat {kind : String} {f1 f2 : Bool → P β} (hat : Left ts0 k ts) 
    (hf : J ts0 K T (f1 false ts) (f2 false ts))
    (ht : ∀ ts', Left ts0 (k + 1) ts' → J ts0 K T (f1 true ts') (f2 true ts')) :
    J ts0 K T ((P.eat kind >>= f1) ts) ((P.eat kind >>= f2) ts) := by
  cases ts with
  | nil => exact hf
  | cons t rest =>
    by_cases hkd : t.kind = kind
    · have := ht rest hat.cons
      simpa [P.bind_eq, P.eat, hkd] using this
    · have hb : (t.kind == kind) = false := by simpa using hkd
      simpa [P.bind_eq, P.eat, hb] using hf

theorem J.bind_expect {ctx : ParseCtx} {kind : String} {c : Option String} {f1 f2 : Token → P β}
    (hat : Left ts0 k ts)
    (h : ∀ t ts', Left ts0 (k + 1) ts' → t.kind = kind → t ∈ ts →
      J ts0 K T (f1 t ts') (f2 t ts')) :
    J ts0 K T ((expect ctx kind c >>= f1) ts) ((expect ctx kind c >>= f2) ts) := by
  cases ts with
  | nil =>
    exact .same (hat.weaken (by omega) : Left ts0 0 []) (by intro h; cases h)
      (by intro m h; cases h)
  | cons t rest =>
    by_cases hk : t.kind = kind
    · have hl : Left ts0 (k + 1) rest :=
        hat.trans ⟨[t], rfl, by simp⟩
      have := h t rest hl hk (by simp)
      simpa [P.bind_eq, expect, hk] using this
    · cases hs : tokenToString t with
      | none =>
        have : Bad ts0 "parser.rs:1229" := .cut (hat.mem (by simp)) hs
        simpa [P.bind_eq, expect, hk, hs, P.panic] using
          (J.panic (α := β) (ts := []) (K := K) (T := T) this)
      | some s =>
        have hl : Left ts0 0 (t :: rest) := hat.weaken (by omega)
        have : J ts0 K T
            (.err ⟨withComment c ("expected '" ++ kind ++ "', got '" ++ s ++ "'"), t.pos⟩ (t :: rest) : PR β)
            (.err ⟨withComment c ("expected '" ++ kind ++ "', got '" ++ s ++ "'"), t.pos⟩ (t :: rest)) :=
          .same hl (by intro h; cases h) (by intro m h; cases h)
        simpa [P.bind_eq, expect, hk, hs] using this

end Che
