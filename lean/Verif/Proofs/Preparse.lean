import Verif.Model.Preparser
import Verif.Proofs.Stream
import Verif.Spec.Heads
/-!
# The pre-parser over the token sequence
-/
namespace Che
open Spec

/-- The tokens `ts` stand between the places `k` and `j` of the sequence. -/
inductive Seg (S : Nat → Item) : Nat → List Token → Nat → Prop
  | nil {k} : Seg S k [] k
  | cons {k t ts j} : S k = .tok t → Seg S (k + 1) ts j → Seg S k (t :: ts) j

theorem Seg.append {S k a j b i} (h : Seg S k a j) (h' : Seg S j b i) : Seg S k (a ++ b) i := by
  induction h with
  | nil => exact h'
  | cons e _ ih => exact .cons e (ih h')

theorem Seg.split {S k i} {a b : List Token} (h : Seg S k (a ++ b) i) :
    ∃ j, Seg S k a j ∧ Seg S j b i := by
  induction a generalizing k with
  | nil => exact ⟨k, .nil, h⟩
  | cons t a ih =>
    cases h with
    | cons e h =>
      obtain ⟨j, h1, h2⟩ := ih h
      exact ⟨j, .cons e h1, h2⟩

theorem Seg.one {S k t} (h : S k = .tok t) : Seg S k [t] (k + 1) := .cons h .nil

theorem Seg.end_ {S k ts j} (h : Seg S k ts j) : j = k + ts.length := by
  induction h with
  | nil => rfl
  | cons _ _ ih => simp only [List.length_cons]; omega

theorem Seg.get {S k ts j} (h : Seg S k ts j) (i : Nat) (hi : i < ts.length) :
    S (k + i) = .tok ts[i] := by
  induction h generalizing i with
  | nil => simp at hi
  | cons e _ ih =>
    cases i with
    | zero => exact e
    | succ i => rw [show ∀ k, k + (i + 1) = k + 1 + i by omega]; exact ih i (by simpa using hi)

variable [Unicode] {S : Nat → Item} {k : Nat} {l : Lexer}

/-! ## Calls -/

theorem lift_get_ok {t : Option Token} {l' : Lexer} (h : At S k l)
    (e : l.get = .ok t l') :
    match t with
    | some t => S k = .tok t ∧ At S (k + 1) l'
    | none => S k = .eof ∧ At S k l' := by
  have hg := get_at h
  cases hs : S k with
  | tok u =>
    simp only [hs] at hg
    obtain ⟨l1, e1, h1⟩ := hg
    rw [e] at e1; cases e1
    exact ⟨rfl, h1⟩
  | eof =>
    simp only [hs] at hg
    obtain ⟨l1, e1, h1⟩ := hg
    rw [e] at e1; cases e1
    exact ⟨rfl, h1⟩
  | abort m => simp only [hs] at hg; rw [e] at hg; cases hg

theorem lift_more_ok {b : Bool} {l' : Lexer} (h : At S k l) (e : l.more = .ok b l') :
    At S k l' ∧ (b = true → ∃ t, S k = .tok t) ∧ (b = false → S k = .eof) := by
  have hg := more_at h
  cases hs : S k with
  | tok u =>
    simp only [hs] at hg
    obtain ⟨l1, e1, h1⟩ := hg
    rw [e] at e1; cases e1
    exact ⟨h1, fun _ => ⟨u, rfl⟩, by simp⟩
  | eof =>
    simp only [hs] at hg
    obtain ⟨l1, e1, h1⟩ := hg
    rw [e] at e1; cases e1
    exact ⟨h1, by simp, fun _ => rfl⟩
  | abort m => simp only [hs] at hg; rw [e] at hg; cases hg

theorem lift_follows_ok {b : Bool} {kind : String} {l' : Lexer} (h : At S k l)
    (e : l.follows kind = .ok b l') :
    At S k l' ∧ (b = true → ∃ t, S k = .tok t ∧ t.kind = kind) ∧
      (b = false → ∀ t, S k = .tok t → t.kind ≠ kind) := by
  have hg := follows_at h kind
  cases hs : S k with
  | tok u =>
    simp only [hs] at hg
    obtain ⟨l1, e1, h1⟩ := hg
    rw [e] at e1; cases e1
    refine ⟨h1, fun hb => ⟨u, rfl, by simpa using hb⟩, fun hb t ht => ?_⟩
    cases ht
    simpa using hb
  | eof =>
    simp only [hs] at hg
    obtain ⟨l1, e1, h1⟩ := hg
    rw [e] at e1; cases e1
    exact ⟨h1, by simp, by simp⟩
  | abort m => simp only [hs] at hg; rw [e] at hg; cases hg

theorem Pre.bind_ok {α β} {m : Pre α} {f : α → Pre β} {l : Lexer} {r : β × Lexer}
    (h : (m >>= f) l = .ok r) : ∃ a l', m l = .ok (a, l') ∧ f a l' = .ok r := by
  change (match m l with
    | .ok (a, l') => f a l'
    | .err e => .err e
    | .panic s => .panic s
    | .diverge => .diverge) = _ at h
  cases hm : m l with
  | ok x => rw [hm] at h; exact ⟨x.1, x.2, rfl, h⟩
  | _ => rw [hm] at h; cases h

theorem Pre.bind_of_ok {α β} {m : Pre α} {f : α → Pre β} {l l' : Lexer} {a : α}
    (h : m l = .ok (a, l')) : (m >>= f) l = f a l' := by
  change (match m l with
    | .ok (a, l') => f a l'
    | .err e => .err e
    | .panic s => .panic s
    | .diverge => .diverge) = _
  rw [h]

theorem Pre.bind_of_diverge {α β} {m : Pre α} {f : α → Pre β} {l : Lexer}
    (h : m l = .diverge) : (m >>= f) l = .diverge := by
  change (match m l with
    | .ok (a, l') => f a l'
    | .err e => .err e
    | .panic s => .panic s
    | .diverge => .diverge) = _
  rw [h]

theorem Pre.lift_ok {α} {f : Lexer → Lexer.Out α} {l l' : Lexer} {a : α}
    (h : Pre.lift f l = .ok (a, l')) : f l = .ok a l' := by
  unfold Pre.lift at h
  cases hf : f l with
  | ok x l1 => rw [hf] at h; cases h; rfl
  | _ => rw [hf] at h; cases h

theorem Pre.lift_of_ok {α} {f : Lexer → Lexer.Out α} {l l' : Lexer} {a : α}
    (h : f l = .ok a l') : Pre.lift f l = .ok (a, l') := by
  unfold Pre.lift; rw [h]

theorem preExpect_ok {kind : String} {t : Token} {l' : Lexer} (h : At S k l)
    (e : preExpect kind l = .ok (t, l')) :
    S k = .tok t ∧ t.kind = kind ∧ At S (k + 1) l' := by
  unfold preExpect at e
  obtain ⟨b, l1, e1, e⟩ := Pre.bind_ok e
  obtain ⟨h1, hb, _⟩ := lift_more_ok h (Pre.lift_ok e1)
  cases b with
  | false => cases e
  | true =>
    obtain ⟨o, l2, e2, e⟩ := Pre.bind_ok e
    have e2 := Pre.lift_ok e2
    have hp := peek_at h1
    obtain ⟨u, hu⟩ := hb rfl
    simp only [hu] at hp
    obtain ⟨l3, e3, h3⟩ := hp
    rw [e3] at e2; cases e2
    simp only at e
    split at e
    · cases e
    · next hk =>
      obtain ⟨o, l4, e4, e⟩ := Pre.bind_ok e
      have := lift_get_ok h3 (Pre.lift_ok e4)
      cases o with
      | none => cases e
      | some v =>
        obtain ⟨hv, h4⟩ := this
        rw [hu] at hv; cases hv
        cases e
        exact ⟨hu, by simpa using hk, h4⟩

theorem preExpect_of {kind : String} {t : Token} (h : At S k l) (ht : S k = .tok t)
    (hk : t.kind = kind) : ∃ l', preExpect kind l = .ok (t, l') ∧ At S (k + 1) l' := by
  unfold preExpect
  have hm := more_at h
  simp only [ht] at hm
  obtain ⟨l1, e1, h1⟩ := hm
  have hp := peek_at h1
  simp only [ht] at hp
  obtain ⟨l2, e2, h2⟩ := hp
  have hg := get_at h2
  simp only [ht] at hg
  obtain ⟨l3, e3, h3⟩ := hg
  refine ⟨l3, ?_, h3⟩
  rw [Pre.bind_of_ok (Pre.lift_of_ok e1)]
  simp only [Bool.not_true, Bool.false_eq_true, if_false]
  rw [Pre.bind_of_ok (Pre.lift_of_ok e2)]
  simp only [hk, ne_eq, not_true_eq_false, if_false]
  rw [Pre.bind_of_ok (Pre.lift_of_ok e3)]
  rfl

theorem preUnwrap_ok {α} {m : Pre α} {msg : String} {r : α × Lexer} :
    preUnwrap m msg l = .ok r ↔ m l = .ok r := by
  unfold preUnwrap
  cases m l <;> simp

/-! ## Braces -/

mutual
theorem skipBrackets_ok : ∀ (n : Nat) {k : Nat} {l l' : Lexer} {u : Unit}, At S k l →
    skipBrackets n l = .ok (u, l') →
    ∃ o a c j, Seg S k (o :: a ++ [c]) j ∧ o.kind = "{" ∧ c.kind = "}" ∧ Braced a ∧ At S j l'
  | 0, _, _, _, _, _, e => by cases e
  | n + 1, k, l, l', u, h, e => by
    rw [skipBrackets] at e
    obtain ⟨o, l1, e1, e⟩ := Pre.bind_ok e
    obtain ⟨ho, hok, h1⟩ := preExpect_ok h (preUnwrap_ok.1 e1)
    obtain ⟨_, l2, e2, e⟩ := Pre.bind_ok e
    obtain ⟨a, j, hs, ha, h2⟩ := skipBracketsLoop_ok n h1 e2
    obtain ⟨c, l3, e3, e⟩ := Pre.bind_ok e
    obtain ⟨hc, hck, h3⟩ := preExpect_ok h2 (preUnwrap_ok.1 e3)
    cases e
    exact ⟨o, a, c, j + 1, .cons ho (hs.append (.one hc)), hok, hck, ha, h3⟩
theorem skipBracketsLoop_ok : ∀ (n : Nat) {k : Nat} {l l' : Lexer} {u : Unit}, At S k l →
    skipBracketsLoop n l = .ok (u, l') → ∃ a j, Seg S k a j ∧ Braced a ∧ At S j l'
  | 0, _, _, _, _, _, e => by cases e
  | n + 1, k, l, l', u, h, e => by
    rw [skipBracketsLoop] at e
    obtain ⟨b, l1, e1, e⟩ := Pre.bind_ok e
    obtain ⟨h1, hb, _⟩ := lift_more_ok h (Pre.lift_ok e1)
    cases b with
    | false => cases e; exact ⟨[], k, .nil, .nil, h1⟩
    | true =>
      simp only [if_true] at e
      obtain ⟨b, l2, e2, e⟩ := Pre.bind_ok e
      obtain ⟨h2, hb2, hb2'⟩ := lift_follows_ok h1 (Pre.lift_ok e2)
      cases b with
      | true =>
        simp only [if_true] at e
        obtain ⟨_, l3, e3, e⟩ := Pre.bind_ok e
        obtain ⟨o, a, c, j, hs, ho, hc, ha, h3⟩ := skipBrackets_ok n h2 e3
        obtain ⟨b, i, hs', hb', h4⟩ := skipBracketsLoop_ok n h3 e
        refine ⟨o :: a ++ [c] ++ b, i, hs.append hs', ?_, h4⟩
        have := Braced.group ho ha hc hb'
        simpa using this
      | false =>
        simp only [Bool.false_eq_true, if_false] at e
        obtain ⟨b, l3, e3, e⟩ := Pre.bind_ok e
        obtain ⟨h3, _, hb3⟩ := lift_follows_ok h2 (Pre.lift_ok e3)
        cases b with
        | true => cases e; exact ⟨[], k, .nil, .nil, h3⟩
        | false =>
          simp only [Bool.false_eq_true, if_false] at e
          obtain ⟨o, l4, e4, e⟩ := Pre.bind_ok e
          have h4 := lift_get_ok h3 (Pre.lift_ok e4)
          obtain ⟨t, ht⟩ := hb rfl
          cases o with
          | none => rw [ht] at h4; cases h4.1
          | some t' =>
            obtain ⟨ht', h4⟩ := h4
            obtain ⟨a, j, hs, ha, h5⟩ := skipBracketsLoop_ok n h4 e
            exact ⟨t' :: a, j, .cons ht' hs, .token (hb2' rfl _ ht') (hb3 rfl _ ht') ha, h5⟩
end

theorem more_true (h : At S k l) {t : Token} (ht : S k = .tok t) :
    ∃ l', Pre.lift Lexer.more l = .ok (true, l') ∧ At S k l' := by
  have hm := more_at h
  simp only [ht] at hm
  obtain ⟨l1, e1, h1⟩ := hm
  exact ⟨l1, Pre.lift_of_ok e1, h1⟩

theorem follows_tok (h : At S k l) {t : Token} (ht : S k = .tok t) (kind : String) :
    ∃ l', Pre.lift (Lexer.follows · kind) l = .ok (t.kind == kind, l') ∧ At S k l' := by
  have hm := follows_at h kind
  simp only [ht] at hm
  obtain ⟨l1, e1, h1⟩ := hm
  exact ⟨l1, Pre.lift_of_ok e1, h1⟩

theorem get_tok (h : At S k l) {t : Token} (ht : S k = .tok t) :
    ∃ l', l.get = .ok (some t) l' ∧ At S (k + 1) l' := by
  have hm := get_at h
  simpa only [ht] using hm

/-- Matched braces are skipped, up to the closing brace that ends them. -/
theorem skipBracketsLoop_of {a : List Token} (ha : Braced a) : ∀ (n : Nat) {k j : Nat} {l : Lexer}
    {z : Token}, At S k l → Seg S k a j → S j = .tok z → z.kind = "}" → a.length < n →
    ∃ l', skipBracketsLoop n l = .ok ((), l') ∧ At S j l' := by
  induction ha with
  | nil =>
    intro n k j l z h hs hz hk hn
    cases hs
    cases n with
    | zero => omega
    | succ n =>
      rw [skipBracketsLoop]
      obtain ⟨l1, e1, h1⟩ := more_true h hz
      obtain ⟨l2, e2, h2⟩ := follows_tok h1 hz "{"
      obtain ⟨l3, e3, h3⟩ := follows_tok h2 hz "}"
      refine ⟨l3, ?_, h3⟩
      rw [Pre.bind_of_ok e1, if_pos rfl, Pre.bind_of_ok e2, if_neg (by simp [hk]),
        Pre.bind_of_ok e3, if_pos (by simp [hk])]
      rfl
  | @token t ts h1 h2 _ ih =>
    intro n k j l z h hs hz hk hn
    cases hs with
    | cons ht hs =>
      cases n with
      | zero => omega
      | succ n =>
        rw [skipBracketsLoop]
        obtain ⟨l1, e1, g1⟩ := more_true h ht
        obtain ⟨l2, e2, g2⟩ := follows_tok g1 ht "{"
        obtain ⟨l3, e3, g3⟩ := follows_tok g2 ht "}"
        obtain ⟨l4, e4, g4⟩ := get_tok g3 ht
        obtain ⟨l5, e5, g5⟩ := ih n g4 hs hz hk (by simpa using hn)
        refine ⟨l5, ?_, g5⟩
        rw [Pre.bind_of_ok e1, if_pos rfl, Pre.bind_of_ok e2, if_neg (by simpa using h1),
          Pre.bind_of_ok e3, if_neg (by simpa using h2), Pre.bind_of_ok (Pre.lift_of_ok e4), e5]
  | @group o a c b ho _ hc _ iha ihb =>
    intro n k j l z h hs hz hk hn
    obtain ⟨i, hs1, hs2⟩ := hs.split
    cases hs1 with
    | cons ht hs1 =>
      cases hs2 with
      | cons ht2 hs2 =>
        cases n with
        | zero => omega
        | succ n =>
          simp only [List.length_append, List.length_cons] at hn
          obtain ⟨m, rfl⟩ : ∃ m, n = m + 1 := ⟨n - 1, by omega⟩
          rw [skipBracketsLoop]
          obtain ⟨l1, e1, g1⟩ := more_true h ht
          obtain ⟨l2, e2, g2⟩ := follows_tok g1 ht "{"
          obtain ⟨l3, e3, g3⟩ := preExpect_of g2 ht ho
          obtain ⟨l4, e4, g4⟩ := iha m g3 hs1 ht2 hc (by omega)
          obtain ⟨l5, e5, g5⟩ := preExpect_of g4 ht2 hc
          obtain ⟨l6, e6, g6⟩ := ihb (m + 1) g5 hs2 hz hk (by omega)
          refine ⟨l6, ?_, g6⟩
          have e7 : skipBrackets (m + 1) l2 = .ok ((), l5) := by
            rw [skipBrackets, Pre.bind_of_ok (preUnwrap_ok.2 e3), Pre.bind_of_ok e4,
              Pre.bind_of_ok (preUnwrap_ok.2 e5)]
            rfl
          rw [Pre.bind_of_ok e1, if_pos rfl, Pre.bind_of_ok e2, if_pos (by simpa using ho),
            Pre.bind_of_ok e7, e6]

/-! ## Up to the semicolon -/

theorem tokensToSemi_ok : ∀ (n : Nat) {k : Nat} {l l' : Lexer} {acc r : List Token}, At S k l →
    tokensToSemi n acc l = .ok (r, l') →
    (∃ a j, r = acc.reverse ++ a ∧ (∀ x ∈ a, x.kind ≠ ";") ∧ Seg S k a j ∧ At S j l' ∧
      S j = .eof) ∨ ∃ a s j, r = acc.reverse ++ a ∧ (∀ x ∈ a, x.kind ≠ ";") ∧ s.kind = ";" ∧
        Seg S k (a ++ [s]) j ∧ At S j l'
  | 0, _, _, _, _, _, _, e => by cases e
  | n + 1, k, l, l', acc, r, h, e => by
    rw [tokensToSemi] at e
    obtain ⟨b, l1, e1, e⟩ := Pre.bind_ok e
    obtain ⟨h1, hb, hb'⟩ := lift_more_ok h (Pre.lift_ok e1)
    cases b with
    | false => cases e; exact .inl ⟨[], k, by simp, by simp, .nil, h1, hb' rfl⟩
    | true =>
      simp only [if_true] at e
      obtain ⟨o, l2, e2, e⟩ := Pre.bind_ok e
      have h2 := lift_get_ok h1 (Pre.lift_ok e2)
      cases o with
      | none => cases e
      | some t =>
        obtain ⟨ht, h2⟩ := h2
        simp only at e
        split at e
        · next hk =>
          cases e
          exact .inr ⟨[], t, k + 1, by simp, by simp, hk, .one ht, h2⟩
        · next hk =>
          rcases tokensToSemi_ok n h2 e with ⟨a, j, hr, ha, hs, hat, he⟩ | ⟨a, s, j, hr, ha, hsk, hs, hat⟩
          · refine .inl ⟨t :: a, j, by simpa using hr, ?_, .cons ht hs, hat, he⟩
            intro x hx
            rcases List.mem_cons.1 hx with rfl | hx
            · exact hk
            · exact ha x hx
          · refine .inr ⟨t :: a, s, j, by simpa using hr, ?_, hsk, .cons ht hs, hat⟩
            intro x hx
            rcases List.mem_cons.1 hx with rfl | hx
            · exact hk
            · exact ha x hx

theorem tokensToSemi_semi {a : List Token} : ∀ (n : Nat) {k j : Nat} {l : Lexer} {acc : List Token}
    {s : Token}, At S k l → (∀ x ∈ a, x.kind ≠ ";") → s.kind = ";" → Seg S k (a ++ [s]) j →
    a.length < n → ∃ l', tokensToSemi n acc l = .ok (acc.reverse ++ a, l') ∧ At S j l' := by
  induction a with
  | nil =>
    intro n k j l acc s h _ hk hs hn
    cases n with
    | zero => omega
    | succ n =>
      cases hs with
      | cons ht hs =>
        cases hs
        obtain ⟨l1, e1, g1⟩ := more_true h ht
        obtain ⟨l2, e2, g2⟩ := get_tok g1 ht
        refine ⟨l2, ?_, g2⟩
        rw [tokensToSemi, Pre.bind_of_ok e1, if_pos rfl, Pre.bind_of_ok (Pre.lift_of_ok e2)]
        simp only [if_pos hk]
        simp [pure]
  | cons t a ih =>
    intro n k j l acc s h hne hk hs hn
    cases n with
    | zero => omega
    | succ n =>
      cases hs with
      | cons ht hs =>
        obtain ⟨l1, e1, g1⟩ := more_true h ht
        obtain ⟨l2, e2, g2⟩ := get_tok g1 ht
        obtain ⟨l3, e3, g3⟩ := ih n (acc := t :: acc) g2 (fun x hx => hne x (by simp [hx])) hk hs
          (by simpa using hn)
        refine ⟨l3, ?_, g3⟩
        rw [tokensToSemi, Pre.bind_of_ok e1, if_pos rfl, Pre.bind_of_ok (Pre.lift_of_ok e2)]
        simp only [if_neg (hne t (by simp)), e3]
        simp

theorem tokensToSemi_open {a : List Token} : ∀ (n : Nat) {k j : Nat} {l : Lexer} {acc : List Token},
    At S k l → (∀ x ∈ a, x.kind ≠ ";") → Seg S k a j → S j = .eof →
    a.length < n → ∃ l', tokensToSemi n acc l = .ok (acc.reverse ++ a, l') ∧ At S j l' := by
  induction a with
  | nil =>
    intro n k j l acc h _ hs he hn
    cases n with
    | zero => omega
    | succ n =>
      cases hs
      have hm := more_at h
      simp only [he] at hm
      obtain ⟨l1, e1, g1⟩ := hm
      refine ⟨l1, ?_, g1⟩
      rw [tokensToSemi, Pre.bind_of_ok (Pre.lift_of_ok e1)]
      simp [pure]
  | cons t a ih =>
    intro n k j l acc h hne hs he hn
    cases n with
    | zero => omega
    | succ n =>
      cases hs with
      | cons ht hs =>
        obtain ⟨l1, e1, g1⟩ := more_true h ht
        obtain ⟨l2, e2, g2⟩ := get_tok g1 ht
        obtain ⟨l3, e3, g3⟩ := ih n (acc := t :: acc) g2 (fun x hx => hne x (by simp [hx])) hs he
          (by simpa using hn)
        refine ⟨l3, ?_, g3⟩
        rw [tokensToSemi, Pre.bind_of_ok e1, if_pos rfl, Pre.bind_of_ok (Pre.lift_of_ok e2)]
        simp only [if_neg (hne t (by simp)), e3]
        simp

/-! ## The name in a typedef -/

omit [Unicode] in
theorem firstWord_iff {ts : List Token} {n : String} : firstWord ts = some n ↔
    ∃ a w b, ts = a ++ w :: b ∧ (∀ t ∈ a, t.kind ≠ "word") ∧ w.kind = "word" ∧ w.content = n := by
  induction ts with
  | nil => simp [firstWord]
  | cons t ts ih =>
    rw [firstWord]
    split
    · next hk =>
      constructor
      · intro h; cases h; exact ⟨[], t, ts, rfl, by simp, hk, rfl⟩
      · rintro ⟨a, w, b, e, ha, hw, rfl⟩
        cases a with
        | nil => cases e; rfl
        | cons x a => cases e; exact absurd hk (ha _ (by simp))
    · next hk =>
      rw [ih]
      constructor
      · rintro ⟨a, w, b, rfl, ha, hw, hn⟩
        refine ⟨t :: a, w, b, rfl, ?_, hw, hn⟩
        intro x hx
        rcases List.mem_cons.1 hx with rfl | hx
        · exact hk
        · exact ha x hx
      · rintro ⟨a, w, b, e, ha, hw, hn⟩
        cases a with
        | nil => cases e; exact absurd hw hk
        | cons x a => cases e; exact ⟨a, w, b, rfl, fun x hx => ha x (by simp [hx]), hw, hn⟩

omit [Unicode] in
theorem dropParens_split (ts : List Token) : (dropParens ts = [] ∧ ∀ t ∈ ts, t.kind ≠ "(") ∨
    ∃ a o, ts = a ++ o :: dropParens ts ∧ (∀ t ∈ a, t.kind ≠ "(") ∧ o.kind = "(" := by
  induction ts with
  | nil => exact .inl ⟨rfl, by simp⟩
  | cons t ts ih =>
    rw [dropParens]
    split
    · next hk => exact .inr ⟨[], t, rfl, by simp, hk⟩
    · next hk =>
      rcases ih with ⟨e, h⟩ | ⟨a, o, e, h, ho⟩
      · refine .inl ⟨e, fun x hx => ?_⟩
        rcases List.mem_cons.1 hx with rfl | hx
        · exact hk
        · exact h x hx
      · refine .inr ⟨t :: a, o, by rw [List.cons_append, ← e], ?_, ho⟩
        intro x hx
        rcases List.mem_cons.1 hx with rfl | hx
        · exact hk
        · exact h x hx

omit [Unicode] in
theorem dropParens_of {a b : List Token} {o : Token} (ha : ∀ t ∈ a, t.kind ≠ "(")
    (ho : o.kind = "(") : dropParens (a ++ o :: b) = b := by
  induction a with
  | nil => simp [dropParens, ho]
  | cons t a ih =>
    rw [List.cons_append, dropParens, if_neg (ha t (by simp)), ih (fun x hx => ha x (by simp [hx]))]

omit [Unicode] in
theorem nameOfTypedef_iff {buf : List Token} {n : String} :
    nameOfTypedef buf = .ok n ↔ DeclaredName buf n := by
  constructor
  · intro h
    unfold nameOfTypedef at h
    cases hb : buf.reverse with
    | nil => rw [hb] at h; cases h
    | cons z ts =>
      rw [hb] at h
      simp only at h
      have hbuf : buf = ts.reverse ++ [z] := by
        have := congrArg List.reverse hb
        simpa using this
      by_cases hz : z.kind = ")"
      · rw [if_pos hz] at h
        cases hf : firstWord (dropParens (z :: ts)) with
        | none => rw [hf] at h; cases h
        | some m =>
          rw [hf] at h; cases h
          obtain ⟨a, w, b, e, ha, hw, rfl⟩ := firstWord_iff.1 hf
          rcases dropParens_split (z :: ts) with ⟨e', _⟩ | ⟨c, o, e', hc, ho⟩
          · rw [e] at e'; simp at e'
          · rw [e] at e'
            cases c with
            | nil =>
              simp only [List.nil_append, List.cons.injEq] at e'
              rw [e'.1] at hz; rw [hz] at ho; exact absurd ho (by decide)
            | cons z' c =>
              simp only [List.cons_append, List.cons.injEq] at e'
              obtain ⟨rfl, rfl⟩ := e'
              rw [hbuf]
              have : (c ++ o :: (a ++ w :: b)).reverse ++ [z] =
                  b.reverse ++ w :: a.reverse ++ o :: c.reverse ++ [z] := by simp
              rw [this]
              exact .function hw (by simpa using ha) ho
                (fun t ht => hc t (by simp at ht; simp [ht])) hz
      · rw [if_neg hz] at h
        cases hf : firstWord (z :: ts) with
        | none => rw [hf] at h; cases h
        | some m =>
          rw [hf] at h; cases h
          obtain ⟨a, w, b, e, ha, hw, rfl⟩ := firstWord_iff.1 hf
          have : buf = b.reverse ++ w :: a.reverse := by
            have := congrArg List.reverse hb
            rw [e] at this
            simpa using this
          rw [this]
          refine .plain hw (by simpa using ha) ?_
          intro t ht
          cases a with
          | nil => simp at e ht; rw [← ht, ← e.1]; exact hz
          | cons x a =>
            simp only [List.cons_append, List.cons.injEq] at e
            simp [List.getLast?_cons] at ht
            rw [← ht, ← e.1]; exact hz
  · intro h
    cases h with
    | @plain a w b hw hb hl =>
      unfold nameOfTypedef
      have hrev : (a ++ w :: b).reverse = b.reverse ++ w :: a.reverse := by simp
      have hf : firstWord (b.reverse ++ w :: a.reverse) = some w.content :=
        firstWord_iff.2 ⟨b.reverse, w, a.reverse, rfl, by simpa using hb, hw, rfl⟩
      rw [hrev]
      cases hb' : b.reverse with
      | nil =>
        rw [hb'] at hf
        simp only [List.nil_append] at hf ⊢
        have : w.kind ≠ ")" := by rw [hw]; decide
        rw [if_neg this, hf]
      | cons z b' =>
        rw [hb'] at hf
        simp only [List.cons_append] at hf ⊢
        have hb2 : b = b'.reverse ++ [z] := by
          have := congrArg List.reverse hb'
          simpa using this
        have hz : z.kind ≠ ")" := hl z (by rw [hb2]; simp [List.getLast?_cons])
        rw [if_neg hz, hf]
    | @function a w b o c z hw hb ho hc hz =>
      unfold nameOfTypedef
      have hrev : (a ++ w :: b ++ o :: c ++ [z]).reverse =
          z :: (c.reverse ++ o :: (b.reverse ++ w :: a.reverse)) := by simp
      rw [hrev]
      simp only [if_pos hz]
      have : dropParens (z :: (c.reverse ++ o :: (b.reverse ++ w :: a.reverse))) =
          b.reverse ++ w :: a.reverse := by
        refine dropParens_of (a := z :: c.reverse) ?_ ho
        intro t ht
        rcases List.mem_cons.1 ht with rfl | ht
        · rw [hz]; decide
        · exact hc t (by simpa using ht)
      rw [this, firstWord_iff.2 ⟨b.reverse, w, a.reverse, rfl, by simpa using hb, hw, rfl⟩]

end Che
