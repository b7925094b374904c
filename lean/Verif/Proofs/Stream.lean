import Verif.Proofs.LexRun
import Verif.Spec.Stream
/-!
# The lexer with its queue is a cursor on a fixed sequence
-/
namespace Che
open Spec

theorem readToken_shorter [Unicode] {b b' : Buf} {t : Token} (h : readToken b = .tok t b')
    (ht : t.kind ≠ "error") : b'.rest.length < b.rest.length := by
  obtain ⟨sp, s, hr, hsp, hs⟩ := spanC Blank b.rest
  rw [readToken_at hr hsp hs] at h
  rcases lex_total s hs with rfl | ⟨k, c, lx, r, rfl, hl⟩ | ⟨msg, lx, n, r, rfl, hl⟩ | hc
  · cases h
  · have := List.length_pos_iff.2 (lexeme_ne_nil hl)
    rw [scan1_lexeme hl, Scan.place] at h
    cases h
    rw [← Buf.skipN_add, Buf.rest_skipN, List.length_drop, hr]
    simp only [List.length_append]; omega
  · rw [scan1_malformed hl, Scan.place] at h
    cases h
    exact absurd rfl ht
  · obtain ⟨m, hm⟩ := scan1_crash hc
    rw [hm] at h; cases h

theorem readToken_eof_rest [Unicode] {b b' : Buf} (h : readToken b = .eof b') :
    Blanks b.rest ∧ b'.rest = [] := by
  obtain ⟨sp, s, hr, hsp, hs⟩ := spanC Blank b.rest
  rw [readToken_at hr hsp hs] at h
  rcases lex_total s hs with rfl | ⟨k, c, lx, r, rfl, hl⟩ | ⟨msg, lx, n, r, rfl, hl⟩ | hc
  · rw [List.append_nil] at hr
    cases h
    refine ⟨by rw [hr]; exact hsp, ?_⟩
    rw [Buf.rest_skipN, hr, List.drop_length]
  · rw [scan1_lexeme hl] at h; cases h
  · rw [scan1_malformed hl] at h; cases h
  · obtain ⟨m, hm⟩ := scan1_crash hc
    rw [hm] at h; cases h

/-- The next token that is not a comment. -/
def nextTok [Unicode] (b : Buf) : TokRes := Lexer.getLoop (b.rest.length + 1) b

theorem getLoop_fuel [Unicode] (n : Nat) (b : Buf) (hn : b.rest.length < n) :
    Lexer.getLoop n b = nextTok b := by
  induction n using Nat.strongRecOn generalizing b with
  | _ n ih =>
    cases n with
    | zero => omega
    | succ n =>
      rw [nextTok, Lexer.getLoop, Lexer.getLoop]
      cases h : readToken b with
      | eof b' => rfl
      | panic m => rfl
      | tok t b' =>
        simp only
        split
        · next hk =>
          have hl := readToken_shorter h (by rw [hk]; decide)
          rw [ih n (by omega) b' (by omega), ih b.rest.length (by omega) b' hl]
        · rfl

theorem nextTok_eq [Unicode] (b : Buf) : nextTok b =
    match readToken b with
    | .eof b' => .eof b'
    | .panic m => .panic m
    | .tok t b' => if t.kind = "comment" then nextTok b' else .tok t b' := by
  rw [nextTok, Lexer.getLoop]
  cases h : readToken b with
  | eof b' => rfl
  | panic m => rfl
  | tok t b' =>
    simp only
    split
    · next hk => rw [getLoop_fuel _ _ (readToken_shorter h (by rw [hk]; decide))]
    · rfl

theorem nextTok_eof [Unicode] {b b' : Buf} (h : nextTok b = .eof b') : b'.rest = [] := by
  generalize hn : b.rest.length = n
  induction n using Nat.strongRecOn generalizing b with
  | _ n ih =>
    rw [nextTok_eq] at h
    cases hr : readToken b with
    | eof b1 => rw [hr] at h; cases h; exact (readToken_eof_rest hr).2
    | panic m => rw [hr] at h; cases h
    | tok t b1 =>
      simp only [hr] at h
      split at h
      · next hk =>
        have := readToken_shorter hr (by rw [hk]; decide)
        exact ih _ (by omega) h rfl
      · cases h

theorem nextTok_empty [Unicode] {b : Buf} (h : b.rest = []) : nextTok b = .eof b := by
  rw [nextTok_eq, readToken_at (b := b) (sp := []) (s := []) h (fun _ h => absurd h (by simp))
    (fun c h => by cases h)]
  rfl

/-- The tokens a buffer still holds, one after the other. -/
def stream [Unicode] (b : Buf) : Nat → Item
  | 0 =>
    match nextTok b with
    | .eof _ => .eof
    | .tok t _ => .tok t
    | .panic m => .abort m
  | n + 1 =>
    match nextTok b with
    | .eof _ => .eof
    | .tok _ b' => stream b' n
    | .panic m => .abort m

theorem stream_eof [Unicode] {b b' : Buf} (h : nextTok b = .eof b') (n : Nat) :
    stream b n = .eof ∧ stream b' n = .eof := by
  have h' := nextTok_empty (nextTok_eof h)
  constructor
  · cases n <;> simp [stream, h]
  · cases n <;> simp [stream, h']

/-- The tokens ahead of a lexer: first those queued, then those of the buffer. -/
def view [Unicode] (l : Lexer) (n : Nat) : Item :=
  match l.next[n]? with
  | some t => .tok t
  | none => stream l.buf (n - l.next.length)

/-- The lexer stands at place `k` of the sequence `S`. -/
def At [Unicode] (S : Nat → Item) (k : Nat) (l : Lexer) : Prop := ∀ n, view l n = S (k + n)

theorem at_eof [Unicode] {S : Nat → Item} {k : Nat} {l : Lexer} {b' : Buf} (h : At S k l)
    (hn : nextTok l.buf = .eof b') : At S k { l with buf := b' } := by
  intro n
  rw [← h n]
  simp only [view]
  split
  · rfl
  · rw [(stream_eof hn _).1, (stream_eof hn _).2]

theorem get_at [Unicode] {S : Nat → Item} {k : Nat} {l : Lexer} (h : At S k l) :
    match S k with
    | .tok t => ∃ l', l.get = .ok (some t) l' ∧ At S (k + 1) l'
    | .eof => ∃ l', l.get = .ok none l' ∧ At S k l'
    | .abort m => l.get = .panic m := by
  have h0 := h 0
  rw [Nat.add_zero] at h0
  obtain ⟨buf, next⟩ := l
  cases next with
  | cons t ts =>
    have : S k = .tok t := by rw [← h0]; rfl
    rw [this]
    refine ⟨⟨buf, ts⟩, rfl, fun n => ?_⟩
    rw [show k + 1 + n = k + (n + 1) by omega, ← h (n + 1)]
    simp [view]
  | nil =>
    have hs : S k = stream buf 0 := by rw [← h0]; rfl
    rw [hs, stream]
    simp only [Lexer.get]
    rw [← nextTok]
    cases hn : nextTok buf with
    | eof b' => exact ⟨⟨b', []⟩, rfl, at_eof h hn⟩
    | panic m => rfl
    | tok t b' =>
      refine ⟨⟨b', []⟩, rfl, fun n => ?_⟩
      rw [show k + 1 + n = k + (n + 1) by omega, ← h (n + 1)]
      simp [view, stream, hn]

theorem unget_at [Unicode] {S : Nat → Item} {k : Nat} {l : Lexer} {t : Token} (h : At S (k + 1) l)
    (ht : S k = .tok t) : At S k (l.unget t) := by
  intro n
  cases n with
  | zero => simp [view, Lexer.unget, ht]
  | succ n =>
    rw [show k + (n + 1) = k + 1 + n by omega, ← h n]
    simp [view, Lexer.unget]

theorem more_at [Unicode] {S : Nat → Item} {k : Nat} {l : Lexer} (h : At S k l) :
    match S k with
    | .tok _ => ∃ l', l.more = .ok true l' ∧ At S k l'
    | .eof => ∃ l', l.more = .ok false l' ∧ At S k l'
    | .abort m => l.more = .panic m := by
  have hg := get_at h
  cases hs : S k with
  | tok t =>
    rw [hs] at hg
    obtain ⟨l', e, h'⟩ := hg
    exact ⟨l'.unget t, by simp [Lexer.more, e], unget_at h' hs⟩
  | eof =>
    rw [hs] at hg
    obtain ⟨l', e, h'⟩ := hg
    exact ⟨l', by simp [Lexer.more, e], h'⟩
  | abort m =>
    rw [hs] at hg
    simp only at hg
    simp [Lexer.more, hg]

/-- Result of filling the queue. -/
inductive FillCase [Unicode] (S : Nat → Item) (k n : Nat) : Lexer.Out Bool → Prop
  | full {l'} : At S k l' → n ≤ l'.next.length → FillCase S k n (.ok true l')
  | ended {l'} : At S k l' → l'.next.length < n → S (k + l'.next.length) = .eof →
      FillCase S k n (.ok false l')
  | abort {m j} : j < n → (∀ i < j, ∃ t, S (k + i) = .tok t) → S (k + j) = .abort m →
      FillCase S k n (.panic m)

theorem fill_at [Unicode] {S : Nat → Item} {k n : Nat} (f : Nat) {l : Lexer} (h : At S k l)
    (hf : l.buf.rest.length + (n - l.next.length) < f) : FillCase S k n (Lexer.fill n f l) := by
  induction f using Nat.strongRecOn generalizing l with
  | _ f ih =>
    cases f with
    | zero => omega
    | succ f =>
      rw [Lexer.fill]
      by_cases hlt : l.next.length < n
      · rw [if_pos hlt]
        have hv : ∀ j, S (k + (l.next.length + j)) = stream l.buf j := by
          intro j
          rw [← h]
          have : l.next[l.next.length + j]? = none := List.getElem?_eq_none (by omega)
          simp [view]
        have hq : ∀ i < l.next.length, ∃ t, S (k + i) = .tok t := by
          intro i hi
          rw [← h]
          simp [view, hi]
        have hne := nextTok_eq l.buf
        cases hr : readToken l.buf with
        | eof b' =>
          rw [hr] at hne
          refine .ended (at_eof h hne) hlt ?_
          rw [show k + l.next.length = k + (l.next.length + 0) by omega]
          exact (hv 0).trans (stream_eof hne 0).1
        | panic m =>
          rw [hr] at hne
          refine .abort hlt hq ?_
          rw [show k + l.next.length = k + (l.next.length + 0) by omega, hv 0, stream, hne]
        | tok t b' =>
          simp only [hr] at hne ⊢
          split
          · next hk =>
            rw [if_pos hk] at hne
            have hs := readToken_shorter hr (by rw [hk]; decide)
            refine ih f (by omega) (l := { l with buf := b' }) ?_ (by simp only; omega)
            intro j
            rw [← h j]
            simp only [view]
            split
            · rfl
            · generalize j - l.next.length = i
              cases i <;> simp [stream, hne]
          · next hk =>
            rw [if_neg hk] at hne
            have hle : b'.rest.length ≤ l.buf.rest.length := by
              by_cases he : t.kind = "error"
              · rw [readToken_eq] at hr
                cases hsc : scan1 (unblank l.buf.rest) with
                | eof => rw [hsc] at hr; cases hr
                | panic m => rw [hsc] at hr; cases hr
                | tok k c o n =>
                  rw [hsc] at hr
                  cases hr
                  rw [← Buf.skipN_add, Buf.rest_skipN, List.length_drop]; omega
              · exact Nat.le_of_lt (readToken_shorter hr he)
            refine ih f (by omega) (l := { buf := b', next := l.next ++ [t] }) ?_ (by
              simp only [List.length_append, List.length_singleton]; omega)
            intro j
            rw [← h j]
            simp only [view]
            rcases Nat.lt_trichotomy j l.next.length with hj | hj | hj
            · simp [List.getElem?_append_left hj, hj]
            · subst hj; simp [stream, hne]
            · have e1 : (l.next ++ [t])[j]? = none :=
                List.getElem?_eq_none (by rw [List.length_append, List.length_singleton]; omega)
              have e2 : l.next[j]? = none := List.getElem?_eq_none (by omega)
              rw [e1, e2]
              simp only [List.length_append, List.length_singleton]
              rw [show j - l.next.length = (j - (l.next.length + 1)) + 1 by omega, stream, hne]
      · rw [if_neg hlt]
        exact .full h (by omega)

theorem ahead_tokens [Unicode] {S : Nat → Item} (ts : List Token) {k : Nat}
    (h : ∀ i (hi : i < ts.length), S (k + i) = .tok ts[i]) :
    ahead S k ts.length = .ok (some ts) := by
  induction ts generalizing k with
  | nil => rfl
  | cons t ts ih =>
    have h0 := h 0 (by simp)
    rw [Nat.add_zero] at h0
    have hi : ahead S (k + 1) ts.length = .ok (some ts) := by
      refine ih (fun i hi => ?_)
      have := h (i + 1) (by simp; omega)
      rw [show k + 1 + i = k + (i + 1) by omega, this]
      rfl
    simp only [List.length_cons, ahead, h0, hi, List.getElem_cons_zero]

theorem ahead_stop {S : Nat → Item} {n j k : Nat} (hj : j < n)
    (ht : ∀ i < j, ∃ t, S (k + i) = .tok t) :
    (S (k + j) = .eof → ahead S k n = .ok none) ∧
    (∀ m, S (k + j) = .abort m → ahead S k n = .abort m) := by
  induction j generalizing k n with
  | zero =>
    cases n with
    | zero => omega
    | succ n => rw [Nat.add_zero]; constructor <;> (intros; simp [ahead, *])
  | succ j ih =>
    cases n with
    | zero => omega
    | succ n =>
      obtain ⟨t, h0⟩ := ht 0 (by omega)
      rw [Nat.add_zero] at h0
      have := ih (n := n) (k := k + 1) (by omega) (fun i hi => by
        obtain ⟨t, h⟩ := ht (i + 1) (by omega)
        exact ⟨t, by rw [← h]; congr 1; omega⟩)
      rw [show k + 1 + j = k + (j + 1) by omega] at this
      constructor
      · intro h; simp [ahead, h0, this.1 h]
      · intro m h; simp [ahead, h0, this.2 m h]

theorem peekn_at [Unicode] {S : Nat → Item} {k : Nat} {l : Lexer} (h : At S k l) (n : Nat) :
    match ahead S k n with
    | .ok ts => ∃ l', l.peekn n = .ok ts l' ∧ At S k l'
    | .abort m => l.peekn n = .panic m := by
  have hc := fill_at (n := n) (l.buf.rest.length + n + 1) h (by omega)
  cases hfl : Lexer.fill n (l.buf.rest.length + n + 1) l with
  | diverge => rw [hfl] at hc; cases hc
  | panic m =>
    rw [hfl] at hc
    cases hc with
    | abort h1 h2 h3 =>
      rw [(ahead_stop h1 h2).2 m h3]
      simp [Lexer.peekn, hfl]
  | ok r l' =>
    rw [hfl] at hc
    cases hc with
    | full h1 h2 =>
      have : ahead S k n = .ok (some (l'.next.take n)) := by
        have hl : (l'.next.take n).length = n := by simp [h2]
        have := ahead_tokens (S := S) (l'.next.take n) (k := k) (fun i hi => by
          rw [← h1 i]
          rw [hl] at hi
          have hi' : i < l'.next.length := by omega
          simp [view, hi'])
        rwa [hl] at this
      rw [this]
      exact ⟨l', by simp [Lexer.peekn, hfl], h1⟩
    | ended h1 h2 h3 =>
      rw [(ahead_stop h2 (fun i hi => by rw [← h1 i]; simp [view, hi])).1 h3]
      exact ⟨l', by simp [Lexer.peekn, hfl], h1⟩

theorem peek_at [Unicode] {S : Nat → Item} {k : Nat} {l : Lexer} (h : At S k l) :
    match S k with
    | .tok t => ∃ l', l.peek = .ok (some t) l' ∧ At S k l'
    | .eof => ∃ l', l.peek = .ok none l' ∧ At S k l'
    | .abort m => l.peek = .panic m := by
  have hp := peekn_at h 1
  cases hs : S k with
  | tok t =>
    simp only [ahead, hs] at hp
    obtain ⟨l', e, h'⟩ := hp
    exact ⟨l', by simp [Lexer.peek, e], h'⟩
  | eof =>
    simp only [ahead, hs] at hp
    obtain ⟨l', e, h'⟩ := hp
    exact ⟨l', by simp [Lexer.peek, e], h'⟩
  | abort m =>
    simp only [ahead, hs] at hp
    simp [Lexer.peek, hp]

theorem follows_at [Unicode] {S : Nat → Item} {k : Nat} {l : Lexer} (h : At S k l) (kind : String) :
    match S k with
    | .tok t => ∃ l', l.follows kind = .ok (t.kind == kind) l' ∧ At S k l'
    | .eof => ∃ l', l.follows kind = .ok false l' ∧ At S k l'
    | .abort m => l.follows kind = .panic m := by
  have hm := more_at h
  cases hs : S k with
  | tok t =>
    rw [hs] at hm
    obtain ⟨l1, e1, h1⟩ := hm
    have hp := peek_at h1
    rw [hs] at hp
    obtain ⟨l2, e2, h2⟩ := hp
    exact ⟨l2, by simp [Lexer.follows, e1, e2], h2⟩
  | eof =>
    rw [hs] at hm
    obtain ⟨l1, e1, h1⟩ := hm
    exact ⟨l1, by simp [Lexer.follows, e1], h1⟩
  | abort m =>
    rw [hs] at hm
    simp only at hm
    simp [Lexer.follows, hm]

theorem eat_at [Unicode] {S : Nat → Item} {k : Nat} {l : Lexer} (h : At S k l) (kind : String) :
    match S k with
    | .tok t => ∃ l', l.eat kind = .ok (t.kind == kind) l' ∧
        At S (if t.kind == kind then k + 1 else k) l'
    | .eof => ∃ l', l.eat kind = .ok false l' ∧ At S k l'
    | .abort m => l.eat kind = .panic m := by
  have hm := follows_at h kind
  cases hs : S k with
  | tok t =>
    rw [hs] at hm
    obtain ⟨l1, e1, h1⟩ := hm
    by_cases hk : (t.kind == kind) = true
    · have hg := get_at h1
      rw [hs] at hg
      obtain ⟨l2, e2, h2⟩ := hg
      refine ⟨l2, by simp only [Lexer.eat, e1, hk, e2], ?_⟩
      rw [if_pos hk]; exact h2
    · simp only [Bool.not_eq_true] at hk
      refine ⟨l1, by simp only [Lexer.eat, e1, hk], ?_⟩
      simp only [hk]; exact h1
  | eof =>
    rw [hs] at hm
    obtain ⟨l1, e1, h1⟩ := hm
    exact ⟨l1, by simp [Lexer.eat, e1], h1⟩
  | abort m =>
    rw [hs] at hm
    simp only at hm
    simp [Lexer.eat, hm]

theorem at_ofText [Unicode] (text : List Char) :
    At (stream (Buf.new text)) 0 (Lexer.ofText text) := by
  intro n
  simp [view, Lexer.ofText]

end Che
