import Verif.Proofs.Stream
import Verif.Spec.Demo
/-!
# C06: lookahead is transparent
-/
namespace Che.Props
open Spec

/-- One call on the lexer by a caller that remembers the tokens it was given
(`given`, last first), so that it can put them back. -/
def realStep [Unicode] (l : Lexer) (given : List Token) :
    Call → Option (Lexer.Out Seen × List Token)
  | .get =>
    match l.get with
    | .ok (some t) l' => some (.ok (.token (some t)) l', t :: given)
    | .ok none l' => some (.ok (.token none) l', given)
    | .panic m => some (.panic m, given)
    | .diverge => some (.diverge, given)
  | .peek =>
    match l.peek with
    | .ok t l' => some (.ok (.token t) l', given)
    | .panic m => some (.panic m, given)
    | .diverge => some (.diverge, given)
  | .peekn n =>
    match l.peekn n with
    | .ok ts l' => some (.ok (.tokens ts) l', given)
    | .panic m => some (.panic m, given)
    | .diverge => some (.diverge, given)
  | .more =>
    match l.more with
    | .ok b l' => some (.ok (.flag b) l', given)
    | .panic m => some (.panic m, given)
    | .diverge => some (.diverge, given)
  | .follows kind =>
    match l.follows kind with
    | .ok b l' => some (.ok (.flag b) l', given)
    | .panic m => some (.panic m, given)
    | .diverge => some (.diverge, given)
  | .eat kind =>
    match l.eat kind with
    | .ok b l' => some (.ok (.flag b) l', if b then [] else given)
    | .panic m => some (.panic m, given)
    | .diverge => some (.diverge, given)
  | .unget =>
    match given with
    | t :: given => some (.ok .unit (l.unget t), given)
    | [] => none

/-- All that a caller sees in a history of calls on the lexer. -/
def realTrace [Unicode] : Lexer → List Token → List Call → List Seen × End
  | _, _, [] => ([], .open_)
  | l, given, c :: cs =>
    match realStep l given c with
    | some (.ok s l', given') => let (ss, e) := realTrace l' given' cs; (s :: ss, e)
    | some (.panic m, _) => ([], .abort m)
    | some (.diverge, _) => ([], .hang)
    | none => ([], .illegal)

/-- The tokens `ts` stand just before place `k`. -/
def Behind (S : Nat → Item) (low k : Nat) (given : List Token) : Prop :=
  low + given.length = k ∧ ∀ i (hi : i < given.length), S (k - 1 - i) = .tok given[i]

theorem realTrace_ideal [Unicode] {S : Nat → Item} (cs : List Call) {low k : Nat} {l : Lexer}
    {given : List Token} (h : At S k l) (hg : Behind S low k given) :
    realTrace l given cs = idealTrace S low k cs := by
  induction cs generalizing low k l given with
  | nil => rfl
  | cons c cs ih =>
    rw [realTrace, idealTrace]
    cases c with
    | get =>
      have hc := get_at h
      cases hs : S k with
      | tok t =>
        simp only [hs] at hc
        obtain ⟨l', e, h'⟩ := hc
        have hb : Behind S low (k + 1) (t :: given) := by
          refine ⟨by have := hg.1; simp; omega, fun i hi => ?_⟩
          cases i with
          | zero => simpa using hs
          | succ i =>
            have := hg.2 i (by simpa using hi)
            rw [show k + 1 - 1 - (i + 1) = k - 1 - i by omega, this]
            rfl
        simp only [realStep, e, ideal, hs, ih h' hb]
      | eof =>
        simp only [hs] at hc
        obtain ⟨l', e, h'⟩ := hc
        simp only [realStep, e, ideal, hs, ih h' hg]
      | abort m =>
        simp only [hs] at hc
        simp only [realStep, hc, ideal, hs]
    | peek =>
      have hc := peek_at h
      cases hs : S k with
      | abort m => simp only [hs] at hc; simp only [realStep, hc, ideal, hs]
      | _ =>
        simp only [hs] at hc
        obtain ⟨l', e, h'⟩ := hc
        simp only [realStep, e, ideal, hs, ih h' hg]
    | peekn n =>
      have hc := peekn_at h n
      cases hs : ahead S k n with
      | abort m => simp only [hs] at hc; simp only [realStep, hc, ideal, hs]
      | ok ts =>
        simp only [hs] at hc
        obtain ⟨l', e, h'⟩ := hc
        simp only [realStep, e, ideal, hs, ih h' hg]
    | more =>
      have hc := more_at h
      cases hs : S k with
      | abort m => simp only [hs] at hc; simp only [realStep, hc, ideal, hs]
      | _ =>
        simp only [hs] at hc
        obtain ⟨l', e, h'⟩ := hc
        simp only [realStep, e, ideal, hs, ih h' hg]
    | follows kind =>
      have hc := follows_at h kind
      cases hs : S k with
      | abort m => simp only [hs] at hc; simp only [realStep, hc, ideal, hs]
      | _ =>
        simp only [hs] at hc
        obtain ⟨l', e, h'⟩ := hc
        simp only [realStep, e, ideal, hs, ih h' hg]
    | eat kind =>
      have hc := eat_at h kind
      cases hs : S k with
      | abort m => simp only [hs] at hc; simp only [realStep, hc, ideal, hs]
      | eof =>
        simp only [hs] at hc
        obtain ⟨l', e, h'⟩ := hc
        have := ih h' hg
        simp [realStep, e, ideal, hs, this]
      | tok t =>
        simp only [hs] at hc
        obtain ⟨l', e, h'⟩ := hc
        cases hk : t.kind == kind with
        | true =>
          rw [hk] at e
          rw [if_pos hk] at h'
          have := ih (given := []) (low := k + 1) h' ⟨rfl, fun i hi => by simp at hi⟩
          simp [realStep, e, ideal, hs, this, hk]
        | false =>
          rw [hk] at e
          rw [if_neg (by simp [hk])] at h'
          have := ih h' hg
          simp [realStep, e, ideal, hs, this, hk]
    | unget =>
      cases given with
      | nil =>
        have hlt : ¬ low < k := by have := hg.1; simp at this; omega
        simp only [realStep, ideal, if_neg hlt]
      | cons t given =>
        have h1 := hg.1
        simp only [List.length_cons] at h1
        have hlt : low < k := by omega
        have h0 := hg.2 0 (by simp)
        simp only [List.getElem_cons_zero] at h0
        obtain ⟨j, rfl⟩ : ∃ j, k = j + 1 := ⟨k - 1, by omega⟩
        have h' : At S j (l.unget t) := unget_at h (by simpa using h0)
        have hb : Behind S low j given := by
          refine ⟨by omega, fun i hi => ?_⟩
          have := hg.2 (i + 1) (by simpa using hi)
          rw [show j + 1 - 1 - (i + 1) = j - 1 - i by omega] at this
          simpa using this
        simp only [realStep, ideal, if_pos hlt, Nat.add_sub_cancel, ih h' hb]

/-- The non-comment tokens of a text as one fixed sequence: its `n`th entry is
what the `n`th of a series of plain reads gives, comments dropped. -/
noncomputable def sequence [Unicode] (text : List Char) (n : Nat) : Item := stream (Buf.new text) n

/-- **C06.** Every history of calls on a lexer made for a text sees what it would
see if the calls were made on one fixed token sequence with a cursor, and no call
hangs. -/
theorem C06_transparent [Unicode] (text : List Char) (calls : List Call) :
    realTrace (Lexer.ofText text) [] calls = idealTrace (sequence text) 0 0 calls :=
  realTrace_ideal calls (at_ofText text) ⟨rfl, fun i hi => by simp at hi⟩

theorem idealTrace_no_hang (S : Nat → Item) (cs : List Call) (low k : Nat) :
    (idealTrace S low k cs).2 ≠ .hang := by
  induction cs generalizing low k with
  | nil => simp [idealTrace]
  | cons c cs ih =>
    rw [idealTrace]
    cases ideal S low k c with
    | ok s low' k' => exact ih low' k'
    | _ => simp

/-- No call on a lexer runs for ever. -/
theorem C06_every_call_returns [Unicode] (text : List Char) (calls : List Call) :
    (realTrace (Lexer.ofText text) [] calls).2 ≠ .hang := by
  rw [C06_transparent]; exact idealTrace_no_hang _ _ _ _

theorem lexAllLoop_stream [Unicode] (n : Nat) {b : Buf} {acc ts : List Token} {eof : Pos}
    (h : lexAllLoop n b acc = .ok ts eof) :
    ∃ more, ts = acc.reverse ++ more ∧
      ∀ i, stream b i = match more[i]? with | some t => .tok t | none => .eof := by
  induction n generalizing b acc with
  | zero => cases h
  | succ n ih =>
    rw [lexAllLoop] at h
    have hn := nextTok_eq b
    cases hr : readToken b with
    | panic m => rw [hr] at h; cases h
    | eof b' =>
      rw [hr] at h hn
      cases h
      exact ⟨[], by simp, fun i => by simpa using (stream_eof hn i).1⟩
    | tok t b' =>
      rw [hr] at h hn
      simp only at h hn
      obtain ⟨more, e, hi⟩ := ih h
      by_cases hk : t.kind = "comment"
      · rw [if_pos hk] at hn e
        refine ⟨more, e, fun i => ?_⟩
        rw [← hi]
        cases i <;> simp [stream, hn]
      · rw [if_neg hk] at hn e
        refine ⟨t :: more, by simp [e], fun i => ?_⟩
        cases i with
        | zero => simp [stream, hn]
        | succ i => simpa [stream, hn] using hi i

/-- **C06.** The fixed sequence is the tokens of the text, comments left out, in
order, and then its end. -/
theorem C06_sequence [Unicode] {text : List Char} {ts : List Token} (h : Tokens text ts) (i : Nat) :
    sequence text i = match (significant ts)[i]? with | some t => .tok t | none => .eof := by
  obtain ⟨p, sp, h, hsp⟩ := h
  have := lexAll_done h hsp
  obtain ⟨more, e, hi⟩ := lexAllLoop_stream _ this
  simp only [List.reverse_nil, List.nil_append] at e
  subst e
  exact hi i

/-- Calls that only look. -/
def Looks (c : Call) : Prop :=
  c = .peek ∨ c = .more ∨ (∃ n, c = .peekn n) ∨ ∃ k, c = .follows k

theorem ideal_looks (S : Nat → Item) {c : Call} (hc : Looks c) {low k low' k' : Nat} {s : Seen}
    (h : ideal S low k c = .ok s low' k') : low' = low ∧ k' = k := by
  rcases hc with rfl | rfl | ⟨n, rfl⟩ | ⟨n, rfl⟩ <;>
  · simp only [ideal] at h
    split at h <;> simp at h <;> omega

theorem idealTrace_looks (S : Nat → Item) (low k : Nat) (peeks after : List Call)
    (hp : ∀ c ∈ peeks, Looks c) {ss : List Seen} (h : idealTrace S low k peeks = (ss, .open_)) :
    idealTrace S low k (peeks ++ after) =
      (ss ++ (idealTrace S low k after).1, (idealTrace S low k after).2) := by
  induction peeks generalizing ss with
  | nil => cases h; rfl
  | cons c cs ih =>
    rw [idealTrace] at h
    rw [List.cons_append, idealTrace]
    cases hi : ideal S low k c with
    | abort m => rw [hi] at h; cases h
    | illegal => rw [hi] at h; cases h
    | ok s low' k' =>
      rw [hi] at h
      obtain ⟨rfl, rfl⟩ := ideal_looks S (hp c (by simp)) hi
      simp only [Prod.mk.injEq] at h
      have := ih (fun c hc => hp c (by simp [hc])) (ss := (idealTrace S low' k' cs).1)
        (Prod.ext rfl h.2)
      simp [this, ← h.1]

theorem idealTrace_between (S : Nat → Item) (before peeks after : List Call)
    (hp : ∀ c ∈ peeks, Looks c) {low k : Nat} {ss : List Seen}
    (h : idealTrace S low k (before ++ peeks) = (ss, .open_)) :
    ∃ sp, ss = (idealTrace S low k before).1 ++ sp ∧
      ∃ later e, idealTrace S low k (before ++ after) =
          ((idealTrace S low k before).1 ++ later, e) ∧
        idealTrace S low k (before ++ peeks ++ after) = (ss ++ later, e) := by
  induction before generalizing low k ss with
  | nil =>
    exact ⟨ss, rfl, _, _, rfl, idealTrace_looks S low k peeks after hp h⟩
  | cons c cs ih =>
    rw [List.cons_append, idealTrace] at h
    simp only [List.cons_append, idealTrace]
    cases hi : ideal S low k c with
    | abort m => rw [hi] at h; cases h
    | illegal => rw [hi] at h; cases h
    | ok s low' k' =>
      simp only [hi, Prod.mk.injEq] at h
      obtain ⟨sp, e1, later, e, e2, e3⟩ := ih (low := low') (k := k')
        (ss := (idealTrace S low' k' (cs ++ peeks)).1) (Prod.ext rfl h.2)
      refine ⟨sp, ?_, later, e, ?_, ?_⟩
      · rw [← h.1]; simpa using e1
      · simp [e2]
      · simp only [e3, ← h.1, List.cons_append]

/-- **C06.** Peeking never changes what is returned later: the calls `after` see
the same with and without the peeks before them. -/
theorem C06_peek [Unicode] (text : List Char) (before peeks after : List Call)
    (hp : ∀ c ∈ peeks, Looks c) {ss : List Seen}
    (h : realTrace (Lexer.ofText text) [] (before ++ peeks) = (ss, .open_)) :
    ∃ sp, ss = (realTrace (Lexer.ofText text) [] before).1 ++ sp ∧
      ∃ later e, realTrace (Lexer.ofText text) [] (before ++ after) =
          ((realTrace (Lexer.ofText text) [] before).1 ++ later, e) ∧
        realTrace (Lexer.ofText text) [] (before ++ peeks ++ after) = (ss ++ later, e) := by
  simp only [C06_transparent] at *
  exact idealTrace_between _ _ _ _ hp h

section Examples
attribute [local instance] asciiOnly

/-- What a caller sees, in words. -/
def seenText : Seen → String
  | .token (some t) => t.content ++ "@" ++ toString t.pos.col
  | .token none => "end"
  | .tokens (some ts) => String.intercalate "," (ts.map (·.content))
  | .tokens none => "too few"
  | .flag b => toString b
  | .unit => "."

def traceText (text : String) (cs : List Call) : String :=
  let (ss, e) := realTrace (Lexer.ofText text.toList) [] cs
  String.intercalate " " (ss.map seenText) ++
    (match e with | .open_ => "" | .abort m => "!" ++ m | .illegal => "?" | .hang => "...")

example : traceText "a /* x */ + b" [.peekn 2, .get, .follows "+", .unget, .more, .get, .eat "+",
    .peek, .peekn 2, .get, .more, .get] =
    "a, a@1 true . true a@1 true b@13 too few b@13 false end" := by decide +kernel

end Examples

end Che.Props
