import Verif.Proofs.LexRun
import Verif.Spec.Demo
/-!
# C01-C05: reading tokens
-/
namespace Che.Props
open Spec

/-! ## C01: source positions -/

/-- Buffers that a program can get to by calling the methods of `buf.rs` that
change a buffer, in any order, with any arguments. -/
inductive Calls (text : List Char) : Buf → Prop
  | new : Calls text (Buf.new text)
  | get {b c b'} : Calls text b → b.get = some (c, b') → Calls text b'
  | readSet {b} (set) : Calls text b → Calls text (b.readSet set).2
  | skipLiteral {b lit b'} : Calls text b → b.skipLiteral lit = some b' → Calls text b'
  | untilLiteral {b} (lit) : Calls text b → Calls text (b.untilLiteral lit).2
  | skipUntil {b} (ch) : Calls text b → Calls text (b.skipUntil ch).2

theorem calls_inv {text : List Char} {b : Buf} (h : Calls text b) : BufOk b ∧ b.text = text := by
  induction h with
  | new => exact ⟨bufOk_new _, rfl⟩
  | get _ h ih =>
    refine ⟨bufOk_get ih.1 h, ?_⟩
    rw [Buf.get_eq] at h
    rename_i b _ b' _
    cases hr : b.rest with
    | nil => rw [hr] at h; cases h
    | cons d cs => rw [hr] at h; cases h; rw [Buf.text_skipN, ih.2]
  | readSet set _ ih => rw [Buf.readSet_eq]; exact ⟨bufOk_skipN ih.1 _, by rw [Buf.text_skipN, ih.2]⟩
  | skipLiteral _ h ih =>
    rw [Buf.skipLiteral_eq] at h
    split at h
    · cases h; exact ⟨bufOk_skipN ih.1 _, by rw [Buf.text_skipN, ih.2]⟩
    · cases h
  | untilLiteral lit _ ih =>
    rw [Buf.untilLiteral_eq]; exact ⟨bufOk_skipN ih.1 _, by rw [Buf.text_skipN, ih.2]⟩
  | skipUntil ch _ ih =>
    rw [Buf.skipUntil_eq]; exact ⟨bufOk_skipN ih.1 _, by rw [Buf.text_skipN, ih.2]⟩

/-- **C01.** Whatever calls were made, the buffer has consumed a front part of
the text and reports the line and column just after it. -/
theorem C01_buffer {text : List Char} {b : Buf} (h : Calls text b) :
    ∃ consumed, text = consumed ++ b.rest ∧ b.pos = posAt consumed := by
  obtain ⟨h1, h2⟩ := calls_inv h
  exact ⟨b.past.reverse, h2.symm, h1⟩

/-- What line and column mean: text of `n` newlines and a last line of `k`
characters ends at line `n + 1`, column `k + 1`. -/
theorem C01_meaning (before last : List Char) (h : '\n' ∉ last) :
    posAt (before ++ '\n' :: last) = ⟨2 + before.count '\n', 1 + last.length⟩ ∧
    posAt last = ⟨1, 1 + last.length⟩ := by
  have h1 : List.count '\n' last = 0 := List.count_eq_zero.2 h
  have hw : ∀ r, (last.reverse ++ r).takeWhile (· != '\n') = last.reverse ++ r.takeWhile (· != '\n') := by
    intro r
    rw [List.takeWhile_append_of_pos]
    intro c hc
    simp only [List.mem_reverse] at hc
    simp only [bne_iff_ne]
    rintro rfl; exact h hc
  constructor
  · simp only [posAt, List.count_append, List.count_cons, h1, List.reverse_append, List.reverse_cons,
      List.append_assoc, hw]
    simp
    omega
  · have := hw []
    rw [List.append_nil] at this
    simp [posAt, h1, this]

/-- **C01.** Every token of a file carries the position of the first character of
its own text; only an error may point further, and then it is the error in a
number, pointing at the character that does not belong there. -/
theorem C01_token [Unicode] {text : List Char} {ts : List Token} (h : Tokens text ts)
    {before after : List Token} {t : Token} (ht : ts = before ++ t :: after) :
    ∃ pre lx rest, text = pre ++ lx ++ rest ∧
      ((Lexeme t.kind t.content lx rest ∧ t.pos = posAt pre) ∨
       (t.kind = "error" ∧ ∃ n, Malformed t.content lx n rest ∧ t.pos = posAt (pre ++ lx.take n) ∧
          (n = 0 ∨ ∃ dot m e u, Mantissa dot m ∧ lx = m ++ e ++ u ∧ n = lx.length))) := by
  obtain ⟨p', sp', h, -⟩ := h
  have gen : ∀ {pre0 s ts pre' s'}, Run pre0 s ts pre' s' → ∀ before, ts = before ++ t :: after →
    ∃ pre lx rest, pre0 ++ s = pre ++ lx ++ rest ∧
      ((Lexeme t.kind t.content lx rest ∧ t.pos = posAt pre) ∨
       (t.kind = "error" ∧ ∃ n, Malformed t.content lx n rest ∧ t.pos = posAt (pre ++ lx.take n) ∧
          (n = 0 ∨ ∃ dot m e u, Mantissa dot m ∧ lx = m ++ e ++ u ∧ n = lx.length))) := by
    intro pre0 s ts pre' s' hrun
    induction hrun with
    | nil => intro before h; simp at h
    | @token pre sp lx r k c ts pre' s' hsp hl _ ih =>
      intro before h
      cases before with
      | nil =>
        simp only [List.nil_append, List.cons.injEq] at h
        obtain ⟨rfl, -⟩ := h
        exact ⟨pre ++ sp, lx, r, by simp, .inl ⟨hl, rfl⟩⟩
      | cons x before =>
        simp only [List.cons_append, List.cons.injEq] at h
        obtain ⟨q, lx', r', e, hh⟩ := ih before h.2
        exact ⟨q, lx', r', by rw [← e]; simp, hh⟩
    | @error pre sp lx n r msg ts pre' s' hsp hm _ _ ih =>
      intro before h
      cases before with
      | nil =>
        simp only [List.nil_append, List.cons.injEq] at h
        obtain ⟨rfl, -⟩ := h
        refine ⟨pre ++ sp, lx, r, by simp, .inr ⟨rfl, n, hm, rfl, ?_⟩⟩
        cases hm with
        | number hman => exact .inr ⟨_, _, _, _, hman, rfl, rfl⟩
        | _ => exact .inl rfl
      | cons x before =>
        simp only [List.cons_append, List.cons.injEq] at h
        obtain ⟨q, lx', r', e, hh⟩ := ih before h.2
        exact ⟨q, lx', r', by rw [← e]; simp, hh⟩
  exact gen h before ht

/-- **C01.** The same for what the lexer delivers: every call gives a token with the
position of its first character (or an error with its own position). -/
theorem C01_call [Unicode] {text : List Char} {b : Buf} (h : Calls text b) {t : Token} {b' : Buf} (e : readToken b = .tok t b') :
    ∃ pre lx, text = pre ++ lx ++ b'.rest ∧
      ((Lexeme t.kind t.content lx b'.rest ∧ t.pos = posAt pre) ∨
       (t.kind = "error" ∧ ∃ n, Malformed t.content lx n b'.rest ∧ t.pos = posAt (pre ++ lx.take n))) := by
  have hc := readToken_cases (calls_inv h).1
  have ht : b.past.reverse ++ b.rest = text := (calls_inv h).2
  rw [e] at hc
  cases hc with
  | @token sp lx k c _ h1 h2 h3 h4 =>
    exact ⟨b.past.reverse ++ sp, lx, by rw [← ht, h1]; simp, .inl ⟨h3, rfl⟩⟩
  | @error sp lx n msg _ h1 h2 h3 h4 =>
    exact ⟨b.past.reverse ++ sp, lx, by rw [← ht, h1]; simp, .inr ⟨rfl, n, h3, rfl⟩⟩

/-! ## C02: tokenising is lossless -/

/-- **C02.** Reading a token splits the text into blanks, the text of the token
and the rest; the text of the token is what the grammar says for its kind and
content (or malformed text, for an error).  At the end only blanks are left. -/
theorem C02_token [Unicode] {text : List Char} {b : Buf} (h : Calls text b) :
    (∀ t b', readToken b = .tok t b' → ∃ sp lx, b.rest = sp ++ lx ++ b'.rest ∧ Blanks sp ∧
      (Lexeme t.kind t.content lx b'.rest ∨
        (t.kind = "error" ∧ ∃ n, Malformed t.content lx n b'.rest))) ∧
    (∀ b', readToken b = .eof b' → Blanks b.rest ∧ b'.rest = []) := by
  have hc := readToken_cases (calls_inv h).1
  constructor
  · intro t b' e
    rw [e] at hc
    cases hc with
    | token h1 h2 h3 h4 => exact ⟨_, _, h1, h2, .inl h3⟩
    | error h1 h2 h3 h4 => exact ⟨_, _, h1, h2, .inr ⟨rfl, _, h3⟩⟩
  · intro b' e
    rw [e] at hc
    cases hc with
    | eof h1 h2 h3 => exact ⟨h1, h3⟩

/-- **C02.** And the grammar leaves no choice: where the text is a token of the
grammar, that token is read and exactly its text is consumed. -/
theorem C02_grammar [Unicode] {text : List Char} {b : Buf} (h : Calls text b) {sp lx r : List Char}
    {k c : String} (hr : b.rest = sp ++ lx ++ r) (hsp : Blanks sp) (hl : Lexeme k c lx r) :
    ∃ t b', readToken b = .tok t b' ∧ t.kind = k ∧ t.content = c ∧ b'.rest = r := by
  obtain ⟨b', e, _, hr'⟩ := readToken_lexeme (calls_inv h).1 hr hsp hl
  exact ⟨_, b', e, rfl, rfl, hr'⟩

/-- **C02.** A whole file: the tokens delivered are those of the grammar, in order,
without the comments. -/
theorem C02_file [Unicode] (text : List Char) (ts : List Token) (eof : Pos) :
    lexAll text = .ok ts eof ↔
      ∃ all, Tokens text all ∧ ts = significant all ∧ eof = posAt text := by
  constructor
  · intro h
    rcases outcome_total text.length [] text (Nat.le_refl _) with ⟨h1, h2⟩ | ⟨h1, h2, h3⟩ |
      ⟨h1, h2, h3⟩
    · rw [lexAll_done h1 h2] at h
      cases h
      exact ⟨_, ⟨_, _, h1, h2⟩, rfl, rfl⟩
    · obtain ⟨m, hm⟩ := lexAll_crash h1 h2 h3
      rw [hm] at h; cases h
    · rw [lexAll_stuck h1 h2 h3] at h; cases h
  · rintro ⟨all, ⟨pre, sp, h1, h2⟩, rfl, rfl⟩
    exact lexAll_done h1 h2

/-- **C01.** The tokens of a file have the positions of their first characters. -/
theorem C01_file [Unicode] {text : List Char} {ts : List Token} {eof : Pos} (h : lexAll text = .ok ts eof) :
    eof = posAt text ∧ ∀ t ∈ ts, ∃ pre lx rest, text = pre ++ lx ++ rest ∧
      ((Lexeme t.kind t.content lx rest ∧ t.pos = posAt pre) ∨
       (t.kind = "error" ∧ ∃ n, Malformed t.content lx n rest ∧ t.pos = posAt (pre ++ lx.take n) ∧
          (n = 0 ∨ ∃ dot m e u, Mantissa dot m ∧ lx = m ++ e ++ u ∧ n = lx.length))) := by
  obtain ⟨all, ha, rfl, he⟩ := (C02_file text ts eof).mp h
  refine ⟨he, fun t ht => ?_⟩
  obtain ⟨before, after, e⟩ := List.append_of_mem (List.mem_filter.1 ht).1
  exact C01_token ha e

/-! ## C03: longest operator -/

theorem operator_not_kind {o : String} (ho : o ∈ operators) :
    o ≠ "import" ∧ o ≠ "macro" ∧ o ≠ "comment" ∧ o ≠ "word" ∧ o ≠ "num" ∧ o ≠ "string" ∧
      o ≠ "char" ∧ o ≠ "error" ∧ o ∉ reserved := by
  have : ∀ o ∈ operators, o ≠ "import" ∧ o ≠ "macro" ∧ o ≠ "comment" ∧ o ≠ "word" ∧ o ≠ "num" ∧
      o ≠ "string" ∧ o ≠ "char" ∧ o ≠ "error" ∧ o ∉ reserved := by decide
  exact this o ho

/-- **C03.** If the token read is an operator, no longer operator begins there. -/
theorem C03_longest [Unicode] {text : List Char} {b b' : Buf} {t : Token} (h : Calls text b)
    (ht : readToken b = .tok t b') (hop : t.kind ∈ operators) :
    ∃ sp, Blanks sp ∧ b.rest = sp ++ t.kind.toList ++ b'.rest ∧
      ∀ o ∈ operators, o.toList <+: t.kind.toList ++ b'.rest → o.length ≤ t.kind.length := by
  have hc := readToken_cases (calls_inv h).1
  have hk := operator_not_kind hop
  rw [ht] at hc
  cases hc with
  | error => exact absurd rfl hk.2.2.2.2.2.2.2.1
  | token h1 h2 h3 h4 =>
    simp only at hop hk ⊢
    generalize hr : b'.rest = r at *
    cases h3 with
    | op ho hmax => exact ⟨_, h2, h1, hmax⟩
    | keyword _ _ _ hres => exact absurd hres hk.2.2.2.2.2.2.2.2
    | _ => simp at hk

/-- **C03.** Where an operator begins (and no comment), the longest one is read. -/
theorem C03_read [Unicode] {text : List Char} {b : Buf} (h : Calls text b) {sp r : List Char}
    {o : String} (hr : b.rest = sp ++ o.toList ++ r) (hsp : Blanks sp) (ho : o ∈ operators)
    (hmax : ∀ o' ∈ operators, o'.toList <+: o.toList ++ r → o'.length ≤ o.length)
    (h1 : ¬ "//".toList <+: o.toList ++ r) (h2 : ¬ "/*".toList <+: o.toList ++ r) :
    ∃ t b', readToken b = .tok t b' ∧ t.kind = o ∧ b'.rest = r := by
  obtain ⟨t, b', e, hk, _, hr'⟩ := C02_grammar h hr hsp (.op ho hmax h1 h2)
  exact ⟨t, b', e, hk, hr'⟩

/-! ## C04: progress -/

/-- **C04.** A token consumes at least a character, or it is the error about a
character no token begins with: then nothing is consumed and the same error is
read again and again. -/
theorem C04_progress [Unicode] {text : List Char} {b b' : Buf} {t : Token} (h : Calls text b)
    (ht : readToken b = .tok t b') :
    b'.rest.length < b.rest.length ∨
    (t.kind = "error" ∧ Stuck b'.rest ∧ readToken b' = .tok t b') := by
  have hb := (calls_inv h).1
  have hc := readToken_cases hb
  rw [ht] at hc
  cases hc with
  | token h1 h2 h3 h4 =>
    have := List.length_pos_iff.2 (lexeme_ne_nil h3)
    left; rw [h1]; simp only [List.length_append]; omega
  | @error sp lx n msg _ h1 h2 h3 h4 =>
    by_cases hlx : lx = []
    · subst hlx
      have := malformed_empty h3
      subst this
      have hst := malformed_stops h3
      have e2 := readToken_at (b := b') (sp := []) (s := b'.rest) rfl
        (fun _ h => absurd h (by simp)) hst
      have e3 := scan1_malformed h3
      rw [List.nil_append] at e3
      rw [e3] at e2
      have hp : b'.pos = posAt (b.past.reverse ++ sp ++ List.take 0 []) := by
        rw [h4.ok hb, h4.past]; simp
      refine .inr ⟨rfl, ⟨msg, h3⟩, ?_⟩
      rw [← hp]; exact e2
    · have := List.length_pos_iff.2 hlx
      left; rw [h1]; simp only [List.length_append]; omega

/-- **C04.** Any text is read in at most as many tokens as it has characters, up to
its end, to text that aborts the lexer, or to a character no token begins
with. -/
theorem C04_stops [Unicode] (text : List Char) :
    ∃ ts pre sp t, Run [] text ts pre (sp ++ t) ∧ ts.length ≤ text.length ∧ Blanks sp ∧
      (t = [] ∨ Crash t ∨ Stuck t) := by
  rcases outcome_total text.length [] text (Nat.le_refl _) with ⟨h1, h2⟩ | ⟨h1, h2, h3⟩ |
    ⟨h1, h2, h3⟩
  · rename_i ts pre sp
    have := run_length h1
    exact ⟨_, _, sp, [], by rw [List.append_nil]; exact h1, by omega, h2, .inl rfl⟩
  · have := run_length h1
    exact ⟨_, _, _, _, h1, by omega, h2, .inr (.inl h3)⟩
  · have := run_length h1
    exact ⟨_, _, _, _, h1, by omega, h2, .inr (.inr h3)⟩

/-- **C04.** The tokens of a text have no end exactly when a character that no token
begins with is reached. -/
theorem C04_endless [Unicode] (text : List Char) :
    lexAll text = .diverge ↔
      ∃ ts pre sp t, Run [] text ts pre (sp ++ t) ∧ Blanks sp ∧ Stuck t := by
  constructor
  · intro h
    rcases outcome_total text.length [] text (Nat.le_refl _) with ⟨h1, h2⟩ | ⟨h1, h2, h3⟩ |
      ⟨h1, h2, h3⟩
    · rw [lexAll_done h1 h2] at h; cases h
    · obtain ⟨m, hm⟩ := lexAll_crash h1 h2 h3
      rw [hm] at h; cases h
    · exact ⟨_, _, _, _, h1, h2, h3⟩
  · rintro ⟨ts, pre, sp, t, h1, h2, h3⟩
    exact lexAll_stuck h1 h2 h3

/-- **C04.** It is then endless for any number of reads. -/
theorem C04_stuck_forever [Unicode] {text : List Char} {ts pre sp t}
    (h : Run [] text ts pre (sp ++ t)) (hsp : Blanks sp) (ht : Stuck t) (n : Nat) :
    lexAllLoop n (Buf.new text) [] = .diverge := by
  obtain ⟨b, hb, hp, hr, e⟩ := lexAllLoop_run h (Buf.new text) (bufOk_new text) rfl rfl
  by_cases hn : ts.length ≤ n
  · rw [show n = (n - ts.length) + ts.length by omega, e]
    exact lexAllLoop_stuck hr hsp ht _ _
  · have hmono : ∀ n b acc k, lexAllLoop (n + k) b acc = .diverge → lexAllLoop n b acc = .diverge := by
      intro n
      induction n with
      | zero => intros; rfl
      | succ n ih =>
        intro b acc k h
        rw [show n + 1 + k = (n + k) + 1 by omega, lexAllLoop] at h
        rw [lexAllLoop]
        split at h
        · cases h
        · cases h
        · exact ih _ _ k h
    refine hmono n _ _ (ts.length - n) ?_
    rw [show n + (ts.length - n) = 0 + ts.length by omega, e]
    rfl

/-! ## C05: crashes -/

/-- Full statement of C05, which the code does not satisfy: no text aborts the
lexer. -/
def C05_full [Unicode] : Prop := ∀ text m, lexAll text ≠ .panic m

/-- **C05 (what holds instead).** The lexer aborts on a text exactly when, after
some tokens and blanks, the text *ends* with one of the `Crash` shapes: a number
and an exponent letter, an open string and a backslash, or an unfinished
character literal. -/
theorem C05_partial [Unicode] (text : List Char) :
    (∃ m, lexAll text = .panic m) ↔
      ∃ ts pre sp t, Run [] text ts pre (sp ++ t) ∧ Blanks sp ∧ Crash t := by
  constructor
  · rintro ⟨m, h⟩
    rcases outcome_total text.length [] text (Nat.le_refl _) with ⟨h1, h2⟩ | ⟨h1, h2, h3⟩ |
      ⟨h1, h2, h3⟩
    · rw [lexAll_done h1 h2] at h; cases h
    · exact ⟨_, _, _, _, h1, h2, h3⟩
    · rw [lexAll_stuck h1 h2 h3] at h; cases h
  · rintro ⟨ts, pre, sp, t, h1, h2, h3⟩
    exact lexAll_crash h1 h2 h3

/-- **C05 (one read).** -/
theorem C05_read_partial [Unicode] {text : List Char} {b : Buf} (h : Calls text b) :
    (∃ m, readToken b = .panic m) ↔ ∃ sp t, b.rest = sp ++ t ∧ Blanks sp ∧ Crash t := by
  constructor
  · rintro ⟨m, e⟩
    have hc := readToken_cases (calls_inv h).1
    rw [e] at hc
    cases hc with
    | crash h1 h2 h3 => exact ⟨_, _, h1, h2, h3⟩
  · rintro ⟨sp, t, h1, h2, h3⟩
    exact readToken_crash h1 h2 h3

/-- **C05 (consequence).** A file that ends with a line break after a character
other than a quote or a backslash never aborts the lexer. -/
theorem C05_final_newline [Unicode] (text : List Char) (c : Char) (h1 : c ≠ '\'') (h2 : c ≠ '\\')
    (m : String) : lexAll (text ++ [c, '\n']) ≠ .panic m := by
  intro hp
  obtain ⟨ts, pre, sp, t, hr, _, ht⟩ := (C05_partial _).1 ⟨m, hp⟩
  have e := run_text hr
  rw [List.nil_append, ← List.append_assoc] at e
  have e' := congrArg List.reverse e
  simp only [List.reverse_append, List.reverse_cons, List.reverse_nil, List.nil_append,
    List.singleton_append, List.cons_append] at e'
  cases ht with
  | exponent hm he =>
    simp at e'
    rcases he with rfl | rfl <;> simp at e'
  | string => simp at e'
  | quote => simp at e'
  | char =>
    simp at e'
    exact h1 e'.2.1
  | escChar =>
    simp at e'
    exact h2 e'.2.1

section Examples
attribute [local instance] asciiOnly

/-- Kinds, contents and positions of the tokens of a text. -/
def lexText (s : String) : String :=
  match lexAll s.toList with
  | .ok ts eof => String.join (ts.map (fun t => t.kind ++ " " ++ t.content ++ " " ++ t.pos.fmt ++ "|")) ++ eof.fmt
  | .panic m => "panic " ++ m
  | .diverge => "no end"

example : lexText "int x = 0x1F;\n// note\n\ty += \"a\" \"b\"" =
    "word int 1:1|word x 1:5|=  1:7|num 0x1F 1:9|;  1:13|word y 3:2|+=  3:4|string ab 3:7|3:14" := by
  decide +kernel
example : lexText "a+++b->c<<=1...." =
    "word a 1:1|++  1:2|+  1:4|word b 1:5|->  1:6|word c 1:8|<<=  1:9|num 1. 1:12|...  1:14|1:17" := by
  decide +kernel
example : lexText "x @ y" = "no end" := by decide +kernel

/-- **C05 counterexamples**: a number cut off after the exponent letter, a string
after a backslash, character literals. -/
theorem C05_counterexample : ¬ C05_full := by
  intro h
  exact h "x = 1e".toList "lexer.rs:124" (by decide +kernel)

example : lexText "x = 1e" = "panic lexer.rs:124" := by decide +kernel
example : lexText "x = \"ab\\" = "panic lexer.rs:174" := by decide +kernel
example : lexText "x = '" = "panic lexer.rs:235" := by decide +kernel
example : lexText "x = '\\n" = "panic lexer.rs:236" := by decide +kernel

end Examples
end Che.Props
