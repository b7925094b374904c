import Verif.Proofs.LexTotal
/-!
# Reading token after token
-/
namespace Che
open Spec

/-! ## Positions -/

/-- The buffer's position is that of the text consumed. -/
def BufOk (b : Buf) : Prop := b.pos = posAt b.past.reverse

theorem posAt_snoc (s : List Char) (c : Char) :
    posAt (s ++ [c]) = if c = '\n' then ⟨(posAt s).line + 1, 1⟩
      else ⟨(posAt s).line, (posAt s).col + 1⟩ := by
  by_cases h : c = '\n'
  · subst h
    simp [posAt, List.count_append]
    omega
  · have : (c != '\n') = true := by simpa using h
    simp only [h, if_false, posAt, List.count_append, List.reverse_append, List.reverse_singleton,
      List.singleton_append, List.takeWhile_cons, this, if_true, List.length_cons]
    congr 1
    · have : List.count '\n' [c] = 0 := List.count_eq_zero.2 (by simp; exact fun e => h e.symm)
      omega

theorem bufOk_new (s : List Char) : BufOk (Buf.new s) := rfl

theorem bufOk_get {b b' : Buf} {c : Char} (hb : BufOk b) (h : b.get = some (c, b')) : BufOk b' := by
  obtain ⟨past, rest, line, col⟩ := b
  cases rest with
  | nil => cases h
  | cons d cs =>
    simp only [BufOk, Buf.pos] at hb
    simp only [Buf.get] at h
    split at h
    · next hd =>
      cases h
      simp only [BufOk, Buf.pos, List.reverse_cons, posAt_snoc, if_pos hd, ← hb]
    · next hd =>
      cases h
      simp only [BufOk, Buf.pos, List.reverse_cons, posAt_snoc, if_neg hd, ← hb]

theorem bufOk_skipN {b : Buf} (hb : BufOk b) (n : Nat) : BufOk (b.skipN n) := by
  induction n generalizing b with
  | zero => exact hb
  | succ n ih =>
    rw [Buf.skipN]
    split
    · exact ih hb
    · next h => exact ih (bufOk_get hb h)

theorem pos_skipN {b : Buf} (hb : BufOk b) {w r : List Char} (h : b.rest = w ++ r) :
    (b.skipN w.length).pos = posAt (b.past.reverse ++ w) := by
  rw [bufOk_skipN hb w.length, Buf.past_skipN, h, List.take_left]
  simp

/-! ## One token -/

theorem lexeme_ne_nil [Unicode] {k c : String} {lx r : List Char} (h : Lexeme k c lx r) : lx ≠ [] := by
  cases h with
  | dec hm =>
    obtain ⟨c, t, rfl, _⟩ := mantissa_digit hm
    simp
  | str _ h => exact h
  | op ho =>
    obtain ⟨c, t, ht, _⟩ := operator_head ho
    rw [ht]; simp
  | _ => simp

theorem letter_not_blank {c : Char} (h : WordStart c) : ¬ Blank c := by
  rintro (rfl | rfl | rfl | rfl) <;> (revert h; unfold WordStart Letter; decide)

theorem digit_not_blank {c : Char} (h : Digit c) : ¬ Blank c := by
  rintro (rfl | rfl | rfl | rfl) <;> (revert h; unfold Digit; decide)

theorem lexeme_stops [Unicode] {k c : String} {lx r : List Char} (h : Lexeme k c lx r) :
    Stops Blank lx := by
  cases h with
  | dec hm =>
    obtain ⟨c, t, rfl, hc⟩ := mantissa_digit hm
    intro x hx; cases hx; exact digit_not_blank hc
  | str h => exact strParts_stops h
  | op ho =>
    obtain ⟨c, t, ht, _, _, _, _, _, _, hs⟩ := operator_head ho
    rw [ht]
    intro x hx; cases hx
    rw [← blank_iff]; exact hs
  | word hc => intro x hx; cases hx; exact letter_not_blank hc
  | keyword hc => intro x hx; cases hx; exact letter_not_blank hc
  | _ => intro x hx; cases hx; unfold Blank; decide

theorem malformed_stops [Unicode] {msg : String} {lx r : List Char} {n : Nat}
    (h : Malformed msg lx n r) : Stops Blank (lx ++ r) := by
  cases h with
  | number hm =>
    obtain ⟨c, t, rfl, hc⟩ := mantissa_digit hm
    intro x hx; cases hx; exact digit_not_blank hc
  | string h =>
    cases h with
    | nil => intro x hx; cases hx; unfold Blank; decide
    | part => intro x hx; cases hx; unfold Blank; decide
  | unknown h => intro x hx; cases hx; exact h
  | _ => intro x hx; cases hx; unfold Blank; decide

theorem crash_stops {s : List Char} (h : Crash s) : Stops Blank s := by
  cases h with
  | exponent hm =>
    obtain ⟨c, t, rfl, hc⟩ := mantissa_digit hm
    intro x hx; cases hx; exact digit_not_blank hc
  | string h =>
    cases h with
    | nil => intro x hx; cases hx; unfold Blank; decide
    | part => intro x hx; cases hx; unfold Blank; decide
  | _ => intro x hx; cases hx; unfold Blank; decide

/-- What is read at a place is decided by the text after the blanks. -/
theorem readToken_at [Unicode] {b : Buf} {sp s : List Char} (h : b.rest = sp ++ s) (hsp : Blanks sp)
    (hs : Stops Blank s) : readToken b = (scan1 s).place (b.skipN sp.length) := by
  have h1 : blanks b.rest = sp := by
    rw [blanks, h]; exact takeWhile_all (q := SPACES.contains) (fun _ => blank_iff) hsp hs
  have h2 : unblank b.rest = s := by
    rw [unblank, h]; exact dropWhile_all (q := SPACES.contains) (fun _ => blank_iff) hsp hs
  rw [readToken_eq, h1, h2]

/-- The buffer after some text was read. -/
structure After (b : Buf) (w : List Char) (b' : Buf) : Prop where
  rest : b.rest = w ++ b'.rest
  past : b'.past.reverse = b.past.reverse ++ w
  ok : BufOk b → BufOk b'

theorem after_skipN {b : Buf} {w r : List Char} (h : b.rest = w ++ r) :
    After b w (b.skipN w.length) ∧ (b.skipN w.length).rest = r := by
  have hr : (b.skipN w.length).rest = r := by rw [Buf.rest_skipN, h, List.drop_left]
  refine ⟨⟨by rw [hr, h], ?_, fun hb => bufOk_skipN hb _⟩, hr⟩
  rw [Buf.past_skipN, h, List.take_left]; simp

theorem readToken_lexeme [Unicode] {b : Buf} (hb : BufOk b) {sp lx r : List Char} {k c : String}
    (h : b.rest = sp ++ lx ++ r) (hsp : Blanks sp) (hl : Lexeme k c lx r) :
    ∃ b', readToken b = .tok ⟨k, c, posAt (b.past.reverse ++ sp)⟩ b' ∧ After b (sp ++ lx) b' ∧
      b'.rest = r := by
  have hs : Stops Blank (lx ++ r) := (lexeme_stops hl).append fun e => absurd e (lexeme_ne_nil hl)
  rw [readToken_at (by rw [h, List.append_assoc]) hsp hs, scan1_lexeme hl, Scan.place, Buf.skipN_zero,
    pos_skipN hb (by rw [h, List.append_assoc]), ← Buf.skipN_add, ← List.length_append]
  exact ⟨_, rfl, after_skipN h⟩

theorem readToken_malformed [Unicode] {b : Buf} (hb : BufOk b) {sp lx r : List Char} {msg : String}
    {n : Nat} (h : b.rest = sp ++ lx ++ r) (hsp : Blanks sp) (hl : Malformed msg lx n r) :
    ∃ b', readToken b = .tok ⟨"error", msg, posAt (b.past.reverse ++ sp ++ lx.take n)⟩ b' ∧
      After b (sp ++ lx) b' ∧ b'.rest = r := by
  rw [readToken_at (by rw [h, List.append_assoc]) hsp (malformed_stops hl), scan1_malformed hl,
    Scan.place, ← Buf.skipN_add, ← Buf.skipN_add, ← List.length_append]
  have hn : n ≤ lx.length := by
    cases hl <;> simp
  have hp : (b.skipN (sp.length + n)).pos = posAt (b.past.reverse ++ sp ++ lx.take n) := by
    have : b.rest = (sp ++ lx.take n) ++ (lx.drop n ++ r) := by
      rw [List.append_assoc, ← List.append_assoc (lx.take n), List.take_append_drop, h,
        List.append_assoc]
    rw [List.append_assoc, ← pos_skipN hb this, List.length_append, List.length_take,
      Nat.min_eq_left hn]
  rw [hp]
  exact ⟨_, rfl, after_skipN h⟩

theorem readToken_crash [Unicode] {b : Buf} {sp s : List Char} (h : b.rest = sp ++ s)
    (hsp : Blanks sp) (hs : Crash s) : ∃ m, readToken b = .panic m := by
  obtain ⟨m, hm⟩ := scan1_crash hs
  exact ⟨m, by rw [readToken_at h hsp (crash_stops hs), hm]; rfl⟩

theorem readToken_end [Unicode] {b : Buf} (h : Blanks b.rest) :
    ∃ b', readToken b = .eof b' ∧ After b b.rest b' ∧ b'.rest = [] := by
  rw [readToken_at (s := []) (by simp) h (fun c h => by cases h)]
  exact ⟨_, rfl, after_skipN (by simp)⟩

/-- What reading a token can give. -/
inductive ReadCase [Unicode] (b : Buf) : TokRes → Prop
  | eof {b'} : Blanks b.rest → After b b.rest b' → b'.rest = [] → ReadCase b (.eof b')
  | token {sp lx k c b'} : b.rest = sp ++ lx ++ b'.rest → Blanks sp → Lexeme k c lx b'.rest →
      After b (sp ++ lx) b' → ReadCase b (.tok ⟨k, c, posAt (b.past.reverse ++ sp)⟩ b')
  | error {sp lx n msg b'} : b.rest = sp ++ lx ++ b'.rest → Blanks sp →
      Malformed msg lx n b'.rest → After b (sp ++ lx) b' →
      ReadCase b (.tok ⟨"error", msg, posAt (b.past.reverse ++ sp ++ lx.take n)⟩ b')
  | crash {sp s m} : b.rest = sp ++ s → Blanks sp → Crash s → ReadCase b (.panic m)

theorem readToken_cases [Unicode] {b : Buf} (hb : BufOk b) : ReadCase b (readToken b) := by
  obtain ⟨sp, s, h, hsp, hs⟩ := spanC Blank b.rest
  rcases lex_total s hs with rfl | ⟨k, c, lx, r, rfl, hl⟩ | ⟨msg, lx, n, r, rfl, hl⟩ | hc
  · have hbl : Blanks b.rest := by rw [h, List.append_nil]; exact hsp
    obtain ⟨b', e, ha, hr⟩ := readToken_end hbl
    rw [e]; exact .eof hbl ha hr
  · rw [← List.append_assoc] at h
    obtain ⟨b', e, ha, rfl⟩ := readToken_lexeme hb h hsp hl
    rw [e]; exact .token h hsp hl ha
  · rw [← List.append_assoc] at h
    obtain ⟨b', e, ha, rfl⟩ := readToken_malformed hb h hsp hl
    rw [e]; exact .error h hsp hl ha
  · obtain ⟨m, e⟩ := readToken_crash h hsp hc
    rw [e]; exact .crash h hsp hc

/-! ## Many tokens -/

theorem run_append [Unicode] {pre s ts pre' s' ts' pre'' s''} (h : Run pre s ts pre' s')
    (h' : Run pre' s' ts' pre'' s'') : Run pre s (ts ++ ts') pre'' s'' := by
  induction h with
  | nil => exact h'
  | token hsp hl _ ih => exact .token hsp hl (ih h')
  | error hsp hm hne _ ih => exact .error hsp hm hne (ih h')

theorem run_text [Unicode] {pre s ts pre' s'} (h : Run pre s ts pre' s') :
    pre ++ s = pre' ++ s' := by
  induction h with
  | nil => rfl
  | token _ _ _ ih => rw [← ih]; simp
  | error _ _ _ _ ih => rw [← ih]; simp

theorem run_length [Unicode] {pre s ts pre' s'} (h : Run pre s ts pre' s') :
    ts.length + s'.length ≤ s.length := by
  induction h with
  | nil => simp
  | token _ hl _ ih =>
    have := List.length_pos_iff.2 (lexeme_ne_nil hl)
    simp only [List.length_cons, List.length_append]; omega
  | error _ _ hne _ ih =>
    have := List.length_pos_iff.2 hne
    simp only [List.length_cons, List.length_append]; omega

/-- The run of the reading loop along tokens of the grammar. -/
theorem lexAllLoop_run [Unicode] {pre s ts pre' s'} (h : Run pre s ts pre' s') (b : Buf)
    (hb : BufOk b) (hp : b.past.reverse = pre) (hr : b.rest = s) :
    ∃ b', BufOk b' ∧ b'.past.reverse = pre' ∧ b'.rest = s' ∧ ∀ n acc,
      lexAllLoop (n + ts.length) b acc = lexAllLoop n b' ((significant ts).reverse ++ acc) := by
  induction h generalizing b with
  | nil => exact ⟨b, hb, hp, hr, fun n acc => by simp [significant]⟩
  | @token pre sp lx r k c ts pre' s' hsp hl _ ih =>
    obtain ⟨b1, e1, ha, hr1⟩ := readToken_lexeme hb hr hsp hl
    obtain ⟨b', hb', hp', hr', e⟩ := ih b1 (ha.ok hb) (by rw [ha.past, hp]; simp) hr1
    refine ⟨b', hb', hp', hr', fun n acc => ?_⟩
    rw [List.length_cons, ← Nat.add_assoc, lexAllLoop, e1]
    simp only [e, significant]
    by_cases hk : k = "comment"
    · simp [hk]
    · simp [hk, hp]
  | @error pre sp lx n r msg ts pre' s' hsp hm hne _ ih =>
    obtain ⟨b1, e1, ha, hr1⟩ := readToken_malformed hb hr hsp hm
    obtain ⟨b', hb', hp', hr', e⟩ := ih b1 (ha.ok hb) (by rw [ha.past, hp]; simp) hr1
    refine ⟨b', hb', hp', hr', fun n acc => ?_⟩
    rw [List.length_cons, ← Nat.add_assoc, lexAllLoop, e1]
    simp only [e, significant]
    simp [hp]

/-- At an unknown character the loop runs for ever. -/
theorem stuck_again [Unicode] {b : Buf} {sp s : List Char} (h : b.rest = sp ++ s)
    (hsp : Blanks sp) (hs : Stuck s) :
    ∃ t b', readToken b = .tok t b' ∧ t.kind = "error" ∧ b'.rest = s ∧
      readToken b' = .tok t b' := by
  obtain ⟨msg, hm⟩ := hs
  have hst := malformed_stops hm
  have e := scan1_malformed hm
  rw [List.nil_append] at hst e
  have h1 := readToken_at h hsp hst
  have hr : (b.skipN sp.length).rest = s := by rw [Buf.rest_skipN, h, List.drop_left]
  have h2 := readToken_at (b := b.skipN sp.length) (sp := []) hr (fun _ h => absurd h (by simp)) hst
  rw [e] at h1 h2
  exact ⟨_, _, h1, rfl, hr, h2⟩

theorem lexAllLoop_fixed [Unicode] {b : Buf} {t : Token} (h : readToken b = .tok t b) (n : Nat)
    (acc : List Token) : lexAllLoop n b acc = .diverge := by
  induction n generalizing acc with
  | zero => rfl
  | succ n ih => rw [lexAllLoop, h]; exact ih _

theorem lexAllLoop_stuck [Unicode] {b : Buf} {sp s : List Char} (h : b.rest = sp ++ s)
    (hsp : Blanks sp) (hs : Stuck s) (n : Nat) (acc : List Token) :
    lexAllLoop n b acc = .diverge := by
  cases n with
  | zero => rfl
  | succ n =>
    obtain ⟨t, b', e1, _, _, e2⟩ := stuck_again h hsp hs
    rw [lexAllLoop, e1]
    exact lexAllLoop_fixed e2 n _

theorem malformed_empty [Unicode] {msg : String} {n : Nat} {r : List Char}
    (h : Malformed msg [] n r) : n = 0 := by
  generalize hl : ([] : List Char) = lx at h
  cases h with
  | number hm =>
    obtain ⟨c, t, rfl, _⟩ := mantissa_digit hm
    simp at hl
  | _ => first | rfl | (simp at hl; done)

/-- How reading a whole text can go. -/
inductive Outcome [Unicode] (pre s : List Char) : Prop
  | done {ts pre' sp} : Run pre s ts pre' sp → Blanks sp → Outcome pre s
  | crash {ts pre' sp t} : Run pre s ts pre' (sp ++ t) → Blanks sp → Crash t → Outcome pre s
  | stuck {ts pre' sp t} : Run pre s ts pre' (sp ++ t) → Blanks sp → Stuck t → Outcome pre s

theorem outcome_total [Unicode] (n : Nat) (pre s : List Char) (hn : s.length ≤ n) :
    Outcome pre s := by
  induction n generalizing pre s with
  | zero =>
    have : s = [] := List.length_eq_zero_iff.1 (by omega)
    subst this
    exact .done .nil (fun _ h => absurd h (by simp))
  | succ n ih =>
    obtain ⟨sp, t, rfl, hsp, ht⟩ := spanC Blank s
    rcases lex_total t ht with rfl | ⟨k, c, lx, r, rfl, hl⟩ | ⟨msg, lx, m, r, rfl, hl⟩ | hc
    · exact .done .nil (by rw [List.append_nil]; exact hsp)
    · have := List.length_pos_iff.2 (lexeme_ne_nil hl)
      rw [← List.append_assoc] at hn ⊢
      simp only [List.length_append] at hn
      rcases ih (pre ++ sp ++ lx) r (by omega) with ⟨h1, h2⟩ | ⟨h1, h2, h3⟩ | ⟨h1, h2, h3⟩
      · exact .done (.token hsp hl h1) h2
      · exact .crash (.token hsp hl h1) h2 h3
      · exact .stuck (.token hsp hl h1) h2 h3
    · by_cases hlx : lx = []
      · subst hlx
        have := malformed_empty hl
        subst this
        exact .stuck .nil hsp ⟨msg, hl⟩
      · have := List.length_pos_iff.2 hlx
        rw [← List.append_assoc] at hn ⊢
        simp only [List.length_append] at hn
        rcases ih (pre ++ sp ++ lx) r (by omega) with ⟨h1, h2⟩ | ⟨h1, h2, h3⟩ | ⟨h1, h2, h3⟩
        · exact .done (.error hsp hl hlx h1) h2
        · exact .crash (.error hsp hl hlx h1) h2 h3
        · exact .stuck (.error hsp hl hlx h1) h2 h3
    · exact .crash .nil hsp hc

theorem lexAll_done [Unicode] {s ts pre sp} (h : Run [] s ts pre sp) (hsp : Blanks sp) :
    lexAll s = .ok (significant ts) (posAt s) := by
  obtain ⟨b, hb, hp, hr, e⟩ := lexAllLoop_run h (Buf.new s) (bufOk_new s) rfl rfl
  have hl := run_length h
  rw [lexAll, show s.length + 1 = (s.length - ts.length + 1) + ts.length by omega, e, lexAllLoop]
  rw [← hr] at hsp
  obtain ⟨b', e', ha, _⟩ := readToken_end hsp
  rw [e']
  simp only [List.append_nil, List.reverse_reverse, LexAll.ok.injEq, true_and]
  rw [ha.ok hb, ha.past, hp, hr, ← run_text h, List.nil_append]

theorem lexAll_crash [Unicode] {s ts pre sp t} (h : Run [] s ts pre (sp ++ t)) (hsp : Blanks sp)
    (ht : Crash t) : ∃ m, lexAll s = .panic m := by
  obtain ⟨b, hb, hp, hr, e⟩ := lexAllLoop_run h (Buf.new s) (bufOk_new s) rfl rfl
  have hl := run_length h
  obtain ⟨m, hm⟩ := readToken_crash hr hsp ht
  refine ⟨m, ?_⟩
  rw [lexAll, show s.length + 1 = (s.length - ts.length + 1) + ts.length by omega, e, lexAllLoop, hm]

theorem lexAll_stuck [Unicode] {s ts pre sp t} (h : Run [] s ts pre (sp ++ t)) (hsp : Blanks sp)
    (ht : Stuck t) : lexAll s = .diverge := by
  obtain ⟨b, hb, hp, hr, e⟩ := lexAllLoop_run h (Buf.new s) (bufOk_new s) rfl rfl
  have hl := run_length h
  rw [lexAll, show s.length + 1 = (s.length - ts.length + 1) + ts.length by omega, e]
  exact lexAllLoop_stuck hr hsp ht _ _

end Che
