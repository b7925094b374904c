import Verif.Proofs.LexScan
import Verif.Spec.Lex
import Mathlib.Tactic.IntervalCases
/-!
# The lexical grammar decides what `scan1` returns
-/
namespace Che
open Spec

/-! ## Character classes -/

theorem le_char {a b : Char} : a ≤ b ↔ a.toNat ≤ b.toNat := Iff.rfl

theorem char_of_toNat {c d : Char} (h : c.toNat = d.toNat) : c = d := by
  rw [← Char.ofNat_toNat c, h, Char.ofNat_toNat]

theorem digit_iff {c : Char} : DIGITS.contains c = true ↔ Digit c := by
  simp only [DIGITS, List.contains_iff_mem, List.mem_cons, List.not_mem_nil, or_false, Digit, le_char]
  constructor
  · rintro (h | h | h | h | h | h | h | h | h | h) <;> subst h <;> decide
  · intro ⟨h1, h2⟩
    have h1 : 48 ≤ c.toNat := h1
    have h2 : c.toNat ≤ 57 := h2
    have : c.toNat = 48 ∨ c.toNat = 49 ∨ c.toNat = 50 ∨ c.toNat = 51 ∨ c.toNat = 52 ∨
      c.toNat = 53 ∨ c.toNat = 54 ∨ c.toNat = 55 ∨ c.toNat = 56 ∨ c.toNat = 57 := by omega
    rcases this with h | h | h | h | h | h | h | h | h | h
    · exact .inl (char_of_toNat h)
    · exact .inr (.inl (char_of_toNat h))
    · exact .inr (.inr (.inl (char_of_toNat h)))
    · exact .inr (.inr (.inr (.inl (char_of_toNat h))))
    · exact .inr (.inr (.inr (.inr (.inl (char_of_toNat h)))))
    · exact .inr (.inr (.inr (.inr (.inr (.inl (char_of_toNat h))))))
    · exact .inr (.inr (.inr (.inr (.inr (.inr (.inl (char_of_toNat h)))))))
    · exact .inr (.inr (.inr (.inr (.inr (.inr (.inr (.inl (char_of_toNat h))))))))
    · exact .inr (.inr (.inr (.inr (.inr (.inr (.inr (.inr (.inl (char_of_toNat h)))))))))
    · exact .inr (.inr (.inr (.inr (.inr (.inr (.inr (.inr (.inr (char_of_toNat h)))))))))

theorem hex_iff {c : Char} : HEXDIGITS.contains c = true ↔ HexDigit c := by
  have e : HEXDIGITS = DIGITS ++ ['A', 'B', 'C', 'D', 'E', 'F', 'a', 'b', 'c', 'd', 'e', 'f'] := rfl
  rw [e, List.contains_iff_mem, List.mem_append, ← List.contains_iff_mem, digit_iff, HexDigit]
  refine or_congr Iff.rfl ?_
  simp only [List.mem_cons, List.not_mem_nil, or_false, le_char]
  constructor
  · rintro (h | h | h | h | h | h | h | h | h | h | h | h) <;> subst h <;> decide
  · intro h
    have hx : c.toNat = 65 ∨ c.toNat = 66 ∨ c.toNat = 67 ∨ c.toNat = 68 ∨ c.toNat = 69 ∨
      c.toNat = 70 ∨ c.toNat = 97 ∨ c.toNat = 98 ∨ c.toNat = 99 ∨ c.toNat = 100 ∨
      c.toNat = 101 ∨ c.toNat = 102 := by
      simp only [Char.reduceToNat] at h; omega
    refine hx.imp ?_ (Or.imp ?_ (Or.imp ?_ (Or.imp ?_ (Or.imp ?_ (Or.imp ?_ (Or.imp ?_
      (Or.imp ?_ (Or.imp ?_ (Or.imp ?_ (Or.imp ?_ ?_)))))))))) <;> exact fun h => char_of_toNat h

theorem blank_iff {c : Char} : SPACES.contains c = true ↔ Blank c := by
  simp only [SPACES, List.contains_iff_mem, List.mem_cons, List.not_mem_nil, or_false, Blank]
  tauto

theorem isDigit_iff {c : Char} : c.isDigit = true ↔ Digit c := by
  simp [Char.isDigit, Digit, Char.le_def]

theorem isAlpha_iff {c : Char} : c.isAlpha = true ↔ Letter c := by
  simp [Char.isAlpha, Char.isUpper, Char.isLower, Letter, Char.le_def, or_comm]

theorem suffix_iff {dot : Bool} {c : Char} : (suffixSet dot).contains c = true ↔ Suffix dot c := by
  cases dot <;> simp [suffixSet, Suffix]

theorem wordChar_iff [Unicode] {c : Char} :
    (!isAlphanumeric c && c != '_') = false ↔ WordChar c := by
  cases h : isAlphanumeric c <;> simp [WordChar, h]

/-! ## Reading while a class lasts -/

theorem takeWhile_all {p : Char → Prop} {q : Char → Bool} (hq : ∀ c, q c = true ↔ p c)
    {a r : List Char} (ha : All p a) (hr : Stops p r) : (a ++ r).takeWhile q = a := by
  induction a with
  | nil =>
    cases r with
    | nil => rfl
    | cons c r =>
      have := hr c rfl
      rw [← hq] at this
      simp [List.takeWhile_cons, this]
  | cons c a ih =>
    have hc := (hq c).2 (ha c (by simp))
    rw [List.cons_append, List.takeWhile_cons, if_pos hc, ih (fun d hd => ha d (by simp [hd]))]

theorem dropWhile_all {p : Char → Prop} {q : Char → Bool} (hq : ∀ c, q c = true ↔ p c)
    {a r : List Char} (ha : All p a) (hr : Stops p r) : (a ++ r).dropWhile q = r := by
  rw [← drop_takeWhile, takeWhile_all hq ha hr, List.drop_left]

/-- Any text is a stretch of a class followed by something else. -/
theorem span (p : Char → Prop) [DecidablePred p] (s : List Char) :
    ∃ a r, s = a ++ r ∧ All p a ∧ Stops p r := by
  induction s with
  | nil => exact ⟨[], [], rfl, fun _ h => absurd h (by simp), fun _ h => by simp at h⟩
  | cons c s ih =>
    by_cases hc : p c
    · obtain ⟨a, r, rfl, ha, hr⟩ := ih
      refine ⟨c :: a, r, rfl, ?_, hr⟩
      intro d hd
      rcases List.mem_cons.1 hd with rfl | hd
      · exact hc
      · exact ha d hd
    · refine ⟨[], c :: s, rfl, fun _ h => absurd h (by simp), ?_⟩
      intro d hd; cases hd; exact hc

theorem spanC (p : Char → Prop) (s : List Char) :
    ∃ a r, s = a ++ r ∧ All p a ∧ Stops p r := by
  classical exact span p s

theorem Spec.Stops.append {p : Char → Prop} {a r : List Char} (ha : Stops p a)
    (hr : a = [] → Stops p r) : Stops p (a ++ r) := by
  cases a with
  | nil => exact hr rfl
  | cons c a => exact ha

theorem Spec.Stops.mono {p q : Char → Prop} {r : List Char} (h : Stops p r) (hpq : ∀ c, q c → p c) :
    Stops q r := fun c hc hq => h c hc (hpq c hq)

theorem notNewline_iff {c : Char} : (c != '\n') = true ↔ c ≠ '\n' := by simp

theorem takeWhile_line {w r : List Char} (hw : NoNewline w) (hr : LineEnd r) :
    (w ++ r).takeWhile (· != '\n') = w :=
  takeWhile_all (p := (· ≠ '\n')) (fun _ => notNewline_iff)
    (fun c hc e => hw (e ▸ hc)) (fun c hc h => h (hr c hc))

/-- Any text is a line and what follows it. -/
theorem line_split (s : List Char) : ∃ w r, s = w ++ r ∧ NoNewline w ∧ LineEnd r := by
  obtain ⟨w, r, rfl, hw, hr⟩ := spanC (· ≠ '\n') s
  exact ⟨w, r, rfl, fun h => hw _ h rfl, fun c hc => Classical.not_not.1 (hr c hc)⟩

/-! ## The grammar determines `scan1` -/

theorem isPrefixOf_iff {a b : List Char} : a.isPrefixOf b = true ↔ a <+: b := List.isPrefixOf_iff_prefix

theorem all_cons {p : Char → Prop} {c : Char} {s : List Char} : All p (c :: s) ↔ p c ∧ All p s := by
  simp [All]

theorem all_append {p : Char → Prop} {a b : List Char} : All p (a ++ b) ↔ All p a ∧ All p b := by
  simp [All, or_imp, forall_and]

theorem mantissa_eq {dot : Bool} {m r : List Char} (hm : Mantissa dot m)
    (hr : Stops (fun c => Digit c ∨ (dot = false ∧ c = '.')) r) : mantissa (m ++ r) = (m, dot) := by
  cases hm with
  | whole _ hd =>
    have h1 := takeWhile_all (q := DIGITS.contains) (fun _ => digit_iff) hd (hr.mono fun _ => .inl)
    have h2 := dropWhile_all (q := DIGITS.contains) (fun _ => digit_iff) hd (hr.mono fun _ => .inl)
    simp only [mantissa, h1, h2]
    split
    · next h => exact absurd (.inr ⟨rfl, rfl⟩) (hr '.' (by simp))
    · rfl
  | @dotted d f _ hd hf =>
    have hs : Stops Digit ('.' :: f ++ r) := by
      intro c hc; cases hc; unfold Digit; decide
    have h1 := takeWhile_all (q := DIGITS.contains) (fun _ => digit_iff) hd hs
    have h2 := dropWhile_all (q := DIGITS.contains) (fun _ => digit_iff) hd hs
    rw [List.cons_append] at h1 h2
    rw [List.append_assoc]
    simp only [mantissa, h1, h2, List.cons_append,
      takeWhile_all (q := DIGITS.contains) (fun _ => digit_iff) hf (hr.mono fun _ => .inl)]

theorem exponent_eq {e r : List Char} (he : Exponent e r) : exponent (e ++ r) = some e := by
  cases he with
  | none h =>
    cases r with
    | nil => rfl
    | cons c r =>
      have := h c rfl
      simp only [List.nil_append, exponent]
      rw [if_neg (show ¬ (c = 'e' ∨ c = 'E') from this)]
  | @plus e d r he hd hs hm hne =>
    simp only [List.cons_append, exponent]
    rw [if_pos (show _ = 'e' ∨ _ = 'E' from he)]
    cases hdr : d ++ r with
    | nil => exact absurd hdr hne
    | cons c t =>
      have hc : c ≠ '-' := hm c (by rw [hdr]; rfl)
      simp only
      rw [if_neg hc, ← hdr, takeWhile_all (q := DIGITS.contains) (fun _ => digit_iff) hd hs]
  | minus he hd hs =>
    simp only [List.cons_append, exponent]
    rw [if_pos (show _ = 'e' ∨ _ = 'E' from he)]
    simp only [if_true, takeWhile_all (q := DIGITS.contains) (fun _ => digit_iff) hd hs]

theorem letter_not_digit {c : Char} (h : Digit c) : ¬ WordStart c := by
  rintro ((⟨h1, _⟩ | ⟨h1, _⟩) | rfl)
  · have : (97 : Nat) ≤ c.toNat := h1
    have : c.toNat ≤ 57 := h.2
    omega
  · have : (65 : Nat) ≤ c.toNat := h1
    have : c.toNat ≤ 57 := h.2
    omega
  · revert h; unfold Digit; decide

theorem strBody_eq {w r : List Char} (hw : StrBody w) : strBody (w ++ '"' :: r) = some w := by
  induction hw with
  | nil => rw [List.nil_append, strBody.eq_def]; rfl
  | plain h1 h2 _ ih =>
    rw [List.cons_append, strBody.eq_def]
    simp [h1, h2, ih]
  | escaped _ ih =>
    rw [List.cons_append, List.cons_append, strBody.eq_def]
    simp [ih]

theorem strBody_open {w : List Char} (hw : StrBody w) : strBody w = some w := by
  induction hw with
  | nil => rw [strBody.eq_def]
  | plain h1 h2 _ ih =>
    rw [strBody.eq_def]
    simp [h1, h2, ih]
  | escaped _ ih =>
    rw [strBody.eq_def]
    simp [ih]

theorem strBody_crash {w : List Char} (hw : StrBody w) : strBody (w ++ ['\\']) = none := by
  induction hw with
  | nil => rw [List.nil_append, strBody.eq_def]; rfl
  | plain h1 h2 _ ih =>
    rw [List.cons_append, strBody.eq_def]
    simp [h1, h2, ih]
  | escaped _ ih =>
    rw [List.cons_append, List.cons_append, strBody.eq_def]
    simp [ih]

/-- What the parts read so far leave to do. -/
theorem scanParts_append {s t r : List Char} (h : StrParts s t) (hr : Stops Blank r)
    (k : Nat) (hk : t.length ≤ k) (s0 : List Char) (n : Nat) :
    ∃ k', k - t.length ≤ k' ∧
      scanParts k s0 n (t ++ r) = scanParts k' (s0 ++ s) (n + t.length) r := by
  induction h generalizing k s0 n with
  | nil => exact ⟨k, by simp, by simp⟩
  | @part w sp s t hw hsp ht _ ih =>
    cases k with
    | zero => simp at hk
    | succ k =>
      have hst : Stops Blank (t ++ r) := ht.append fun _ => hr
      have hd : (w ++ '"' :: (sp ++ (t ++ r))).drop w.length = '"' :: (sp ++ (t ++ r)) := by simp
      have hl : ('"' :: w ++ '"' :: sp ++ t).length = 2 + w.length + sp.length + t.length := by
        simp only [List.length_cons, List.length_append]; omega
      rw [hl] at hk ⊢
      obtain ⟨k', hk', e⟩ := ih k (by omega) (s0 ++ w) (n + 2 + w.length + sp.length)
      refine ⟨k', by omega, ?_⟩
      have hx : '"' :: w ++ '"' :: sp ++ t ++ r = '"' :: (w ++ '"' :: (sp ++ (t ++ r))) := by simp
      rw [hx, scanParts, strBody_eq hw]
      simp only [hd, takeWhile_all (q := SPACES.contains) (fun _ => blank_iff) hsp hst, List.drop_left]
      simp only [ne_eq, not_true_eq_false, if_false]
      rw [e, List.append_assoc]
      congr 1; omega

theorem scanParts_stop {k : Nat} {s r : List Char} {n : Nat} (hr : r.head? ≠ some '"') :
    scanParts k s n r = .tok "string" (String.ofList s) 0 n := by
  cases k with
  | zero => rfl
  | succ k =>
    unfold scanParts
    split
    · next h => cases h
    · next h => simp at h ⊢; simp [← h] at hr
    · next h => simp_all

theorem strParts_stops {s t : List Char} (h : StrParts s t) : Stops Blank t := by
  cases h with
  | nil => intro c hc; simp at hc
  | part => intro c hc; cases hc; unfold Blank; decide

theorem scanString_eq {s t r : List Char} (h : StrParts s t)
    (hr : Stops (fun c => Blank c ∨ c = '"') r) :
    scanString (t ++ r) = .tok "string" (String.ofList s) 0 t.length := by
  obtain ⟨k', _, e⟩ := scanParts_append h (hr.mono fun _ => .inl) (t ++ r).length (by simp) [] 0
  rw [scanString, e, scanParts_stop]
  · simp
  · intro he; exact hr _ he (.inr rfl)

theorem scanString_open {s t w : List Char} (h : StrParts s t) (hw : StrBody w) :
    scanString (t ++ '"' :: w) = .tok "error" "Double quote expected" 0 (t ++ '"' :: w).length := by
  obtain ⟨k', hk, e⟩ := scanParts_append (r := '"' :: w) h
    (by intro c hc; cases hc; unfold Blank; decide) (t ++ '"' :: w).length (by simp) [] 0
  rw [scanString, e]
  cases k' with
  | zero => simp at hk
  | succ k' =>
    rw [scanParts, strBody_open hw]
    simp only [List.drop_length]
    simp; omega

theorem scanString_crash {s t w : List Char} (h : StrParts s t) (hw : StrBody w) :
    scanString (t ++ '"' :: w ++ ['\\']) = .panic "lexer.rs:174" := by
  have hx : t ++ '"' :: w ++ ['\\'] = t ++ '"' :: (w ++ ['\\']) := by simp
  rw [hx]
  obtain ⟨k', hk, e⟩ := scanParts_append (r := '"' :: (w ++ ['\\'])) h
    (by intro c hc; cases hc; unfold Blank; decide) (t ++ '"' :: (w ++ ['\\'])).length (by simp) [] 0
  rw [scanString, e]
  cases k' with
  | zero => simp at hk
  | succ k' => rw [scanParts, strBody_crash hw]

/-! ### Words -/

theorem bang_not_word [Unicode] : ¬ WordChar '!' := by
  unfold WordChar isAlphanumeric; simp

theorem wordStart_wordChar [Unicode] {c : Char} (h : WordStart c) : WordChar c := by
  rcases h with h | h
  · refine .inl ?_
    have h' : c.isAlpha = true := isAlpha_iff.2 h
    have hv : c.toNat < 128 := by
      rcases h with ⟨_, h⟩ | ⟨_, h⟩
      · have : c.toNat ≤ 122 := h
        omega
      · have : c.toNat ≤ 90 := h
        omega
    simp [isAlphanumeric, Char.isAlphanum, h', hv]
  · exact .inr h

theorem wordTail_eq [Unicode] {acc w r : List Char} (hw : All WordChar w) (hr : Stops WordChar r)
    (hc : ¬ (acc ++ w = "calloc".toList ∧ r.head? = some '!')) : wordTail acc (w ++ r) = w := by
  induction w generalizing acc with
  | nil =>
    cases r with
    | nil => rfl
    | cons c r =>
      have h1 := hr c rfl
      rw [List.nil_append, wordTail, if_neg, if_pos]
      · rw [← wordChar_iff] at h1; simpa using h1
      · rintro ⟨rfl, rfl⟩; exact hc ⟨rfl, rfl⟩
  | cons c w ih =>
    have h1 := hw c (by simp)
    rw [List.cons_append, wordTail, if_neg, if_neg]
    · rw [ih (fun d hd => hw d (by simp [hd])) (by simpa using hc)]
    · rw [wordChar_iff.2 h1]; simp
    · rintro ⟨_, rfl⟩; exact bang_not_word h1

theorem wordTail_calloc [Unicode] (r : List Char) :
    wordTail [] ("calloc!".toList ++ r) = "calloc!".toList := by
  have h : ∀ c ∈ ['c', 'a', 'l', 'o'], (!isAlphanumeric c && c != '_') = false := by
    intro c hc
    refine wordChar_iff.2 (wordStart_wordChar (.inl ?_))
    simp only [List.mem_cons, List.not_mem_nil, or_false] at hc
    rcases hc with rfl | rfl | rfl | rfl <;> (unfold Letter; decide)
  show wordTail [] ('c' :: 'a' :: 'l' :: 'l' :: 'o' :: 'c' :: '!' :: r) = _
  simp only [List.mem_cons, List.not_mem_nil, or_false, forall_eq_or_imp, forall_eq] at h
  obtain ⟨h1, h2, h3, h4⟩ := h
  simp only [wordTail, h1, h2, h3, h4]
  simp

theorem reserved_iff {s : String} : KEYWORDS.contains s = true ↔ s ∈ reserved := by
  have h1 : ∀ s ∈ KEYWORDS, s ∈ reserved := by decide
  have h2 : ∀ s ∈ reserved, s ∈ KEYWORDS := by decide
  rw [List.contains_iff_mem]
  exact ⟨h1 s, h2 s⟩

/-! ### Operators -/

theorem symbols_iff {s : String} : s ∈ SYMBOLS ↔ s ∈ operators := by
  have h1 : ∀ s ∈ SYMBOLS, s ∈ operators := by decide
  have h2 : ∀ s ∈ operators, s ∈ SYMBOLS := by decide
  exact ⟨h1 s, h2 s⟩

theorem find_longest {l : List String} {p : String → Bool} {o : String}
    (hl : l.Pairwise (fun a b => b.length ≤ a.length)) (h : l.find? p = some o) :
    ∀ o' ∈ l, p o' = true → o'.length ≤ o.length := by
  induction l with
  | nil => intro o' ho'; simp at ho'
  | cons a l ih =>
    intro o' ho' hp
    rw [List.find?_cons] at h
    rw [List.pairwise_cons] at hl
    cases ha : p a with
    | true =>
      rw [ha] at h
      cases h
      rcases List.mem_cons.1 ho' with rfl | ho'
      · exact Nat.le_refl _
      · exact hl.1 _ ho'
    | false =>
      rw [ha] at h
      rcases List.mem_cons.1 ho' with rfl | ho'
      · rw [hp] at ha; cases ha
      · exact ih hl.2 h o' ho' hp

/-- The operator found is the longest that fits. -/
theorem symbolAt_spec {s : List Char} {o : String} (h : symbolAt SYMBOLS s = some o) :
    o ∈ operators ∧ o.toList <+: s ∧ ∀ o' ∈ operators, o'.toList <+: s → o'.length ≤ o.length := by
  refine ⟨symbols_iff.1 (List.mem_of_find?_eq_some h), ?_, ?_⟩
  · have := List.find?_some (p := fun sym : String => sym.toList.isPrefixOf s) h
    exact isPrefixOf_iff.1 this
  · intro o' ho' hp
    exact find_longest (by decide) h o' (symbols_iff.2 ho') (isPrefixOf_iff.2 hp)

theorem string_eq_of_prefix {a b : String} {s : List Char} (ha : a.toList <+: s) (hb : b.toList <+: s)
    (hl : a.length = b.length) : a = b := by
  have : a.toList = b.toList := by
    rw [List.prefix_iff_eq_take.1 ha, List.prefix_iff_eq_take.1 hb]
    simp only [String.length_toList, hl]
  exact String.toList_injective this

theorem symbolAt_eq {s : List Char} {o : String} (ho : o ∈ operators) (hp : o.toList <+: s)
    (hmax : ∀ o' ∈ operators, o'.toList <+: s → o'.length ≤ o.length) :
    symbolAt SYMBOLS s = some o := by
  cases h : symbolAt SYMBOLS s with
  | none =>
    rw [symbolAt, List.find?_eq_none] at h
    exact absurd (isPrefixOf_iff.2 hp) (h o (symbols_iff.2 ho))
  | some o' =>
    obtain ⟨h1, h2, h3⟩ := symbolAt_spec h
    rw [string_eq_of_prefix h2 hp (Nat.le_antisymm (hmax o' h1 h2) (h3 o ho hp))]

/-- Operators begin with punctuation. -/
theorem operator_head {o : String} (ho : o ∈ operators) :
    ∃ c t, o.toList = c :: t ∧ c.isAlpha = false ∧ c.isDigit = false ∧ c ≠ '_' ∧ c ≠ '"' ∧
      c ≠ '\'' ∧ c ≠ '#' ∧ ¬ SPACES.contains c = true := by
  have h : ∀ o ∈ operators, (match o.toList with
    | [] => false
    | c :: _ => !c.isAlpha && !c.isDigit && c != '_' && c != '"' && c != '\'' && c != '#' &&
        !SPACES.contains c) = true := by decide
  have := h o ho
  cases ht : o.toList with
  | nil => rw [ht] at this; cases this
  | cons c t =>
    rw [ht] at this
    simp only [Bool.and_eq_true, Bool.not_eq_true', bne_iff_ne] at this
    obtain ⟨⟨⟨⟨⟨⟨h1, h2⟩, h3⟩, h4⟩, h5⟩, h6⟩, h7⟩ := this
    exact ⟨c, t, rfl, h1, h2, h3, h4, h5, h6, by rw [h7]; simp⟩

/-! ### Which reader is called -/

theorem not_import {c : Char} {t : List Char} (h : c ≠ '#') : ¬ IMPORT.isPrefixOf (c :: t) = true := by
  rw [isPrefixOf_iff, IMPORT]
  rintro ⟨r, hr⟩
  simp at hr
  exact h hr.1.symm

theorem not_slash {c d : Char} {t : List Char} (h : c ≠ '/') :
    ¬ ['/', d].isPrefixOf (c :: t) = true := by
  rw [isPrefixOf_iff]
  rintro ⟨r, hr⟩
  simp at hr
  exact h hr.1.symm

theorem scan1_word [Unicode] {c : Char} {t : List Char} (h : WordStart c) :
    scan1 (c :: t) = scanWord (c :: t) := by
  have h1 : c ≠ '#' := by rintro rfl; revert h; unfold WordStart Letter; decide
  have h2 : c ≠ '/' := by rintro rfl; revert h; unfold WordStart Letter; decide
  have h3 : (c.isAlpha || decide (c = '_')) = true := by
    rcases h with h | h
    · simp [isAlpha_iff.2 h]
    · simp [h]
  rw [scan1, if_neg (not_import h1), if_neg h1, if_neg (not_slash h2), if_neg (not_slash h2),
    if_pos h3]

theorem scan1_digit [Unicode] {c : Char} {t : List Char} (h : Digit c) :
    scan1 (c :: t) = scanNumber (c :: t) := by
  have h1 : c ≠ '#' := by rintro rfl; revert h; unfold Digit; decide
  have h2 : c ≠ '/' := by rintro rfl; revert h; unfold Digit; decide
  have h3 : ¬ (c.isAlpha || decide (c = '_')) = true := by
    intro h3
    refine letter_not_digit h ?_
    simp only [Bool.or_eq_true, decide_eq_true_eq] at h3
    exact h3.imp isAlpha_iff.1 id
  rw [scan1, if_neg (not_import h1), if_neg h1, if_neg (not_slash h2), if_neg (not_slash h2),
    if_neg h3, if_pos (isDigit_iff.2 h)]

theorem scan1_quote [Unicode] {t : List Char} : scan1 ('"' :: t) = scanString ('"' :: t) := by
  rw [scan1, if_neg (not_import (by decide)), if_neg (by decide), if_neg (not_slash (by decide)),
    if_neg (not_slash (by decide)), if_neg (by decide), if_neg (by decide), if_pos rfl]

theorem scan1_char [Unicode] {t : List Char} : scan1 ('\'' :: t) = scanChar ('\'' :: t) := by
  rw [scan1, if_neg (not_import (by decide)), if_neg (by decide), if_neg (not_slash (by decide)),
    if_neg (not_slash (by decide)), if_neg (by decide), if_neg (by decide), if_neg (by decide),
    if_pos rfl]

theorem scan1_symbol [Unicode] {c : Char} {t : List Char} (h1 : c ≠ '#')
    (h2 : ¬ "/*".toList <+: c :: t) (h3 : ¬ "//".toList <+: c :: t) (h4 : ¬ WordStart c)
    (h5 : ¬ Digit c) (h6 : c ≠ '"') (h7 : c ≠ '\'') :
    scan1 (c :: t) = match symbolAt SYMBOLS (c :: t) with
      | some sym => .tok sym "" 0 sym.toList.length
      | none => .tok "error" (unexpectedChar c) 0 0 := by
  have h8 : ¬ (c.isAlpha || decide (c = '_')) = true := by
    intro h
    simp only [Bool.or_eq_true, decide_eq_true_eq] at h
    exact h4 (h.imp isAlpha_iff.1 id)
  rw [scan1, if_neg (not_import h1), if_neg h1, if_neg (by rw [isPrefixOf_iff]; exact h2),
    if_neg (by rw [isPrefixOf_iff]; exact h3), if_neg h8, if_neg (by rw [isDigit_iff]; exact h5),
    if_neg h6, if_neg h7]
  rfl

theorem mantissa_digit {dot : Bool} {m : List Char} (h : Mantissa dot m) :
    ∃ c t, m = c :: t ∧ Digit c := by
  cases h with
  | whole hne hd =>
    cases m with
    | nil => exact absurd rfl hne
    | cons c t => exact ⟨c, t, rfl, hd c List.mem_cons_self⟩
  | @dotted d f hne hd =>
    cases d with
    | nil => exact absurd rfl hne
    | cons c t => exact ⟨c, _, rfl, hd c (by simp)⟩

theorem before_eq {w r : List Char} (hw : ¬ "*/".toList <:+: w) :
    Buf.before ['*', '/'] (w ++ '*' :: '/' :: r) = w := by
  induction w with
  | nil => rfl
  | cons c w ih =>
    rw [List.cons_append, Buf.before, if_neg, ih]
    · exact fun h => hw (h.trans (List.suffix_cons c w).isInfix)
    · rw [isPrefixOf_iff]
      rintro ⟨t, ht⟩
      simp at ht
      obtain ⟨rfl, ht⟩ := ht
      cases w with
      | nil => simp at ht
      | cons d w =>
        simp at ht
        obtain ⟨rfl, -⟩ := ht
        exact hw ⟨[], w, rfl⟩

theorem before_open {w : List Char} (hw : ¬ "*/".toList <:+: w) :
    Buf.before ['*', '/'] w = w := by
  induction w with
  | nil => rfl
  | cons c w ih =>
    rw [Buf.before, if_neg, ih]
    · exact fun h => hw (h.trans (List.suffix_cons c w).isInfix)
    · rw [isPrefixOf_iff]
      rintro h
      exact hw h.isInfix

theorem line_prefix {p w r : List Char} (hp : '\n' ∉ p) (hr : LineEnd r) (h : p <+: w ++ r) :
    p <+: w := by
  induction w generalizing p with
  | nil =>
    cases p with
    | nil => exact List.nil_prefix
    | cons a p =>
      cases r with
      | nil => exact h
      | cons b r =>
        have hb : b = '\n' := hr b rfl
        rw [List.nil_append, List.cons_prefix_cons] at h
        exact absurd (by rw [h.1, hb]; simp) hp
  | cons c w ih =>
    cases p with
    | nil => exact List.nil_prefix
    | cons a p =>
      rw [List.cons_append, List.cons_prefix_cons] at h
      rw [List.cons_prefix_cons]
      exact ⟨h.1, ih (fun hm => hp (by simp [hm])) h.2⟩

/-- The token the grammar describes is the token that is read. -/
theorem scan1_lexeme [Unicode] {k c : String} {lx r : List Char} (h : Lexeme k c lx r) :
    scan1 (lx ++ r) = .tok k c 0 lx.length := by
  cases h with
  | @imp sp w r hsp hw hb hr =>
    have hi : IMPORT.isPrefixOf ('#' :: ("import".toList ++ sp ++ w ++ r)) = true := by
      rw [isPrefixOf_iff]; exact ⟨sp ++ w ++ r, by simp [IMPORT]⟩
    show scan1 ('#' :: ("import".toList ++ sp ++ w ++ r)) = _
    rw [scan1, if_pos hi]
    have e1 : ('#' :: ("import".toList ++ sp ++ w ++ r)).drop 7 = sp ++ (w ++ r) := by simp
    have e2 : ('#' :: ("import".toList ++ sp ++ w ++ r)).drop (7 + sp.length) = w ++ r := by
      rw [← List.drop_drop, e1, List.drop_left]
    simp only [e1, takeWhile_all (q := SPACES.contains) (fun _ => blank_iff) hsp hb, e2,
      takeWhile_line hw hr]
    simp; omega
  | @mac w r hw hi hr =>
    show scan1 ('#' :: (w ++ r)) = _
    rw [scan1, if_neg, if_pos rfl]
    · have : ('#' :: (w ++ r)).takeWhile (· != '\n') = '#' :: w := by
        rw [List.takeWhile_cons]; simp [takeWhile_line hw hr]
      simp only [this]
    · rw [isPrefixOf_iff]
      intro hp
      have hp : "import".toList <+: w ++ r := by
        obtain ⟨t, ht⟩ := hp
        exact ⟨t, by simp [IMPORT] at ht; simpa using ht⟩
      exact hi (line_prefix (by decide) hr hp)
  | @blockComment w r hw =>
    have e : "/*".toList ++ w ++ "*/".toList ++ r = '/' :: '*' :: (w ++ '*' :: '/' :: r) := by simp
    rw [e, scan1, if_neg (not_import (by decide)), if_neg (by decide), if_pos (by simp), scanComment]
    have e1 : ('/' :: '*' :: (w ++ '*' :: '/' :: r)).drop 2 = w ++ '*' :: '/' :: r := rfl
    have e2 : ('/' :: '*' :: (w ++ '*' :: '/' :: r)).drop (2 + w.length) = '*' :: '/' :: r := by
      rw [← List.drop_drop, e1, List.drop_left]
    simp only [e1, before_eq hw, e2]
    simp; omega
  | @lineComment w r hw hr =>
    show scan1 ('/' :: '/' :: (w ++ r)) = _
    rw [scan1, if_neg (not_import (by decide)), if_neg (by decide), if_neg (by simp),
      if_pos (by simp)]
    have e1 : ('/' :: '/' :: (w ++ r)).drop 2 = w ++ r := rfl
    simp only [e1, takeWhile_line hw hr]
    simp; omega
  | @word c w r hc hw hr hcal hres =>
    have hall : All WordChar (c :: w) := all_cons.2 ⟨wordStart_wordChar hc, hw⟩
    rw [List.cons_append, scan1_word hc, ← List.cons_append, scanWord,
      wordTail_eq (acc := []) hall hr hcal]
    rw [if_neg (by rw [reserved_iff]; exact hres)]
  | @calloc r =>
    show scan1 ('c' :: ("alloc!".toList ++ r)) = _
    rw [scan1_word (by unfold WordStart Letter; decide)]
    show scanWord ("calloc!".toList ++ r) = _
    rw [scanWord, wordTail_calloc]
    rfl
  | @keyword c w r hc hw hr hres =>
    have hall : All WordChar (c :: w) := all_cons.2 ⟨wordStart_wordChar hc, hw⟩
    have hcal : ¬ ([] ++ (c :: w) = "calloc".toList ∧ r.head? = some '!') := by
      rintro ⟨h, -⟩
      rw [List.nil_append] at h
      rw [h] at hres
      revert hres; decide
    rw [List.cons_append, scan1_word hc, ← List.cons_append, scanWord,
      wordTail_eq (acc := []) hall hr hcal]
    rw [if_pos (by rw [reserved_iff]; exact hres)]
  | @hex d u r hd hu hs1 hs2 =>
    have e : "0x".toList ++ d ++ u ++ r = '0' :: 'x' :: (d ++ (u ++ r)) := by simp
    rw [e, scan1_digit (by unfold Digit; decide), scanNumber, if_pos (by simp)]
    have e1 : hexPart ('0' :: 'x' :: (d ++ (u ++ r))) = d ++ u := by
      have e2 : ('0' :: 'x' :: (d ++ (u ++ r))).drop 2 = d ++ (u ++ r) := rfl
      rw [hexPart, e2, takeWhile_all (q := HEXDIGITS.contains) (fun _ => hex_iff) hd hs1,
        dropWhile_all (q := HEXDIGITS.contains) (fun _ => hex_iff) hd hs1,
        takeWhile_all (q := ['U', 'L'].contains) (fun _ => suffix_iff (dot := false)) hu hs2]
    rw [e1]
    simp; omega
  | @dec dot m e u r hm he hu hs hl h0 hst =>
    obtain ⟨c, t, rfl, hc⟩ := mantissa_digit hm
    have e0 : c :: t ++ e ++ u ++ r = c :: t ++ (e ++ u ++ r) := by simp
    rw [e0, List.cons_append, scan1_digit hc, ← List.cons_append, scanNumber, if_neg]
    · have e1 : (c :: t ++ (e ++ u ++ r)).drop (c :: t).length = e ++ (u ++ r) := by
        rw [List.drop_left]; simp
      have e2 : (c :: t ++ (e ++ u ++ r)).drop ((c :: t).length + e.length) = u ++ r := by
        rw [← List.drop_drop, e1, List.drop_left]
      have e3 : (c :: t ++ (e ++ u ++ r)).drop ((c :: t).length + e.length + u.length) = r := by
        rw [← List.drop_drop, e2, List.drop_left]
      simp only [mantissa_eq hm hst, e1, exponent_eq he, e2,
        takeWhile_all (q := (suffixSet dot).contains) (fun _ => suffix_iff) hu hs, e3]
      cases r with
      | nil => simp; omega
      | cons d r =>
        have : ¬ d.isAlpha = true := by rw [isAlpha_iff]; exact hl d rfl
        simp only [this]
        simp; omega
    · rw [isPrefixOf_iff, ← e0]; exact h0
  | @str s t r hp hne hr =>
    cases hp with
    | nil => exact absurd rfl hne
    | @part w sp s t hw hsp ht hp =>
      show scan1 ('"' :: (w ++ '"' :: sp ++ t ++ r)) = _
      rw [scan1_quote]
      exact scanString_eq (.part hw hsp ht hp) hr
  | @chr c r hc =>
    show scan1 ('\'' :: c :: '\'' :: r) = _
    rw [scan1_char]
    simp [scanChar, scanCharBody, hc]
  | @escChr c r =>
    show scan1 ('\'' :: '\\' :: c :: '\'' :: r) = _
    rw [scan1_char]
    simp [scanChar, scanCharBody]
  | @op o r ho hmax h1 h2 =>
    obtain ⟨c, t, ht, g1, g2, g3, g4, g5, g6, -⟩ := operator_head ho
    have hs : symbolAt SYMBOLS (k.toList ++ r) = some k := symbolAt_eq ho (List.prefix_append _ _) hmax
    rw [ht, List.cons_append] at hs h1 h2 ⊢
    rw [scan1_symbol g6 h2 h1 ?_ ?_ g4 g5, hs]
    · simp [ht]
    · rintro (h | h)
      · rw [isAlpha_iff.2 h] at g1; cases g1
      · exact g3 h
    · intro h; rw [isDigit_iff.2 h] at g2; cases g2

end Che
