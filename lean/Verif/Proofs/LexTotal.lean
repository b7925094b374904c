import Verif.Proofs.LexSpec
/-!
# Every text begins with a token, malformed text or a crash
-/
namespace Che
open Spec

theorem scan1_badNumber [Unicode] {dot : Bool} {m e u : List Char} {d : Char} {r : List Char}
    (hm : Mantissa dot m) (he : Exponent e (u ++ d :: r)) (hu : All (Suffix dot) u) (hl : Letter d)
    (hs : ¬ Suffix dot d) (h0 : ¬ "0x".toList <+: m ++ e ++ u ++ d :: r)
    (hst : Stops (fun c => Digit c ∨ (dot = false ∧ c = '.')) (e ++ u ++ d :: r)) :
    scan1 (m ++ e ++ u ++ d :: r) =
      .tok "error" (unexpectedChar d) (m ++ e ++ u).length (m ++ e ++ u).length := by
  have e0 : m ++ e ++ u ++ d :: r = m ++ (e ++ u ++ d :: r) := by simp
  have hx : ¬ ['0', 'x'].isPrefixOf (m ++ (e ++ u ++ d :: r)) = true := by
    rw [isPrefixOf_iff, ← e0]; exact h0
  have key : scan1 (m ++ (e ++ u ++ d :: r)) = scanNumber (m ++ (e ++ u ++ d :: r)) := by
    obtain ⟨c, t, rfl, hc⟩ := mantissa_digit hm
    exact scan1_digit hc
  have e1 : (m ++ (e ++ u ++ d :: r)).drop m.length = e ++ (u ++ d :: r) := by
    rw [List.drop_left]; simp
  have e2 : (m ++ (e ++ u ++ d :: r)).drop (m.length + e.length) = u ++ d :: r := by
    rw [← List.drop_drop, e1, List.drop_left]
  have e3 : (m ++ (e ++ u ++ d :: r)).drop (m.length + e.length + u.length) = d :: r := by
    rw [← List.drop_drop, e2, List.drop_left]
  have hs' : Stops (Suffix dot) (d :: r) := by intro x hx; cases hx; exact hs
  refine (congrArg scan1 e0).trans (key.trans ?_)
  unfold scanNumber
  rw [if_neg hx]
  simp only [mantissa_eq hm hst, e1, exponent_eq he, e2,
    takeWhile_all (q := (suffixSet dot).contains) (fun _ => suffix_iff) hu hs', e3,
    isAlpha_iff.2 hl]
  simp only [if_true, List.length_append]

theorem scan1_malformed [Unicode] {msg : String} {lx r : List Char} {n : Nat}
    (h : Malformed msg lx n r) : scan1 (lx ++ r) = .tok "error" msg n lx.length := by
  cases h with
  | @comment w hw =>
    have e : "/*".toList ++ w ++ [] = '/' :: '*' :: w := by simp
    rw [e, scan1, if_neg (not_import (by decide)), if_neg (by decide), if_pos (by simp), scanComment]
    have e1 : ('/' :: '*' :: w).drop 2 = w := rfl
    have e2 : ('/' :: '*' :: w).drop (2 + w.length) = [] := by
      rw [← List.drop_drop, e1, List.drop_length]
    simp only [e1, before_open hw, e2]
    simp; omega
  | @number dot m e u d r hm he hu hl hs h0 hst =>
    exact scan1_badNumber hm he hu hl hs h0 hst
  | @string s t w hp hw =>
    rw [List.append_nil]
    have : ∃ t', t ++ '"' :: w = '"' :: t' := by
      cases hp with
      | nil => exact ⟨_, rfl⟩
      | part => exact ⟨_, rfl⟩
    obtain ⟨t', ht'⟩ := this
    have := scanString_open hp hw
    rw [ht'] at this ⊢
    rw [scan1_quote, this]
  | @char c q r hc hq =>
    show scan1 ('\'' :: c :: q :: r) = _
    rw [scan1_char]
    simp [scanChar, scanCharBody, hc, hq]
  | @escChar c q r hq =>
    show scan1 ('\'' :: '\\' :: c :: q :: r) = _
    rw [scan1_char]
    simp [scanChar, scanCharBody, hq]
  | @unknown c r h1 h2 h3 h4 h5 h6 h7 =>
    have hslash : ¬ "/".toList <+: c :: r := h7 "/" (by decide)
    have hs : ∀ d : Char, ¬ ['/', d] <+: c :: r := by
      rintro d ⟨t, ht⟩
      exact hslash ⟨d :: t, by simpa using ht⟩
    rw [List.nil_append, scan1_symbol h6 (hs '*') (hs '/') h2 h3 h4 h5]
    have : symbolAt SYMBOLS (c :: r) = none := by
      rw [symbolAt, List.find?_eq_none]
      intro o ho hp
      exact h7 o (symbols_iff.1 ho) (isPrefixOf_iff.1 hp)
    rw [this]
    rfl

theorem mantissa_chars {dot : Bool} {m : List Char} (h : Mantissa dot m) :
    ∀ x ∈ m, Digit x ∨ x = '.' := by
  cases h with
  | whole _ hd => exact fun x hx => .inl (hd x hx)
  | dotted _ hd hf =>
    intro x hx
    rcases List.mem_append.1 hx with h | h
    · exact .inl (hd x h)
    · rcases List.mem_cons.1 h with h | h
      · exact .inr h
      · exact .inl (hf x h)

theorem scan1_crash [Unicode] {s : List Char} (h : Crash s) : ∃ m, scan1 s = .panic m := by
  cases h with
  | @exponent dot m e hm he =>
    obtain ⟨c, t, rfl, hc⟩ := mantissa_digit hm
    have hst : Stops (fun c => Digit c ∨ (dot = false ∧ c = '.')) [e] := by
      intro x hx
      cases hx
      rcases he with rfl | rfl <;> (unfold Digit; cases dot <;> decide)
    refine ⟨"lexer.rs:124", ?_⟩
    rw [List.cons_append, scan1_digit hc, ← List.cons_append, scanNumber, if_neg]
    · have e1 : (c :: t ++ [e]).drop (c :: t).length = [e] := List.drop_left
      simp only [mantissa_eq hm hst, e1]
      have : exponent [e] = none := by
        rw [exponent, if_pos (show e = 'e' ∨ e = 'E' from he)]
      rw [this]
    · rw [isPrefixOf_iff]
      rintro ⟨x, hx⟩
      have hmem : 'x' ∈ c :: t ++ [e] := by rw [← hx]; simp
      rcases List.mem_append.1 hmem with h | h
      · rcases mantissa_chars hm _ h with h | h
        · revert h; unfold Digit; decide
        · exact absurd h (by decide)
      · rw [List.mem_singleton] at h
        subst h
        rcases he with h | h <;> exact absurd h (by decide)
  | @string s t w hp hw =>
    have : ∃ t', t ++ '"' :: w ++ ['\\'] = '"' :: t' := by
      cases hp with
      | nil => exact ⟨_, rfl⟩
      | part => exact ⟨_, rfl⟩
    obtain ⟨t', ht'⟩ := this
    have := scanString_crash hp hw
    rw [ht'] at this ⊢
    exact ⟨_, by rw [scan1_quote, this]⟩
  | quote => exact ⟨_, by rw [scan1_char]; rfl⟩
  | @char c =>
    rw [scan1_char]
    by_cases hc : c = '\\'
    · exact ⟨_, by rw [hc]; rfl⟩
    · refine ⟨"lexer.rs:236", ?_⟩
      simp only [scanChar, List.drop_one, List.tail_cons]
      split
      · next h => simp at h; exact absurd h hc
      · rfl
  | escChar => exact ⟨_, by rw [scan1_char]; rfl⟩

/-! ## One of them applies -/

theorem comment_total (t : List Char) :
    (∃ w r, t = w ++ '*' :: '/' :: r ∧ ¬ "*/".toList <:+: w) ∨ ¬ "*/".toList <:+: t := by
  induction t with
  | nil => exact .inr (by decide)
  | cons c t ih =>
    by_cases hp : "*/".toList <+: c :: t
    · obtain ⟨r, hr⟩ := hp
      refine .inl ⟨[], r, ?_, by decide⟩
      rw [← hr]; rfl
    · rcases ih with ⟨w, r, rfl, hw⟩ | hn
      · refine .inl ⟨c :: w, r, rfl, ?_⟩
        rw [List.infix_cons_iff]
        rintro (h | h)
        · exact hp (h.trans ⟨'*' :: '/' :: r, by simp⟩)
        · exact hw h
      · refine .inr ?_
        rw [List.infix_cons_iff]
        rintro (h | h)
        · exact hp h
        · exact hn h

theorem mantissa_total {c : Char} {t : List Char} (hc : Digit c) :
    ∃ dot m r, c :: t = m ++ r ∧ Mantissa dot m ∧
      Stops (fun c => Digit c ∨ (dot = false ∧ c = '.')) r := by
  obtain ⟨d, r, hdr, hd, hr⟩ := spanC Digit (c :: t)
  have hne : d ≠ [] := by
    rintro rfl
    rw [List.nil_append] at hdr
    exact hr c (by rw [← hdr]; rfl) hc
  by_cases hdot : r.head? = some '.'
  · cases r with
    | nil => cases hdot
    | cons x r =>
      cases hdot
      obtain ⟨f, r', rfl, hf, hr'⟩ := spanC Digit r
      refine ⟨true, d ++ '.' :: f, r', by rw [hdr]; simp, .dotted hne hd hf, ?_⟩
      exact hr'.mono (fun c h => h.resolve_right (by simp))
  · refine ⟨false, d, r, hdr, .whole hne hd, ?_⟩
    rintro x hx (h | ⟨-, rfl⟩)
    · exact hr x hx h
    · exact hdot hx

theorem exponent_total (r : List Char) :
    (∃ e r', r = e ++ r' ∧ Exponent e r') ∨ ∃ e, ExpMark e ∧ r = [e] := by
  cases r with
  | nil => exact .inl ⟨[], [], rfl, .none (fun c h => by cases h)⟩
  | cons e r =>
    by_cases he : ExpMark e
    · cases r with
      | nil => exact .inr ⟨e, he, rfl⟩
      | cons m r =>
        by_cases hm : m = '-'
        · subst hm
          obtain ⟨d, r', rfl, hd, hr'⟩ := spanC Digit r
          exact .inl ⟨e :: '-' :: d, r', rfl, .minus he hd hr'⟩
        · obtain ⟨d, r', hdr, hd, hr'⟩ := spanC Digit (m :: r)
          refine .inl ⟨e :: d, r', by rw [hdr]; rfl, .plus he hd hr' ?_ ?_⟩
          · rw [← hdr]; intro c hc; cases hc; exact hm
          · rw [← hdr]; simp
    · exact .inl ⟨[], e :: r, rfl, .none (fun c h => by cases h; exact he)⟩

theorem strBody_total (n : Nat) (t : List Char) (hn : t.length ≤ n) :
    (∃ w r, t = w ++ '"' :: r ∧ StrBody w) ∨ StrBody t ∨ ∃ w, t = w ++ ['\\'] ∧ StrBody w := by
  induction n generalizing t with
  | zero =>
    have : t = [] := List.length_eq_zero_iff.1 (by omega)
    subst this
    exact .inr (.inl .nil)
  | succ n ih =>
    cases t with
    | nil => exact .inr (.inl .nil)
    | cons c t =>
      by_cases h1 : c = '"'
      · subst h1; exact .inl ⟨[], t, rfl, .nil⟩
      · by_cases h2 : c = '\\'
        · subst h2
          cases t with
          | nil => exact .inr (.inr ⟨[], rfl, .nil⟩)
          | cons d t =>
            rcases ih t (by simp at hn; omega) with ⟨w, r, rfl, hw⟩ | hw | ⟨w, rfl, hw⟩
            · exact .inl ⟨'\\' :: d :: w, r, rfl, .escaped hw⟩
            · exact .inr (.inl (.escaped hw))
            · exact .inr (.inr ⟨'\\' :: d :: w, rfl, .escaped hw⟩)
        · rcases ih t (by simp at hn; omega) with ⟨w, r, rfl, hw⟩ | hw | ⟨w, rfl, hw⟩
          · exact .inl ⟨c :: w, r, rfl, .plain h1 h2 hw⟩
          · exact .inr (.inl (.plain h1 h2 hw))
          · exact .inr (.inr ⟨c :: w, rfl, .plain h1 h2 hw⟩)

theorem strParts_total (n : Nat) (s : List Char) (hn : s.length ≤ n) (hs : Stops Blank s) :
    (∃ c t r, s = t ++ r ∧ StrParts c t ∧ Stops (fun c => Blank c ∨ c = '"') r) ∨
    (∃ c t w, s = t ++ '"' :: w ∧ StrParts c t ∧ StrBody w) ∨
    (∃ c t w, s = t ++ '"' :: w ++ ['\\'] ∧ StrParts c t ∧ StrBody w) := by
  induction n generalizing s with
  | zero =>
    have : s = [] := List.length_eq_zero_iff.1 (by omega)
    subst this
    exact .inl ⟨[], [], [], rfl, .nil, fun c h => by cases h⟩
  | succ n ih =>
    by_cases hq : s.head? = some '"'
    · cases s with
      | nil => cases hq
      | cons q s =>
        cases hq
        rcases strBody_total s.length s (Nat.le_refl _) with ⟨w, r, rfl, hw⟩ | hw | ⟨w, rfl, hw⟩
        · obtain ⟨sp, r', rfl, hsp, hr'⟩ := spanC Blank r
          have hlen : r'.length ≤ n := by
            simp only [List.length_cons, List.length_append] at hn; omega
          rcases ih r' hlen hr' with ⟨c, t, r, rfl, hp, hr⟩ | ⟨c, t, w', rfl, hp, hw'⟩ |
            ⟨c, t, w', rfl, hp, hw'⟩
          · exact .inl ⟨w ++ c, _, r, by simp, .part hw hsp (strParts_stops hp) hp, hr⟩
          · exact .inr (.inl ⟨w ++ c, _, w', by simp, .part hw hsp (strParts_stops hp) hp, hw'⟩)
          · exact .inr (.inr ⟨w ++ c, _, w', by simp, .part hw hsp (strParts_stops hp) hp, hw'⟩)
        · exact .inr (.inl ⟨[], [], s, rfl, .nil, hw⟩)
        · exact .inr (.inr ⟨[], [], w, rfl, .nil, hw⟩)
    · refine .inl ⟨[], [], s, rfl, .nil, ?_⟩
      rintro c hc (h | rfl)
      · exact hs c hc h
      · exact hq hc

/-- Text without blanks in front is empty, begins with a token, is malformed or
makes the lexer abort. -/
theorem lex_total [Unicode] (s : List Char) (hs : Stops Blank s) :
    s = [] ∨ (∃ k c lx r, s = lx ++ r ∧ Lexeme k c lx r) ∨
    (∃ msg lx n r, s = lx ++ r ∧ Malformed msg lx n r) ∨ Crash s := by
  cases s with
  | nil => exact .inl rfl
  | cons c t =>
    refine .inr ?_
    have hb : ¬ Blank c := hs c rfl
    by_cases h1 : c = '#'
    · subst h1
      refine .inl ?_
      by_cases hi : "import".toList <+: t
      · obtain ⟨t', rfl⟩ := hi
        obtain ⟨sp, t'', rfl, hsp, ht''⟩ := spanC Blank t'
        obtain ⟨w, r, rfl, hw, hr⟩ := line_split t''
        exact ⟨_, _, "#import".toList ++ sp ++ w, r, by simp, .imp hsp hw ht'' hr⟩
      · obtain ⟨w, r, rfl, hw, hr⟩ := line_split t
        exact ⟨_, _, '#' :: w, r, rfl, .mac hw (fun h => hi (h.trans ⟨r, rfl⟩)) hr⟩
    by_cases h2 : "/*".toList <+: c :: t
    · obtain ⟨t', ht'⟩ := h2
      rw [← ht']
      rcases comment_total t' with ⟨w, r, rfl, hw⟩ | hn
      · exact .inl ⟨_, _, "/*".toList ++ w ++ "*/".toList, r, by simp, .blockComment hw⟩
      · exact .inr (.inl ⟨_, "/*".toList ++ t', 0, [], by simp, .comment hn⟩)
    by_cases h3 : "//".toList <+: c :: t
    · obtain ⟨t', ht'⟩ := h3
      rw [← ht']
      obtain ⟨w, r, rfl, hw, hr⟩ := line_split t'
      exact .inl ⟨_, _, "//".toList ++ w, r, by simp, .lineComment hw hr⟩
    by_cases h4 : WordStart c
    · obtain ⟨w, r, rfl, hw, hr⟩ := spanC WordChar t
      refine .inl ?_
      by_cases hcal : c :: w = "calloc".toList ∧ r.head? = some '!'
      · obtain ⟨he, hb⟩ := hcal
        cases r with
        | nil => cases hb
        | cons x r =>
          cases hb
          refine ⟨_, _, "calloc!".toList, r, ?_, .calloc⟩
          rw [← List.cons_append, he]; simp
      · by_cases hres : String.ofList (c :: w) ∈ reserved
        · exact ⟨_, _, c :: w, r, rfl, .keyword h4 hw hr hres⟩
        · exact ⟨_, _, c :: w, r, rfl, .word h4 hw hr hcal hres⟩
    by_cases h5 : Digit c
    · by_cases hx : "0x".toList <+: c :: t
      · obtain ⟨t', ht'⟩ := hx
        rw [← ht']
        obtain ⟨d, r, rfl, hd, hr⟩ := spanC HexDigit t'
        obtain ⟨u, r, rfl, hu, hr'⟩ := spanC (Suffix false) r
        exact .inl ⟨_, _, "0x".toList ++ d ++ u, r, by simp, .hex hd hu hr hr'⟩
      · obtain ⟨dot, m, r, heq, hm, hr⟩ := mantissa_total (t := t) h5
        rw [heq] at hx ⊢
        rcases exponent_total r with ⟨e, r', rfl, he⟩ | ⟨e, he, rfl⟩
        · obtain ⟨u, r, rfl, hu, hr'⟩ := spanC (Suffix dot) r'
          by_cases hl : Stops Letter r
          · exact .inl ⟨_, _, m ++ e ++ u, r, by simp,
              .dec hm he hu hr' hl (by simpa using hx) (by simpa using hr)⟩
          · cases r with
            | nil => exact absurd (fun c h => by cases h) hl
            | cons d r =>
              have hd : Letter d := by
                by_contra hd
                exact hl (fun x hx => by cases hx; exact hd)
              exact .inr (.inl ⟨_, m ++ e ++ u, _, d :: r, by simp,
                .number hm he hu hd (hr' d rfl) (by simpa using hx) (by simpa using hr)⟩)
        · exact .inr (.inr (.exponent hm he))
    by_cases h6 : c = '"'
    · rcases strParts_total _ (c :: t) (Nat.le_refl _) hs with ⟨x, t', r, e, hp, hr⟩ |
        ⟨x, t', w, e, hp, hw⟩ | ⟨x, t', w, e, hp, hw⟩
      · refine .inl ⟨_, _, t', r, e, .str hp ?_ hr⟩
        rintro rfl
        rw [List.nil_append] at e
        exact hr c (by rw [← e]; rfl) (.inr h6)
      · exact .inr (.inl ⟨_, t' ++ '"' :: w, 0, [], by rw [e]; simp, .string hp hw⟩)
      · rw [e]; exact .inr (.inr (.string hp hw))
    by_cases h7 : c = '\''
    · subst h7
      cases t with
      | nil => exact .inr (.inr .quote)
      | cons a t =>
        cases t with
        | nil => exact .inr (.inr .char)
        | cons b t =>
          by_cases ha : a = '\\'
          · subst ha
            cases t with
            | nil => exact .inr (.inr .escChar)
            | cons q t =>
              by_cases hq : q = '\''
              · subst hq; exact .inl ⟨_, _, _, t, rfl, .escChr⟩
              · exact .inr (.inl ⟨_, _, _, t, rfl, .escChar hq⟩)
          · by_cases hq : b = '\''
            · subst hq; exact .inl ⟨_, _, _, t, rfl, .chr ha⟩
            · exact .inr (.inl ⟨_, _, _, t, rfl, .char ha hq⟩)
    cases hsym : symbolAt SYMBOLS (c :: t) with
    | some o =>
      obtain ⟨ho, ⟨r, hr⟩, hmax⟩ := symbolAt_spec hsym
      rw [← hr] at h2 h3 hmax ⊢
      exact .inl ⟨_, _, _, r, rfl, .op ho hmax h3 h2⟩
    | none =>
      refine .inr (.inl ⟨_, [], 0, c :: t, rfl, .unknown hb h4 h5 h6 h7 h1 ?_⟩)
      intro o ho hp
      rw [symbolAt, List.find?_eq_none] at hsym
      exact hsym o (symbols_iff.2 ho) (isPrefixOf_iff.2 hp)

end Che
