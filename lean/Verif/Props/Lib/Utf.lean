import Verif.Proofs.Lib.UtfString
import Verif.Proofs.Lib.UtfTables
import Verif.Proofs.Lib.UtfRunes

/-!
C85 UTF-8, C86 functions on UTF-8 strings, C87 case and class of runes, C88 strings of runes.
-/
namespace Che.Props
open Che.Lib Che.Lib.Utf Che.Spec.Utf

/-! ## C85 -/

/-- C85: a character is written as its UTF-8. -/
theorem C85_write (c : Char) : runetochar c.val.toNat = String.utf8EncodeChar c := runetochar_encode c

/-- C85: a character is read as itself, wherever it stands and whatever follows. -/
theorem C85_read (p rest : Bytes) (c : Char) :
    get_rune (p ++ String.utf8EncodeChar c ++ rest) p.length =
      .ok (c.val.toNat, (String.utf8EncodeChar c).length) := by
  rw [List.append_assoc]
  exact get_rune_char p rest c

/-- C85: reading never goes past the terminator, and what is read ends before it. -/
theorem C85_safe (s : Bytes) (i : Nat) (hi : i ≤ s.length) :
    ∃ r n, get_rune s i = .ok (r, n) ∧ 0 < n ∧ (i < s.length → i + n ≤ s.length) := by
  obtain ⟨⟨r, n⟩, e, h⟩ := get_rune_decoded s i hi
  refine ⟨r, n, e, ?_, fun hi => (decoded_size hi h).2⟩
  cases h <;> omega

/-- C85: where no character stands, U+FFFD and one byte are returned, or three bytes that
have the form of UTF-8 but stand for a surrogate. -/
theorem C85_strict_partial (s : Bytes) (i : Nat) (hi : i < s.length)
    (h : ∀ c : Char, ¬ String.utf8EncodeChar c <+: s.drop i) :
    get_rune s i = .ok (0xFFFD, 1) ∨ ∃ r, get_rune s i = .ok (r, 3) ∧ 0xD800 ≤ r ∧ r ≤ 0xDFFF := by
  obtain ⟨⟨r, n⟩, e, hd⟩ := get_rune_decoded s i (by omega)
  rcases decoded_char hi hd with ⟨rfl, rfl⟩ | ⟨rfl, hr⟩ | ⟨c, _, _, hp⟩
  · exact .inl e
  · exact .inr ⟨r, e, hr⟩
  · exact absurd hp (h c)

/-- C85: what is read as a rune of more than one byte is what would be written for it. -/
theorem C85_round_trip (s : Bytes) (i : Nat) (hi : i < s.length) (r n : Nat) (h : get_rune s i = .ok (r, n))
    (hr : ¬ (r = 0xFFFD ∧ n = 1)) (hs : r < 0xD800 ∨ 0xDFFF < r) :
    (runetochar r).length = n ∧ runetochar r <+: s.drop i := by
  obtain ⟨⟨r', n'⟩, e, hd⟩ := get_rune_decoded s i (by omega)
  rw [h] at e
  cases e
  rcases decoded_char hi hd with h | h | ⟨c, hc, hl, hp⟩
  · exact absurd h hr
  · omega
  · rw [← hc, runetochar_encode]
    exact ⟨hl, hp⟩

/-- C85 is false of surrogates: `ED A0 80` is not UTF-8 and is read as a rune. -/
theorem C85_counterexample_surrogate : get_rune [0xED, 0xA0, 0x80] 0 = .ok (0xD800, 3) ∧
    (∀ c : Char, ¬ String.utf8EncodeChar c <+: [0xED, 0xA0, 0x80]) ∧
    runetochar 0xD800 = [0xED, 0xA0, 0x80] := by
  refine ⟨by decide, ?_, by decide⟩
  rintro c ⟨t, ht⟩
  have h := get_rune_encode c t
  rw [ht, show get_rune [0xED, 0xA0, 0x80] 0 = .ok (0xD800, 3) by decide] at h
  injection h with h
  have := congrArg Prod.fst h
  have hb := char_bound c
  simp only at this
  omega

/-- C85 is false of the runes from 80000000: they are negative as an `int32_t` and are
written as one byte.  Other runes that are no characters are written as U+FFFD. -/
theorem C85_counterexample_big : runetochar 0x80000041 = [0x41] ∧
    ∀ r, 0x10FFFF < r → r < 0x80000000 → runetochar r = String.utf8EncodeChar (Char.ofNat 0xFFFD) := by
  refine ⟨by decide, fun r h1 h2 => ?_⟩
  rw [runetochar_small (by omega)]
  unfold runetocharPos
  rw [if_neg (by omega), if_neg (by omega), if_pos (show r > 0x10FFFF by omega), if_pos (by omega)]
  decide

example : runetochar 0x20AC = [0xE2, 0x82, 0xAC] ∧ get_rune [0x61, 0xE2, 0x82, 0xAC, 0x62] 1 = .ok (0x20AC, 3) ∧
    get_rune [0xC0, 0x80] 0 = .ok (0xFFFD, 1) ∧ get_rune [0xE2, 0x82] 0 = .ok (0xFFFD, 1) := by decide

/-! ## C86 -/

/-- C86: the runes of a text are counted. -/
theorem C86_count (l : List Char) (h : ∀ c ∈ l, c ≠ '\x00') : runecount (encode l) = .ok l.length := runecount_eq l h

/-- C86: any string can be counted: the loop ends and reads nothing past the terminator. -/
theorem C86_count_total (s : Bytes) : ∃ k, runecount s = .ok k :=
  runecountLoop_total s _ 0 0 (by omega) (by omega)

/-- C86: `utfnlen` counts the characters that are complete within `n` bytes. -/
theorem C86_nlen (l : List Char) (n : Nat) (h : ∀ c ∈ l, c ≠ '\x00') : ∃ k, utfnlen (encode l) n = .ok k ∧
    k ≤ l.length ∧ (encode (l.take k)).length ≤ n ∧ (k < l.length → n < (encode (l.take (k + 1))).length) := by
  obtain ⟨k, e, h1, h2, h3⟩ := utfnlenLoop_eq l [] ((encode l).length + 1) 0 n h
    (by have := length_le_encode l; omega) (by simp)
  refine ⟨k, by simpa [utfnlen] using e, h1, by simpa using h2, by simpa using h3⟩

/-- C86: `fullrune` says whether the bytes at hand are enough for the character. -/
theorem C86_full (p t : Bytes) (c : Char) (n : Nat) :
    fullrune (p ++ String.utf8EncodeChar c ++ t) p.length n = .ok (decide ((String.utf8EncodeChar c).length ≤ n)) := by
  rw [List.append_assoc]
  exact fullrune_eq p t c n

/-- C86: `runenlen` is the number of bytes that are written for any runes, and `runelen` for one. -/
theorem C86_len (rs : List Nat) : runenlen rs = (rs.flatMap runetochar).length ∧
    ∀ r, runelen r = runenlen [r] := by
  refine ⟨runenlen_eq rs, fun r => ?_⟩
  rw [runenlen_eq]
  simp [runelen]

/-- C86: `utfrune` finds the first place where the character stands. -/
theorem C86_first (c : Char) (l : List Char) (h : ∀ d ∈ l, d ≠ '\x00') (hc : c ≠ '\x00') :
    (c ∉ l → utfrune (encode l) 0 c.val.toNat = .ok none) ∧
    ∀ a b, l = a ++ c :: b → c ∉ a → utfrune (encode l) 0 c.val.toNat = .ok (some (encode a).length) := by
  have := utfrune_eq c [] l h hc
  simpa [show (encode []).length = 0 from rfl] using this

/-- C86: `utfrrune` finds the last place. -/
theorem C86_last (c : Char) (l : List Char) (h : ∀ d ∈ l, d ≠ '\x00') (hc : c ≠ '\x00') :
    (c ∉ l → utfrrune (encode l) c.val.toNat = .ok none) ∧
    ∀ a b, l = a ++ c :: b → c ∉ b → utfrrune (encode l) c.val.toNat = .ok (some (encode a).length) :=
  utfrrune_eq c l h hc

/-- C86: `utfutf` finds the first place where a text stands in another, and says that
there is none only if there is none. -/
theorem C86_sub (l1 l2 : List Char) (h1 : ∀ c ∈ l1, c ≠ '\x00') (h2 : ∀ c ∈ l2, c ≠ '\x00') :
    (utfutf (encode l1) (encode l2) = .ok none ∧ ¬ l2 <:+: l1) ∨
    ∃ a b, l1 = a ++ l2 ++ b ∧ utfutf (encode l1) (encode l2) = .ok (some (encode a).length) ∧
      ∀ a' b', l1 = a' ++ l2 ++ b' → a.length ≤ a'.length := by
  obtain ⟨r, e, h⟩ := utfutf_found l1 l2 h1 h2
  rcases h with ⟨rfl, h⟩ | ⟨a, b, h, rfl, hm⟩
  · exact .inl ⟨e, h⟩
  · exact .inr ⟨a, b, h, e, hm⟩

example : runecount (encode ['a', 'é', '€']) = .ok 3 ∧ utfnlen (encode ['a', 'é', '€']) 4 = .ok 2 ∧
    utfrune (encode ['a', 'é', '€', 'é']) 0 0xE9 = .ok (some 1) ∧
    utfrrune (encode ['a', 'é', '€', 'é']) 0xE9 = .ok (some 6) ∧
    utfutf (encode ['a', 'é', '€', 'é']) (encode ['€', 'é']) = .ok (some 3) ∧
    utfutf (encode ['a', 'é', '€', 'é']) (encode ['é', 'é']) = .ok none := by decide

/-! ## C87 -/

/-- The row of a case table for a rune, read from the top: how far to move the rune, excess 500. -/
def move (t2 t1 : List (List Nat)) (c : Nat) : Option Nat :=
  match rowOf t2 c with
  | some r => some (r.getD 2 0)
  | none => (entryOf t1 c).map fun r => r.getD 1 0

theorem mapSpec_move (t2 t1 : List (List Nat)) (c : Nat) : mapSpec t2 t1 c = match move t2 t1 c with
    | some d => shift c d
    | none => c := by
  unfold mapSpec move
  cases rowOf t2 c with
  | some r => rfl
  | none => cases entryOf t1 c <;> rfl

/-- C87: the binary searches find the row of the tables that is for the rune, if there is one. -/
theorem C87_tables (c : Nat) :
    tolowerrune c = .ok (match move tolower2 tolower1 c with
      | some d => shift c d
      | none => c) ∧
    toupperrune c = .ok (match move toupper2 toupper1 c with
      | some d => shift c d
      | none => c) ∧
    totitlerune c = .ok (match entryOf totitle1 c with
      | some r => shift c (r.getD 1 0)
      | none => c) ∧
    isupperrune c = .ok ((rowOf tolower2 c).isSome || (entryOf tolower1 c).isSome) ∧
    islowerrune c = .ok ((rowOf toupper2 c).isSome || (entryOf toupper1 c).isSome) ∧
    isspacerune c = .ok (rowOf space2 c).isSome := by
  refine ⟨?_, ?_, totitlerune_eq c, isupperrune_eq c, islowerrune_eq c, isspacerune_eq c⟩
  · rw [tolowerrune_eq, mapSpec_move]
  · rw [toupperrune_eq, mapSpec_move]

/-- C87: a rune is a letter if it has a case or is in the tables of letters. -/
theorem C87_alpha (c : Nat) : ∃ u l, isupperrune c = .ok u ∧ islowerrune c = .ok l ∧
    isalpharune c = .ok (u || l || (rowOf alpha2 c).isSome || (entryOf alpha1 c).isSome) := by
  refine ⟨_, _, isupperrune_eq c, islowerrune_eq c, ?_⟩
  rw [isalpharune_eq]
  simp only [inSpec, Bool.or_assoc]

/-- C87: upper case runes are those that the lower case function changes, and the other way round. -/
theorem C87_changes (c : Nat) :
    (isupperrune c = .ok true ↔ tolowerrune c ≠ .ok c) ∧ (islowerrune c = .ok true ↔ toupperrune c ≠ .ok c) := by
  rw [isupperrune_eq, tolowerrune_eq, islowerrune_eq, toupperrune_eq]
  constructor
  · cases h : inSpec tolower2 tolower1 c with
    | true =>
      have := forall_members lower_changes h
      simpa using this
    | false =>
      rw [mapSpec_other h]
      simp
  · cases h : inSpec toupper2 toupper1 c with
    | true =>
      have := forall_members upper_changes h
      simpa using this
    | false =>
      rw [mapSpec_other h]
      simp

/-- C87: the upper case of the lower case of an upper case rune is that rune, except for
İ, the title case letters, and the letters of Georgian: exactly those. -/
theorem C87_upper_lower (c d : Nat) (hc : isupperrune c = .ok true) (hd : tolowerrune c = .ok d) :
    toupperrune d = .ok c ↔
      ¬ (c = 0x130 ∨ c = 0x1c5 ∨ c = 0x1c8 ∨ c = 0x1cb ∨ c = 0x1f2 ∨ (0x10a0 ≤ c ∧ c ≤ 0x10c5)) := by
  rw [isupperrune_eq] at hc
  rw [tolowerrune_eq] at hd
  injection hc with hc
  injection hd with hd
  have := forall_members upper_lower hc
  rw [toupperrune_eq, ← hd]
  rw [bne_iff_ne] at this
  unfold oddUpper at this
  constructor
  · intro h
    injection h with h
    rw [h, beq_self_eq_true] at this
    simpa using this
  · intro h
    rw [decide_eq_false h] at this
    have h2 : (mapSpec toupper2 toupper1 (mapSpec tolower2 tolower1 c) == c) = true := by
      cases hb : (mapSpec toupper2 toupper1 (mapSpec tolower2 tolower1 c) == c) with
      | true => rfl
      | false => rw [hb] at this; exact absurd rfl this
    rw [beq_iff_eq.mp h2]

/-- C87: the lower case of the upper case of a lower case rune is that rune, except for
ı, ſ, the title case letters and six Greek variant letters: exactly those. -/
theorem C87_lower_upper (c d : Nat) (hc : islowerrune c = .ok true) (hd : toupperrune c = .ok d) :
    tolowerrune d = .ok c ↔
      c ∉ [0x131, 0x17f, 0x1c5, 0x1c8, 0x1cb, 0x1f2, 0x3d0, 0x3d1, 0x3d5, 0x3d6, 0x3f0, 0x3f1] := by
  rw [islowerrune_eq] at hc
  rw [toupperrune_eq] at hd
  injection hc with hc
  injection hd with hd
  have := forall_members lower_upper hc
  rw [tolowerrune_eq, ← hd]
  rw [bne_iff_ne] at this
  unfold oddLower at this
  constructor
  · intro h hm
    injection h with h
    rw [h, beq_self_eq_true, List.contains_iff_mem.mpr hm] at this
    exact this rfl
  · intro h
    have h1 : List.contains [0x131, 0x17f, 0x1c5, 0x1c8, 0x1cb, 0x1f2, 0x3d0, 0x3d1, 0x3d5, 0x3d6, 0x3f0, 0x3f1] c
        = false := by
      rw [← Bool.not_eq_true, List.contains_iff_mem]
      exact h
    rw [h1] at this
    have h2 : (mapSpec tolower2 tolower1 (mapSpec toupper2 toupper1 c) == c) = true := by
      cases hb : (mapSpec tolower2 tolower1 (mapSpec toupper2 toupper1 c) == c) with
      | true => rfl
      | false => rw [hb] at this; exact absurd rfl this
    rw [beq_iff_eq.mp h2]

/-- C87: the title case runes are ǅ, ǈ, ǋ and ǲ. -/
theorem C87_title (c : Nat) : istitlerune c = .ok true ↔ c ∈ [0x1c5, 0x1c8, 0x1cb, 0x1f2] := by
  rw [istitlerune_eq]
  cases h : inSpec tolower2 tolower1 c with
  | true =>
    have := forall_members title_members h
    rw [beq_iff_eq] at this
    rw [this, Bool.true_and, ← List.contains_iff_mem]
    constructor
    · intro h; injection h
    · intro h; rw [h]
  | false =>
    simp only [Bool.false_and]
    constructor
    · intro h; injection h with h; cases h
    · intro hm
      exfalso
      have : ∀ c ∈ [0x1c5, 0x1c8, 0x1cb, 0x1f2], inSpec tolower2 tolower1 c = true := by decide +kernel
      rw [this c hm] at h
      cases h

/-- C87: on ASCII the functions agree with those of Lean's characters. -/
theorem C87_ascii : ∀ c < 128,
    tolowerrune c = .ok (Char.ofNat c).toLower.val.toNat ∧ toupperrune c = .ok (Char.ofNat c).toUpper.val.toNat ∧
    isupperrune c = .ok (Char.ofNat c).isUpper ∧ islowerrune c = .ok (Char.ofNat c).isLower ∧
    isalpharune c = .ok (Char.ofNat c).isAlpha ∧
    isspacerune c = .ok ((Char.ofNat c).isWhitespace && c != 13) := by
  intro c hc
  rw [tolowerrune_eq, toupperrune_eq, isupperrune_eq, islowerrune_eq, isalpharune_eq, isspacerune_eq]
  revert c
  decide +kernel

example : tolowerrune 0x416 = .ok 0x436 ∧ toupperrune 0x436 = .ok 0x416 ∧ islowerrune 0x436 = .ok true := by
  decide +kernel

/-! ## C88 -/

/-- C88: comparing is by the order of the strings. -/
theorem C88_compare (s1 s2 : List Nat) (n : Nat) (h1 : ∀ r ∈ s1, r ≠ 0) (h2 : ∀ r ∈ s2, r ≠ 0) :
    runestrcmp s1 s2 = .ok (order s1 s2) ∧ runestrncmp s1 s2 n = .ok (order (s1.take n) (s2.take n)) :=
  ⟨runestrcmp_eq h1 h2, runestrncmp_eq n h1 h2⟩

/-- C88: a string that is not empty is duplicated. -/
theorem C88_dup_partial (s : List Nat) (hs : s ≠ []) (hz : ∀ r ∈ s, r ≠ 0) : runestrdup s = .ok (s ++ [0]) := by
  rw [runestrdup, runestrcpy_eq hs hz (by simp)]
  simp

/-- C88: at most `n` runes of a string that is not empty are copied, and zeros fill up the rest. -/
theorem C88_ncpy_partial (d s : List Nat) (n : Nat) (hs : s ≠ []) (hz : ∀ r ∈ s, r ≠ 0) (hn : n ≤ d.length) :
    runestrncpy d s n = .ok ((s ++ List.replicate n 0).take n ++ d.drop n) := runestrncpy_eq hs hz hn

/-- C88: a string that is not empty is copied, but not its terminator: the buffer holds the
string only if a zero already stands after it. -/
theorem C88_cpy_partial (d s : List Nat) (hs : s ≠ []) (hz : ∀ r ∈ s, r ≠ 0) (hd : s.length < d.length) :
    ∃ d', runestrcpy d 0 s = .ok d' ∧ d' = s ++ d.drop s.length ∧ (Holds d' s ↔ d[s.length]? = some 0) := by
  refine ⟨s ++ d.drop s.length, by rw [runestrcpy_eq hs hz (by omega)]; simp, rfl, ?_⟩
  unfold Holds
  rw [List.prefix_append_right_inj, List.drop_eq_getElem_cons hd, List.cons_prefix_cons,
    List.getElem?_eq_getElem hd]
  constructor
  · intro h
    rw [← h.1]
  · intro h
    injection h with h
    exact ⟨h.symm, List.nil_prefix⟩

/-- C88: a string that is not empty is added to the one in the buffer, again without a terminator. -/
theorem C88_cat_partial (s1 rest s2 : List Nat) (h1 : ∀ r ∈ s1, r ≠ 0) (hs : s2 ≠ []) (h2 : ∀ r ∈ s2, r ≠ 0)
    (hd : s2.length ≤ rest.length) : ∃ d', runestrcat (s1 ++ 0 :: rest) s2 = .ok d' ∧
      d' = s1 ++ s2 ++ rest.drop (s2.length - 1) ∧
      (Holds d' (s1 ++ s2) ↔ rest[s2.length - 1]? = some 0) := by
  have hpos : 0 < s2.length := by cases s2 with | nil => exact absurd rfl hs | cons _ _ => simp
  have he := endLoop_eq s1 [] rest ((s1 ++ 0 :: rest).length + 1) h1 (by simp; omega)
  simp only [List.nil_append, List.length_nil, Nat.zero_add] at he
  refine ⟨s1 ++ s2 ++ rest.drop (s2.length - 1), ?_, rfl, ?_⟩
  · rw [runestrcat, he]
    simp only [Res.bind]
    rw [runestrcpy_eq hs h2 (by simp; omega), List.take_left, List.drop_append]
    congr 2
    rw [List.drop_eq_nil_of_le (by omega), List.nil_append,
      show s1.length + s2.length - s1.length = (s2.length - 1) + 1 by omega, List.drop_succ_cons]
  · unfold Holds
    rw [List.prefix_append_right_inj, List.drop_eq_getElem_cons (by omega), List.cons_prefix_cons,
      List.getElem?_eq_getElem (by omega)]
    constructor
    · intro h
      rw [← h.1]
    · intro h
      injection h with h
      exact ⟨h.symm, List.nil_prefix⟩

/-- C88 is false of the copying functions: the terminator is not copied, and of an empty
string what follows the terminator is read. -/
theorem C88_counterexample_cpy :
    runestrcpy [9, 9, 9] 0 [1] = .ok [1, 9, 9] ∧ ¬ Holds [1, 9, 9] [1] ∧
    (∀ d, 0 < d.length → runestrcpy d 0 [] = .panic "undefined: read past the end of the string") ∧
    runestrdup [] = .panic "undefined: read past the end of the string" := by
  refine ⟨by decide, by unfold Holds; decide, fun d hd => runestrcpy_empty hd, by decide⟩

/-- C88 is false of `runestrchr`: a rune is found only if it is the first, and if it is not
the search never ends. -/
theorem C88_counterexample_chr (s : List Nat) (c : Nat) (hc : c ≠ 0) (hz : ∀ r ∈ s, r ≠ 0) (fuel : Nat) :
    runestrchr (fuel + 1) s 0 c = match s with
      | [] => .ok none
      | r :: _ => if r = c then .ok (some 0) else .diverge := by
  rw [runestrchr, if_neg hc]
  cases s with
  | nil => rfl
  | cons r s =>
    simp only
    by_cases h : r = c
    · rw [if_pos h, chrLoop, rdr_lt (by simp)]
      simp only [Res.bind, List.getElem_cons_zero]
      rw [if_neg (hz r (by simp)), if_pos h]
    · rw [if_neg h, chrLoop_diverge (r :: s) 0 c (by simp) (hz r (by simp)) h]

/-- C88 is false of `utfecpy`: of a string that is not empty only the first byte is stored,
again and again, and a zero is stored somewhere. -/
theorem C88_counterexample_utfecpy :
    utfecpy [7, 7, 7, 7] [0x61, 0x62] = ([0x61, 7, 0, 7], 2) ∧
    (∀ to src : Bytes, 1 < to.length → src.getD 0 0 ≠ 0 → ∃ e, e < to.length ∧
      utfecpy to src = ((to.set 0 (src.getD 0 0)).set e 0, e)) ∧
    ∀ to : Bytes, 0 < to.length → utfecpy to [] = (to.set 0 0, 0) := by
  refine ⟨by decide, fun to src ht hs => ?_, fun to ht => ?_⟩
  · have hb : ∀ (l : Bytes) (e : Nat), backup l e ≤ e := by
      intro l e
      induction e with
      | zero => exact Nat.le_refl _
      | succ e ih =>
        rw [backup]
        split
        · omega
        · omega
    obtain ⟨n, hn⟩ : ∃ n, to.length = n + 1 := ⟨to.length - 1, by omega⟩
    have hm : nih_memcpy to src 0 to.length = (to.set 0 (src.getD 0 0), none) := by
      rw [hn, nih_memcpy, if_neg hs]
      exact nih_memcpy_loop hs n
    refine ⟨backup (to.set 0 (src.getD 0 0)) ((to.set 0 (src.getD 0 0)).length - 1), ?_, ?_⟩
    · have := hb (to.set 0 (src.getD 0 0)) ((to.set 0 (src.getD 0 0)).length - 1)
      rw [List.length_set] at this ⊢
      omega
    · rw [utfecpy, if_neg (by omega), hm]
  · rw [utfecpy, if_neg (by omega), nih_memcpy_nil ht]

example : runestrcmp [1, 2] [1, 2, 3] = .ok (-1) ∧ runestrncpy [9, 9, 9, 9] [1, 2] 3 = .ok [1, 2, 0, 9] ∧
    runestrdup [5, 6] = .ok [5, 6, 0] := by decide

end Che.Props
