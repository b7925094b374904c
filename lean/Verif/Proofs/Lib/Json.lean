import Verif.Proofs.Lib.JsonGram
import Verif.Proofs.Lib.Tok

/-!
The parser of `lib/formats/json.c`, with its tokenizer, does what it does on lists.
-/
namespace Che.Lib.Json
open Che.Lib Che.Spec.Lib

variable {D : Type} {strict : Bool}

/-- The tokenizer has this text in front of it. -/
def At (p : Tok.T) (s : Bytes) : Prop := ∃ seen, Tok.Is p ⟨seen, s⟩

theorem at_of {p : Tok.T} {c : Cursor} (h : Tok.Is p c) : At p c.rest := ⟨c.seen, h⟩

theorem drop_takeWhile (q : UInt8 → Bool) (s : Bytes) : s.drop (s.takeWhile q).length = s.dropWhile q := by
  induction s with
  | nil => rfl
  | cons c s ih => by_cases h : q c <;> simp [h, ih]

theorem spaces_at {p : Tok.T} {s : Bytes} (h : At p s) : At (Tok.spaces p).1 (ws s) := by
  obtain ⟨seen, h⟩ := h
  obtain ⟨p', e, h'⟩ := Tok.spaces_is h
  rw [e]
  have := at_of h'
  rwa [Tok.past_rest, drop_takeWhile] at this

theorem more_at {p : Tok.T} {s : Bytes} (h : At p s) : ∃ p', Tok.more p = (p', decide (s ≠ [])) ∧ At p' s := by
  obtain ⟨seen, h⟩ := h
  obtain ⟨p', e, h'⟩ := Tok.more_is h
  exact ⟨p', e, at_of h'⟩

theorem peek_at {p : Tok.T} {s : Bytes} (h : At p s) : ∃ p', Tok.peek p = (p', code s.head?) ∧ At p' s := by
  obtain ⟨seen, h⟩ := h
  obtain ⟨p', e, h'⟩ := Tok.peek_is h
  exact ⟨p', e, at_of h'⟩

theorem get_at {p : Tok.T} {s : Bytes} (h : At p s) : ∃ p', Tok.get p = (p', code s.head?) ∧ At p' s.tail := by
  obtain ⟨seen, h⟩ := h
  obtain ⟨p', e, h'⟩ := Tok.get_is h
  have := at_of h'
  exact ⟨p', e, by simpa [Cursor.skip] using this⟩

theorem tok_more_at {p : Tok.T} {s : Bytes} (h : At p s) : ∃ p', tok_more p = (p', decide (ws s ≠ [])) ∧ At p' (ws s) :=
  more_at (spaces_at h)

theorem tok_peek_at {p : Tok.T} {s : Bytes} (h : At p s) : ∃ p', tok_peek p = (p', code (ws s).head?) ∧ At p' (ws s) :=
  peek_at (spaces_at h)

theorem code_iff (x : UInt8) (c : UInt8) : code (some x) = (c.toNat : Int) ↔ x = c := by
  rw [← UInt8.toNat_inj]; simp only [code]; omega

theorem eof_ne (c : UInt8) : code none ≠ (c.toNat : Int) := by simp only [code]; omega

theorem eat_at {p : Tok.T} {s : Bytes} (h : At p s) (c : UInt8) :
    ∃ p', eat p c.toNat = (p', (leat s c).2) ∧ At p' (leat s c).1 := by
  obtain ⟨p1, e1, h1⟩ := tok_peek_at h
  obtain ⟨p2, e2, h2⟩ := get_at h1
  unfold leat
  cases hw : ws s with
  | nil =>
    rw [hw] at e1 h1
    simp only [List.head?_nil] at e1
    simp only [eat, e1]
    rw [if_neg (eof_ne c)]
    exact ⟨p1, rfl, h1⟩
  | cons x r =>
    rw [hw] at e1 e2 h1 h2
    simp only [eat, e1, e2, List.head?_cons]
    by_cases hx : x = c
    · rw [if_pos ((code_iff x c).mpr hx), if_pos hx]
      exact ⟨p2, rfl, h2⟩
    · rw [if_neg (fun e => hx ((code_iff x c).mp e)), if_neg hx]
      exact ⟨p1, rfl, h1⟩

/-- Two outcomes, with and without the tokenizer; unless strict, nothing is said when the
text on its own gives a number too long for the buffer. -/
inductive Same (strict : Bool) {X : Type} : Res Unit (Tok.T × X) → Res Unit (Bytes × X) → Prop
  | ok {p : Tok.T} {s : Bytes} {x : X} : At p s → Same strict (.ok (p, x)) (.ok (s, x))
  | err : Same strict (.err ()) (.err ())
  | div : Same strict .diverge .diverge
  | over {a : Res Unit (Tok.T × X)} {m : String} : strict = false → Same strict a (.panic m)

inductive Same' : Res Unit Tok.T → Res Unit Bytes → Prop
  | ok {p : Tok.T} {s : Bytes} : At p s → Same' (.ok p) (.ok s)
  | err : Same' (.err ()) (.err ())

theorem Same.bind {X Y : Type} {a : Res Unit (Tok.T × X)} {b : Res Unit (Bytes × X)} (h : Same strict a b)
    {f : Tok.T × X → Res Unit (Tok.T × Y)} {g : Bytes × X → Res Unit (Bytes × Y)}
    (hfg : ∀ p s x, b = .ok (s, x) → At p s → Same strict (f (p, x)) (g (s, x))) : Same strict (a >>= f) (b >>= g) := by
  cases h with
  | ok h => exact hfg _ _ _ rfl h
  | err => exact .err
  | div => exact .div
  | over h => exact .over h

theorem Same'.bind {Y : Type} {a : Res Unit Tok.T} {b : Res Unit Bytes} (h : Same' a b)
    {f : Tok.T → Res Unit (Tok.T × Y)} {g : Bytes → Res Unit (Bytes × Y)}
    (hfg : ∀ p s, b = .ok s → At p s → Same strict (f p) (g s)) : Same strict (a >>= f) (b >>= g) := by
  cases h with
  | ok h => exact hfg _ _ rfl h
  | err => exact .err

theorem expect_same {p : Tok.T} {s : Bytes} (h : At p s) (c : UInt8) : Same' (expect p c.toNat) (lexpect s c) := by
  obtain ⟨p1, e1, h1⟩ := more_at h
  obtain ⟨p2, e2, h2⟩ := eat_at h1 c
  unfold expect
  simp only [e1, e2]
  by_cases hs : s = []
  · subst hs; simp [lexpect, ws]; exact .err
  · simp only [hs, ne_eq, not_false_eq_true, decide_true, Bool.not_true, Bool.false_eq_true, if_false]
    unfold lexpect leat at *
    cases hw : ws s with
    | nil => simp only [hw] at *; exact .err
    | cons x r =>
      simp only [hw] at *
      by_cases hx : x = c
      · simp only [hx, if_true] at *; exact .ok h2
      · simp only [hx, if_false] at *; exact .err

theorem readstrLoop_same (n : Nat) {p : Tok.T} {s : Bytes} (h : At p s) (hn : s.length < n) (acc : Bytes) :
    Same strict (readstrLoop n p acc) (lchars s acc) := by
  induction n generalizing p s acc with
  | zero => omega
  | succ n ih =>
    obtain ⟨p1, e1, h1⟩ := more_at h
    obtain ⟨p2, e2, h2⟩ := peek_at h1
    obtain ⟨p3, e3, h3⟩ := get_at h2
    obtain ⟨p4, e4, h4⟩ := get_at h3
    cases s with
    | nil =>
      simp only [readstrLoop, e1, lchars]
      simp; exact .ok h1
    | cons c s =>
      simp only [List.head?_cons, List.tail_cons] at e2 e3 h3 e4 h4
      simp only [readstrLoop, e1, e2, e3]
      simp only [ne_eq, reduceCtorEq, not_false_eq_true, decide_true, Bool.not_true, Bool.false_eq_true, if_false]
      simp only [List.length_cons] at hn
      have e34 : code (some c) = 34 ↔ c = 34 := code_iff c 34
      have e92 : code (some c) = 92 ↔ c = 92 := code_iff c 92
      by_cases h34 : c = 34
      · rw [if_pos (e34.mpr h34), h34, lchars_quote]
        rw [h34] at h2; exact .ok h2
      · rw [if_neg (fun e => h34 (e34.mp e))]
        by_cases h92 : c = 92
        · rw [if_pos (e92.mpr h92)]
          subst h92
          cases s with
          | nil => simp only [List.head?_nil] at e4; simp [e4, code, lchars]; exact .err
          | cons x s =>
            simp only [List.head?_cons, List.tail_cons] at e4 h4 ⊢
            simp only [e4]
            have hne : code (some x) ≠ -1 := by simp only [code]; omega
            rw [if_neg hne, lchars_esc]
            simp only [code, Tok.toByte_code]
            exact ih h4 (by simp at hn; omega) _
        · rw [if_neg (fun e => h92 (e92.mp e)), lchars_plain h34 h92]
          simp only [code, Tok.toByte_code]
          exact ih h3 (by omega) _

theorem at_rounds {p : Tok.T} {s : Bytes} (h : At p s) : Tok.rounds p = s.length + 1 := by
  obtain ⟨seen, h⟩ := h; exact h.rounds

theorem readstr_same {p : Tok.T} {s : Bytes} (h : At p s) : Same strict (readstr p) (lstr s) := by
  unfold readstr lstr
  refine (expect_same h 34).bind fun p1 s1 _ h1 => ?_
  refine (readstrLoop_same _ h1 (by rw [at_rounds h1]; omega) []).bind fun p2 s2 x _ h2 => ?_
  refine (expect_same h2 34).bind fun p3 s3 _ h3 => ?_
  exact .ok h3

/-- No number of 100 characters or more is in the text. -/
def NumsFit (s : Bytes) : Prop := ∀ u, u <:+ s → (numberAt u).1.length < 100

theorem NumsFit.suffix {s u : Bytes} (h : NumsFit s) (hu : u <:+ s) : NumsFit u := fun v hv => h v (hv.trans hu)

theorem read_num_same (dbl : Dbl D) {p : Tok.T} {s : Bytes} (h : At p s) (hf : strict = true → NumsFit s) : Same strict (read_num dbl p) (lnum dbl s) := by
  unfold lnum
  by_cases hlen : 100 ≤ (numberAt s).1.length
  · rw [if_pos hlen]
    refine .over ?_
    cases strict with
    | false => rfl
    | true => have := hf rfl s (List.suffix_refl s); omega
  rw [if_neg hlen]
  obtain ⟨seen, h⟩ := h
  obtain ⟨p', e, h'⟩ := Tok.num_is (n := 100) h (show (numberAt s).1.length < 100 by omega)
  unfold read_num
  rw [e]
  by_cases hn : (numberAt s).2
  · simp only [hn, if_true]
    exact .ok (at_of h')
  · simp only [hn]; exact .err

theorem skip_literal_at {p : Tok.T} {s : Bytes} (h : At p s) (lit : Bytes) (hl : lit.length ≤ 100) (h0 : 0 ∉ lit) :
    ∃ p', Tok.skip_literal p lit = (p', decide (lit <+: s)) ∧ At p' (if lit <+: s then s.drop lit.length else s) := by
  obtain ⟨seen, h⟩ := h
  obtain ⟨p', e, h'⟩ := Tok.skip_literal_is h lit hl h0
  refine ⟨p', e, ?_⟩
  have := at_of h'
  simp only at this
  split
  · rename_i hp; rw [if_pos hp] at this; exact this
  · rename_i hp; rw [if_neg hp] at this; exact this

theorem read_kw_same {p : Tok.T} {s : Bytes} (h : At p s) : Same strict (read_kw (D := D) p) (lkw s) := by
  obtain ⟨p1, e1, h1⟩ := skip_literal_at h [116, 114, 117, 101] (by decide) (by decide)
  unfold read_kw lkw
  simp only [e1]
  by_cases ht : [116, 114, 117, 101] <+: s
  · simp only [ht, decide_true, if_true] at h1 ⊢; exact .ok h1
  · simp only [ht, decide_false, if_false] at h1 ⊢
    obtain ⟨p2, e2, h2⟩ := skip_literal_at h1 [102, 97, 108, 115, 101] (by decide) (by decide)
    simp only [e2]
    by_cases hf : [102, 97, 108, 115, 101] <+: s
    · simp only [hf, decide_true, if_true] at h2 ⊢; exact .ok h2
    · simp only [hf, decide_false, if_false] at h2 ⊢
      obtain ⟨p3, e3, h3⟩ := skip_literal_at h2 [110, 117, 108, 108] (by decide) (by decide)
      simp only [e3]
      by_cases hn : [110, 117, 108, 108] <+: s
      · simp only [hn, decide_true, if_true] at h3 ⊢; exact .ok h3
      · simp only [hn, decide_false, if_false] at h3 ⊢; exact .err

theorem ws_suffix (s : Bytes) : ws s <:+ s := List.dropWhile_suffix _

theorem leat_suffix (s : Bytes) (c : UInt8) : (leat s c).1 <:+ s := by
  unfold leat
  split
  · exact List.nil_suffix
  · rename_i x r hw
    have hs := ws_suffix s; rw [hw] at hs
    split
    · exact (List.suffix_cons x r).trans hs
    · exact hs

theorem lexpect_suffix {s r : Bytes} {c : UInt8} (h : lexpect s c = .ok r) : r <:+ s := by
  have hs := ws_suffix s; rw [lexpect_ok h] at hs
  exact (List.suffix_cons c r).trans hs

theorem lnode_suffix {dbl : Dbl D} {n : Nat} {s s' : Bytes} {v : Val D} (h : lnode dbl n s = .ok (s', v)) : s' <:+ s := by
  obtain ⟨a, t, j, e, _⟩ := (sound dbl n).1 _ _ _ h
  exact ⟨a ++ t, e.symm⟩

theorem lstr_suffix {s s' x : Bytes} (h : lstr s = .ok (s', x)) : s' <:+ s := by
  obtain ⟨a, t, e, _⟩ := lstr_sound h
  exact ⟨a ++ t, e.symm⟩

theorem same (dbl : Dbl D) (n : Nat) :
    (∀ p s, At p s → (strict = true → NumsFit s) → Same strict (read_node dbl n p) (lnode dbl n s)) ∧
    (∀ p s, At p s → (strict = true → NumsFit s) → Same strict (read_array dbl n p) (larray dbl n s)) ∧
    (∀ p s, At p s → (strict = true → NumsFit s) → Same strict (read_dict dbl n p) (ldict dbl n s)) ∧
    (∀ p s acc, At p s → (strict = true → NumsFit s) → Same strict (arrayLoop dbl n p acc) (lvals dbl n s acc)) ∧
    (∀ p s acc, At p s → (strict = true → NumsFit s) → Same strict (dictLoop dbl n p acc) (lentries dbl n s acc)) := by
  induction n with
  | zero =>
    refine ⟨?_, ?_, ?_, ?_, ?_⟩
    · intro p s _ _; rw [read_node, lnode]; exact .div
    · intro p s _ _; rw [read_array, larray]; exact .div
    · intro p s _ _; rw [read_dict, ldict]; exact .div
    · intro p s _ _ _; rw [arrayLoop, lvals]; exact .div
    · intro p s _ _ _; rw [dictLoop, lentries]; exact .div
  | succ n ih =>
    obtain ⟨ihn, iha, ihd, ihv, ihe⟩ := ih
    refine ⟨?_, ?_, ?_, ?_, ?_⟩
    · intro p s h hf
      obtain ⟨p1, e1, h1⟩ := tok_more_at h
      obtain ⟨p2, e2, h2⟩ := tok_peek_at h1
      obtain ⟨p3, e3, h3⟩ := tok_peek_at h2
      obtain ⟨p4, e4, h4⟩ := tok_peek_at h3
      obtain ⟨p5, e5, h5⟩ := tok_peek_at h4
      obtain ⟨p6, e6, h6⟩ := tok_peek_at h5
      have hf' : strict = true → NumsFit (ws s) := fun e => (hf e).suffix (ws_suffix s)
      have hww : ∀ u, ws (ws u) = ws u := by
        intro u
        cases hu : ws u with
        | nil => rfl
        | cons c r => exact ws_cons (ws_head hu) r
      simp only [hww] at *
      rw [lnode]
      cases hw : ws s with
      | nil =>
        rw [hw] at e1
        simp only [read_node, e1]
        exact .err
      | cons c r =>
        rw [hw] at e1 e2 e3 e4 e5 e6 h2 h3 h4 h5 h6 hf'
        simp only [List.head?_cons] at e2 e3 e4 e5 e6
        simp only [read_node, e1, e2, e3, e4, e5, e6]
        simp only [ne_eq, reduceCtorEq, not_false_eq_true, decide_true, Bool.not_true, Bool.false_eq_true, if_false]
        have c91 : code (some c) = 91 ↔ c = 91 := code_iff c 91
        have c123 : code (some c) = 123 ↔ c = 123 := code_iff c 123
        have c34 : code (some c) = 34 ↔ c = 34 := code_iff c 34
        have c45 : code (some c) = 45 ↔ c = 45 := code_iff c 45
        have cd : Tok.isdigit (code (some c)) = digit c := Tok.isdigit_code c
        by_cases k91 : c = 91
        · rw [if_pos (c91.mpr k91), if_pos k91]; exact iha _ _ h2 hf'
        · rw [if_neg (fun e => k91 (c91.mp e)), if_neg k91]
          by_cases k123 : c = 123
          · rw [if_pos (c123.mpr k123), if_pos k123]; exact ihd _ _ h3 hf'
          · rw [if_neg (fun e => k123 (c123.mp e)), if_neg k123]
            by_cases k34 : c = 34
            · rw [if_pos (c34.mpr k34), if_pos k34]
              unfold read_str
              exact (readstr_same h4).bind fun _ _ _ _ h => .ok h
            · rw [if_neg (fun e => k34 (c34.mp e)), if_neg k34, cd]
              cases hd : digit c with
              | true => simp only [if_true, Bool.true_or]; exact read_num_same dbl h5 hf'
              | false =>
                simp only [Bool.false_eq_true, if_false, Bool.false_or, decide_eq_true_eq]
                by_cases k45 : c = 45
                · rw [if_pos (c45.mpr k45), if_pos k45]; exact read_num_same dbl h6 hf'
                · rw [if_neg (fun e => k45 (c45.mp e)), if_neg k45]; exact read_kw_same h6
    · intro p s h hf
      rw [read_array, larray]
      refine (expect_same h 91).bind fun p1 s1 hs1 h1 => ?_
      obtain ⟨p2, e2, h2⟩ := eat_at h1 93
      have hf1 := fun e => ((hf e).suffix (lexpect_suffix hs1)).suffix (leat_suffix s1 93)
      have e2' : eat p1 93 = (p2, (leat s1 93).2) := e2
      simp only [e2']
      cases he : leat s1 93 with
      | mk s2 closed =>
        rw [he] at h2 hf1
        cases closed with
        | true => exact .ok h2
        | false =>
          simp only [Bool.false_eq_true, if_false]
          refine (ihv _ _ _ h2 hf1).bind fun p3 s3 vs hs3 h3 => ?_
          exact (expect_same h3 93).bind fun p4 s4 _ h4 => .ok h4
    · intro p s h hf
      rw [read_dict, ldict]
      refine (expect_same h 123).bind fun p1 s1 hs1 h1 => ?_
      obtain ⟨p2, e2, h2⟩ := eat_at h1 125
      have hf1 := fun e => ((hf e).suffix (lexpect_suffix hs1)).suffix (leat_suffix s1 125)
      have e2' : eat p1 125 = (p2, (leat s1 125).2) := e2
      simp only [e2']
      cases he : leat s1 125 with
      | mk s2 closed =>
        rw [he] at h2 hf1
        cases closed with
        | true => exact .ok h2
        | false =>
          simp only [Bool.false_eq_true, if_false]
          refine (ihe _ _ _ h2 hf1).bind fun p3 s3 vs hs3 h3 => ?_
          exact (expect_same h3 125).bind fun p4 s4 _ h4 => .ok h4
    · intro p s acc h hf
      obtain ⟨p1, e1, h1⟩ := tok_more_at h
      rw [arrayLoop, lvals]
      simp only [e1]
      by_cases hw : ws s = []
      · simp only [hw] at h1 ⊢
        simp; exact .ok h1
      · have hl : lnode dbl n (ws s) = lnode dbl n s := by
          obtain ⟨a, ha, hb⟩ := ws_split s
          conv => rhs; rw [ha]
          exact (lnode_blanks dbl n hb _).symm
        simp only [hw, ne_eq, not_false_eq_true, decide_true, Bool.not_true, Bool.false_eq_true, if_false]
        rw [← hl]
        refine (ihn _ _ h1 fun e => (hf e).suffix (ws_suffix s)).bind fun p2 s2 x hs2 h2 => ?_
        have hf2 := fun e => ((hf e).suffix (ws_suffix s)).suffix (lnode_suffix hs2)
        obtain ⟨p3, e3, h3⟩ := eat_at h2 44
        have e3' : eat p2 44 = (p3, (leat s2 44).2) := e3
        have hf3 := fun e => (hf2 e).suffix (leat_suffix s2 44)
        simp only [e3']
        cases he : leat s2 44 with
        | mk s3 comma =>
          rw [he] at h3 hf3
          cases comma with
          | false => exact .ok h3
          | true => exact ihv _ _ _ h3 hf3
    · intro p s acc h hf
      obtain ⟨p1, e1, h1⟩ := tok_more_at h
      rw [dictLoop, lentries]
      simp only [e1]
      by_cases hw : ws s = []
      · simp only [hw] at h1 ⊢
        simp; exact .ok h1
      · have hl : lstr (ws s) = lstr s := by
          obtain ⟨a, ha, hb⟩ := ws_split s
          conv => rhs; rw [ha]
          exact (lstr_blanks hb _).symm
        simp only [hw, ne_eq, not_false_eq_true, decide_true, Bool.not_true, Bool.false_eq_true, if_false]
        rw [← hl]
        refine (readstr_same h1).bind fun pk sk k hsk hk => ?_
        have hfk := fun e => ((hf e).suffix (ws_suffix s)).suffix (lstr_suffix hsk)
        refine (expect_same hk 58).bind fun pc sc hsc hc => ?_
        have hfc := fun e => (hfk e).suffix (lexpect_suffix hsc)
        refine (ihn _ _ hc hfc).bind fun p2 s2 x hs2 h2 => ?_
        have hf2 := fun e => (hfc e).suffix (lnode_suffix hs2)
        obtain ⟨p3, e3, h3⟩ := eat_at h2 44
        have e3' : eat p2 44 = (p3, (leat s2 44).2) := e3
        have hf3 := fun e => (hf2 e).suffix (leat_suffix s2 44)
        simp only [e3']
        cases he : leat s2 44 with
        | mk s3 comma =>
          rw [he] at h3 hf3
          cases comma with
          | false => exact .ok h3
          | true => exact ihe _ _ _ h3 hf3

theorem from_str_at (s : Bytes) : At (Tok.from_str s) s := ⟨[], Tok.new_is (Reader.ofBuffer s) rfl⟩

theorem parse_same (dbl : Dbl D) (s : Bytes) (h : strict = true → NumsFit s) : Same strict (parse dbl s) (lnode dbl (budget s) s) :=
  (same dbl _).1 _ _ (from_str_at s) h

end Che.Lib.Json
