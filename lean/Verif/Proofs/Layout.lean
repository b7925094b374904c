import Verif.Proofs.LexRun
/-!
# How a token depends on the text after it
-/
namespace Che
open Spec

theorem Spec.Stops.of_head {p : Char → Prop} {r r' : List Char} (h : Stops p r)
    (e : r'.head? = r.head?) : Stops p r' := by
  intro c hc; exact h c (by rw [← e, hc])

theorem head_append {a r r' : List Char} (e : r'.head? = r.head?) :
    (a ++ r').head? = (a ++ r).head? := by
  cases a with
  | nil => simpa using e
  | cons => rfl

theorem nil_of_head {r r' : List Char} (e : r'.head? = r.head?) : r' = [] ↔ r = [] := by
  rw [← List.head?_eq_none_iff, e, List.head?_eq_none_iff]

theorem zero_x {x r r' : List Char} (hx : x ≠ []) (hr : Stops Letter r')
    (h : "0x".toList <+: x ++ r') : "0x".toList <+: x ++ r := by
  match x, hx with
  | [c], _ =>
    exfalso
    cases r' with
    | nil => obtain ⟨t, ht⟩ := h; simp at ht
    | cons d r' =>
      obtain ⟨t, ht⟩ := h
      have : d = 'x' := by simp at ht; exact ht.2.1.symm
      subst this
      exact hr 'x' rfl (by unfold Letter; decide)
  | c :: d :: x, _ =>
    obtain ⟨t, ht⟩ := h
    refine ⟨x ++ r, ?_⟩
    simp at ht ⊢
    exact ⟨ht.1, ht.2.1⟩

theorem exponent_local {e u r r' : List Char} (h : Exponent e (u ++ r))
    (e1 : r'.head? = r.head?) : Exponent e (u ++ r') := by
  cases h with
  | none h => exact .none (h.of_head (head_append e1))
  | plus h1 h2 h3 h4 h5 =>
    refine .plus h1 h2 (h3.of_head (head_append e1)) (h4.of_head (head_append (head_append e1))) ?_
    intro h
    apply h5
    simp only [List.append_eq_nil_iff] at h ⊢
    exact ⟨h.1, h.2.1, (nil_of_head e1).1 h.2.2⟩
  | minus h1 h2 h3 => exact .minus h1 h2 (h3.of_head (head_append e1))

/-- Operators that begin with an operator and go on: by one character, or it is
three dots. -/
theorem operator_longer : ∀ o ∈ operators, ∀ o' ∈ operators, o.toList <+: o'.toList →
    o.length < o'.length → (o = "." ∧ o' = "...") ∨
      ∃ o'' ∈ operators, o.toList <+: o''.toList ∧ o''.length = o.length + 1 ∧
        o''.toList <+: o'.toList := by
  decide +kernel

theorem prefix_total {α} {a b l : List α} (ha : a <+: l) (hb : b <+: l) (h : a.length ≤ b.length) :
    a <+: b := List.prefix_of_prefix_length_le ha hb h

theorem op_local {o o' : String} {r r' : List Char} (ho : o ∈ operators) (ho' : o' ∈ operators)
    (hm : ∀ o' ∈ operators, o'.toList <+: o.toList ++ r → o'.length ≤ o.length)
    (e1 : r'.head? = r.head?) (e2 : ['.', '.'] <+: r' → ['.', '.'] <+: r)
    (h : o'.toList <+: o.toList ++ r') : o'.length ≤ o.length := by
  by_contra hlt
  have hlt : o.length < o'.length := by omega
  have hpre : o.toList <+: o'.toList :=
    prefix_total (List.prefix_append _ _) h (by simp only [String.length_toList]; omega)
  rcases operator_longer o ho o' ho' hpre hlt with ⟨rfl, rfl⟩ | ⟨o2, h2, p1, hl, p2⟩
  · have : ['.', '.'] <+: r' := by
      have := (List.prefix_append_right_inj ['.']).1 (show ['.'] ++ ['.', '.'] <+: ['.'] ++ r' from h)
      exact this
    have := hm "..." ho' ((List.prefix_append_right_inj ['.']).2 (e2 this))
    exact absurd this (by decide)
  · have hp : o2.toList <+: o.toList ++ r' := p2.trans h
    obtain ⟨c, hc⟩ : ∃ c, o2.toList = o.toList ++ [c] := by
      obtain ⟨t, ht⟩ := p1
      have : t.length = 1 := by
        have := congrArg List.length ht
        simp only [List.length_append, String.length_toList] at this
        omega
      obtain ⟨c, rfl⟩ := List.length_eq_one_iff.1 this
      exact ⟨c, ht.symm⟩
    rw [hc, List.prefix_append_right_inj] at hp
    obtain ⟨t, ht⟩ := hp
    have hh : r.head? = some c := by rw [← e1, ← ht]; rfl
    have : o2.toList <+: o.toList ++ r := by
      rw [hc, List.prefix_append_right_inj]
      cases r with
      | nil => cases hh
      | cons d r => cases hh; exact ⟨r, rfl⟩
    have := hm o2 h2 this
    omega

theorem slash_local {o : String} {c : Char} {r r' : List Char} (ho : o ∈ operators)
    (hc : c = '/' ∨ c = '*') (e1 : r'.head? = r.head?) (h : ['/', c] <+: o.toList ++ r') :
    ['/', c] <+: o.toList ++ r := by
  have key : ∀ o ∈ operators, ∀ c, c = '/' ∨ c = '*' → 2 ≤ o.length → ¬ ['/', c] <+: o.toList := by
    rintro o ho c (rfl | rfl)
    · revert o; decide +kernel
    · revert o; decide +kernel
  have hpos : ∀ o ∈ operators, 1 ≤ o.length := by decide +kernel
  by_cases hl : 2 ≤ o.length
  · exact absurd (prefix_total h (List.prefix_append _ _) (by
      rw [String.length_toList]; exact hl)) (key o ho c hc hl)
  · have hl1 : o.toList.length = 1 := by have := hpos o ho; simp only [String.length_toList]; omega
    obtain ⟨d, hd⟩ := List.length_eq_one_iff.1 hl1
    rw [hd] at h ⊢
    obtain ⟨t, ht⟩ := h
    cases r' with
    | nil => simp at ht
    | cons a r' =>
      simp only [List.cons_append, List.nil_append, List.cons.injEq] at ht
      obtain ⟨rfl, rfl, rfl⟩ := ht
      cases r with
      | nil => cases e1
      | cons b r => cases e1; exact ⟨r, rfl⟩

/-- A token depends only on the next character (and for a dot on whether two
dots follow). -/
theorem lexeme_local [Unicode] {k c : String} {lx r r' : List Char} (h : Lexeme k c lx r)
    (e1 : r'.head? = r.head?) (e2 : ['.', '.'] <+: r' → ['.', '.'] <+: r) : Lexeme k c lx r' := by
  cases h with
  | imp h1 h2 h3 h4 =>
    exact .imp h1 h2 (h3.of_head (head_append e1)) (fun c hc => h4 c (by rw [← e1, hc]))
  | mac h1 h2 h3 => exact .mac h1 h2 (fun c hc => h3 c (by rw [← e1, hc]))
  | blockComment h1 => exact .blockComment h1
  | lineComment h1 h2 => exact .lineComment h1 (fun c hc => h2 c (by rw [← e1, hc]))
  | word h1 h2 h3 h4 h5 => exact .word h1 h2 (h3.of_head e1) (by rw [e1]; exact h4) h5
  | calloc => exact .calloc
  | keyword h1 h2 h3 h4 => exact .keyword h1 h2 (h3.of_head e1) h4
  | hex h1 h2 h3 h4 => exact .hex h1 h2 (h3.of_head (head_append e1)) (h4.of_head e1)
  | dec h1 h2 h3 h4 h5 h6 h7 =>
    refine .dec h1 (exponent_local h2 e1) h3 (h4.of_head e1) (h5.of_head e1) ?_
      (h7.of_head (head_append e1))
    intro h
    refine h6 (zero_x ?_ (h5.of_head e1) h)
    obtain ⟨d, t, rfl, _⟩ := mantissa_digit h1
    simp
  | str h1 h2 h3 => exact .str h1 h2 (h3.of_head e1)
  | chr h1 => exact .chr h1
  | escChr => exact .escChr
  | op h1 h2 h3 h4 =>
    exact .op h1 (fun o' ho' h => op_local h1 ho' h2 e1 e2 h)
      (fun h => h3 (slash_local h1 (.inl rfl) e1 h)) (fun h => h4 (slash_local h1 (.inr rfl) e1 h))

theorem blank_not_letter {c : Char} (h : Blank c) : ¬ Letter c := by
  rcases h with rfl | rfl | rfl | rfl <;> (unfold Letter; decide)

theorem blank_not_digit {c : Char} (h : Blank c) : ¬ Digit c := by
  rcases h with rfl | rfl | rfl | rfl <;> (unfold Digit; decide)

theorem blank_not_hex {c : Char} (h : Blank c) : ¬ HexDigit c := by
  rcases h with rfl | rfl | rfl | rfl <;> (unfold HexDigit Digit; decide)

theorem blank_not_word [Unicode] {c : Char} (h : Blank c) : ¬ WordChar c := by
  rcases h with rfl | rfl | rfl | rfl <;> simp [WordChar, isAlphanumeric] <;> decide

theorem slash_not_word [Unicode] : ¬ WordChar '/' := by
  simp [WordChar, isAlphanumeric] <;> decide

/-- The characters a filler begins with. -/
def Gap (c : Char) : Prop := Blank c ∨ c = '/'

theorem gap_not_letter {c : Char} (h : Gap c) : ¬ Letter c := by
  rcases h with h | rfl
  · exact blank_not_letter h
  · unfold Letter; decide

theorem gap_not_hex {c : Char} (h : Gap c) : ¬ HexDigit c := by
  rcases h with h | rfl
  · exact blank_not_hex h
  · unfold HexDigit Digit; decide

theorem gap_not_digit {c : Char} (h : Gap c) : ¬ Digit c := fun h' => gap_not_hex h (.inl h')

theorem gap_not_word [Unicode] {c : Char} (h : Gap c) : ¬ WordChar c := by
  rcases h with h | rfl
  · exact blank_not_word h
  · exact slash_not_word

theorem gap_ne {c : Char} (h : Gap c) : c ≠ '!' ∧ c ≠ '.' ∧ c ≠ '-' ∧ c ≠ '"' ∧ c ≠ '*' := by
  rcases h with (rfl | rfl | rfl | rfl) | rfl <;> decide

theorem gap_not_suffix {c : Char} {dot : Bool} (h : Gap c) : ¬ Suffix dot c := by
  rcases h with (rfl | rfl | rfl | rfl) | rfl <;> (rintro (h | h | ⟨_, h⟩) <;> revert h <;> decide)

theorem gap_not_exp {c : Char} (h : Gap c) : ¬ ExpMark c := by
  rcases h with (rfl | rfl | rfl | rfl) | rfl <;> (rintro (h | h) <;> revert h <;> decide)

/-- `r` begins with a filler character. -/
def GapHead (r : List Char) : Prop := ∃ c, r.head? = some c ∧ Gap c

theorem GapHead.stops {r : List Char} (h : GapHead r) {p : Char → Prop}
    (hp : ∀ c, Gap c → ¬ p c) : Stops p r := by
  obtain ⟨c, e, hc⟩ := h
  intro d hd
  rw [e] at hd
  cases hd
  exact hp c hc

/-- Text put after a token by something that begins with a gap character. -/
theorem stops_gap {p : Char → Prop} {u r r' : List Char} (h : Stops p (u ++ r)) (hg : GapHead r')
    (hp : ∀ c, Gap c → ¬ p c) : Stops p (u ++ r') := by
  cases u with
  | nil => exact hg.stops hp
  | cons c u => exact h.of_head rfl

theorem GapHead.ne {r : List Char} (h : GapHead r) : r ≠ [] := by
  obtain ⟨c, e, _⟩ := h
  rintro rfl
  cases e

theorem exponent_gap {e u r r' : List Char} (h : Exponent e (u ++ r)) (hg : GapHead r') :
    Exponent e (u ++ r') := by
  cases h with
  | none h => exact .none (stops_gap h hg (fun _ => gap_not_exp))
  | plus h1 h2 h3 h4 h5 =>
    refine .plus h1 h2 (stops_gap h3 hg (fun _ => gap_not_digit)) ?_ ?_
    · rw [← List.append_assoc] at h4 ⊢
      exact stops_gap h4 hg (fun _ h => (gap_ne h).2.2.1)
    · intro h
      simp only [List.append_eq_nil_iff] at h
      exact hg.ne h.2.2
  | minus h1 h2 h3 => exact .minus h1 h2 (stops_gap h3 hg (fun _ => gap_not_digit))

/-- Operators hold no blank or slash after the first character. -/
theorem operator_tail : ∀ o ∈ operators, ∀ o' ∈ operators, o.toList <+: o'.toList →
    o.length < o'.length → ∀ c, (o'.toList.drop o.length).head? = some c →
      c ≠ ' ' ∧ c ≠ '\t' ∧ c ≠ '\n' ∧ c ≠ '\r' ∧ c ≠ '/' := by
  have h : ∀ o ∈ operators, ∀ o' ∈ operators, o.toList <+: o'.toList → o.length < o'.length →
      ((o'.toList.drop o.length).head?.all
        (fun c => c ≠ ' ' ∧ c ≠ '\t' ∧ c ≠ '\n' ∧ c ≠ '\r' ∧ c ≠ '/')) = true := by decide +kernel
  intro o ho o' ho' hp hl c hc
  have := h o ho o' ho' hp hl
  rw [hc] at this
  simpa using this

theorem op_gap {o o' : String} {r' : List Char} (ho : o ∈ operators) (ho' : o' ∈ operators)
    (hg : GapHead r') (h : o'.toList <+: o.toList ++ r') : o'.length ≤ o.length := by
  by_contra hlt
  have hlt : o.length < o'.length := by omega
  have hpre : o.toList <+: o'.toList :=
    prefix_total (List.prefix_append _ _) h (by simp only [String.length_toList]; omega)
  obtain ⟨t, ht⟩ := hpre
  rw [← ht, List.prefix_append_right_inj] at h
  have hd : o'.toList.drop o.length = t := by
    rw [← ht, ← String.length_toList, List.drop_left]
  have htl : t ≠ [] := by
    rintro rfl
    have := congrArg List.length ht
    simp only [List.length_append, String.length_toList, List.length_nil] at this
    omega
  obtain ⟨c, t', rfl⟩ := List.exists_cons_of_ne_nil htl
  have hc := operator_tail o ho o' ho' ⟨_, ht⟩ hlt c (by rw [hd]; rfl)
  obtain ⟨u, hu⟩ := h
  obtain ⟨d, hd', hg⟩ := hg
  rw [← hu] at hd'
  cases hd'
  obtain ⟨h1, h2, h3, h4, h5⟩ := hc
  rcases hg with (rfl | rfl | rfl | rfl) | rfl <;> contradiction

theorem slash_gap {o : String} {c : Char} {r' : List Char} (ho : o ∈ operators)
    (hc : c = '/' ∨ c = '*') (hg : GapHead r') (hs : o = "/" → r'.head? ≠ some '/')
    (h : ['/', c] <+: o.toList ++ r') : False := by
  have key : ∀ o ∈ operators, ∀ c, c = '/' ∨ c = '*' → 2 ≤ o.length → ¬ ['/', c] <+: o.toList := by
    rintro o ho c (rfl | rfl)
    · revert o; decide +kernel
    · revert o; decide +kernel
  have hpos : ∀ o ∈ operators, 1 ≤ o.length := by decide +kernel
  by_cases hl : 2 ≤ o.length
  · exact absurd (prefix_total h (List.prefix_append _ _) (by
      rw [String.length_toList]; exact hl)) (key o ho c hc hl)
  · have hl1 : o.toList.length = 1 := by have := hpos o ho; simp only [String.length_toList]; omega
    obtain ⟨d, hd⟩ := List.length_eq_one_iff.1 hl1
    rw [hd] at h
    obtain ⟨t, ht⟩ := h
    obtain ⟨g, hg', hg⟩ := hg
    cases r' with
    | nil => cases hg'
    | cons a r' =>
      cases hg'
      simp only [List.cons_append, List.nil_append, List.cons.injEq] at ht
      obtain ⟨rfl, rfl, rfl⟩ := ht
      rcases hc with rfl | rfl
      · refine hs ?_ rfl
        apply String.ext
        rw [hd]; rfl
      · exact (gap_ne hg).2.2.2.2 rfl

/-- A token stays the same if blanks or a comment are put after it. -/
theorem lexeme_gap [Unicode] {k c : String} {lx r r' : List Char} (h : Lexeme k c lx r)
    (hg : GapHead r') (h1 : k ≠ "import") (h2 : k ≠ "macro") (h3 : k ≠ "comment")
    (h4 : k = "/" → r'.head? ≠ some '/') (h5 : k = "string" → Stops Blank r') :
    Lexeme k c lx r' := by
  cases h with
  | imp => exact absurd rfl h1
  | mac => exact absurd rfl h2
  | blockComment => exact absurd rfl h3
  | lineComment => exact absurd rfl h3
  | word a1 a2 a3 a4 a5 =>
    refine .word a1 a2 (hg.stops (fun _ => gap_not_word)) ?_ a5
    rintro ⟨_, h⟩
    exact hg.stops (p := (· = '!')) (fun c h => (gap_ne h).1) '!' h rfl
  | calloc => exact .calloc
  | keyword a1 a2 a3 a4 => exact .keyword a1 a2 (hg.stops (fun _ => gap_not_word)) a4
  | hex a1 a2 a3 a4 =>
    exact .hex a1 a2 (stops_gap a3 hg (fun _ => gap_not_hex)) (hg.stops (fun _ => gap_not_suffix))
  | dec a1 a2 a3 a4 a5 a6 a7 =>
    have hl : Stops Letter r' := hg.stops (fun _ => gap_not_letter)
    refine .dec a1 (exponent_gap a2 hg) a3 (hg.stops (fun _ => gap_not_suffix)) hl ?_
      (stops_gap a7 hg ?_)
    · intro h
      refine a6 (zero_x ?_ hl h)
      obtain ⟨d, t, rfl, _⟩ := mantissa_digit a1
      simp
    · rintro c hc (h | ⟨_, h⟩)
      · exact gap_not_digit hc h
      · exact (gap_ne hc).2.1 h
  | str a1 a2 a3 =>
    refine .str a1 a2 ?_
    intro c hc hb
    rcases hb with hb | hb
    · exact h5 rfl c hc hb
    · exact hg.stops (p := (· = '"')) (fun c h => (gap_ne h).2.2.2.1) c hc hb
  | chr a1 => exact .chr a1
  | escChr => exact .escChr
  | op a1 a2 a3 a4 =>
    exact .op a1 (fun o' ho' h => op_gap a1 ho' hg h)
      (fun h => slash_gap a1 (.inl rfl) hg h4 h) (fun h => slash_gap a1 (.inr rfl) hg h4 h)

/-- A string literal takes in the blanks after it. -/
theorem strParts_blanks {s t sp : List Char} (h : StrParts s t) (ht : t ≠ []) (hsp : Blanks sp) :
    StrParts s (t ++ sp) := by
  induction h with
  | nil => exact absurd rfl ht
  | @part w sp0 s t h1 h2 h3 h4 ih =>
    by_cases e : t = []
    · subst e
      have := StrParts.part (sp := sp0 ++ sp) h1 (by
        intro c hc
        rcases List.mem_append.1 hc with hc | hc
        · exact h2 c hc
        · exact hsp c hc) h3 h4
      simpa using this
    · have := StrParts.part h1 h2 (t := t ++ sp) (by
        obtain ⟨c, t', rfl⟩ := List.exists_cons_of_ne_nil e
        exact h3.of_head rfl) (ih e)
      simpa using this

theorem lexeme_string [Unicode] {c : String} {lx r sp r' : List Char} (h : Lexeme "string" c lx r)
    (hsp : Blanks sp) (hr : Stops (fun c => Blank c ∨ c = '"') r') :
    Lexeme "string" c (lx ++ sp) r' := by
  generalize hk : "string" = k at h
  cases h with
  | str a1 a2 a3 => exact .str (strParts_blanks a1 a2 hsp) (by simp [a2]) hr
  | keyword a1 a2 a3 a4 => rw [← hk] at a4; exact absurd a4 (by decide)
  | op a1 => rw [← hk] at a1; exact absurd a1 (by decide +kernel)
  | _ => exact absurd hk (by decide)

end Che
