import Verif.Spec.CLex
/-!
# Reading C text as tokens: determinism and the longest token
-/
namespace Che.Proofs.CLexing
open Che Che.Spec

/-! ## First characters -/

/-- What a punctuator starts with. -/
theorem punct_head : ∀ p ∈ cPunctuators, ∃ c cs, p.toList = c :: cs ∧ cLetter c = false ∧
    cDigit c = false ∧ cBlank c = false ∧ c ≠ '\'' ∧ c ≠ '"' := by
  have : ∀ p ∈ cPunctuators, (match p.toList with
      | c :: _ => !cLetter c && !cDigit c && !cBlank c && c != '\'' && c != '"'
      | [] => false) = true := by decide +kernel
  intro p hp
  have h := this p hp
  cases hl : p.toList with
  | nil => rw [hl] at h; simp at h
  | cons c cs =>
    rw [hl] at h
    simp only [Bool.and_eq_true, Bool.not_eq_true', bne_iff_ne, ne_eq] at h
    exact ⟨c, cs, rfl, h.1.1.1.1, h.1.1.1.2, h.1.1.2, h.1.2, h.2⟩

/-- The character class that decides the kind of a token. -/
inductive Kind (c : Char) : CTok → Prop
  | word {s} : cLetter c = true → Kind c (.word s)
  | wide {s} : cLetter c = true → Kind c (.wide s)
  | num {s} : cDigit c = true ∨ c = '.' → Kind c (.num s)
  | chr {s} : c = '\'' → Kind c (.chr s)
  | str {s} : c = '"' → Kind c (.str s)
  | punct {s} : cLetter c = false → cDigit c = false → c ≠ '\'' → c ≠ '"' → cBlank c = false →
      Kind c (.punct s)

theorem spelling_kind {w t} (h : Spelling w t) : ∃ c cs, w = c :: cs ∧ Kind c t := by
  cases h with
  | word h => obtain ⟨c, cs, rfl, hc, -⟩ := h; exact ⟨c, cs, rfl, .word hc⟩
  | num h =>
    obtain ⟨c, cs, rfl, hc, -⟩ | ⟨c, cs, rfl, hc, -⟩ := h
    · exact ⟨c, cs, rfl, .num (.inl hc)⟩
    · exact ⟨'.', _, rfl, .num (.inr rfl)⟩
  | chr _ _ => exact ⟨_, _, rfl, .chr rfl⟩
  | str _ => exact ⟨_, _, rfl, .str rfl⟩
  | wide hp _ _ =>
    simp only [List.mem_cons, List.not_mem_nil, or_false] at hp
    obtain rfl | rfl | rfl | rfl := hp <;> exact ⟨_, _, rfl, .wide (by decide)⟩
  | punct hp =>
    obtain ⟨c, cs, h, h1, h2, h3, h4, h5⟩ := punct_head _ hp
    exact ⟨c, cs, h, .punct h1 h2 h4 h5 h3⟩

theorem spelling_ne {w t} (h : Spelling w t) : w ≠ [] := by
  obtain ⟨c, cs, rfl, -⟩ := spelling_kind h
  simp

theorem digit_not_letter {c} (h : cDigit c = true) : cLetter c = false := by
  simp only [cDigit, Bool.and_eq_true, decide_eq_true_eq] at h
  have h1 := h.1; have h2 := h.2
  simp only [Char.le_def] at h1 h2
  simp only [cLetter, Bool.or_eq_false_iff, Bool.and_eq_false_iff, decide_eq_false_iff_not, Char.le_def,
    beq_eq_false_iff_ne, ne_eq]
  refine ⟨⟨.inl ?_, .inl ?_⟩, ?_⟩
  · intro h3
    have := UInt32.le_trans h3 h2
    exact absurd this (by decide)
  · intro h3
    have := UInt32.le_trans h3 h2
    exact absurd this (by decide)
  · rintro rfl
    exact absurd h2 (by decide)

theorem blank_cases {c} (h : cBlank c = true) : c = ' ' ∨ c = '\t' ∨ c = '\n' := by
  simp only [cBlank, Bool.or_eq_true, beq_iff_eq] at h
  obtain (h | h) | h := h <;> simp [h]

theorem kind_not_blank {c t} (h : Kind c t) : cBlank c = false := by
  cases hb : cBlank c with
  | false => rfl
  | true =>
    obtain rfl | rfl | rfl := blank_cases hb <;> cases h <;> simp_all (decide := true)

/-! ## A spelling is that of one token -/

theorem spelling_det {w t t'} (h : Spelling w t) (h' : Spelling w t') : t = t' := by
  obtain ⟨c, cs, rfl, hk⟩ := spelling_kind h
  obtain ⟨c', cs', he, hk'⟩ := spelling_kind h'
  injection he with he1 he2
  subst he1; subst he2
  have idq : ∀ q : Char, q = '\'' ∨ q = '"' → cIdChar q = false := by
    rintro q (rfl | rfl) <;> decide
  have idw : ∀ {p : List Char} {q b x xs}, p ∈ [['L'], ['u'], ['U'], ['u', '8']] →
      q = '\'' ∨ q = '"' → p ++ q :: b = x :: xs → (∀ y ∈ xs, cIdChar y = true) → False := by
    intro p q b x xs hp hq he hall
    simp only [List.mem_cons, List.not_mem_nil, or_false] at hp
    have : q ∈ xs := by
      obtain rfl | rfl | rfl | rfl := hp <;>
        (simp only [List.cons_append, List.nil_append, List.cons.injEq] at he; rw [← he.2]; simp)
    exact absurd (hall q this) (by simp [idq q hq])
  generalize hw : c :: cs = w at h h'
  cases h with
  | word h1 =>
    cases h' with
    | word _ => rfl
    | num _ =>
      cases hk; cases hk'
      rename_i h2 h3
      obtain h3 | rfl := h3
      · rw [digit_not_letter h3] at h2; cases h2
      · exact absurd h2 (by decide)
    | chr _ _ => cases hk; cases hk'; simp_all (decide := true)
    | str _ => cases hk; cases hk'; simp_all (decide := true)
    | wide hp hq _ =>
      obtain ⟨x, xs, hx, -, hall⟩ := h1
      exact (idw hp hq hx hall).elim
    | punct _ => cases hk; cases hk'; simp_all
  | num h1 =>
    cases h' with
    | word _ =>
      cases hk; cases hk'
      rename_i h3 h2
      obtain h3 | rfl := h3
      · rw [digit_not_letter h3] at h2; cases h2
      · exact absurd h2 (by decide)
    | num _ => rfl
    | chr _ _ => cases hk; cases hk'; simp_all (decide := true)
    | str _ => cases hk; cases hk'; simp_all (decide := true)
    | wide hp hq _ =>
      cases hk; cases hk'
      rename_i h3 h2
      obtain h3 | rfl := h3
      · rw [digit_not_letter h3] at h2; cases h2
      · exact absurd h2 (by decide)
    | punct hp =>
      cases hk; cases hk'
      rename_i h3 h2 h4 _ _ _
      obtain h3 | rfl := h3
      · rw [h3] at h4; cases h4
      · exfalso
        obtain ⟨x, xs, hx, hd, -⟩ | ⟨x, xs, hx, hd, -⟩ := h1
        · rw [← hw] at hx; injection hx with hx _; subst hx; exact absurd hd (by decide)
        · have : ∀ p ∈ cPunctuators, (match p.toList with
              | '.' :: x :: _ => !cDigit x
              | _ => true) = true := by decide +kernel
          have := this _ hp
          rw [hx] at this
          simp [hd] at this
  | chr hb hl =>
    injection hw with hw1 hw2
    subst hw1
    cases hk'
    · simp_all (decide := true)
    · simp_all (decide := true)
    · simp_all (decide := true)
    · generalize hv : '\'' :: (_ ++ ['\'']) = v at h'
      cases h' with
      | chr _ _ =>
        injection hv with _ hv
        rw [List.append_cancel_right hv]
    · simp_all
    · simp_all
  | str hl =>
    injection hw with hw1 hw2
    subst hw1
    cases hk'
    · simp_all (decide := true)
    · simp_all (decide := true)
    · simp_all (decide := true)
    · simp_all
    · generalize hv : '"' :: (_ ++ ['"']) = v at h'
      cases h' with
      | str _ =>
        injection hv with _ hv
        rw [List.append_cancel_right hv]
    · simp_all
  | wide hp hq hl =>
    generalize hv : (_ : List Char) ++ _ :: (_ ++ [_]) = v at h'
    cases h' with
    | word h1 =>
      obtain ⟨x, xs, hx, -, hall⟩ := h1
      exact (idw hp hq (hv.trans hx) hall).elim
    | num _ =>
      cases hk; cases hk'
      rename_i h2 h3
      obtain h3 | rfl := h3
      · rw [digit_not_letter h3] at h2; cases h2
      · exact absurd h2 (by decide)
    | chr _ _ => cases hk; cases hk'; simp_all (decide := true)
    | str _ => cases hk; cases hk'; simp_all (decide := true)
    | wide _ _ _ => rfl
    | punct _ => cases hk; cases hk'; simp_all
  | punct hp =>
    rename_i p
    generalize hv : p.toList = v at h'
    cases h' with
    | word _ => cases hk; cases hk'; simp_all
    | num h1 =>
      cases hk; cases hk'
      rename_i h2 h4 _ _ _ h3
      obtain h3 | rfl := h3
      · rw [h3] at h4; cases h4
      · exfalso
        rw [← hv, ← hw] at h1
        obtain ⟨x, xs, hx, hd, -⟩ | ⟨x, xs, hx, hd, -⟩ := h1
        · injection hx with hx _; subst hx; exact absurd hd (by decide)
        · have : ∀ p ∈ cPunctuators, (match p.toList with
              | '.' :: x :: _ => !cDigit x
              | _ => true) = true := by decide +kernel
          have := this _ hp
          rw [← hw, hx] at this
          simp [hd] at this
    | chr _ _ => cases hk; cases hk'; simp_all
    | str _ => cases hk; cases hk'; simp_all
    | wide _ _ _ => cases hk; cases hk'; simp_all
    | punct _ => rw [String.toList_inj.mp hv]

/-! ## Reading is deterministic and compositional -/

theorem creads_det {s ts r} (h : CReads s ts r) : ∀ {ts'}, CReads s ts' r → ts = ts' := by
  induction h with
  | nil =>
    intro ts' h'
    generalize hs : ([] : List Char) = s at h'
    cases h' with
    | nil => rfl
    | blank _ _ => cases hs
    | tok hw _ _ _ => exact absurd (List.append_eq_nil_iff.mp hs.symm).1 (spelling_ne hw)
  | @blank c s ts r hb _ ih =>
    intro ts' h'
    generalize hs : c :: s = s' at h'
    cases h' with
    | nil => cases hs
    | blank _ h2 => injection hs with _ hs; subst hs; exact ih h2
    | tok hw _ _ _ =>
      obtain ⟨d, ds, rfl, hk⟩ := spelling_kind hw
      injection hs with hs _
      subst hs
      rw [kind_not_blank hk] at hb; cases hb
  | @tok w t s ts r hw hl hc _ ih =>
    intro ts' h'
    generalize hs : w ++ s = s' at h'
    cases h' with
    | nil => exact absurd (List.append_eq_nil_iff.mp hs).1 (spelling_ne hw)
    | blank hb _ =>
      obtain ⟨d, ds, rfl, hk⟩ := spelling_kind hw
      injection hs with hs _
      subst hs
      rw [kind_not_blank hk] at hb; cases hb
    | @tok w2 t2 s2 ts2 _ hw2 hl2 _ h2 =>
      have e : w ++ (s ++ r) = w2 ++ (s2 ++ r) := by
        rw [← List.append_assoc, ← List.append_assoc, hs]
      have l1 : w2.length ≤ w.length := hl w2 t2 hw2 (by rw [e]; exact List.prefix_append _ _)
      have l2 : w.length ≤ w2.length := hl2 w t hw (by rw [← e]; exact List.prefix_append _ _)
      obtain ⟨rfl, rfl⟩ := List.append_inj hs (Nat.le_antisymm l2 l1)
      rw [spelling_det hw hw2, ih h2]

theorem creads_append {s1 t1 r1} (h : CReads s1 t1 r1) : ∀ {s2 t2 r}, r1 = s2 ++ r → CReads s2 t2 r →
    CReads (s1 ++ s2) (t1 ++ t2) r := by
  induction h with
  | nil => intro _ _ _ _ h2; exact h2
  | blank hb _ ih => intro _ _ _ hr h2; exact .blank hb (ih hr h2)
  | tok hw hl hc _ ih =>
    intro s2 t2 r hr h2
    subst hr
    rw [List.append_assoc]
    refine .tok hw ?_ ?_ (ih rfl h2)
    · rwa [List.append_assoc]
    · rwa [List.append_assoc]

/-! ## The longest token -/

theorem prefix_longer {w w' x : List Char} (h : w' <+: w ++ x) (hl : w.length < w'.length) :
    ∃ c x' v, x = c :: x' ∧ w' = w ++ c :: v := by
  obtain ⟨y, hy⟩ := h
  have h1 : w <+: w' := List.prefix_of_prefix_length_le ⟨x, rfl⟩ ⟨y, hy⟩ (Nat.le_of_lt hl)
  obtain ⟨v, rfl⟩ := h1
  cases v with
  | nil => simp at hl
  | cons c v =>
    rw [List.append_assoc] at hy
    have := List.append_cancel_left hy
    exact ⟨c, v ++ y, v, this.symm, rfl⟩

/-- What may follow a word. -/
def AfterWord (x : List Char) : Prop :=
  ∀ c x', x = c :: x' → cIdChar c = false ∧ c ≠ '\'' ∧ c ≠ '"'

theorem letter_id {c} (h : cLetter c = true) : cIdChar c = true := by simp [cIdChar, h]

theorem longest_word {w x} (h : CWord w) (ha : AfterWord x) : Longest w x := by
  intro w' t hw hp
  refine Nat.le_of_not_lt fun hl => ?_
  obtain ⟨c, x', v, rfl, rfl⟩ := prefix_longer hp hl
  obtain ⟨h1, h2, h3⟩ := ha c x' rfl
  obtain ⟨d, ds, rfl, hd, hds⟩ := h
  have hk := spelling_kind hw
  obtain ⟨d', ds', he, hk⟩ := hk
  injection he with he _; subst he
  generalize hu : d :: ds ++ c :: v = u at hw
  cases hw with
  | word h4 =>
    obtain ⟨y, ys, rfl, _, hall⟩ := h4
    injection hu with _ hu
    have := hall c (by rw [← hu]; simp)
    rw [h1] at this; cases this
  | num _ =>
    cases hk
    rename_i h5
    obtain h5 | rfl := h5
    · rw [digit_not_letter h5] at hd; cases hd
    · exact absurd hd (by decide)
  | chr _ _ => cases hk; simp_all (decide := true)
  | str _ => cases hk; simp_all (decide := true)
  | @wide p q b hp' hq _ =>
    have hid : ∀ y ∈ d :: ds, cIdChar y = true := by
      intro y hy
      rw [List.mem_cons] at hy
      obtain rfl | hy := hy
      · exact letter_id hd
      · exact hds y hy
    have hq' : cIdChar q = false := by obtain rfl | rfl := hq <;> decide
    have hpid : ∀ y ∈ p, cIdChar y = true := by
      simp only [List.mem_cons, List.not_mem_nil, or_false] at hp'
      obtain rfl | rfl | rfl | rfl := hp' <;> decide
    -- where does `c` fall
    rcases List.append_eq_append_iff.mp hu with ⟨a, ha1, ha2⟩ | ⟨a, ha1, ha2⟩
    · -- p = d::ds ++ a
      cases a with
      | nil =>
        injection ha2 with ha2 _
        subst ha2
        obtain rfl | rfl := hq
        · exact h2 rfl
        · exact h3 rfl
      | cons y a =>
        injection ha2 with ha2 _
        subst ha2
        have := hpid c (by rw [ha1]; simp)
        rw [h1] at this; cases this
    · -- d::ds = p ++ a
      cases a with
      | nil =>
        injection ha2 with ha2 _
        subst ha2
        obtain rfl | rfl := hq
        · exact h2 rfl
        · exact h3 rfl
      | cons y a =>
        injection ha2 with ha2 _
        subst ha2
        have := hid q (by rw [ha1]; simp)
        rw [hq'] at this; cases this
  | punct _ => cases hk; simp_all

/-- What may follow a number. -/
def AfterNum (x : List Char) : Prop :=
  ∀ c x', x = c :: x' → cIdChar c = false ∧ c ≠ '.' ∧ c ≠ '+' ∧ c ≠ '-'

theorem ppTail_not : ∀ {ds p c v}, PPTail p (ds ++ c :: v) →
    cIdChar c = false → c ≠ '.' → c ≠ '+' → c ≠ '-' → False
  | [], p, c, v, h, h1, h2, h3, h4 => by
    simp only [List.nil_append, PPTail] at h
    obtain h | h | ⟨h | h, -⟩ := h.1
    · rw [h1] at h; cases h
    · exact h2 h
    · exact h3 h
    · exact h4 h
  | d :: ds, p, c, v, h, h1, h2, h3, h4 => ppTail_not (ds := ds) h.2 h1 h2 h3 h4

theorem longest_num {w x d ds} (hw0 : w = d :: ds) (hd : cDigit d = true)
    (ha : AfterNum x) : Longest w x := by
  subst hw0
  intro w' t hw hp
  refine Nat.le_of_not_lt fun hl => ?_
  obtain ⟨c, x', v, rfl, rfl⟩ := prefix_longer hp hl
  obtain ⟨h1, h2, h3, h4⟩ := ha c x' rfl
  obtain ⟨d', ds', he, hk⟩ := spelling_kind hw
  injection he with he _; subst he
  generalize hu : d :: ds ++ c :: v = u at hw
  cases hw with
  | word _ => cases hk; rw [digit_not_letter hd] at *; simp_all
  | num h4 =>
    obtain ⟨y, ys, rfl, _, hall⟩ | ⟨y, ys, rfl, _, hall⟩ := h4
    · injection hu with _ hu
      subst hu
      exact ppTail_not hall h1 h2 h3 (by assumption)
    · injection hu with hu _
      subst hu; exact absurd hd (by decide)
  | chr _ _ => cases hk; simp_all (decide := true)
  | str _ => cases hk; simp_all (decide := true)
  | wide _ _ _ => cases hk; rw [digit_not_letter hd] at *; simp_all
  | punct _ => cases hk; simp_all

theorem litBody_det {q : Char} (hq : q ≠ '\\') : ∀ {b b' y y'}, LitBody q b → LitBody q b' →
    b ++ q :: y = b' ++ q :: y' → b = b' := by
  intro b b' y y' h
  induction h generalizing b' with
  | nil =>
    intro h' he
    cases h' with
    | nil => rfl
    | plain h1 _ _ _ => injection he with he _; exact absurd he.symm h1
    | esc _ _ => injection he with he _; exact absurd he hq
  | plain h1 h2 h3 _ ih =>
    intro h' he
    cases h' with
    | nil => injection he with he _; exact absurd he h1
    | plain _ _ _ h' => injection he with he1 he2; rw [he1, ih h' he2]
    | esc _ _ => injection he with he _; exact absurd he h2
  | esc h1 _ ih =>
    intro h' he
    cases h' with
    | nil => injection he with he _; exact absurd he.symm hq
    | plain _ h2 _ _ => injection he with he _; exact absurd he.symm h2
    | esc _ h' => injection he with _ he; injection he with he1 he2; rw [he1, ih h' he2]

theorem longest_str {b x} (h : LitBody '"' b) : Longest ('"' :: (b ++ ['"'])) x := by
  intro w' t hw ⟨y, hy⟩
  obtain ⟨d, ds, he, hk⟩ := spelling_kind hw
  subst he
  injection hy with hy hy2
  subst hy
  generalize hu : '"' :: ds = u at hw
  cases hw with
  | str h2 =>
    injection hu with _ hu
    subst hu
    simp only [List.append_eq, List.append_assoc, List.singleton_append] at hy2
    rw [litBody_det (by decide) h h2 hy2.symm]
    exact Nat.le_refl _
  | word _ => cases hk; simp_all (decide := true)
  | num _ => cases hk; simp_all (decide := true)
  | chr _ _ => injection hu with hu _; exact absurd hu (by decide)
  | wide _ _ _ => cases hk; simp_all (decide := true)
  | punct _ => cases hk; simp_all

theorem longest_chr {b x} (h : LitBody '\'' b) : Longest ('\'' :: (b ++ ['\''])) x := by
  intro w' t hw ⟨y, hy⟩
  obtain ⟨d, ds, he, hk⟩ := spelling_kind hw
  subst he
  injection hy with hy hy2
  subst hy
  generalize hu : '\'' :: ds = u at hw
  cases hw with
  | chr _ h2 =>
    injection hu with _ hu
    subst hu
    simp only [List.append_eq, List.append_assoc, List.singleton_append] at hy2
    rw [litBody_det (by decide) h h2 hy2.symm]
    exact Nat.le_refl _
  | word _ => cases hk; simp_all (decide := true)
  | num _ => cases hk; simp_all (decide := true)
  | str _ => injection hu with hu _; exact absurd hu (by decide)
  | wide _ _ _ => cases hk; simp_all (decide := true)
  | punct _ => cases hk; simp_all

/-- The characters that may continue a punctuator. -/
def extChars (p : List Char) : List Char :=
  cPunctuators.filterMap fun q => if p.isPrefixOf q.toList then (q.toList.drop p.length).head? else none

theorem longest_punct {p : String} {x : List Char} (hp : p ∈ cPunctuators)
    (h : ∀ c x', x = c :: x' → c ∉ extChars p.toList ∧ (p = "." → cDigit c = false)) :
    Longest p.toList x := by
  intro w' t hw hpre
  refine Nat.le_of_not_lt fun hl => ?_
  obtain ⟨c, x', v, rfl, rfl⟩ := prefix_longer hpre hl
  obtain ⟨h1, h2⟩ := h c x' rfl
  obtain ⟨d, ds, hpd, k1, k2, k3, k4, k5⟩ := punct_head p hp
  obtain ⟨d', ds', he, hk⟩ := spelling_kind hw
  rw [hpd] at he
  injection he with he _; subst he
  cases hk with
  | word _ => simp_all
  | wide _ => simp_all
  | chr _ => simp_all
  | str _ => simp_all
  | num hd =>
    obtain hd | rfl := hd
    · rw [hd] at k2; cases k2
    · generalize hu : p.toList ++ c :: v = u at hw
      cases hw with
      | num h3 =>
        obtain ⟨y, ys, rfl, hy, -⟩ | ⟨y, ys, rfl, hy, -⟩ := h3
        · rw [hpd] at hu; injection hu with hu _; subst hu; exact absurd hy (by decide)
        · have hdot : ∀ p ∈ cPunctuators, (match p.toList with
              | '.' :: x :: _ => !cDigit x
              | '.' :: [] => p == "."
              | _ => true) = true := by decide +kernel
          have := hdot p hp
          rw [hpd] at this hu
          cases ds with
          | nil =>
            simp only [beq_iff_eq] at this
            injection hu with _ hu; injection hu with hu _
            subst hu
            rw [h2 this] at hy; cases hy
          | cons z zs =>
            injection hu with _ hu; injection hu with hu _
            subst hu
            simp [hy] at this
  | punct _ _ _ _ _ =>
    generalize hu : p.toList ++ c :: v = u at hw
    cases hw with
    | punct hq =>
      rename_i q _ _ _ _ _
      apply h1
      rw [extChars, List.mem_filterMap]
      refine ⟨q, hq, ?_⟩
      rw [if_pos]
      · rw [← hu]; simp
      · rw [List.isPrefixOf_iff_prefix, ← hu]; exact List.prefix_append _ _

end Che.Proofs.CLexing
