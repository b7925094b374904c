import Verif.Proofs.Prog.Regexp9Comp
import Verif.Proofs.Prog.Regexp9Loop

/-!
Reading the text of an expression.
-/
namespace Che.Proofs.Regexp9
open Che Che.Lib Che.Lib.Utf Che.Prog.Regexp9 Che.Spec.Regexp9 Che.Spec.Utf

/-! ## Classes of characters -/

theorem sortPass_spec (p : Nat × Nat) (l : List (Nat × Nat)) :
    (sortPass p l).2.length = l.length ∧ (∀ q, q ∈ (sortPass p l).1 :: (sortPass p l).2 ↔ q ∈ p :: l) ∧
      (sortPass p l).1.1 ≤ p.1 ∧ ∀ q ∈ (sortPass p l).2, (sortPass p l).1.1 ≤ q.1 := by
  induction l generalizing p with
  | nil => simp [sortPass]
  | cons q rest ih =>
    rw [sortPass]
    by_cases h : q.1 < p.1
    · simp only [if_pos h]
      obtain ⟨h1, h2, h3, h4⟩ := ih q
      refine ⟨by simp [h1], fun x => ?_, by omega, ?_⟩
      · have := h2 x
        simp only [List.mem_cons] at this ⊢
        grind
      · intro x hx
        rcases List.mem_cons.1 hx with rfl | hx
        · omega
        · exact h4 x hx
    · simp only [if_neg h]
      obtain ⟨h1, h2, h3, h4⟩ := ih p
      refine ⟨by simp [h1], fun x => ?_, h3, ?_⟩
      · have := h2 x
        simp only [List.mem_cons] at this ⊢
        grind
      · intro x hx
        rcases List.mem_cons.1 hx with rfl | hx
        · omega
        · exact h4 x hx

/-- In order of their first characters. -/
def Sorted : List (Nat × Nat) → Prop
  | [] => True
  | p :: rest => (∀ q ∈ rest, p.1 ≤ q.1) ∧ Sorted rest

theorem sortSpans_spec : ∀ (n : Nat) (l : List (Nat × Nat)), l.length = n →
    Sorted (sortSpans n l) ∧ ∀ q, q ∈ sortSpans n l ↔ q ∈ l := by
  intro n
  induction n with
  | zero => intro l h; cases l <;> simp_all [sortSpans, Sorted]
  | succ n ih =>
    intro l h
    cases l with
    | nil => simp at h
    | cons p rest =>
      obtain ⟨h1, h2, h3, h4⟩ := sortPass_spec p rest
      obtain ⟨i1, i2⟩ := ih (sortPass p rest).2 (by simp at h; omega)
      simp only [sortSpans]
      refine ⟨⟨fun q hq => h4 q ((i2 q).1 hq), i1⟩, fun q => ?_⟩
      rw [← h2 q]
      simp [i2]

theorem mergeLoop_spec (r : Nat) : ∀ (l : List (Nat × Nat)) (p : Nat × Nat), (∀ q ∈ l, p.1 ≤ q.1) → Sorted l →
    (inSpans (mergeLoop p l) r = true ↔ ∃ q ∈ p :: l, q.1 ≤ r ∧ r ≤ q.2) := by
  intro l
  induction l with
  | nil => intro p _ _; simp [mergeLoop, inSpans]
  | cons q rest ih =>
    intro p hp hs
    rw [mergeLoop]
    have hq := hp q (by simp)
    have hp' : ∀ x ∈ rest, p.1 ≤ x.1 := fun x hx => hp x (List.mem_cons_of_mem _ hx)
    split
    · split
      · rw [ih (p.1, q.2) hp' hs.2]
        simp only [List.mem_cons, exists_eq_or_imp]
        constructor
        · rintro (h | h)
          · by_cases hr : r ≤ p.2
            · exact Or.inl ⟨h.1, hr⟩
            · exact Or.inr (Or.inl (by omega))
          · exact Or.inr (Or.inr h)
        · rintro (h | h | h)
          · exact Or.inl (by omega)
          · exact Or.inl (by omega)
          · exact Or.inr h
      · rw [ih p hp' hs.2]
        simp only [List.mem_cons, exists_eq_or_imp]
        constructor
        · rintro (h | h)
          · exact Or.inl h
          · exact Or.inr (Or.inr h)
        · rintro (h | h | h)
          · exact Or.inl h
          · exact Or.inl (by omega)
          · exact Or.inr h
    · have := ih q hs.1 hs.2
      simp only [inSpans, List.any_cons, Bool.or_eq_true, decide_eq_true_eq] at this ⊢
      rw [this]
      simp only [List.mem_cons, exists_eq_or_imp, ge_iff_le]

/-- Sorting and merging keep the characters of a class. -/
theorem mergeSpans_spec (l : List (Nat × Nat)) (r : Nat) : inSpans (mergeSpans l) r = true ↔ ∃ p ∈ l, p.1 ≤ r ∧ r ≤ p.2 := by
  obtain ⟨h1, h2⟩ := sortSpans_spec l.length l rfl
  rw [mergeSpans]
  cases hs : sortSpans l.length l with
  | nil =>
    rw [hs] at h2
    have : l = [] := by
      cases l with
      | nil => rfl
      | cons p _ => exact absurd ((h2 p).2 (by simp)) (by simp)
    subst this
    simp [inSpans]
  | cons p rest =>
    rw [hs] at h1 h2
    simp only
    rw [mergeLoop_spec r rest p h1.1 h1.2]
    constructor
    · rintro ⟨q, h3, h4⟩; exact ⟨q, (h2 q).1 h3, h4⟩
    · rintro ⟨q, h3, h4⟩; exact ⟨q, (h2 q).2 h3, h4⟩

/-! ## Characters -/

/-- The place after some characters. -/
def at_ (pre : List Char) : Lex := ⟨(encode pre).length, false⟩

theorem enc_len (pre : List Char) (c : Char) : (encode (pre ++ [c])).length = (encode pre).length + (String.utf8EncodeChar c).length := by
  rw [encode_append, List.length_append, encode_cons]; simp [encode]

theorem get_at (pre post : List Char) (c : Char) : get_rune (encode (pre ++ c :: post)) (encode pre).length =
    .ok (c.val.toNat, (String.utf8EncodeChar c).length) := by
  rw [encode_append, encode_cons, get_rune_append, get_rune_encode]

theorem get_end (pre : List Char) : get_rune (encode pre) (encode pre).length = .ok (0, 1) := by
  have := get_rune_append (encode pre) []
  rw [List.append_nil] at this
  rw [this]
  rfl

theorem val_eq (c d : Char) : c.val.toNat = d.val.toNat ↔ c = d := ⟨val_inj, fun h => by rw [h]⟩

theorem nextc_bare {pre post : List Char} {c : Char} (h : c ≠ '\\') (hz : c ≠ '\x00') :
    nextc (encode (pre ++ c :: post)) (at_ pre) = .ok (at_ (pre ++ [c]), false, c.val.toNat) := by
  have h1 : ¬ c.val.toNat = 92 := fun he => h ((val_eq c '\\').1 he)
  have h2 : c.val.toNat ≠ 0 := val_ne_zero hz
  simp only [nextc, at_, get_at, lift, Res.bind, if_neg h1, enc_len, h2]
  rfl

theorem nextc_quoted {pre post : List Char} {c : Char} :
    nextc (encode (pre ++ '\\' :: c :: post)) (at_ pre) = .ok (at_ (pre ++ ['\\', c]), true, c.val.toNat) := by
  have h1 : ('\\' : Char).val.toNat = 92 := rfl
  have h2 := get_at (pre ++ ['\\']) post c
  rw [enc_len, List.append_assoc, List.singleton_append] at h2
  simp only [nextc, at_, get_at, lift, Res.bind, h1, h2]
  have : pre ++ ['\\', c] = (pre ++ ['\\']) ++ [c] := by simp
  rw [this, enc_len, enc_len]
  simp

theorem nextc_end (pre : List Char) : nextc (encode pre) (at_ pre) = .ok (⟨(encode pre).length + 1, true⟩, false, 0) := by
  simp [nextc, at_, get_end, lift, Res.bind]

theorem nextc_slash (pre : List Char) :
    nextc (encode (pre ++ ['\\'])) (at_ pre) = .ok (⟨(encode (pre ++ ['\\'])).length + 1, false⟩, true, 0) := by
  have h1 : ('\\' : Char).val.toNat = 92 := rfl
  have h2 := get_end (pre ++ ['\\'])
  rw [enc_len] at h2
  simp only [nextc, at_, get_at, lift, Res.bind, h1, h2, enc_len]
  simp

/-! ## The text of a class -/

theorem nextc_inClass {pre post x : List Char} {c : Char} (h : InClass c x) :
    ∃ q, nextc (encode (pre ++ x ++ post)) (at_ pre) = .ok (at_ (pre ++ x), q, c.val.toNat) ∧ c.val.toNat ≠ 0 ∧
      (q = false → c.val.toNat ≠ 93 ∧ c.val.toNat ≠ 45 ∧ x.head? = some c) := by
  cases h with
  | bare h =>
    simp only [List.mem_cons, List.not_mem_nil, or_false, not_or] at h
    refine ⟨false, ?_, val_ne_zero h.1, fun _ => ⟨fun he => h.2.1 ((val_eq c ']').1 he), fun he => h.2.2.1 ((val_eq c '-').1 he), rfl⟩⟩
    rw [List.append_assoc]
    exact nextc_bare h.2.2.2 h.1
  | quoted h =>
    refine ⟨true, ?_, val_ne_zero h, by simp⟩
    rw [List.append_assoc]
    exact nextc_quoted

theorem nextc_last {pre post x : List Char} {c : Char} (h : Last c x) :
    ∃ q, nextc (encode (pre ++ x ++ post)) (at_ pre) = .ok (at_ (pre ++ x), q, c.val.toNat) ∧ c.val.toNat ≠ 0 ∧
      (q = false → c.val.toNat ≠ 93) := by
  cases h with
  | chr h =>
    obtain ⟨q, h1, h2, h3⟩ := nextc_inClass (pre := pre) (post := post) h
    exact ⟨q, h1, h2, fun hq => (h3 hq).1⟩
  | dash =>
    refine ⟨false, ?_, by decide, fun _ => by decide⟩
    rw [List.append_assoc]
    exact nextc_bare (by decide) (by decide)

theorem nextc_close (pre post : List Char) : nextc (encode (pre ++ ']' :: post)) (at_ pre) = .ok (at_ (pre ++ [']']), false, 93) :=
  nextc_bare (by decide) (by decide)

/-- What stands before the bracket that closes a class can be read. -/
theorem nextc_items {l x} (h : Items l x) (pre post : List Char) :
    ∃ l0 q0 r0, nextc (encode (pre ++ x ++ ']' :: post)) (at_ pre) = .ok (l0, q0, r0) ∧
      (x.head? ≠ some '^' → ¬ (q0 = false ∧ r0 = 94)) := by
  cases h with
  | nil => exact ⟨_, _, _, by rw [List.append_nil]; exact nextc_close pre post, by simp⟩
  | @item c y b z l w hc h2 h3 =>
    obtain ⟨q, h1, h2, h3⟩ := nextc_inClass (pre := pre) (post := z ++ w ++ ']' :: post) hc
    refine ⟨_, _, _, by rw [← h1]; simp, ?_⟩
    rintro hh ⟨hq, h94⟩
    obtain ⟨_, _, hy⟩ := h3 hq
    apply hh
    have : c = '^' := (val_eq c '^').1 h94
    subst this
    cases y with
    | nil => simp at hy
    | cons a y => simpa using hy

theorem nextc_upto {a b y l z} (hc : Upto a b y) (h : Items l z) (pre post : List Char) :
    ∃ l0 q0 r0, nextc (encode (pre ++ (y ++ z) ++ ']' :: post)) (at_ pre) = .ok (l0, q0, r0) := by
  cases hc with
  | nil =>
    obtain ⟨l0, q0, r0, h1, _⟩ := nextc_items h pre post
    exact ⟨l0, q0, r0, h1⟩
  | @dash b x c y _ h1 h2 =>
    refine ⟨at_ (pre ++ ['-']), false, ('-' : Char).val.toNat, ?_⟩
    have := nextc_bare (pre := pre) (post := x ++ y ++ z ++ ']' :: post) (c := '-') (by decide) (by decide)
    rw [← this]; simp

theorem spansLoop_succ (e : Bytes) (n : Nat) (l : Lex) (quoted : Bool) (rune : Nat) (spans : List (Nat × Nat)) :
    spansLoop e (n + 1) l quoted rune spans =
    if ¬ 2 * spans.length < 63 then .err "char class too large; increase Reclass.spans size"
    else if rune = 0 then .err "malformed '[]'"
    else if ¬ quoted ∧ rune = 93 then .ok (l, spans)
    else if ¬ quoted ∧ rune = 45 then
      match spans with
      | [] => .err "malformed '[]'"
      | (lo, _) :: rest =>
        (nextc e l).bind fun (l, quoted, rune) =>
        if (¬ quoted ∧ rune = 93) ∨ rune = 0 then .err "malformed '[]'"
        else
          (nextc e l).bind fun (l, quoted, rune') =>
          spansLoop e n l quoted rune' ((lo, rune) :: rest)
    else
      (nextc e l).bind fun (l, quoted, rune') =>
      spansLoop e n l quoted rune' ((rune, rune) :: spans) := by
  cases spans <;> rfl

/-- What the loop does at some items. -/
def SpansAt (l : List (Nat × Nat)) (x : List Char) : Prop :=
  ∀ (pre post : List Char) (fuel : Nat) (spans : List (Nat × Nat)) (l0 : Lex) (q0 : Bool) (r0 : Nat),
    x.length < fuel → nextc (encode (pre ++ x ++ ']' :: post)) (at_ pre) = .ok (l0, q0, r0) →
    spansLoop (encode (pre ++ x ++ ']' :: post)) fuel l0 q0 r0 spans =
      if spans.length + l.length ≤ 31 then .ok (at_ (pre ++ x ++ [']']), l.reverse ++ spans)
      else .err "char class too large; increase Reclass.spans size"

theorem upto_spec {l z} (hi : Items l z) (hz : SpansAt l z) {hi' b y} (h : Upto hi' b y) :
    ∀ (pre post : List Char) (fuel : Nat) (lo : Nat) (rest : List (Nat × Nat)) (l0 : Lex) (q0 : Bool) (r0 : Nat),
    (y ++ z).length < fuel → nextc (encode (pre ++ (y ++ z) ++ ']' :: post)) (at_ pre) = .ok (l0, q0, r0) →
    spansLoop (encode (pre ++ (y ++ z) ++ ']' :: post)) fuel l0 q0 r0 ((lo, hi') :: rest) =
      if rest.length + 1 + l.length ≤ 31 then .ok (at_ (pre ++ (y ++ z) ++ [']']), l.reverse ++ (lo, b) :: rest)
      else .err "char class too large; increase Reclass.spans size" := by
  induction h with
  | nil =>
    intro pre post fuel lo rest l0 q0 r0 hf hn
    exact hz pre post fuel _ l0 q0 r0 hf hn
  | @dash b x c y hi' hb hc ih =>
    intro pre post fuel lo rest l0 q0 r0 hf hn
    have e1 : pre ++ ('-' :: (x ++ y) ++ z) ++ ']' :: post = pre ++ '-' :: (x ++ (y ++ z ++ ']' :: post)) := by simp
    have e2 : pre ++ '-' :: (x ++ (y ++ z ++ ']' :: post)) = (pre ++ ['-']) ++ x ++ (y ++ z ++ ']' :: post) := by simp
    have e3 : (pre ++ ['-']) ++ x ++ (y ++ z ++ ']' :: post) = (pre ++ ['-'] ++ x) ++ (y ++ z) ++ ']' :: post := by simp
    rw [e1, nextc_bare (by decide) (by decide)] at hn
    cases hn
    simp only [List.length_append, List.length_cons] at hf
    obtain ⟨n, rfl⟩ : ∃ n, fuel = n + 1 := ⟨fuel - 1, by omega⟩
    rw [e1, spansLoop_succ]
    by_cases hl : rest.length + 1 ≤ 31
    · rw [if_neg (by simp; omega), if_neg (by decide), if_neg (by decide), if_pos (by decide)]
      obtain ⟨q2, h4, h5, h6⟩ := nextc_last (pre := pre ++ ['-']) (post := y ++ z ++ ']' :: post) hb
      simp only
      rw [e2, h4]
      simp only [Res.bind]
      rw [if_neg (by
        rintro (⟨g1, g2⟩ | g)
        · exact h6 (by simpa using g1) g2
        · exact h5 g)]
      obtain ⟨l1, q1, r1, h7⟩ := nextc_upto hc hi (pre ++ ['-'] ++ x) post
      rw [e3, h7]
      simp only
      rw [ih (pre ++ ['-'] ++ x) post n lo rest l1 q1 r1 (by simp only [List.length_append]; omega) h7]
      simp
    · rw [if_pos (by simp; omega), if_neg (by omega)]

theorem spansLoop_spec {l x} (h : Items l x) : SpansAt l x := by
  induction h with
  | nil =>
    intro pre post fuel spans l0 q0 r0 hf hn
    rw [List.append_nil] at hn ⊢
    rw [nextc_close] at hn
    cases hn
    cases fuel with
    | zero => simp at hf
    | succ n =>
      rw [spansLoop_succ]
      by_cases hl : spans.length ≤ 31
      · rw [if_neg (by omega), if_neg (by decide), if_pos (by simp), if_pos (by simpa using hl)]
        simp
      · rw [if_pos (by omega), if_neg (by simp; omega)]
  | @item a x b y l z ha hc hi ih =>
    intro pre post fuel spans l0 q0 r0 hf hn
    obtain ⟨q, h1, h2, h3⟩ := nextc_inClass (pre := pre) (post := y ++ z ++ ']' :: post) ha
    have e1 : pre ++ (x ++ (y ++ z)) ++ ']' :: post = pre ++ x ++ (y ++ z ++ ']' :: post) := by simp
    have e2 : pre ++ x ++ (y ++ z ++ ']' :: post) = (pre ++ x) ++ (y ++ z) ++ ']' :: post := by simp
    rw [e1, h1] at hn
    cases hn
    have hx : 0 < x.length := by cases ha <;> simp
    cases fuel with
    | zero => simp at hf
    | succ n =>
      simp only [List.length_append] at hf
      rw [e1, spansLoop_succ]
      by_cases hl : spans.length ≤ 31
      · rw [if_neg (by omega), if_neg h2, if_neg (by simp; intro hq; exact (h3 hq).1), if_neg (by simp; intro hq; exact (h3 hq).2.1)]
        obtain ⟨l1, q1, r1, h4⟩ := nextc_upto hc hi (pre ++ x) post
        rw [e2, h4]
        simp only [Res.bind]
        rw [upto_spec hi ih hc (pre ++ x) post n _ _ l1 q1 r1 (by simp only [List.length_append]; omega) h4]
        simp only [List.length_cons, List.reverse_cons, List.append_assoc, List.singleton_append]
        have : spans.length + 1 + l.length = spans.length + (l.length + 1) := by omega
        rw [this]
      · rw [if_pos (by omega), if_neg (by simp; omega)]

/-! ## Symbols -/

/-- What the full stop stands for. -/
def DotFor (dot : Op) (a : Atom) : Prop := (dot = .any ∧ a = .any) ∨ (dot = .anynl ∧ a = .anynl)

/-- The result for a class. -/
theorem bldcclass_cls {l x} (h : Items l x) (hh : x.head? ≠ some '^') (pre post : List Char) {n : Nat} (hn : n < 16) :
    bldcclass (encode (pre ++ x ++ ']' :: post)) (at_ pre) n =
      if l.length ≤ 31 then .ok (at_ (pre ++ x ++ [']']), .operand (.cclass (mergeSpans l)))
      else .err "char class too large; increase Reclass.spans size" := by
  obtain ⟨l0, q0, r0, h1, h2⟩ := nextc_items h pre post
  have h3 := spansLoop_spec h pre post ((encode (pre ++ x ++ ']' :: post)).length + 2) [] l0 q0 r0 (by
    have h1 := length_le_encode (pre ++ x ++ ']' :: post)
    simp only [List.length_append, List.length_cons] at h1
    omega) h1
  rw [bldcclass, if_neg (by omega), h1]
  simp only [Res.bind]
  rw [if_neg (by simpa using h2 hh), h3]
  simp only [List.length_nil, Nat.zero_add]
  by_cases hl : l.length ≤ 31
  · rw [if_pos hl, if_pos hl]; simp
  · rw [if_neg hl, if_neg hl]

theorem bldcclass_ncls {b y l z} (hc : Upto 10 b y) (h : Items l z) (pre post : List Char) {n : Nat} (hn : n < 16) :
    bldcclass (encode (pre ++ '^' :: (y ++ z) ++ ']' :: post)) (at_ pre) n =
      if l.length + 1 ≤ 31 then .ok (at_ (pre ++ '^' :: (y ++ z) ++ [']']), .operand (.ncclass (mergeSpans ((10, b) :: l))))
      else .err "char class too large; increase Reclass.spans size" := by
  generalize hx : y ++ z = x
  have e : pre ++ '^' :: x ++ ']' :: post = (pre ++ ['^']) ++ x ++ ']' :: post := by simp
  have e2 : pre ++ '^' :: x ++ [']'] = (pre ++ ['^']) ++ x ++ [']'] := by simp
  have e3 : pre ++ '^' :: x ++ ']' :: post = pre ++ '^' :: (x ++ ']' :: post) := by simp
  obtain ⟨l0, q0, r0, h1⟩ := nextc_upto hc h (pre ++ ['^']) post
  have h3 := upto_spec h (spansLoop_spec h) hc (pre ++ ['^']) post ((encode (pre ++ ['^'] ++ (y ++ z) ++ ']' :: post)).length + 2) 10 [] l0 q0 r0 (by
    have h1 := length_le_encode (pre ++ ['^'] ++ (y ++ z) ++ ']' :: post)
    simp only [List.length_append, List.length_cons] at h1 ⊢
    omega) h1
  rw [hx] at h1 h3
  have h4 := nextc_bare (pre := pre) (post := x ++ ']' :: post) (c := '^') (by decide) (by decide)
  rw [← e3, e] at h4
  rw [e, e2, bldcclass, if_neg (by omega), h4]
  simp only [Res.bind]
  rw [if_pos (by decide), h1]
  simp only
  rw [h3]
  simp only [List.length_nil, Nat.zero_add]
  by_cases hl : l.length + 1 ≤ 31
  · rw [if_pos (by omega), if_pos hl]; simp
  · rw [if_neg (by omega), if_neg hl]

/-- The number of classes after an operand. -/
def classes (n : Nat) : Token → Nat
  | .operand (.cclass _) => n + 1
  | .operand (.ncclass _) => n + 1
  | _ => n

theorem lex_spec {dot : Op} {da : Atom} (hd : DotFor dot da) {k : Tok} {x : List Char} (h : TokText da k x) :
    ∃ t, Means t k ∧ t ≠ .end_ ∧ (∀ n, classes n t = n + (if k.isClass then 1 else 0)) ∧ ∀ (pre post : List Char) (n : Nat),
      (∀ y, lex false dot (encode (pre ++ x ++ post)) (at_ pre) n = .ok y → y = (at_ (pre ++ x), t)) ∧
      (k.fits = true → (k.isClass = true → n < 16) → lex false dot (encode (pre ++ x ++ post)) (at_ pre) n = .ok (at_ (pre ++ x), t)) := by
  have simple : ∀ {t : Token}, Means t k → t ≠ .end_ → k.isClass = false → (∀ n, classes n t = n) →
      (∀ (pre post : List Char) (n : Nat), lex false dot (encode (pre ++ x ++ post)) (at_ pre) n = .ok (at_ (pre ++ x), t)) →
      ∃ t, Means t k ∧ t ≠ .end_ ∧ (∀ n, classes n t = n + (if k.isClass then 1 else 0)) ∧ ∀ (pre post : List Char) (n : Nat),
      (∀ y, lex false dot (encode (pre ++ x ++ post)) (at_ pre) n = .ok y → y = (at_ (pre ++ x), t)) ∧
      (k.fits = true → (k.isClass = true → n < 16) → lex false dot (encode (pre ++ x ++ post)) (at_ pre) n = .ok (at_ (pre ++ x), t)) := by
    intro t h1 h2 h3 h4 h5
    refine ⟨t, h1, h2, by simp [h3, h4], fun pre post n => ⟨fun y hy => ?_, fun _ _ => h5 pre post n⟩⟩
    rw [h5] at hy; cases hy; rfl
  have bare : ∀ {c : Char} (pre post : List Char), c ≠ '\\' → c ≠ '\x00' → x = [c] →
      nextc (encode (pre ++ x ++ post)) (at_ pre) = .ok (at_ (pre ++ x), false, c.val.toNat) := by
    intro c pre post h1 h2 hx
    rw [hx, List.append_assoc, List.singleton_append, nextc_bare h1 h2]
  cases h with
  | @chr c hz hs =>
    refine simple (t := .operand (.rune c.val.toNat)) (.atom rfl ?_ ?_) (by simp) rfl (fun _ => rfl) ?_
    · intro r; simp [takes, Atom.has]; exact eq_comm
    · rintro r hr; cases hr; exact val_ne_zero hz
    · have hs' : ∀ d ∈ special, c.val.toNat ≠ d.val.toNat := fun d hd he => hs ((val_eq c d).1 he ▸ hd)
      simp only [special, List.mem_cons, List.not_mem_nil, or_false, forall_eq_or_imp, forall_eq] at hs'
      obtain ⟨h1, h2, h3, h4, h5, h6, h7, h8, h9, h10, h11⟩ := hs'
      replace h1 : ¬ c.val.toNat = 42 := h1
      replace h2 : ¬ c.val.toNat = 63 := h2
      replace h3 : ¬ c.val.toNat = 43 := h3
      replace h4 : ¬ c.val.toNat = 124 := h4
      replace h5 : ¬ c.val.toNat = 46 := h5
      replace h6 : ¬ c.val.toNat = 40 := h6
      replace h7 : ¬ c.val.toNat = 41 := h7
      replace h8 : ¬ c.val.toNat = 94 := h8
      replace h9 : ¬ c.val.toNat = 36 := h9
      replace h10 : ¬ c.val.toNat = 91 := h10
      intro pre post n
      rw [lex, bare pre post (fun he => h11 (by rw [he])) hz rfl]
      simp only [Res.bind]
      rw [if_neg (by simp), if_neg (val_ne_zero hz), if_neg h1, if_neg h2, if_neg h3, if_neg h4, if_neg h5, if_neg h6, if_neg h7, if_neg h8,
        if_neg h9, if_neg h10]
  | @quoted c hz =>
    refine simple (t := .operand (.rune c.val.toNat)) (.atom rfl ?_ ?_) (by simp) rfl (fun _ => rfl) ?_
    · intro r; simp [takes, Atom.has]; exact eq_comm
    · rintro r hr; cases hr; exact val_ne_zero hz
    · intro pre post n
      have := nextc_quoted (pre := pre) (post := post) (c := c)
      rw [lex, List.append_assoc]
      show (nextc (encode (pre ++ '\\' :: c :: post)) (at_ pre)).bind _ = _
      rw [this]
      simp only [Res.bind]
      rw [if_pos (by simp), if_neg (val_ne_zero hz)]
  | dot =>
    have hm : Means (.operand dot) (.atom da) := by
      rcases hd with ⟨rfl, rfl⟩ | ⟨rfl, rfl⟩
      · exact .atom rfl (by intro r; simp [takes, Atom.has]) (by simp)
      · exact .atom rfl (by intro r; simp [takes, Atom.has]) (by simp)
    refine simple hm (by simp) ?_ ?_ ?_
    · rcases hd with ⟨rfl, rfl⟩ | ⟨rfl, rfl⟩ <;> rfl
    · intro n; rcases hd with ⟨rfl, rfl⟩ | ⟨rfl, rfl⟩ <;> rfl
    · intro pre post n; rw [lex, bare pre post (c := '.') (by decide) (by decide) rfl]; rfl
  | bol => exact simple .bol (by simp) rfl (fun _ => rfl) (fun pre post n => by rw [lex, bare pre post (c := '^') (by decide) (by decide) rfl]; rfl)
  | eol => exact simple .eol (by simp) rfl (fun _ => rfl) (fun pre post n => by rw [lex, bare pre post (c := '$') (by decide) (by decide) rfl]; rfl)
  | star => exact simple .star (by simp) rfl (fun _ => rfl) (fun pre post n => by rw [lex, bare pre post (c := '*') (by decide) (by decide) rfl]; rfl)
  | plus => exact simple .plus (by simp) rfl (fun _ => rfl) (fun pre post n => by rw [lex, bare pre post (c := '+') (by decide) (by decide) rfl]; rfl)
  | opt => exact simple .opt (by simp) rfl (fun _ => rfl) (fun pre post n => by rw [lex, bare pre post (c := '?') (by decide) (by decide) rfl]; rfl)
  | bar => exact simple .bar (by simp) rfl (fun _ => rfl) (fun pre post n => by rw [lex, bare pre post (c := '|') (by decide) (by decide) rfl]; rfl)
  | lpar => exact simple .lpar (by simp) rfl (fun _ => rfl) (fun pre post n => by rw [lex, bare pre post (c := '(') (by decide) (by decide) rfl]; rfl)
  | rpar => exact simple .rpar (by simp) rfl (fun _ => rfl) (fun pre post n => by rw [lex, bare pre post (c := ')') (by decide) (by decide) rfl]; rfl)
  | @cls l x hi hh =>
    refine ⟨.operand (.cclass (mergeSpans l)), .atom rfl ?_ (by simp), by simp, fun _ => rfl, ?_⟩
    · intro r; simp only [takes, Atom.has]; exact mergeSpans_spec l r
    · intro pre post n
      have e : pre ++ '[' :: (x ++ [']']) ++ post = pre ++ ['['] ++ x ++ ']' :: post := by simp
      have e2 : pre ++ '[' :: (x ++ [']']) = pre ++ ['['] ++ x ++ [']'] := by simp
      have e3 : pre ++ '[' :: (x ++ [']']) ++ post = pre ++ '[' :: (x ++ ']' :: post) := by simp
      have h1 : lex false dot (encode (pre ++ '[' :: (x ++ [']']) ++ post)) (at_ pre) n = bldcclass (encode (pre ++ ['['] ++ x ++ ']' :: post)) (at_ (pre ++ ['['])) n := by
        rw [lex, e3, nextc_bare (by decide) (by decide), ← e3, e]; rfl
      rw [h1]
      by_cases hn : n < 16
      · rw [bldcclass_cls hi hh (pre ++ ['[']) post hn]
        constructor
        · intro y hy
          split at hy
          · cases hy; rw [e2]
          · cases hy
        · intro hf _
          rw [if_pos (by simpa [Tok.fits] using hf), e2]
      · constructor
        · intro y hy; rw [bldcclass, if_pos (by omega)] at hy; cases hy
        · intro _ h; exact absurd (h rfl) hn
  | @ncls b y l z hc hi =>
    generalize hx : y ++ z = x
    refine ⟨.operand (.ncclass (mergeSpans ((10, b) :: l))), .atom rfl ?_ (by simp), by simp, fun _ => rfl, ?_⟩
    · intro r
      simp only [takes, Atom.has, Bool.not_eq_true', ← Bool.not_eq_true, mergeSpans_spec]
    · intro pre post n
      have e : pre ++ '[' :: '^' :: (x ++ [']']) ++ post = pre ++ ['['] ++ '^' :: x ++ ']' :: post := by simp
      have e2 : pre ++ '[' :: '^' :: (x ++ [']']) = pre ++ ['['] ++ '^' :: x ++ [']'] := by simp
      have e3 : pre ++ '[' :: '^' :: (x ++ [']']) ++ post = pre ++ '[' :: '^' :: (x ++ ']' :: post) := by simp
      have h1 : lex false dot (encode (pre ++ '[' :: '^' :: (x ++ [']']) ++ post)) (at_ pre) n =
          bldcclass (encode (pre ++ ['['] ++ '^' :: x ++ ']' :: post)) (at_ (pre ++ ['['])) n := by
        rw [lex, e3, nextc_bare (by decide) (by decide), ← e3, e]; rfl
      rw [h1]
      by_cases hn : n < 16
      · rw [← hx, bldcclass_ncls hc hi (pre ++ ['[']) post hn, hx]
        constructor
        · intro y hy
          split at hy
          · cases hy; rw [e2]
          · cases hy
        · intro hf _
          rw [if_pos (by simpa [Tok.fits] using hf), e2]
      · constructor
        · intro y hy; rw [bldcclass, if_pos (by omega)] at hy; cases hy
        · intro _ h; exact absurd (h rfl) hn

theorem compLoop_tok {literal : Bool} {dot : Op} {e : Bytes} {fuel : Nat} {l l' : Lex} {n : Nat} {t : Token} (c : Comp)
    (h : lex literal dot e l n = .ok (l', t)) (ht : t ≠ .end_) :
    compLoop literal dot e (fuel + 1) l n c = (stepC c t).bind fun c => compLoop literal dot e fuel l' (classes n t) c := by
  rw [compLoop, h]
  cases t with
  | end_ => exact absurd rfl ht
  | op code => rfl
  | operand o => cases o <;> rfl

theorem compLoop_end {literal : Bool} {dot : Op} {fuel : Nat} {pre : List Char} {n : Nat} (c : Comp) :
    compLoop literal dot (encode pre) (fuel + 1) (at_ pre) n c = .ok c := by
  rw [compLoop, lex, nextc_end]
  simp [Res.bind]

theorem compLoop_slash {literal : Bool} {dot : Op} {fuel : Nat} {pre : List Char} {n : Nat} (c : Comp) :
    compLoop literal dot (encode (pre ++ ['\\'])) (fuel + 1) (at_ pre) n c = .ok c := by
  rw [compLoop, lex, nextc_slash]
  simp [Res.bind]

theorem compLoop_spec {dot : Op} {da : Atom} (hd : DotFor dot da) {ks : List Tok} {x : List Char} (h : ToksText da ks x) :
    ∃ ts : List Token, ts.length = ks.length ∧ (∀ p ∈ ts.zip ks, Means p.1 p.2) ∧ ∀ (pre : List Char) (fuel n : Nat) (c : Comp), ks.length < fuel →
      (∀ c', compLoop false dot (encode (pre ++ x)) fuel (at_ pre) n c = .ok c' → stepsC c ts = .ok c') ∧
      ((∀ k ∈ ks, k.fits = true) → n + (ks.filter Tok.isClass).length ≤ 16 →
        compLoop false dot (encode (pre ++ x)) fuel (at_ pre) n c = stepsC c ts) := by
  -- the symbol that is read does not depend on where it stands
  induction h with
  | nil =>
    refine ⟨[], rfl, by simp, ?_⟩
    intro pre fuel n c hf
    cases fuel with
    | zero => simp at hf
    | succ fuel => rw [List.append_nil, compLoop_end]; exact ⟨fun c' h => h, fun _ _ => rfl⟩
  | slash =>
    refine ⟨[], rfl, by simp, ?_⟩
    intro pre fuel n c hf
    cases fuel with
    | zero => simp at hf
    | succ fuel => rw [compLoop_slash]; exact ⟨fun c' h => h, fun _ _ => rfl⟩
  | @cons k x ks y h1 h2 ih =>
    obtain ⟨ts, i1, i2, i3⟩ := ih
    obtain ⟨t, t1, t2, t3, t4⟩ := lex_spec hd h1
    refine ⟨t :: ts, by simp [i1], ?_, ?_⟩
    · intro p hp
      rcases List.mem_cons.1 hp with rfl | hp
      · exact t1
      · exact i2 p hp
    · intro pre fuel n c hf
      obtain ⟨fuel, rfl⟩ : ∃ m, fuel = m + 1 := ⟨fuel - 1, by simp at hf; omega⟩
      simp only [List.length_cons] at hf
      obtain ⟨g1, g2⟩ := t4 pre y n
      have e : pre ++ (x ++ y) = pre ++ x ++ y := by simp
      rw [e]
      constructor
      · intro c' hc
        cases hl : lex false dot (encode (pre ++ x ++ y)) (at_ pre) n with
        | ok z =>
          obtain rfl := g1 z hl
          rw [compLoop_tok c hl t2] at hc
          rw [stepsC]
          cases hs : stepC c t with
          | ok c1 =>
            rw [hs] at hc
            exact (i3 (pre ++ x) fuel _ c1 (by omega)).1 c' hc
          | err _ => rw [hs] at hc; cases hc
          | panic _ => rw [hs] at hc; cases hc
          | diverge => rw [hs] at hc; cases hc
        | err _ => rw [compLoop, hl] at hc; cases hc
        | panic _ => rw [compLoop, hl] at hc; cases hc
        | diverge => rw [compLoop, hl] at hc; cases hc
      · intro h3 h4
        have h5 : n + (if k.isClass then 1 else 0) + (ks.filter Tok.isClass).length ≤ 16 := by
          simp only [List.filter_cons] at h4
          split at h4
          · rename_i hk; simp only [hk, if_true, List.length_cons] at h4 ⊢; omega
          · rename_i hk; simp only [hk] at h4 ⊢; simpa using h4
        have hl := g2 (h3 k (by simp)) (fun hk => by rw [hk] at h5; simp at h5; omega)
        rw [compLoop_tok c hl t2, stepsC]
        congr 1
        funext c1
        exact (i3 (pre ++ x) fuel _ c1 (by omega)).2 (fun k hk => h3 k (List.mem_cons_of_mem _ hk)) (by rw [t3]; exact h5)

end Che.Proofs.Regexp9
