import Verif.Proofs.CPrintDerive
/-!
# Only faithful expressions are read back
-/
namespace Che.Proofs.CPrintExact
open Che Che.Spec Che.FormatC Che.Proofs.CPrintToks Che.Proofs.CPrintRead Che.Proofs.CPrintDerive

variable {ty : String → Bool}

/-! ## Parentheses -/

/-- Opening minus closing parentheses. -/
def dep : List CTok → Int
  | [] => 0
  | t :: c => (if t = .punct "(" then 1 else if t = .punct ")" then -1 else 0) + dep c

theorem dep_append (a b : List CTok) : dep (a ++ b) = dep a + dep b := by
  induction a with
  | nil => simp [dep]
  | cons t a ih => simp only [List.cons_append, dep, ih]; omega

@[simp] theorem dep_open (c) : dep (.punct "(" :: c) = 1 + dep c := rfl
@[simp] theorem dep_close (c) : dep (.punct ")" :: c) = -1 + dep c := rfl

/-- Not a parenthesis. -/
def NoPar (t : CTok) : Prop := t ≠ .punct "(" ∧ t ≠ .punct ")"

theorem dep_tok {t} (h : NoPar t) (c) : dep (t :: c) = dep c := by
  simp [dep, h.1, h.2]

/-- Balanced. -/
def Bal (c : List CTok) : Prop := dep c = 0 ∧ ∀ p q, c = p ++ q → 0 ≤ dep p

theorem bal_nil : Bal [] := ⟨rfl, by
  intro p q h
  rw [List.nil_eq_append_iff] at h
  rw [h.1]
  exact Int.le_refl 0⟩

theorem Bal.append {a b} (ha : Bal a) (hb : Bal b) : Bal (a ++ b) := by
  refine ⟨by rw [dep_append, ha.1, hb.1]; rfl, ?_⟩
  intro p q h
  rcases List.append_eq_append_iff.mp h with ⟨c, h1, h2⟩ | ⟨c, h1, h2⟩
  · rw [h1, dep_append, ha.1]; have := hb.2 c q h2; omega
  · exact ha.2 p c h1

theorem bal_tok {t} (h : NoPar t) : Bal [t] := by
  refine ⟨by rw [dep_tok h]; rfl, ?_⟩
  intro p q he
  cases p with
  | nil => exact Int.le_refl 0
  | cons u p =>
    injection he with h1 h2
    subst h1
    rw [dep_tok h]
    have := (List.nil_eq_append_iff.mp h2).1
    subst this
    exact Int.le_refl 0

theorem Bal.tok {t c} (h : NoPar t) (hc : Bal c) : Bal (t :: c) := (bal_tok h).append hc

theorem Bal.paren {c} (hc : Bal c) : Bal (.punct "(" :: (c ++ [.punct ")"])) := by
  refine ⟨by rw [dep_open, dep_append, hc.1]; rfl, ?_⟩
  intro p q he
  cases p with
  | nil => exact Int.le_refl 0
  | cons u p =>
    injection he with h1 h2
    subst h1
    rw [dep_open]
    rcases List.append_eq_append_iff.mp h2 with ⟨d, h3, h4⟩ | ⟨d, h3, h4⟩
    · rw [h3, dep_append, hc.1]
      cases d with
      | nil => decide
      | cons v d =>
        injection h4 with h5 h6
        subst h5
        have := (List.nil_eq_append_iff.mp h6).1
        subst this
        decide
    · have := hc.2 p d h3; omega

/-- A proper part of the front of `( … )` is open. -/
theorem proper {X p q} (hX : Bal X) (h : CTok.punct "(" :: (X ++ [.punct ")"]) = p ++ q)
    (hp : p ≠ []) (hq : q ≠ []) : 1 ≤ dep p := by
  cases p with
  | nil => exact absurd rfl hp
  | cons u p =>
    injection h with h1 h2
    subst h1
    rw [dep_open]
    rcases List.append_eq_append_iff.mp h2 with ⟨d, h3, h4⟩ | ⟨d, h3, h4⟩
    · cases d with
      | nil => rw [h3, List.append_nil, hX.1]; omega
      | cons v d =>
        injection h4 with h5 h6
        exact absurd (List.nil_eq_append_iff.mp h6).2 hq
    · have := hX.2 p d h3; omega

/-- The opening parenthesis that belongs to the last closing one. -/
theorem last_paren {c d i j : List CTok} (hi : Bal i) (hj : Bal j)
    (h : c ++ .punct "(" :: (i ++ [.punct ")"]) = d ++ .punct "(" :: (j ++ [.punct ")"])) :
    c = d ∧ i = j := by
  have h2 : (c ++ .punct "(" :: i) = (d ++ .punct "(" :: j) := by
    have : (c ++ .punct "(" :: i) ++ [.punct ")"] = (d ++ .punct "(" :: j) ++ [CTok.punct ")"] := by
      simpa using h
    exact List.append_cancel_right this
  rcases List.append_eq_append_iff.mp h2 with ⟨a, h3, h4⟩ | ⟨a, h3, h4⟩
  · cases a with
    | nil =>
      injection h4 with _ h4
      exact ⟨by rw [h3, List.append_nil], h4⟩
    | cons v a =>
      injection h4 with _ h4
      have h4 : i = a ++ .punct "(" :: j := h4
      have h5 := hi.1
      rw [h4, dep_append, dep_open, hj.1] at h5
      have := hi.2 a _ h4
      omega
  · cases a with
    | nil =>
      injection h4 with _ h4
      exact ⟨by rw [h3, List.append_nil], h4.symm⟩
    | cons v a =>
      injection h4 with _ h4
      have h4 : j = a ++ .punct "(" :: i := h4
      have h5 := hj.1
      rw [h4, dep_append, dep_open, hi.1] at h5
      have := hj.2 a _ h4
      omega

theorem op_nopar {op} (h : (∃ s, cLevel op = some s) ∨ op ∈ cAssignOps) : NoPar (.punct op) := by
  have k1 : ∀ op ∈ levelOps, op ≠ "(" ∧ op ≠ ")" := by decide
  have k2 : ∀ op ∈ cAssignOps, op ≠ "(" ∧ op ≠ ")" := by decide
  have : op ≠ "(" ∧ op ≠ ")" := by
    obtain ⟨s, h⟩ | h := h
    · exact k1 op (level_mem h)
    · exact k2 op h
  exact ⟨by simpa using this.1, by simpa using this.2⟩

theorem bal_stars (n) : Bal (starToks n) := by
  induction n with
  | zero => exact bal_nil
  | succ n ih => exact Bal.tok ⟨by decide, by decide⟩ ih

theorem word_nopar (w) : NoPar (.word w) := ⟨by simp, by simp⟩
theorem str_nopar (w) : NoPar (.str w) := ⟨by simp, by simp⟩

theorem bal_type {t c} (h : CType ty t c) : Bal c := by
  cases h with
  | plain _ => exact Bal.tok (word_nopar _) (bal_stars _)
  | const _ => exact Bal.tok (word_nopar _) (Bal.tok (word_nopar _) (bal_stars _))

theorem bal_strs (ls : List String) : Bal (ls.map .str) := by
  induction ls with
  | nil => exact bal_nil
  | cons l ls ih => exact Bal.tok (str_nopar _) ih

/-- Everything the rules derive is balanced. -/
theorem bal_of {cat c} (h : CEx ty cat c) : Bal c := by
  induction h with
  | up _ _ _ ih => exact ih
  | assign ho _ _ ih1 ih2 => exact ih1.append (.tok (op_nopar (.inr ho)) ih2)
  | bin ho _ _ ih1 ih2 => exact ih1.append (.tok (op_nopar (.inl ⟨_, ho⟩)) ih2)
  | cast h1 _ ih =>
    have := (bal_type h1).paren.append ih
    simpa using this
  | unary ho _ ih =>
    refine .tok ?_ ih
    simp only [cUnaryOps, List.mem_cons, List.not_mem_nil, or_false] at ho
    obtain rfl | rfl | rfl | rfl | rfl | rfl := ho <;> exact ⟨by decide, by decide⟩
  | incr ho _ ih =>
    refine .tok ?_ ih
    simp only [List.mem_cons, List.not_mem_nil, or_false] at ho
    obtain rfl | rfl := ho <;> exact ⟨by decide, by decide⟩
  | sizeofExpr _ ih => exact .tok (word_nopar _) ih
  | sizeofType h => exact .tok (word_nopar _) (bal_type h).paren
  | ident _ => exact bal_tok (word_nopar _)
  | num => exact bal_tok ⟨by simp, by simp⟩
  | chr => exact bal_tok ⟨by simp, by simp⟩
  | strs => exact .tok (str_nopar _) (bal_strs _)
  | paren _ ih => exact ih.paren
  | call0 _ ih => exact ih.append (Bal.paren bal_nil)
  | call _ _ _ ih1 ih2 ih3 =>
    have := ih1.append (ih2.append ih3).paren
    simpa using this
  | index _ _ ih1 ih2 =>
    exact ih1.append (.tok ⟨by decide, by decide⟩ (ih2.append (bal_tok ⟨by decide, by decide⟩)))
  | post ho _ ih =>
    refine ih.append (bal_tok ?_)
    simp only [List.mem_cons, List.not_mem_nil, or_false] at ho
    obtain rfl | rfl := ho <;> exact ⟨by decide, by decide⟩
  | field ho _ _ ih =>
    refine ih.append (.tok ?_ (bal_tok (word_nopar _)))
    simp only [List.mem_cons, List.not_mem_nil, or_false] at ho
    obtain rfl | rfl := ho <;> exact ⟨by decide, by decide⟩
  | argsNil => exact bal_nil
  | argsCons _ _ ih1 ih2 => exact .tok ⟨by decide, by decide⟩ (ih1.append ih2)
  | initExpr _ ih => exact ih
  | initList _ ih => exact .tok ⟨by decide, by decide⟩ (ih.append (bal_tok ⟨by decide, by decide⟩))
  | initsLast _ ih => exact ih
  | initsComma _ ih => exact ih.append (bal_tok ⟨by decide, by decide⟩)
  | initsCons _ _ ih1 ih2 => exact ih1.append (.tok ⟨by decide, by decide⟩ ih2)
  | itemPlain _ ih => exact ih
  | itemField _ _ ih =>
    exact .tok ⟨by decide, by decide⟩ (.tok (word_nopar _) (.tok ⟨by decide, by decide⟩ ih))
  | itemIndex _ _ ih1 ih2 =>
    exact .tok ⟨by decide, by decide⟩ (ih1.append (.tok ⟨by decide, by decide⟩ (.tok ⟨by decide, by decide⟩ ih2)))

theorem ne_of {s e c} (h : CEx ty (.ex s e) c) : c ≠ [] := by
  obtain ⟨t, r, rfl, _⟩ := (CEx.begins h).1
  simp

/-! ## The rule at the root -/

/-- The rule for the tree itself was the last one used. -/
def Own (ty : String → Bool) (s : Nat) : CExpr → List CTok → Prop
  | .lit (.string _), c => ∃ l, ∃ ls : List String, c = .str l :: ls.map .str
  | .lit (.number v), c => c = [.num v]
  | .lit (.char v), c => c = [.chr v]
  | .lit .null, _ => False
  | .compLit _, _ => False
  | .ident w, c => c = [.word w]
  | .binaryOp op a b, c => ∃ c1 c2, c = c1 ++ .punct op :: c2 ∧
      ((op ∈ cAssignOps ∧ s ≤ 2 ∧ CEx ty (.ex 14 a) c1 ∧ CEx ty (.ex 2 b) c2) ∨
       ∃ l, cLevel op = some l ∧ s ≤ l ∧ CEx ty (.ex l a) c1 ∧ CEx ty (.ex (l + 1) b) c2)
  | .cast t e, c => s ≤ 13 ∧ ∃ c1 c2, c = .punct "(" :: (c1 ++ .punct ")" :: c2) ∧ CType ty t c1 ∧
      CEx ty (.ex 13 e) c2
  | .prefixOp op e, c => s ≤ 14 ∧ ∃ c', c = .punct op :: c' ∧
      (op ∈ cUnaryOps ∧ CEx ty (.ex 13 e) c' ∨ op ∈ ["++", "--"] ∧ CEx ty (.ex 14 e) c')
  | .sizeofExpr e, c => s ≤ 14 ∧ ∃ c', c = .word "sizeof" :: c' ∧ CEx ty (.ex 14 e) c'
  | .sizeofType t, c => s ≤ 14 ∧ ∃ c', c = .word "sizeof" :: .punct "(" :: (c' ++ [.punct ")"]) ∧
      CType ty t c'
  | .call f [], c => ∃ c', c = c' ++ [.punct "(", .punct ")"] ∧ CEx ty (.ex 15 f) c'
  | .call f (a :: as), c => ∃ c0 c1 c2, c = c0 ++ .punct "(" :: (c1 ++ (c2 ++ [.punct ")"])) ∧
      CEx ty (.ex 15 f) c0 ∧ CEx ty (.ex 2 a) c1 ∧ CEx ty (.args as) c2
  | .arrIndex a i, c => ∃ c1 c2, c = c1 ++ .punct "[" :: (c2 ++ [.punct "]"]) ∧ CEx ty (.ex 15 a) c1 ∧
      CEx ty (.ex 2 i) c2
  | .postfixOp op a, c => ∃ c', c = c' ++ [.punct op] ∧ CEx ty (.ex 15 a) c'
  | .fieldAccess op a w, c => ∃ c', c = c' ++ [.punct op, .word w] ∧ CEx ty (.ex 15 a) c'

theorem Own.down {s e c} (h : Own ty (s + 1) e c) : Own ty s e c := by
  cases e with
  | lit l => cases l <;> exact h
  | compLit _ => exact h
  | ident _ => exact h
  | binaryOp op a b =>
    obtain ⟨c1, c2, h1, ⟨h2, h3, h4⟩ | ⟨l, h2, h3, h4⟩⟩ := h
    · exact ⟨c1, c2, h1, .inl ⟨h2, by omega, h4⟩⟩
    · exact ⟨c1, c2, h1, .inr ⟨l, h2, by omega, h4⟩⟩
  | fieldAccess _ _ _ => exact h
  | prefixOp _ _ => exact ⟨by have := h.1; omega, h.2⟩
  | postfixOp _ _ => exact h
  | cast _ _ => exact ⟨by have := h.1; omega, h.2⟩
  | call f args => cases args <;> exact h
  | sizeofType _ => exact ⟨by have := h.1; omega, h.2⟩
  | sizeofExpr _ => exact ⟨by have := h.1; omega, h.2⟩
  | arrIndex _ _ => exact h

theorem inv {s e c} (h : CEx ty (.ex s e) c) :
    (∃ X, c = .punct "(" :: (X ++ [.punct ")"]) ∧ CEx ty (.ex 2 e) X) ∨ Own ty s e c := by
  generalize hk : CCat.ex s e = k at h
  induction h generalizing s with
  | up _ _ _ ih =>
    cases hk
    obtain h | h := ih rfl
    · exact .inl h
    · exact .inr h.down
  | assign h1 h2 h3 => cases hk; exact .inr ⟨_, _, rfl, .inl ⟨h1, Nat.le_refl _, h2, h3⟩⟩
  | bin h1 h2 h3 => cases hk; exact .inr ⟨_, _, rfl, .inr ⟨_, h1, Nat.le_refl _, h2, h3⟩⟩
  | cast h1 h2 => cases hk; exact .inr ⟨Nat.le_refl _, _, _, rfl, h1, h2⟩
  | unary h1 h2 => cases hk; exact .inr ⟨Nat.le_refl _, _, rfl, .inl ⟨h1, h2⟩⟩
  | incr h1 h2 => cases hk; exact .inr ⟨Nat.le_refl _, _, rfl, .inr ⟨h1, h2⟩⟩
  | sizeofExpr h1 => cases hk; exact .inr ⟨Nat.le_refl _, _, rfl, h1⟩
  | sizeofType h1 => cases hk; exact .inr ⟨Nat.le_refl _, _, rfl, h1⟩
  | ident _ => cases hk; exact .inr rfl
  | num => cases hk; exact .inr rfl
  | chr => cases hk; exact .inr rfl
  | strs => cases hk; exact .inr ⟨_, _, rfl⟩
  | paren h1 => cases hk; exact .inl ⟨_, rfl, h1⟩
  | call0 h1 => cases hk; exact .inr ⟨_, rfl, h1⟩
  | call h1 h2 h3 => cases hk; exact .inr ⟨_, _, _, rfl, h1, h2, h3⟩
  | index h1 h2 => cases hk; exact .inr ⟨_, _, rfl, h1, h2⟩
  | post _ h1 => cases hk; exact .inr ⟨_, rfl, h1⟩
  | field _ h1 _ => cases hk; exact .inr ⟨_, rfl, h1⟩
  | argsNil => cases hk
  | argsCons _ _ => cases hk
  | initExpr _ => cases hk
  | initList _ => cases hk
  | initsLast _ => cases hk
  | initsComma _ => cases hk
  | initsCons _ _ => cases hk
  | itemPlain _ => cases hk
  | itemField _ _ => cases hk
  | itemIndex _ _ => cases hk

/-- No tree's own rule gives `( … )`. -/
theorem own_not_paren {s e X} (hX : Bal X) (h : Own ty s e (.punct "(" :: (X ++ [.punct ")"]))) :
    False := by
  have key : ∀ {p q : List CTok}, CTok.punct "(" :: (X ++ [.punct ")"]) = p ++ q → p ≠ [] → q ≠ [] →
      dep p = 0 → False := by
    intro p q h hp hq hd
    have := proper hX h hp hq
    omega
  have last : ∀ {t : CTok} {p : List CTok}, t ≠ .punct ")" →
      CTok.punct "(" :: (X ++ [.punct ")"]) = p ++ [t] → False := by
    intro t p ht h
    have : (CTok.punct "(" :: X) ++ [.punct ")"] = p ++ [t] := h
    have := List.append_inj_right' this rfl
    injection this with this _
    exact ht this.symm
  cases e with
  | lit l =>
    cases l with
    | string _ => obtain ⟨l, ls, h⟩ := h; injection h with h _; cases h
    | number _ => injection h with h _; cases h
    | char _ => injection h with h _; cases h
    | null => exact h
  | compLit _ => exact h
  | ident _ => injection h with h _; cases h
  | binaryOp op a b =>
    obtain ⟨c1, c2, h1, ⟨_, _, h4, _⟩ | ⟨l, _, _, h4, _⟩⟩ := h
    · exact key h1 (ne_of h4) (by simp) (bal_of h4).1
    · exact key h1 (ne_of h4) (by simp) (bal_of h4).1
  | fieldAccess op a w =>
    obtain ⟨c', h1, h2⟩ := h
    exact last (t := .word w) (p := c' ++ [.punct op]) (by simp) (by simpa using h1)
  | prefixOp op e =>
    obtain ⟨_, c', h1, h2⟩ := h
    injection h1 with h1 _
    injection h1 with h1
    subst h1
    obtain ⟨h2, _⟩ | ⟨h2, _⟩ := h2
    · exact absurd h2 (by decide)
    · exact absurd h2 (by decide)
  | postfixOp op e =>
    obtain ⟨c', h1, h2⟩ := h
    exact key h1 (ne_of h2) (by simp) (bal_of h2).1
  | cast t e =>
    obtain ⟨_, c1, c2, h1, h2, h3⟩ := h
    have : CTok.punct "(" :: (X ++ [.punct ")"]) = (.punct "(" :: (c1 ++ [.punct ")"])) ++ c2 := by
      simpa using h1
    exact key this (by simp) (ne_of h3) (bal_type h2).paren.1
  | call f args =>
    cases args with
    | nil =>
      obtain ⟨c', h1, h2⟩ := h
      exact key h1 (ne_of h2) (by simp) (bal_of h2).1
    | cons a as =>
      obtain ⟨c0, c1, c2, h1, h2, _⟩ := h
      exact key h1 (ne_of h2) (by simp) (bal_of h2).1
  | sizeofType t => obtain ⟨_, c', h1, _⟩ := h; injection h1 with h1 _; cases h1
  | sizeofExpr e => obtain ⟨_, c', h1, _⟩ := h; injection h1 with h1 _; cases h1
  | arrIndex a i =>
    obtain ⟨c1, c2, h1, h2, _⟩ := h
    exact key h1 (ne_of h2) (by simp) (bal_of h2).1

theorem unparen {s e X} (hX : Bal X) (h : CEx ty (.ex s e) (.punct "(" :: (X ++ [.punct ")"]))) :
    CEx ty (.ex 2 e) X := by
  obtain ⟨Y, h1, h2⟩ | h := inv h
  · injection h1 with _ h1
    rwa [List.append_cancel_right h1]
  · exact (own_not_paren hX h).elim

/-! ## Counting tokens -/

/-- Tokens that are not parentheses or strings. -/
def counts : CTok → Bool
  | .str _ => false
  | .punct p => p != "(" && p != ")"
  | _ => true

/-- How many. -/
def cnt (c : List CTok) : Nat := (c.filter counts).length

@[simp] theorem cnt_nil : cnt [] = 0 := rfl
theorem cnt_append (a b) : cnt (a ++ b) = cnt a + cnt b := by simp [cnt]
theorem cnt_cons (t c) : cnt (t :: c) = (if counts t then 1 else 0) + cnt c := by
  simp only [cnt, List.filter_cons]
  split <;> simp <;> omega

/-- Two ways to cut a token list before a counted token. -/
theorem cut {c1 c2 d1 d2 : List CTok} {t t' : CTok} (h : c1 ++ t :: c2 = d1 ++ t' :: d2)
    (hc : cnt c1 = cnt d1) (ht : counts t = true) (ht' : counts t' = true) : c1 = d1 ∧ c2 = d2 := by
  rcases List.append_eq_append_iff.mp h with ⟨a, h3, h4⟩ | ⟨a, h3, h4⟩
  · cases a with
    | nil => injection h4 with _ h4; exact ⟨by rw [h3, List.append_nil], h4⟩
    | cons v a =>
      injection h4 with h5 _
      subst h5
      rw [h3, cnt_append, cnt_cons, ht] at hc
      simp only [if_true] at hc
      omega
  · cases a with
    | nil => injection h4 with _ h4; exact ⟨by rw [h3, List.append_nil], h4.symm⟩
    | cons v a =>
      injection h4 with h5 _
      subst h5
      rw [h3, cnt_append, cnt_cons, ht'] at hc
      simp only [if_true] at hc
      omega

theorem op_counts {op} (h : (∃ s, cLevel op = some s) ∨ op ∈ cAssignOps) : counts (.punct op) = true := by
  have := op_nopar h
  simp only [counts, Bool.and_eq_true, bne_iff_ne, ne_eq]
  exact ⟨fun h => this.1 (by rw [h]), fun h => this.2 (by rw [h])⟩

theorem cnt_strs (ls : List String) : cnt (ls.map .str) = 0 := by
  induction ls with
  | nil => rfl
  | cons l ls ih => rw [List.map_cons, cnt_cons, ih]; rfl

theorem cnt_more (ls : List String) : cnt (moreLines ls) = 0 := by
  rw [moreLines_map, cnt_strs]

theorem cnt_wrap (b c) : cnt (wrapT b c) = cnt c := by
  cases b with
  | false => rfl
  | true => simp [wrapT, cnt_cons, cnt_append, counts]

theorem cnt_litString (v) : cnt (litToks (.string v)) = 0 := by
  simp only [litToks]
  split
  · rfl
  · rw [cnt_cons, cnt_more]; rfl

/-- A derivation without the outer parentheses. -/
theorem strip {n : Nat} : ∀ {s e c}, c.length ≤ n → CEx ty (.ex s e) c →
    ∃ s' c', cnt c' = cnt c ∧ Own ty s' e c' := by
  induction n with
  | zero =>
    intro s e c hn h
    have := ne_of h
    cases c <;> simp_all
  | succ n ih =>
    intro s e c hn h
    obtain ⟨X, h1, h2⟩ | h := inv h
    · subst h1
      obtain ⟨s', c', h3, h4⟩ := ih (by simp at hn; omega) h2
      refine ⟨s', c', ?_, h4⟩
      rw [h3]; simp [cnt_cons, cnt_append, counts]
    · exact ⟨s, c, rfl, h⟩

theorem type_toks {t c} (h : CType ty t c) : c = typeToks t := by
  cases h <;> rfl

theorem entries_of_canon {e es} (h : canon e = .compLit es) : ∃ es', e = .compLit es' := by
  cases e with
  | compLit es' => exact ⟨es', rfl⟩
  | lit l => cases l <;> simp [canon] at h
  | _ => simp [canon] at h

mutual
/-- All token lists that derive a printed tree are equally long, not counting
parentheses and strings. -/
theorem cnt_eq : ∀ {e}, Plain ty e → ∀ {s c}, CEx ty (.ex s (canon e)) c → cnt c = cnt (toksE e)
  | .lit (.char v), _, s, c, h => by
    obtain ⟨s', c', h1, h2⟩ := strip (Nat.le_refl _) h
    have h2 : c' = [.chr v] := h2
    rw [← h1, h2]; rfl
  | .lit (.number v), _, s, c, h => by
    obtain ⟨s', c', h1, h2⟩ := strip (Nat.le_refl _) h
    have h2 : c' = [.num v] := h2
    rw [← h1, h2]; rfl
  | .lit .null, _, s, c, h => by
    obtain ⟨s', c', h1, h2⟩ := strip (Nat.le_refl _) h
    have h2 : c' = [.word "NULL"] := h2
    rw [← h1, h2]; rfl
  | .lit (.string v), _, s, c, h => by
    obtain ⟨s', c', h1, h2⟩ := strip (Nat.le_refl _) h
    obtain ⟨l, ls, h2⟩ : ∃ l, ∃ ls : List String, c' = .str l :: ls.map .str := h2
    rw [← h1, h2, cnt_cons, cnt_strs, toksE, cnt_litString]
    rfl
  | .compLit es, _, s, c, h => by
    obtain ⟨s', c', h1, h2⟩ := strip (Nat.le_refl _) h
    cases es <;> (simp only [canon] at h2; exact h2.elim)
  | .ident w, _, s, c, h => by
    obtain ⟨s', c', h1, h2⟩ := strip (Nat.le_refl _) h
    have h2 : c' = [.word w] := h2
    rw [← h1, h2]; rfl
  | .binaryOp op a b, hp, s, c, h => by
    obtain ⟨s', c', h1, h2⟩ := strip (Nat.le_refl _) h
    simp only [canon, Own] at h2
    obtain ⟨c1, c2, rfl, ⟨_, _, h4, h5⟩ | ⟨l, _, _, h4, h5⟩⟩ := h2
    all_goals
      rw [← h1, cnt_append, cnt_cons, cnt_eq hp.2.1 h4, cnt_eq hp.2.2 h5, toksE, cnt_append, cnt_cons,
        cnt_wrap, cnt_wrap]
  | .fieldAccess op t f, hp, s, c, h => by
    obtain ⟨s', c', h1, h2⟩ := strip (Nat.le_refl _) h
    simp only [canon, Own] at h2
    obtain ⟨c1, rfl, h4⟩ := h2
    rw [← h1, cnt_append, cnt_eq hp.2.1 h4, toksE, cnt_append, cnt_wrap]
  | .prefixOp op e, hp, s, c, h => by
    obtain ⟨s', c', h1, h2⟩ := strip (Nat.le_refl _) h
    simp only [canon, Own] at h2
    obtain ⟨_, c1, rfl, ⟨_, h4⟩ | ⟨_, h4⟩⟩ := h2
    all_goals rw [← h1, cnt_cons, cnt_eq hp.2.1 h4, toksE, cnt_cons, cnt_wrap]
  | .postfixOp op e, hp, s, c, h => by
    obtain ⟨s', c', h1, h2⟩ := strip (Nat.le_refl _) h
    simp only [canon, Own] at h2
    obtain ⟨c1, rfl, h4⟩ := h2
    rw [← h1, cnt_append, cnt_eq hp.2.1 h4, toksE, cnt_append]
  | .cast t e, hp, s, c, h => by
    obtain ⟨s', c', h1, h2⟩ := strip (Nat.le_refl _) h
    simp only [canon, Own] at h2
    obtain ⟨_, c1, c2, rfl, h3, h4⟩ := h2
    rw [← h1, type_toks h3, toksE]
    simp only [cnt_cons, cnt_append, cnt_eq hp.2 h4]
    simp [counts]
  | .call f [], hp, s, c, h => by
    obtain ⟨s', c', h1, h2⟩ := strip (Nat.le_refl _) h
    simp only [canon, canonArgs, Own] at h2
    obtain ⟨c1, rfl, h4⟩ := h2
    rw [← h1, cnt_append, cnt_eq hp.1 h4, toksE_call, argToks, cnt_append]
    rfl
  | .call f (a :: as), hp, s, c, h => by
    obtain ⟨s', c', h1, h2⟩ := strip (Nat.le_refl _) h
    simp only [canon, canonArgs, Own] at h2
    obtain ⟨c0, c1, c2, rfl, h3, h4, h5⟩ := h2
    rw [← h1, toksE_call, argToks]
    simp only [cnt_append, cnt_cons, cnt_eq hp.1 h3, cnt_eq hp.2.1 h4, cntArgs_eq hp.2.2 h5]
    omega
  | .sizeofType t, _, s, c, h => by
    obtain ⟨s', c', h1, h2⟩ := strip (Nat.le_refl _) h
    simp only [canon, Own] at h2
    obtain ⟨_, c1, rfl, h3⟩ := h2
    rw [← h1, type_toks h3, toksE]
  | .sizeofExpr e, hp, s, c, h => by
    obtain ⟨s', c', h1, h2⟩ := strip (Nat.le_refl _) h
    simp only [canon, Own] at h2
    obtain ⟨_, c1, rfl, h3⟩ := h2
    rw [← h1, toksE]
    simp only [cnt_cons, cnt_append, cnt_eq (e := e) hp h3]
    simp [counts]
  | .arrIndex a i, hp, s, c, h => by
    obtain ⟨s', c', h1, h2⟩ := strip (Nat.le_refl _) h
    simp only [canon, Own] at h2
    obtain ⟨c1, c2, rfl, h3, h4⟩ := h2
    rw [← h1, toksE]
    simp only [cnt_cons, cnt_append, cnt_eq hp.1 h3, cnt_eq hp.2 h4]
theorem cntArgs_eq : ∀ {es}, PlainArgs ty es → ∀ {c}, CEx ty (.args (canonArgs es)) c →
    cnt c = cnt (toksArgs es)
  | [], _, c, h => by
    obtain ⟨_, rfl⟩ | ⟨a, as, c1, c2, h1, _⟩ := args_shape h
    · rfl
    · simp [canonArgs] at h1
  | e :: es, hp, c, h => by
    obtain ⟨h1, _⟩ | ⟨a, as, c1, c2, h1, rfl, h2, h3⟩ := args_shape h
    · simp [canonArgs] at h1
    · simp only [canonArgs, List.cons.injEq] at h1
      obtain ⟨rfl, rfl⟩ := h1
      rw [toksArgs]
      simp only [cnt_cons, cnt_append, cnt_eq hp.1 h2, cntArgs_eq hp.2 h3]
end

end Che.Proofs.CPrintExact
