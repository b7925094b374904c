import Verif.Proofs.CPrintDerive
import Verif.Spec.CStmtGrammar
/-!
# Where expressions end

Brackets of all kinds balance in the tokens of an expression, and outside them there
is no comma, semicolon or colon.  So two expressions that start the same text and are
followed by one of those are spelt alike.
-/
namespace Che.Proofs.CStmtCut
open Che Che.Spec Che.FormatC Che.Proofs.CPrintToks

variable {ty : String → Bool}

/-- Opening minus closing. -/
def one (t : CTok) : Int :=
  if t ∈ [CTok.punct "(", .punct "[", .punct "{"] then 1
  else if t ∈ [CTok.punct ")", .punct "]", .punct "}"] then -1 else 0

/-- Opening minus closing brackets. -/
def nest : List CTok → Int
  | [] => 0
  | t :: c => one t + nest c

theorem nest_append (a b : List CTok) : nest (a ++ b) = nest a + nest b := by
  induction a with
  | nil => simp [nest]
  | cons t a ih => simp only [List.cons_append, nest, ih]; omega

/-- Closing brackets. -/
def Closer (t : CTok) : Prop := t ∈ [CTok.punct ")", .punct "]", .punct "}"]

/-- What an expression ends before. -/
def Ender (t : CTok) : Prop := Closer t ∨ t ∈ [CTok.punct ",", .punct ";", .punct ":"]

theorem one_closer {t} (h : Closer t) : one t = -1 := by
  simp only [Closer, List.mem_cons, List.not_mem_nil, or_false] at h
  obtain rfl | rfl | rfl := h <;> rfl

theorem one_nonneg {t} (h : ¬ Closer t) : 0 ≤ one t := by
  unfold one
  split
  · omega
  · rw [if_neg (show t ∉ [CTok.punct ")", .punct "]", .punct "}"] from h)]; omega

/-- Balanced, and a token with the property `S` only inside brackets. -/
def Cl (S : CTok → Prop) (c : List CTok) : Prop :=
  nest c = 0 ∧ ∀ a t b, c = a ++ t :: b → S t → 1 ≤ nest a

theorem cl_nil {S} : Cl S [] := ⟨rfl, by intro a t b h; simp at h⟩

theorem Cl.mono {S S' : CTok → Prop} {c} (h : Cl S c) (hs : ∀ t, S' t → S t) : Cl S' c :=
  ⟨h.1, fun a t b he ht => h.2 a t b he (hs t ht)⟩

theorem Cl.append {S a b} (ha : Cl S a) (hb : Cl S b) : Cl S (a ++ b) := by
  refine ⟨by rw [nest_append, ha.1, hb.1]; rfl, ?_⟩
  intro p t q h ht
  rcases List.append_eq_append_iff.mp h with ⟨c, h1, h2⟩ | ⟨c, h1, h2⟩
  · rw [h1, nest_append, ha.1]; have := hb.2 c t q h2 ht; omega
  · cases c with
    | nil =>
      rw [List.append_nil] at h1
      have h2 : t :: q = b := by simpa using h2
      have := hb.2 [] t q (by simp [h2]) ht
      rw [← h1, ha.1]
      simp [nest] at this
    | cons u c =>
      injection h2 with h2 h3
      subst h2
      exact ha.2 p _ c h1 ht

theorem cl_one {S : CTok → Prop} {t} (h0 : one t = 0) (h : ¬ S t) : Cl S [t] := by
  refine ⟨by simp [nest, h0], ?_⟩
  intro p u q he hu
  cases p with
  | nil =>
    injection he with he _
    subst he
    exact absurd hu h
  | cons v p =>
    injection he with _ he
    exact absurd he (by simp)

theorem Cl.cons {S : CTok → Prop} {t c} (h0 : one t = 0) (h : ¬ S t) (hc : Cl S c) : Cl S (t :: c) :=
  (cl_one h0 h).append hc

/-- No front part of a balanced list has more closing brackets. -/
theorem Cl.nonneg {c} (h : Cl Closer c) : ∀ q p, c = p ++ q → 0 ≤ nest p := by
  intro q p
  induction hn : p.length generalizing p q with
  | zero =>
    intro _
    rw [List.length_eq_zero_iff.mp hn]
    exact Int.le_refl 0
  | succ n ih =>
    intro he
    obtain ⟨p', t, rfl⟩ : ∃ p' t, p = p' ++ [t] := by
      rcases List.eq_nil_or_concat p with rfl | ⟨p', t, rfl⟩
      · simp at hn
      · exact ⟨p', t, by simp⟩
    have he : c = p' ++ t :: q := by simpa using he
    have h2 := ih (t :: q) p' (by simpa using hn) he
    rw [nest_append]
    simp only [nest, Int.add_zero]
    by_cases ht : Closer t
    · rw [one_closer ht]; have := h.2 _ _ _ he ht; omega
    · have := one_nonneg ht; omega

/-- Brackets hide everything. -/
theorem Cl.bracket {S : CTok → Prop} {o q c} (ho : one o = 1) (hq : one q = -1) (hso : ¬ S o)
    (hc : Cl Closer c) : Cl S (o :: (c ++ [q])) := by
  refine ⟨by simp [nest, nest_append, ho, hq, hc.1], ?_⟩
  intro p t r he ht
  cases p with
  | nil =>
    injection he with he _
    subst he
    exact absurd ht hso
  | cons u p =>
    injection he with h1 h2
    subst h1
    simp only [nest, ho]
    have h2 : c ++ [q] = p ++ t :: r := h2
    have : 0 ≤ nest p := by
      rcases List.append_eq_append_iff.mp h2 with ⟨d, h3, h4⟩ | ⟨d, h3, h4⟩
      · cases d with
        | nil => rw [h3, List.append_nil, hc.1]; omega
        | cons v d => injection h4 with _ h4; exact absurd h4 (by simp)
      · exact hc.nonneg d p h3
    omega

/-- Two lists with the same end. -/
theorem cut {c d r r' t t'} (hc : Cl Ender c) (hd : Cl Ender d) (ht : Ender t) (ht' : Ender t')
    (h : c ++ t :: r = d ++ t' :: r') : c = d ∧ t = t' ∧ r = r' := by
  rcases List.append_eq_append_iff.mp h with ⟨a, h1, h2⟩ | ⟨a, h1, h2⟩
  · cases a with
    | nil =>
      injection h2 with h2 h3
      exact ⟨by simpa using h1.symm, h2, h3⟩
    | cons v a =>
      injection h2 with h2 h3
      subst h2
      have := hd.2 c _ a h1 ht
      rw [hc.1] at this
      omega
  · cases a with
    | nil =>
      injection h2 with h2 h3
      exact ⟨by simpa using h1, h2.symm, h3.symm⟩
    | cons v a =>
      injection h2 with h2 h3
      subst h2
      have := hc.2 d _ a h1 ht'
      rw [hd.1] at this
      omega

/-! ## Expressions -/

/-- Tokens that are none of the above. -/
def Quiet (t : CTok) : Prop := one t = 0 ∧ ¬ Ender t

theorem quiet_word (w) : Quiet (.word w) := ⟨by simp [one], by simp [Ender, Closer]⟩
theorem quiet_num (w) : Quiet (.num w) := ⟨by simp [one], by simp [Ender, Closer]⟩
theorem quiet_str (w) : Quiet (.str w) := ⟨by simp [one], by simp [Ender, Closer]⟩
theorem quiet_chr (w) : Quiet (.chr w) := ⟨by simp [one], by simp [Ender, Closer]⟩
theorem quiet_op {p : String} (h : p ∉ ["(", "[", "{", ")", "]", "}", ",", ";", ":"]) : Quiet (.punct p) := by
  simp only [List.mem_cons, List.not_mem_nil, or_false, not_or] at h
  obtain ⟨h1, h2, h3, h4, h5, h6, h7, h8, h9⟩ := h
  refine ⟨?_, ?_⟩
  · simp [one, h1, h2, h3, h4, h5, h6]
  · simp [Ender, Closer, h4, h5, h6, h7, h8, h9]

theorem Cl.quiet {t c} (h : Quiet t) (hc : Cl Ender c) : Cl Ender (t :: c) := hc.cons h.1 h.2
theorem Cl.quiet' {t c} (h : Quiet t) (hc : Cl Closer c) : Cl Closer (t :: c) :=
  hc.cons h.1 fun k => h.2 (.inl k)

theorem Cl.comma {c} (hc : Cl Closer c) : Cl Closer (.punct "," :: c) :=
  hc.cons rfl (by simp [Closer])

theorem Cl.inside {c} (hc : Cl Ender c) : Cl Closer c := hc.mono fun _ h => .inl h

theorem cl_all {c : List CTok} (h : ∀ t ∈ c, Quiet t) : Cl Ender c := by
  induction c with
  | nil => exact cl_nil
  | cons t c ih => exact (ih fun u hu => h u (by simp [hu])).quiet (h t (by simp))

theorem Cl.par {S : CTok → Prop} {c} (hc : Cl Closer c) (h : ¬ S (.punct "(")) : Cl S (.punct "(" :: (c ++ [.punct ")"])) :=
  hc.bracket rfl rfl h
theorem Cl.parE {c} (hc : Cl Closer c) : Cl Ender (.punct "(" :: (c ++ [.punct ")"])) :=
  hc.bracket rfl rfl (by simp [Ender, Closer])
theorem Cl.brkE {c} (hc : Cl Closer c) : Cl Ender (.punct "[" :: (c ++ [.punct "]"])) :=
  hc.bracket rfl rfl (by simp [Ender, Closer])
theorem Cl.brcE {c} (hc : Cl Closer c) : Cl Ender (.punct "{" :: (c ++ [.punct "}"])) :=
  hc.bracket rfl rfl (by simp [Ender, Closer])

theorem cl_stars (n) : Cl Ender (starToks n) := cl_all fun t ht => by
  rw [starToks, List.mem_replicate] at ht
  rw [ht.2]
  exact quiet_op (by decide)

theorem cl_type {t c} (h : CType ty t c) : Cl Ender c := by
  cases h with
  | plain _ => exact (cl_stars _).quiet (quiet_word _)
  | const _ => exact ((cl_stars _).quiet (quiet_word _)).quiet (quiet_word _)

theorem quiet_level {op s} (h : cLevel op = some s) : Quiet (.punct op) := by
  have k : ∀ op ∈ levelOps, op ∉ ["(", "[", "{", ")", "]", "}", ",", ";", ":"] := by decide +kernel
  exact quiet_op (k op (level_mem h))

theorem quiet_assign {op} (h : op ∈ cAssignOps) : Quiet (.punct op) := by
  have k : ∀ op ∈ cAssignOps, op ∉ ["(", "[", "{", ")", "]", "}", ",", ";", ":"] := by decide +kernel
  exact quiet_op (k op h)

theorem quiet_unary {op} (h : op ∈ cUnaryOps) : Quiet (.punct op) := by
  have k : ∀ op ∈ cUnaryOps, op ∉ ["(", "[", "{", ")", "]", "}", ",", ";", ":"] := by decide +kernel
  exact quiet_op (k op h)

theorem quiet_incr {op : String} (h : op ∈ ["++", "--"]) : Quiet (.punct op) := by
  have k : ∀ op ∈ ["++", "--"], op ∉ ["(", "[", "{", ")", "]", "}", ",", ";", ":"] := by decide +kernel
  exact quiet_op (k op h)

theorem quiet_dot {op : String} (h : op ∈ [".", "->"]) : Quiet (.punct op) := by
  have k : ∀ op ∈ [".", "->"], op ∉ ["(", "[", "{", ")", "]", "}", ",", ";", ":"] := by decide +kernel
  exact quiet_op (k op h)

theorem quiet_eq : Quiet (.punct "=") := quiet_op (by decide)

/-- What a category says about its tokens. -/
def Shape : CCat → List CTok → Prop
  | .args _, c => Cl Closer c
  | .inits _, c => Cl Closer c
  | _, c => Cl Ender c

/-- The tokens of an expression are closed. -/
theorem cl_ex {k c} (h : CEx ty k c) : Shape k c := by
  induction h with
  | up _ _ _ ih => exact ih
  | assign ho _ _ ih1 ih2 => exact Cl.append ih1 (Cl.quiet (quiet_assign ho) ih2)
  | bin ho _ _ ih1 ih2 => exact Cl.append ih1 (Cl.quiet (quiet_level ho) ih2)
  | cast ht _ ih =>
    have := (Cl.parE (cl_type ht).inside).append ih
    simpa [Shape] using this
  | unary ho _ ih => exact Cl.quiet (quiet_unary ho) ih
  | incr ho _ ih => exact Cl.quiet (quiet_incr ho) ih
  | sizeofExpr _ ih => exact Cl.quiet (quiet_word _) ih
  | sizeofType ht => exact Cl.quiet (quiet_word _) (cl_type ht).inside.parE
  | ident _ => exact cl_nil.quiet (quiet_word _)
  | num => exact cl_nil.quiet (quiet_num _)
  | chr => exact cl_nil.quiet (quiet_chr _)
  | strs =>
    refine cl_all fun t ht => ?_
    simp only [List.mem_cons, List.mem_map] at ht
    obtain rfl | ⟨a, _, rfl⟩ := ht <;> exact quiet_str _
  | paren _ ih => exact Cl.parE (Cl.inside ih)
  | call0 _ ih => exact Cl.append ih (Cl.parE (c := []) cl_nil)
  | call _ _ _ ih1 ih2 ih3 =>
    have := Cl.append ih1 (Cl.parE (Cl.append (Cl.inside ih2) ih3))
    simpa [Shape] using this
  | index _ _ ih1 ih2 => exact Cl.append ih1 (Cl.brkE (Cl.inside ih2))
  | post ho _ ih => exact Cl.append ih (cl_nil.quiet (quiet_incr ho))
  | field ho _ _ ih => exact Cl.append ih ((cl_nil.quiet (quiet_word _)).quiet (quiet_dot ho))
  | argsNil => exact cl_nil
  | argsCons _ _ ih1 ih2 => exact Cl.comma (Cl.append (Cl.inside ih1) ih2)
  | initExpr _ ih => exact ih
  | initList _ ih => exact Cl.brcE ih
  | initsLast _ ih => exact Cl.inside ih
  | initsComma _ ih => exact Cl.append (Cl.inside ih) (Cl.comma cl_nil)
  | initsCons _ _ ih1 ih2 => exact Cl.append (Cl.inside ih1) (Cl.comma ih2)
  | itemPlain _ ih => exact ih
  | itemField _ _ ih => exact Cl.quiet (quiet_op (by decide)) (Cl.quiet (quiet_word _) (Cl.quiet quiet_eq ih))
  | itemIndex _ _ ih1 ih2 =>
    have := (Cl.brkE (Cl.inside ih1)).append (Cl.quiet quiet_eq ih2)
    simpa [Shape] using this

/-! ## Printed expressions -/

theorem cl_typeToks (t) : Cl Ender (typeToks t) := by
  refine cl_all fun u hu => ?_
  simp only [typeToks, List.mem_append, List.mem_cons, starToks, List.mem_replicate] at hu
  obtain hu | rfl | hu := hu
  · split at hu <;> simp at hu
    subst hu; exact quiet_word _
  · exact quiet_word _
  · rw [hu.2]; exact quiet_op (by decide)

theorem cl_more : ∀ ls, Cl Ender (moreLines ls)
  | [] => cl_nil
  | _ :: ls => ((cl_more ls).quiet (quiet_str _)).quiet (quiet_str _)

theorem cl_lit (l) : Cl Ender (litToks l) := by
  cases l <;> simp only [litToks]
  · exact cl_nil.quiet (quiet_chr _)
  · split
    · exact cl_nil
    · exact (cl_more _).quiet (quiet_str _)
  · exact cl_nil.quiet (quiet_num _)
  · exact cl_nil.quiet (quiet_word _)

theorem cl_wrap {b c} (h : Cl Ender c) : Cl Ender (wrapT b c) := by
  cases b
  · exact h
  · exact h.inside.parE

mutual
/-- The tokens of a printed expression are closed. -/
theorem cl_toks : ∀ {e}, Plain ty e → Cl Ender (toksE e)
  | .cast t e, h => by
    have := (cl_typeToks t).inside.parE.append (cl_toks h.2).inside.parE
    simpa [toksE] using this
  | .call f args, h => by
    rw [toksE_call]
    refine (cl_toks h.1).append (Cl.parE ?_)
    cases args with
    | nil => exact cl_nil
    | cons a as => exact (cl_toks h.2.1).inside.append (cl_args h.2.2)
  | .lit l, _ => cl_lit l
  | .ident s, _ => cl_nil.quiet (quiet_word _)
  | .compLit [], _ => by
    simpa [toksE] using Cl.brcE (c := [.num "0"]) (cl_nil.quiet (quiet_num _)).inside
  | .compLit (e :: es), h => by
    simpa [toksE] using ((cl_entry h.1).inside.append (cl_entries h.2)).brcE
  | .sizeofType t, _ => by
    simpa [toksE] using (cl_typeToks t).inside.parE.quiet (quiet_word "sizeof")
  | .sizeofExpr e, h => by
    simpa [toksE] using (cl_toks (e := e) h).inside.parE.quiet (quiet_word "sizeof")
  | .fieldAccess op t f, h => by
    simpa [toksE] using (cl_wrap (cl_toks h.2.1)).append ((cl_nil.quiet (quiet_word f)).quiet (quiet_dot h.1))
  | .binaryOp op a b, h => by
    have ho : Quiet (.punct op) := h.1.elim (fun ⟨_, h⟩ => quiet_level h) quiet_assign
    simpa [toksE] using (cl_wrap (cl_toks h.2.1)).append ((cl_wrap (cl_toks h.2.2)).quiet ho)
  | .prefixOp op e, h => by
    have k : ∀ op ∈ ["!", "--", "++", "*", "~", "&", "-"], op ∉ ["(", "[", "{", ")", "]", "}", ",", ";", ":"] := by
      decide +kernel
    simpa [toksE] using (cl_wrap (cl_toks h.2.1)).quiet (quiet_op (k op h.1))
  | .postfixOp op e, h => by
    simpa [toksE] using (cl_toks h.2.1).append (cl_nil.quiet (quiet_incr h.1))
  | .arrIndex a i, h => by
    simpa [toksE] using (cl_toks h.1).append (cl_toks h.2).inside.brkE
theorem cl_args : ∀ {es}, PlainArgs ty es → Cl Closer (toksArgs es)
  | [], _ => by simpa [toksArgs] using cl_nil
  | e :: es, h => by
    simpa [toksArgs] using ((cl_toks h.1).inside.append (cl_args h.2)).comma
theorem cl_entries : ∀ {es}, PlainEntries ty es → Cl Closer (toksEntries es)
  | [], _ => by simpa [toksEntries] using cl_nil
  | e :: es, h => by
    simpa [toksEntries] using ((cl_entry h.1).inside.append (cl_entries h.2)).comma
theorem cl_entry : ∀ {e}, PlainEntry ty e → Cl Ender (toksEntry e)
  | .mk true (some k) v, h => by
    simpa [toksEntry] using (cl_toks (e := k) h.1).inside.brkE.append ((cl_toks h.2).quiet quiet_eq)
  | .mk false (some k) v, h => by
    obtain ⟨w, rfl, _⟩ := h.1
    simpa [toksEntry, toksE] using
      (((cl_toks h.2).quiet quiet_eq).quiet (quiet_word w)).quiet (quiet_op (p := ".") (by decide))
  | .mk true none v, h => by simpa [toksEntry] using cl_toks h.2
  | .mk false none v, h => by simpa [toksEntry] using cl_toks h.2
end

end Che.Proofs.CStmtCut
