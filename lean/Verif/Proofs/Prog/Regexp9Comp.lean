import Verif.Proofs.Prog.Regexp9Parse
import Verif.Proofs.Prog.Regexp9Loop

/-!
The compiler makes the program of the tree that is read.
-/
namespace Che.Proofs.Regexp9
open Che Che.Lib Che.Prog.Regexp9 Che.Spec.Regexp9

/-! ## The compiler and the compiler on symbols -/

/-- Only brackets have a number. -/
def norm (p : Nat × Nat) : Nat × Nat := if p.1 = LBRA then p else (p.1, 0)

theorem norm_fst (p : Nat × Nat) : (norm p).1 = p.1 := by unfold norm; split <;> rfl

theorem evalA_norm (pri : Nat) : ∀ (l : List (Nat × Nat)) (es : List Re),
    evalA pri (l.map norm) es = (evalA pri l es).map fun p => (p.1.map norm, p.2)
  | [], _ => rfl
  | (op, g) :: rest, es => by
    have ih := fun es => evalA_norm pri rest es
    rw [List.map_cons]
    have e : norm (op, g) = (op, (norm (op, g)).2) := Prod.ext (norm_fst (op, g)) rfl
    rw [e, evalA_cons, evalA_cons]
    split
    · split
      · rename_i hb
        have : norm (op, g) = (op, g) := by rw [norm, if_pos hb]
        rw [this]
        cases es <;> rfl
      · cases ha : applyOp op es with
        | none => rfl
        | some es' => simp only [Option.bind_some]; exact ih es'
    · simp only [Option.map_some, List.map_cons]
      rw [← e]

/-- The two compilers agree. -/
structure Rel (c : Comp) (a : A) : Prop where
  holds : Holds c c.ators a.es
  ators : a.ators = c.ators.map norm
  sub : c.cursubid = a.sub
  lim : c.cursubid < 32
  last : c.lastwasand = a.last
  nbra : c.nbra = a.nbra

def Ref (r : Res String Comp) (o : Option A) : Prop :=
  match o with
  | some a => ∃ c, r = .ok c ∧ Rel c a
  | none => ∀ c, r ≠ .ok c

theorem Ref.bind {r o} {f : Comp → Res String Comp} {g : A → Option A} (h : Ref r o) (h2 : ∀ c a, Rel c a → Ref (f c) (g a)) :
    Ref (r.bind f) (o.bind g) := by
  cases o with
  | none =>
    intro c hc
    cases r with
    | ok x => exact h x rfl
    | err _ => cases hc
    | panic _ => cases hc
    | diverge => cases hc
  | some a =>
    obtain ⟨c, rfl, hr⟩ := h
    exact h2 c a hr

theorem Ref.bind_none {r} {f : Comp → Res String Comp} (h : Ref r Option.none) : Ref (r.bind f) Option.none := by
  intro c hc
  cases r with
  | ok x => exact h x rfl
  | err _ => cases hc
  | panic _ => cases hc
  | diverge => cases hc

theorem Ref.none {r : Res String Comp} (h : ∀ c, r ≠ .ok c) : Ref r Option.none := h

/-- The limits of the code. -/
def lim20 : Lim := ⟨fun n => decide (n < 20), fun n => decide (n < 32)⟩

theorem evaluntil_ref {c a} (h : Rel c a) (pri : Nat) :
    Ref (evaluntil c pri) ((evalA pri a.ators a.es).bind fun p => some { a with ators := p.1, es := p.2 }) := by
  have := evalLoop_spec pri c.ators c a.es h.holds
  rw [h.ators, evalA_norm, evaluntil]
  cases he : evalA pri c.ators a.es with
  | none => rw [he] at this; exact this
  | some p =>
    rw [he] at this
    obtain ⟨c', h1, h2, h3, h4⟩ := this
    refine ⟨c', h1, ⟨?_, ?_, ?_, ?_, ?_, ?_⟩⟩
    · have := h2.ators; rw [this]; exact ⟨h2.ators, h2.stk, h2.len, h2.ids⟩
    · simp only; rw [h2.ators]
    · rw [h3.1]; exact h.sub
    · rw [h3.1]; exact h.lim
    · rw [h3.2.1]; exact h.last
    · rw [h3.2.2]; exact h.nbra

theorem pushator_rel {c a} (h : Rel c a) (t : Nat) (b : Bool) (hb : t = LBRA → 1 ≤ c.cursubid) :
    Ref ((pushator c t).bind fun c => .ok { c with lastwasand := b })
      (if lim20.st a.ators.length then some { a with ators := norm (t, a.sub) :: a.ators, last := b } else none) := by
  have hl : a.ators.length = c.ators.length := by rw [h.ators]; simp
  unfold pushator
  by_cases hs : c.ators.length ≥ 20
  · rw [if_pos hs, if_neg (by simp [lim20, hl]; omega)]
    exact Ref.none fun c hc => by cases hc
  · rw [if_neg hs, if_pos (by simp [lim20, hl]; omega)]
    refine ⟨_, rfl, ⟨⟨rfl, h.holds.stk, h.holds.len, ?_⟩, ?_, h.sub, h.lim, rfl, h.nbra⟩⟩
    · intro p hp hp2
      rcases List.mem_cons.1 hp with rfl | hp
      · exact ⟨hb hp2, h.lim⟩
      · exact h.holds.ids p hp hp2
    · simp only [List.map_cons]; rw [← h.ators, h.sub]

theorem operator1_ref {c a} (h : Rel c a) {t : Nat} (ht : t ≠ LBRA) : Ref (operator1 c t) (op1A lim20 a t) := by
  have := (evaluntil_ref h t).bind (f := fun c => (pushator c t).bind fun c => .ok { c with lastwasand := decide (t = STAR ∨ t = QUEST ∨ t = PLUS) })
    fun c a hr => pushator_rel hr t (decide (t = STAR ∨ t = QUEST ∨ t = PLUS)) fun h => absurd h ht
  rw [operator1, op1A]
  refine Eq.subst (motive := Ref _) ?_ this
  cases evalA t a.ators a.es with
  | none => rfl
  | some p => simp [norm, ht]

theorem cat_ref {c a} (h : Rel c a) : Ref (if c.lastwasand then operator1 c CAT else .ok c) (catA lim20 a) := by
  unfold catA
  rw [h.last]
  split
  · exact operator1_ref h (by decide)
  · exact ⟨c, rfl, h⟩

/-- An instruction for an operand. -/
def OpdFor (o : Op) (e : Re) : Prop :=
  o ≠ .nop ∧ o ≠ .fin ∧ (∀ r, o ≠ .or r) ∧ (∀ g, o ≠ .lbra g ∧ o ≠ .rbra g) ∧ (∀ r, o = .rune r → r ≠ 0) ∧
    ∀ (K : List Inst) pc k, K[pc]? = some ⟨o, some k⟩ → Code K e pc k

theorem operand_ref {c a} (h : Rel c a) {o : Op} {e : Re} (ho : OpdFor o e) : Ref (operand c o) (opdA lim20 a e) := by
  obtain ⟨o1, o2, o3, o4, o5, o7⟩ := ho
  rw [operand, opdA]
  refine (cat_ref h).bind fun c a h => ?_
  simp only [newinst]
  have hl := h.holds.stk.length
  unfold pushand
  by_cases hs : c.ands.length ≥ 20
  · simp only
    rw [if_pos hs, if_neg (by simp [lim20, ← hl]; omega)]
    exact Ref.none fun c hc => by cases hc
  · simp only
    rw [if_neg hs, if_pos (by simp [lim20, ← hl]; omega)]
    refine ⟨_, rfl, ⟨⟨rfl, ?_, ?_, h.holds.ids⟩, h.ators, h.sub, h.lim, rfl, h.nbra⟩⟩
    · simp only [List.length_append, List.length_cons, List.length_nil]
      refine ⟨c.insts.length, frag_one (x := ⟨o, none⟩) (by simp) rfl ?_ o1 o7, ?_⟩
      · refine ⟨o2, fun r hr => absurd hr (o3 r), fun g hg => ?_, o5, fun m hm => by cases hm⟩
        rcases hg with hg | hg
        · exact absurd hg (o4 g).1
        · exact absurd hg (o4 g).2
      · refine h.holds.stk.congr fun n hn => ?_
        rw [List.getElem?_append_left hn]
    · simp only [List.length_cons]; omega

/-- A symbol of the compiler and the symbol it stands for. -/
inductive Means : Token → Tok → Prop
  | atom : single o = true → (∀ r, takes o r = true ↔ a.has r) → (∀ r, o = .rune r → r ≠ 0) → Means (.operand o) (.atom a)
  | bol : Means (.operand .bol) .bol
  | eol : Means (.operand .eol) .eol
  | star : Means (.op STAR) .star
  | plus : Means (.op PLUS) .plus
  | opt : Means (.op QUEST) .opt
  | bar : Means (.op OR) .bar
  | lpar : Means (.op LBRA) .lpar
  | rpar : Means (.op RBRA) .rpar

/-- The compiler with one symbol. -/
def stepC (c : Comp) : Token → Res String Comp
  | .end_ => .ok c
  | .op code => operator c code
  | .operand o => operand c o

theorem step_ref {c a t k} (h : Rel c a) (hm : Means t k) : Ref (stepC c t) (tokA lim20 a k) := by
  have other : ∀ {t : Nat}, t ≠ RBRA → t ≠ LBRA → Ref (operator c t) (op1A lim20 a t) := by
    intro t h1 h2
    rw [operator, if_neg h1, if_neg h2]
    exact operator1_ref h h2
  cases hm with
  | @atom o x h1 h2 h3 =>
    refine operand_ref h ⟨?_, ?_, ?_, ?_, h3, fun K pc k hk => ⟨o, hk, h1, h2⟩⟩
    · rintro rfl; cases h1
    · rintro rfl; cases h1
    · rintro r rfl; cases h1
    · intro g; constructor <;> (rintro rfl; cases h1)
  | bol => exact operand_ref h ⟨by simp, by simp, by simp, by simp, by simp, fun K pc k hk => hk⟩
  | eol => exact operand_ref h ⟨by simp, by simp, by simp, by simp, by simp, fun K pc k hk => hk⟩
  | star => exact other (by decide) (by decide)
  | plus => exact other (by decide) (by decide)
  | opt => exact other (by decide) (by decide)
  | bar => exact other (by decide) (by decide)
  | lpar =>
    simp only [stepC, tokA]
    rw [operator, if_neg (by decide), if_pos rfl]
    have hs := h.sub
    by_cases hg : c.cursubid + 1 ≥ 32
    · rw [if_pos hg, if_neg (by simp [lim20]; omega)]
      exact Ref.none fun c hc => by cases hc
    · rw [if_neg hg, if_pos (by simp [lim20]; omega)]
      have hr : Rel { c with cursubid := c.cursubid + 1, nbra := c.nbra + 1 } { a with sub := a.sub + 1, nbra := a.nbra + 1 } :=
        ⟨⟨rfl, h.holds.stk, h.holds.len, h.holds.ids⟩, h.ators, by simp [h.sub], by simp; omega, h.last, by simp [h.nbra]⟩
      have hsub : ∀ {b : A}, catA lim20 { a with sub := a.sub + 1, nbra := a.nbra + 1 } = some b → b.sub = a.sub + 1 := fun hb => (catA_same hb).1
      have := cat_ref hr
      simp only at this ⊢
      generalize catA lim20 { a with sub := a.sub + 1, nbra := a.nbra + 1 } = o at this hsub
      cases o with
      | none =>
        exact Ref.bind_none this
      | some b =>
        obtain ⟨c', hc', hr'⟩ := this
        rw [hc']
        show Ref ((pushator c' LBRA).bind fun c => .ok { c with lastwasand := false }) _
        have h1 := hsub rfl
        have := pushator_rel hr' LBRA false fun _ => by rw [hr'.sub, h1]; omega
        simpa [norm] using this
  | rpar =>
    simp only [stepC, tokA]
    rw [operator, if_pos rfl, h.nbra]
    by_cases hn : a.nbra = 0
    · rw [if_pos hn, if_pos hn]
      exact Ref.none fun c hc => by cases hc
    · rw [if_neg hn, if_neg hn]
      have hr : Rel { c with nbra := c.nbra - 1 } { a with nbra := a.nbra - 1 } :=
        ⟨⟨rfl, h.holds.stk, h.holds.len, h.holds.ids⟩, h.ators, h.sub, h.lim, h.last, by simp [h.nbra]⟩
      have := (evaluntil_ref hr RBRA).bind (f := fun c => .ok { c with lastwasand := true }) (g := fun a => some { a with last := true })
        fun c a h => ⟨_, rfl, ⟨⟨rfl, h.holds.stk, h.holds.len, h.holds.ids⟩, h.ators, h.sub, h.lim, rfl, h.nbra⟩⟩
      rw [h.nbra] at this
      refine Eq.subst (motive := Ref _) ?_ this
      cases evalA RBRA a.ators a.es with
      | none => rfl
      | some p => rfl

/-- The compiler with some symbols. -/
def stepsC : Comp → List Token → Res String Comp
  | c, [] => .ok c
  | c, t :: ts => (stepC c t).bind fun c => stepsC c ts

theorem steps_ref : ∀ {ts : List Token} {ks : List Tok} {c : Comp} {a : A}, ts.length = ks.length → (∀ p ∈ ts.zip ks, Means p.1 p.2) →
    Rel c a → Ref (stepsC c ts) (runA lim20 a ks)
  | [], [], c, a, _, _, h => ⟨c, rfl, h⟩
  | t :: ts, k :: ks, c, a, hl, hm, h => by
    rw [stepsC, runA]
    refine (step_ref h (hm (t, k) (by simp))).bind fun c a h => ?_
    exact steps_ref (by simpa using hl) (fun p hp => hm p (by simp [hp])) h
  | [], _ :: _, _, _, h, _, _ => by simp at h
  | _ :: _, [], _, _, h, _, _ => by simp at h

end Che.Proofs.Regexp9
