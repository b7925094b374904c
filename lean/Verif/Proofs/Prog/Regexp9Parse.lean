import Verif.Proofs.Prog.Regexp9Eval

/-!
The compiler on symbols with trees, and the grammar.
-/
namespace Che.Proofs.Regexp9
open Che Che.Lib Che.Prog.Regexp9 Che.Spec.Regexp9

/-! ## Expressions that match the same -/

theorem _root_.Che.Spec.Regexp9.Same.refl (a : Re) : Same a a := fun _ _ _ _ _ => Iff.rfl
theorem _root_.Che.Spec.Regexp9.Same.symm {a b : Re} (h : Same a b) : Same b a := fun t i j c c' => (h t i j c c').symm
theorem _root_.Che.Spec.Regexp9.Same.trans {a b d : Re} (h : Same a b) (h2 : Same b d) : Same a d := fun t i j c c' => (h t i j c c').trans (h2 t i j c c')

theorem star_mono {a b : Re} (h : Same a b) {t i j c c'} (m : M t (.star a) i j c c') : M t (.star b) i j c c' := by
  generalize he : Re.star a = e at m
  induction m with
  | starNil => exact .starNil
  | starCons m1 _ _ ih => cases he; exact .starCons ((h _ _ _ _ _).1 m1) (ih rfl)
  | _ => cases he

theorem same_star {a b : Re} (h : Same a b) : Same (.star a) (.star b) :=
  fun _ _ _ _ _ => ⟨star_mono h, star_mono h.symm⟩

theorem same_plus {a b : Re} (h : Same a b) : Same (.plus a) (.plus b) := by
  intro t i j c c'
  constructor
  · intro m; cases m with
    | plus m1 m2 => exact .plus ((h _ _ _ _ _).1 m1) (star_mono h m2)
  · intro m; cases m with
    | plus m1 m2 => exact .plus ((h _ _ _ _ _).2 m1) (star_mono h.symm m2)

theorem same_opt {a b : Re} (h : Same a b) : Same (.opt a) (.opt b) := by
  intro t i j c c'
  constructor
  · intro m; cases m with
    | optNil => exact .optNil
    | optSome m => exact .optSome ((h _ _ _ _ _).1 m)
  · intro m; cases m with
    | optNil => exact .optNil
    | optSome m => exact .optSome ((h _ _ _ _ _).2 m)

theorem same_cat {a b a' b' : Re} (h : Same a a') (h2 : Same b b') : Same (.cat a b) (.cat a' b') := by
  intro t i j c c'
  constructor
  · intro m; cases m with
    | cat m1 m2 => exact .cat ((h _ _ _ _ _).1 m1) ((h2 _ _ _ _ _).1 m2)
  · intro m; cases m with
    | cat m1 m2 => exact .cat ((h _ _ _ _ _).2 m1) ((h2 _ _ _ _ _).2 m2)

theorem same_alt {a b a' b' : Re} (h : Same a a') (h2 : Same b b') : Same (.alt a b) (.alt a' b') := by
  intro t i j c c'
  constructor
  · intro m; cases m with
    | altL m1 => exact .altL ((h _ _ _ _ _).1 m1)
    | altR m1 => exact .altR ((h2 _ _ _ _ _).1 m1)
  · intro m; cases m with
    | altL m1 => exact .altL ((h _ _ _ _ _).2 m1)
    | altR m1 => exact .altR ((h2 _ _ _ _ _).2 m1)

theorem same_grp {a b : Re} {g : Nat} (h : Same a b) : Same (.grp g a) (.grp g b) := by
  intro t i j c c'
  constructor
  · intro m; cases m with
    | grp m1 => exact .grp ((h _ _ _ _ _).1 m1)
  · intro m; cases m with
    | grp m1 => exact .grp ((h _ _ _ _ _).2 m1)

theorem star_append {t e i m j c c1 c2} (h : M t (.star e) i m c c1) (h2 : M t (.star e) m j c1 c2) : M t (.star e) i j c c2 := by
  generalize he : Re.star e = f at h
  induction h with
  | starNil => cases he; exact h2
  | starCons m1 _ _ ih => cases he; exact .starCons m1 (ih h2 rfl)
  | _ => cases he

theorem star_of_plus {t e i j c c'} (h : M t (.plus e) i j c c') : M t (.star e) i j c c' := by
  cases h with
  | plus m1 m2 => exact .starCons m1 m2

/-- Repeating something that is made of repetitions. -/
theorem star_flat {t e f i j c c'} (hf : ∀ {i j c c'}, M t f i j c c' → M t (.star e) i j c c') (h : M t (.star f) i j c c') :
    M t (.star e) i j c c' := by
  generalize he : Re.star f = g at h
  induction h with
  | starNil => exact .starNil
  | starCons m1 _ _ ih => cases he; exact star_append (hf m1) (ih rfl)
  | _ => cases he

theorem star_up {t e f i j c c'} (hf : ∀ {i j c c'}, M t e i j c c' → M t f i j c c') (h : M t (.star e) i j c c') :
    M t (.star f) i j c c' := by
  generalize he : Re.star e = g at h
  induction h with
  | starNil => exact .starNil
  | starCons m1 _ _ ih => cases he; exact .starCons (hf m1) (ih rfl)
  | _ => cases he

theorem star_of_opt {t e i j c c'} (h : M t (.opt e) i j c c') : M t (.star e) i j c c' := by
  cases h with
  | optNil => exact .starNil
  | optSome m => exact .starCons m .starNil

theorem plus_one {t e i j c c'} (h : M t e i j c c') : M t (.plus e) i j c c' := .plus h .starNil
theorem star_one {t e i j c c'} (h : M t e i j c c') : M t (.star e) i j c c' := .starCons h .starNil

theorem star_plus (e : Re) : Same (.star (.plus e)) (.star e) :=
  fun _ _ _ _ _ => ⟨star_flat star_of_plus, star_up plus_one⟩

theorem star_opt (e : Re) : Same (.star (.opt e)) (.star e) :=
  fun _ _ _ _ _ => ⟨star_flat star_of_opt, star_up .optSome⟩

theorem plus_star (e : Re) : Same (.plus (.star e)) (.star e) := by
  intro t i j c c'
  refine ⟨fun m => ?_, fun m => .plus m .starNil⟩
  cases m with
  | plus m1 m2 => exact star_append m1 (star_flat (fun m => m) m2)

theorem opt_star (e : Re) : Same (.opt (.star e)) (.star e) := by
  intro t i j c c'
  refine ⟨fun m => ?_, fun m => .optSome m⟩
  cases m with
  | optNil => exact .starNil
  | optSome m => exact m

theorem opt_plus (e : Re) : Same (.opt (.plus e)) (.star e) := by
  intro t i j c c'
  constructor
  · intro m; cases m with
    | optNil => exact .starNil
    | optSome m => exact star_of_plus m
  · intro m; cases m with
    | starNil => exact .optNil
    | starCons m1 m2 => exact .optSome (.plus m1 m2)

theorem plus_opt (e : Re) : Same (.plus (.opt e)) (.star e) := by
  intro t i j c c'
  constructor
  · intro m; cases m with
    | plus m1 m2 => exact star_append (star_of_opt m1) (star_flat star_of_opt m2)
  · intro m; cases m with
    | starNil => exact .plus .optNil .starNil
    | starCons m1 m2 => exact .plus (.optSome m1) (star_up .optSome m2)

/-! ## Postfix operators -/

/-- The operator is one of `*`, `+`, `?`. -/
def Post (t : Nat) : Prop := t = STAR ∨ t = PLUS ∨ t = QUEST

/-- A postfix operator on a tree. -/
def post (t : Nat) (e : Re) : Re := if t = STAR then .star e else if t = PLUS then .plus e else .opt e

theorem post_same {t : Nat} {a b : Re} (h : Same a b) : Same (post t a) (post t b) := by
  unfold post
  split
  · exact same_star h
  · split
    · exact same_plus h
    · exact same_opt h

theorem post_comm {t u : Nat} (ht : Post t) (hu : Post u) (e : Re) : Same (post t (post u e)) (post u (post t e)) := by
  rcases ht with rfl | rfl | rfl <;> rcases hu with rfl | rfl | rfl <;> simp only [post, STAR, PLUS, QUEST] <;> simp
  · exact Same.refl _
  · exact (star_plus e).trans (plus_star e).symm
  · exact (star_opt e).trans (opt_star e).symm
  · exact (plus_star e).trans (star_plus e).symm
  · exact Same.refl _
  · exact (plus_opt e).trans (opt_plus e).symm
  · exact (opt_star e).trans (star_opt e).symm
  · exact (opt_plus e).trans (plus_opt e).symm
  · exact Same.refl _

theorem applyOp_post {t : Nat} (ht : Post t) (e : Re) (es : List Re) : applyOp t (e :: es) = some (post t e :: es) := by
  rcases ht with rfl | rfl | rfl <;> simp [applyOp, post, OR, CAT, STAR, PLUS, QUEST]

/-- Postfix operators, the first one first. -/
def posts : List (Nat × Nat) → Re → Re
  | [], e => e
  | (t, _) :: rest, e => posts rest (post t e)

theorem posts_same : ∀ (l : List (Nat × Nat)) {a b : Re}, Same a b → Same (posts l a) (posts l b)
  | [], _, _, h => h
  | (_, _) :: rest, _, _, h => posts_same rest (post_same h)

theorem posts_comm {t : Nat} (ht : Post t) : ∀ (l : List (Nat × Nat)) (e : Re), (∀ p ∈ l, Post p.1) →
    Same (posts l (post t e)) (post t (posts l e))
  | [], e, _ => Same.refl _
  | (u, g) :: rest, e, h => by
    have := posts_comm ht rest (post u e) fun p hp => h p (List.mem_cons_of_mem _ hp)
    exact (posts_same rest (post_comm (h (u, g) (by simp)) ht e)).trans this

/-! ## The compiler on symbols -/

/-- The stacks have room for one more than so many; one more group may be opened. -/
structure Lim where
  st : Nat → Bool
  gr : Nat → Bool

/-- The compiler with trees. -/
structure A where
  ators : List (Nat × Nat)
  es : List Re
  sub : Nat
  last : Bool
  nbra : Nat

def op1A (L : Lim) (a : A) (t : Nat) : Option A :=
  (evalA t a.ators a.es).bind fun p =>
  if L.st p.1.length then some { a with ators := (t, 0) :: p.1, es := p.2, last := decide (t = STAR ∨ t = QUEST ∨ t = PLUS) } else none

def catA (L : Lim) (a : A) : Option A := if a.last then op1A L a CAT else some a

def opdA (L : Lim) (a : A) (e : Re) : Option A :=
  (catA L a).bind fun a => if L.st a.es.length then some { a with es := e :: a.es, last := true } else none

def tokA (L : Lim) (a : A) : Tok → Option A
  | .atom x => opdA L a (.one x)
  | .bol => opdA L a .bol
  | .eol => opdA L a .eol
  | .star => op1A L a STAR
  | .plus => op1A L a PLUS
  | .opt => op1A L a QUEST
  | .bar => op1A L a OR
  | .lpar =>
    if L.gr (a.sub + 1) then
      (catA L { a with sub := a.sub + 1, nbra := a.nbra + 1 }).bind fun a =>
      if L.st a.ators.length then some { a with ators := (LBRA, a.sub) :: a.ators, last := false } else none
    else none
  | .rpar =>
    if a.nbra = 0 then none else
    (evalA RBRA a.ators a.es).bind fun p => some { a with ators := p.1, es := p.2, nbra := a.nbra - 1, last := true }

def runA (L : Lim) : A → List Tok → Option A
  | a, [] => some a
  | a, t :: ts => (tokA L a t).bind fun a => runA L a ts

theorem runA_append (L : Lim) : ∀ (ts us : List Tok) (a : A), runA L a (ts ++ us) = (runA L a ts).bind fun a => runA L a us
  | [], us, a => by simp [runA]
  | t :: ts, us, a => by
    simp only [List.cons_append, runA]
    cases tokA L a t with
    | none => rfl
    | some b => simp [runA_append L ts us b]

/-- More room leaves the result. -/
theorem tokA_mono {L L' : Lim} (h : ∀ n, L.st n = true → L'.st n = true) (h2 : ∀ n, L.gr n = true → L'.gr n = true)
    {a b : A} {t : Tok} (ht : tokA L a t = some b) : tokA L' a t = some b := by
  have op1 : ∀ {a b : A} {t : Nat}, op1A L a t = some b → op1A L' a t = some b := by
    intro a b t h1
    unfold op1A at *
    cases he : evalA t a.ators a.es with
    | none => rw [he] at h1; cases h1
    | some p =>
      rw [he] at h1
      simp only [Option.bind_some] at *
      split at h1
      · rename_i hs; rw [if_pos (h _ hs)]; exact h1
      · cases h1
  have cat : ∀ {a b : A}, catA L a = some b → catA L' a = some b := by
    intro a b h1
    unfold catA at *
    split at h1
    · rename_i hs; rw [if_pos hs]; exact op1 h1
    · rename_i hs; rw [if_neg hs]; exact h1
  have opd : ∀ {a b : A} {e : Re}, opdA L a e = some b → opdA L' a e = some b := by
    intro a b e h1
    unfold opdA at *
    cases he : catA L a with
    | none => rw [he] at h1; cases h1
    | some p =>
      rw [he] at h1
      rw [cat he]
      simp only [Option.bind_some] at *
      split at h1
      · rename_i hs; rw [if_pos (h _ hs)]; exact h1
      · cases h1
  cases t with
  | atom x => exact opd ht
  | bol => exact opd ht
  | eol => exact opd ht
  | star => exact op1 ht
  | plus => exact op1 ht
  | opt => exact op1 ht
  | bar => exact op1 ht
  | rpar => exact ht
  | lpar =>
    unfold tokA at *
    simp only at *
    split at ht
    · rename_i hs
      rw [if_pos (h2 _ hs)]
      cases he : catA L { a with sub := a.sub + 1, nbra := a.nbra + 1 } with
      | none => rw [he] at ht; cases ht
      | some p =>
        rw [he] at ht
        rw [cat he]
        simp only [Option.bind_some] at *
        split at ht
        · rename_i hs; rw [if_pos (h _ hs)]; exact ht
        · cases ht
    · cases ht

theorem runA_mono {L L' : Lim} (h : ∀ n, L.st n = true → L'.st n = true) (h2 : ∀ n, L.gr n = true → L'.gr n = true) :
    ∀ {ts : List Tok} {a b : A}, runA L a ts = some b → runA L' a ts = some b := by
  intro ts
  induction ts with
  | nil => intro a b h; exact h
  | cons t ts ih =>
    intro a b hr
    simp only [runA] at *
    cases ht : tokA L a t with
    | none => rw [ht] at hr; cases hr
    | some c => rw [ht] at hr; rw [tokA_mono h h2 ht]; exact ih hr

/-! ## Evaluation -/

/-- The top of the stack is below the priority. -/
def Top (s : List (Nat × Nat)) (k : Nat) : Prop := ∃ op g r, s = (op, g) :: r ∧ op < k

theorem Top.mono {s k k'} (h : Top s k) (hk : k ≤ k') : Top s k' := by
  obtain ⟨op, g, r, h1, h2⟩ := h
  exact ⟨op, g, r, h1, by omega⟩

theorem evalA_top {s k es} (h : Top s k) (hk : k ≠ RBRA) : evalA k s es = some (s, es) := by
  obtain ⟨op, g, r, rfl, h2⟩ := h
  rw [evalA_cons, if_neg (by omega)]

/-- A lower priority goes on where a higher one stopped. -/
theorem evalA_cont {k k' : Nat} (hk : k ≤ k') (hb : LBRA < k') : ∀ {s es s' es'}, evalA k' s es = some (s', es') →
    evalA k s es = evalA k s' es' := by
  intro s
  induction s with
  | nil => intro es s' es' h; simp [evalA] at h
  | cons p rest ih =>
    obtain ⟨op, g⟩ := p
    intro es s' es' h
    rw [evalA_cons] at h
    have hr : k' ≠ RBRA := by unfold RBRA LBRA at *; omega
    by_cases ho : op ≥ k'
    · rw [if_pos (Or.inr ho), if_neg (by omega)] at h
      rw [evalA_cons k op, if_pos (Or.inr (by omega)), if_neg (by omega)]
      cases ha : applyOp op es with
      | none => rw [ha] at h; cases h
      | some es1 => rw [ha] at h; simp only [Option.bind_some] at *; exact ih h
    · rw [if_neg (by omega)] at h
      cases h
      rfl

/-- Postfix operators that wait, the strongest first. -/
def Desc : List (Nat × Nat) → Prop
  | [] => True
  | (t, _) :: rest => Post t ∧ (∀ p ∈ rest, p.1 < t) ∧ Desc rest

theorem Desc.post : ∀ {l : List (Nat × Nat)}, Desc l → ∀ p ∈ l, Post p.1
  | (_, _) :: _, h, p, hp => by
    rcases List.mem_cons.1 hp with rfl | hp
    · exact h.1
    · exact Desc.post h.2.2 p hp

theorem desc_length : ∀ {l : List (Nat × Nat)} {k : Nat}, Desc l → (∀ p ∈ l, p.1 < k) → l.length + STAR ≤ max k STAR
  | [], _, _, _ => by simp; omega
  | (t, g) :: rest, k, h, hk => by
    have h1 := desc_length h.2.2 h.2.1
    have h2 := hk (t, g) (by simp)
    have h3 : STAR ≤ t := by rcases h.1 with h | h | h <;> simp only [h, STAR, PLUS, QUEST] <;> omega
    simp only [List.length_cons] at *
    omega

theorem post_gt {t : Nat} (h : Post t) : CAT < t ∧ t ≤ QUEST := by rcases h with h | h | h <;> subst h <;> decide

/-- All that wait are done. -/
theorem evalA_posts {k : Nat} (hk : k ≤ CAT) : ∀ {pend : List (Nat × Nat)} {s : List (Nat × Nat)} {e : Re} {es : List Re}, Desc pend →
    evalA k (pend ++ s) (e :: es) = evalA k s (posts pend e :: es)
  | [], _, _, _, _ => rfl
  | (t, g) :: rest, s, e, es, h => by
    have := post_gt h.1
    rw [List.cons_append, evalA_cons, if_pos (Or.inr (by omega)), if_neg (by unfold LBRA CAT at *; omega), applyOp_post h.1]
    simp only [Option.bind_some]
    rw [evalA_posts hk h.2.2]
    rfl

/-- A postfix operator is added. -/
theorem evalA_post {t : Nat} (ht : Post t) : ∀ {pend : List (Nat × Nat)} {s : List (Nat × Nat)} {e : Re} {es : List Re}, Desc pend → Top s STAR →
    ∃ pend' e', evalA t (pend ++ s) (e :: es) = some (pend' ++ s, e' :: es) ∧ Desc ((t, 0) :: pend') ∧
      Same (posts ((t, 0) :: pend') e') (post t (posts pend e)) := by
  intro pend
  have hg := post_gt ht
  induction pend with
  | nil =>
    intro s e es _ hs
    refine ⟨[], e, ?_, ⟨ht, by simp, trivial⟩, Same.refl _⟩
    exact evalA_top (hs.mono (by unfold CAT STAR at *; omega)) (by unfold CAT RBRA at *; omega)
  | cons p rest ih =>
    obtain ⟨u, g⟩ := p
    intro s e es h hs
    have hg2 := post_gt h.1
    rw [List.cons_append, evalA_cons]
    by_cases hu : u ≥ t
    · rw [if_pos (Or.inr hu), if_neg (by unfold LBRA CAT at *; omega), applyOp_post h.1]
      exact ih (e := post u e) h.2.2 hs
    · rw [if_neg (by unfold RBRA CAT at *; omega)]
      refine ⟨(u, g) :: rest, e, rfl, ⟨ht, ?_, h⟩, ?_⟩
      · intro p hp
        rcases List.mem_cons.1 hp with rfl | hp
        · show u < t; omega
        · have := h.2.1 p hp; omega
      · exact posts_comm ht _ e h.post

/-! ## The grammar -/

theorem reads_le {k n ts e m} (h : Reads k n ts e m) : n ≤ m := by
  induction h <;> omega

/-- There is room for the expression. -/
def Room (L : Lim) (n m : Nat) : Prop := (∀ k, k ≤ n → L.st k = true) ∧ (∀ k, k ≤ m → L.gr k = true)

theorem Room.mono {L n m n' m'} (h : Room L n m) (h1 : n' ≤ n) (h2 : m' ≤ m) : Room L n' m' :=
  ⟨fun k hk => h.1 k (by omega), fun k hk => h.2 k (by omega)⟩

/-- What the compiler does with the symbols of an expression. -/
def Claim (L : Lim) : Level → Nat → List Tok → Re → Nat → Prop
  | .base, n, ts, e, m => ∀ a a0, a.sub = n → catA L a = some a0 → a0.es.length ≤ a0.ators.length →
      Room L (a0.ators.length + 3 * e.depth + 2) m →
      ∃ e', Same e' e ∧ runA L a ts = some { a0 with es := e' :: a0.es, sub := m, last := true }
  | .rep, n, ts, e, m => ∀ a a0, a.sub = n → catA L a = some a0 → Top a0.ators STAR → a0.es.length ≤ a0.ators.length →
      Room L (a0.ators.length + 3 * e.depth + 2) m →
      ∃ pend e', Desc pend ∧ Same (posts pend e') e ∧
        runA L a ts = some { a0 with ators := pend ++ a0.ators, es := e' :: a0.es, sub := m, last := true }
  | .cats, n, ts, e, m => ∀ a, a.sub = n → a.last = false → Top a.ators CAT → a.es.length ≤ a.ators.length →
      Room L (a.ators.length + 3 * e.depth + 3) m →
      ∃ b e', Same e' e ∧ runA L a ts = some b ∧ b.last = true ∧ b.sub = m ∧ b.nbra = a.nbra ∧
        evalA CAT b.ators b.es = some (a.ators, e' :: a.es)
  | .alts, n, ts, e, m => ∀ a, a.sub = n → a.last = false → Top a.ators OR → a.es.length ≤ a.ators.length →
      Room L (a.ators.length + 3 * e.depth + 4) m →
      ∃ b e', Same e' e ∧ runA L a ts = some b ∧ b.last = true ∧ b.sub = m ∧ b.nbra = a.nbra ∧
        evalA OR b.ators b.es = some (a.ators, e' :: a.es)

theorem op1A_vars (L : Lim) (a : A) (t x y : Nat) :
    op1A L { a with sub := x, nbra := y } t = (op1A L a t).map fun b => { b with sub := x, nbra := y } := by
  unfold op1A
  cases evalA t a.ators a.es with
  | none => rfl
  | some p => simp only [Option.bind_some]; split <;> rfl

theorem catA_vars (L : Lim) (a : A) (x y : Nat) :
    catA L { a with sub := x, nbra := y } = (catA L a).map fun b => { b with sub := x, nbra := y } := by
  unfold catA
  simp only
  split
  · exact op1A_vars L a CAT x y
  · rfl

theorem catA_same {L : Lim} {a b : A} (h : catA L a = some b) : b.sub = a.sub ∧ b.nbra = a.nbra ∧ b.last = false := by
  unfold catA at h
  split at h
  · unfold op1A at h
    cases he : evalA CAT a.ators a.es with
    | none => rw [he] at h; cases h
    | some p =>
      rw [he] at h
      simp only [Option.bind_some] at h
      split at h
      · cases h; exact ⟨rfl, rfl, rfl⟩
      · cases h
  · rename_i hl
    cases h
    exact ⟨rfl, rfl, by simpa using hl⟩

theorem catA_false {L : Lim} {a : A} (h : a.last = false) : catA L a = some a := by simp [catA, h]

/-- One operand. -/
theorem claim_opd {L : Lim} {a a0 : A} {e : Re} {n k : Nat} (hs : a.sub = n) (hc : catA L a = some a0) (he : a0.es.length ≤ a0.ators.length)
    (hr : Room L (a0.ators.length + k) n) : opdA L a e = some { a0 with es := e :: a0.es, sub := n, last := true } := by
  obtain ⟨h1, h2, h3⟩ := catA_same hc
  rw [opdA, hc]
  simp only [Option.bind_some]
  rw [if_pos (hr.1 _ (by omega))]
  obtain ⟨ators, es, sub, last, nb⟩ := a0
  simp only at h1 h2 ⊢
  rw [h1, hs]

theorem claim_post {L : Lim} {t : Nat} {tok : Tok} (ht : Post t) (htok : ∀ a, tokA L a tok = op1A L a t) {n ts e m} {p : Re}
    (hp : p.depth = e.depth) (hpe : post t e = p) (ih : Claim L .rep n ts e m) : Claim L .rep n (ts ++ [tok]) p m := by
  intro a a0 hs hc htop hle hroom
  rw [hp] at hroom
  obtain ⟨pend, e', h1, h2, h3⟩ := ih a a0 hs hc htop hle hroom
  obtain ⟨pend', e2, h4, h5, h6⟩ := evalA_post ht (s := a0.ators) (e := e') (es := a0.es) h1 htop
  have hlen := desc_length (k := t) h5.2.2 h5.2.1
  have hg := post_gt ht
  refine ⟨(t, 0) :: pend', e2, h5, ?_, ?_⟩
  · rw [← hpe]; exact h6.trans (post_same h2)
  · rw [runA_append, h3]
    simp only [Option.bind_some, runA, htok, op1A, h4]
    rw [if_pos (hroom.1 _ (by simp only [List.length_append]; unfold CAT QUEST STAR at *; omega))]
    have : decide (t = STAR ∨ t = QUEST ∨ t = PLUS) = true := by rcases ht with rfl | rfl | rfl <;> decide
    simp [this]

theorem parse {L k n ts e m} (h : Reads k n ts e m) : Claim L k n ts e m := by
  induction h with
  | atom => intro a a0 hs hc hle hr; exact ⟨_, Same.refl _, by simp only [runA, tokA]; rw [claim_opd hs hc hle (k := 2) hr]; rfl⟩
  | bol => intro a a0 hs hc hle hr; exact ⟨_, Same.refl _, by simp only [runA, tokA]; rw [claim_opd hs hc hle (k := 2) hr]; rfl⟩
  | eol => intro a a0 hs hc hle hr; exact ⟨_, Same.refl _, by simp only [runA, tokA]; rw [claim_opd hs hc hle (k := 2) hr]; rfl⟩
  | @grp n ts e m h ih =>
    intro a a0 hs hc hle hr
    obtain ⟨c1, c2, c3⟩ := catA_same hc
    have hle2 := reads_le h
    simp only [Re.depth] at hr
    generalize ha1 : ({ a0 with sub := n + 1, nbra := a.nbra + 1, ators := (LBRA, n + 1) :: a0.ators, last := false } : A) = a1
    have hes : a1.es = a0.es := by rw [← ha1]
    have hat : a1.ators = (LBRA, n + 1) :: a0.ators := by rw [← ha1]
    have hstep : tokA L a .lpar = some a1 := by
      simp only [tokA]
      rw [if_pos (hr.2 _ (by omega)), catA_vars, hc]
      simp only [Option.map_some, Option.bind_some]
      rw [if_pos (hr.1 _ (by omega)), ← ha1, hs]
    obtain ⟨b, e', b1, b2, b3, b4, b5, b6⟩ := ih a1 (by rw [← ha1]) (by rw [← ha1]) ⟨LBRA, n + 1, a0.ators, hat, by decide⟩
      (by rw [hes, hat]; simp; omega) (hr.mono (by rw [hat]; simp; omega) (Nat.le_refl _))
    refine ⟨.grp (n + 1) e', same_grp b1, ?_⟩
    rw [runA, hstep]
    simp only [Option.bind_some]
    rw [runA_append, b2]
    simp only [Option.bind_some, runA, tokA]
    have hnb : b.nbra = a.nbra + 1 := by rw [b5, ← ha1]
    rw [if_neg (by omega), evalA_cont (k := RBRA) (by decide) (by decide) b6, hat, hes, evalA_cons, if_pos (Or.inl rfl), if_pos rfl]
    simp only [Option.bind_some, b4, hnb]
    rw [← c2]
    simp
  | @base n ts e m h ih =>
    intro a a0 hs hc htop hle hr
    obtain ⟨e', h1, h2⟩ := ih a a0 hs hc hle hr
    exact ⟨[], e', trivial, h1, by rw [h2]; rfl⟩
  | @star n ts e m h ih => exact claim_post (e := e) (p := .star e) (t := STAR) (Or.inl rfl) (fun a => rfl) rfl rfl ih
  | @plus n ts e m h ih => exact claim_post (e := e) (p := .plus e) (t := PLUS) (Or.inr (Or.inl rfl)) (fun a => rfl) rfl rfl ih
  | @opt n ts e m h ih => exact claim_post (e := e) (p := .opt e) (t := QUEST) (Or.inr (Or.inr rfl)) (fun a => rfl) rfl rfl ih
  | @rep n ts e m h ih =>
    intro a hs hl htop hle hr
    obtain ⟨pend, e', h1, h2, h3⟩ := ih a a hs (catA_false hl) (htop.mono (by decide)) hle (hr.mono (by omega) (Nat.le_refl _))
    refine ⟨_, _, h2, h3, rfl, rfl, rfl, ?_⟩
    simp only
    rw [evalA_posts (Nat.le_refl _) h1, evalA_top htop (by decide)]
  | @cat n ts ea m us eb k h1 h2 ih1 ih2 =>
    intro a hs hl htop hle hr
    simp only [Re.depth] at hr
    have hmk := reads_le h2
    obtain ⟨b, e1, p1, p2, p3, p4, p5, p6⟩ := ih1 a hs hl htop hle (hr.mono (by omega) hmk)
    have hc : catA L b = some { b with ators := (CAT, 0) :: a.ators, es := e1 :: a.es, last := false } := by
      rw [catA, if_pos p3, op1A, p6]
      simp only [Option.bind_some]
      rw [if_pos (hr.1 _ (by omega))]
      rfl
    obtain ⟨pend, e2, q1, q2, q3⟩ := ih2 b _ p4 hc ⟨CAT, 0, a.ators, rfl, by decide⟩ (by simp; omega) (hr.mono (by simp; omega) (Nat.le_refl _))
    refine ⟨{ b with ators := pend ++ (CAT, 0) :: a.ators, es := e2 :: e1 :: a.es, sub := k, last := true }, .cat e1 (posts pend e2), same_cat p1 q2, by rw [runA_append, p2, Option.bind_some]; exact q3, rfl, rfl, p5, ?_⟩
    simp only
    rw [evalA_posts (Nat.le_refl _) q1, evalA_cons, if_pos (Or.inr (Nat.le_refl _)), if_neg (by decide)]
    show (some _).bind _ = _
    rw [Option.bind_some, evalA_top htop (by decide)]
  | @cats n ts e m h ih =>
    intro a hs hl htop hle hr
    obtain ⟨b, e1, p1, p2, p3, p4, p5, p6⟩ := ih a hs hl (htop.mono (by decide)) hle (hr.mono (by omega) (Nat.le_refl _))
    refine ⟨b, e1, p1, p2, p3, p4, p5, ?_⟩
    rw [evalA_cont (k := OR) (by decide) (by decide) p6, evalA_top htop (by decide)]
  | @alt n ts ea m us eb k h1 h2 ih1 ih2 =>
    intro a hs hl htop hle hr
    simp only [Re.depth] at hr
    have hmk := reads_le h2
    obtain ⟨b, e1, p1, p2, p3, p4, p5, p6⟩ := ih1 a hs hl htop hle (hr.mono (by omega) hmk)
    have hstep : tokA L b .bar = some { b with ators := (OR, 0) :: a.ators, es := e1 :: a.es, last := false } := by
      simp only [tokA]
      rw [op1A, p6]
      simp only [Option.bind_some]
      rw [if_pos (hr.1 _ (by omega))]
      rfl
    obtain ⟨c, e2, q1, q2, q3, q4, q5, q6⟩ := ih2 { b with ators := (OR, 0) :: a.ators, es := e1 :: a.es, last := false } p4 rfl
      ⟨OR, 0, a.ators, rfl, by decide⟩ (by simp; omega) (hr.mono (by simp; omega) (Nat.le_refl _))
    refine ⟨c, .alt e1 e2, same_alt p1 q1, ?_, q3, q4, by rw [q5]; exact p5, ?_⟩
    · rw [runA_append, p2]
      simp only [Option.bind_some]
      rw [runA, hstep]
      exact q2
    · rw [evalA_cont (k := OR) (by decide) (by decide) q6]
      simp only
      rw [evalA_cons, if_pos (Or.inr (Nat.le_refl _)), if_neg (by decide)]
      show (some _).bind _ = _
      rw [Option.bind_some, evalA_top htop (by decide)]

end Che.Proofs.Regexp9
