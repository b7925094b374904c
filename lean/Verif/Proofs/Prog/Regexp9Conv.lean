import Verif.Proofs.Prog.Regexp9

/-!
What the compiler accepts is an expression.  Operands that are missing are counted: their number does not go down, and at the
end there is none.
-/
namespace Che.Proofs.Regexp9
open Che Che.Lib Che.Lib.Utf Che.Prog.Regexp9 Che.Spec.Regexp9 Che.Spec.Utf

theorem _root_.Che.Res.bind_eq_ok' {ε α β : Type} {r : Res ε α} {f : α → Res ε β} {b : β} (h : r.bind f = .ok b) : ∃ a, r = .ok a ∧ f a = .ok b := by
  cases r with
  | ok a => exact ⟨a, rfl, h⟩
  | err _ => cases h
  | panic _ => cases h
  | diverge => cases h

/-! ## Expressions that are read from the left -/

/-- Before a sequence: nothing, or alternatives and a bar. -/
inductive Alts (n : Nat) : List Tok → Nat → Prop
  | none : Alts n [] n
  | some : Reads .alts n ts e m → Alts n (ts ++ [.bar]) m

/-- Before the last element of a sequence. -/
inductive Cats (n : Nat) : List Tok → Nat → Prop
  | none : Alts n ts m → Cats n ts m
  | some : Alts n ts m → Reads .cats m us e k → Cats n (ts ++ us) k

/-- Up to a left bracket that is open, and how many are. -/
inductive Open : List Tok → Nat → Nat → Prop
  | nil : Open [] 0 0
  | push : Open ts n nb → Cats n us m → Open (ts ++ us ++ [.lpar]) (m + 1) (nb + 1)

/-- The beginning of an expression; `last` if it ends with an element. -/
def St (ts : List Tok) (last : Bool) (nb : Nat) : Prop :=
  if last then ∃ s u r n m k e, ts = s ++ u ++ r ∧ Open s n nb ∧ Cats n u m ∧ Reads .rep m r e k
  else ∃ s u n m, ts = s ++ u ∧ Open s n nb ∧ Alts n u m

theorem cats_push {n u m r e k} (h : Cats n u m) (hr : Reads .rep m r e k) : Cats n (u ++ r) k := by
  cases h with
  | none h => exact .some h (.rep hr)
  | some h h2 => rw [List.append_assoc]; exact .some h (.cat h2 hr)

theorem alts_of {n u m us e k} (h : Alts n u m) (hr : Reads .cats m us e k) : ∃ e', Reads .alts n (u ++ us) e' k := by
  cases h with
  | none => exact ⟨_, .cats hr⟩
  | some h => rw [List.append_assoc]; exact ⟨_, .alt h hr⟩

theorem alts_done {n u m r e k} (h : Cats n u m) (hr : Reads .rep m r e k) : ∃ e', Reads .alts n (u ++ r) e' k := by
  cases h with
  | none h => exact alts_of h (.rep hr)
  | some h h2 => rw [List.append_assoc]; exact alts_of h (.cat h2 hr)

theorem st_base {ts last nb t} (h : St ts last nb) (ht : ∀ n, ∃ e, Reads .base n [t] e n) : St (ts ++ [t]) true nb := by
  cases last with
  | true =>
    obtain ⟨s, u, r, n, m, k, e, rfl, h1, h2, h3⟩ := h
    obtain ⟨e', h4⟩ := ht k
    exact ⟨s, u ++ r, [t], n, k, k, e', by simp, h1, cats_push h2 h3, .base h4⟩
  | false =>
    obtain ⟨s, u, n, m, rfl, h1, h2⟩ := h
    obtain ⟨e', h4⟩ := ht m
    exact ⟨s, u, [t], n, m, m, e', by simp, h1, .none h2, .base h4⟩

theorem st_post {ts nb t} (h : St ts true nb) (ht : ∀ {n r e m}, Reads .rep n r e m → ∃ e', Reads .rep n (r ++ [t]) e' m) : St (ts ++ [t]) true nb := by
  obtain ⟨s, u, r, n, m, k, e, rfl, h1, h2, h3⟩ := h
  obtain ⟨e', h4⟩ := ht h3
  exact ⟨s, u, r ++ [t], n, m, k, e', by simp, h1, h2, h4⟩

theorem st_bar {ts nb} (h : St ts true nb) : St (ts ++ [.bar]) false nb := by
  obtain ⟨s, u, r, n, m, k, e, rfl, h1, h2, h3⟩ := h
  obtain ⟨e', h4⟩ := alts_done h2 h3
  exact ⟨s, u ++ r ++ [.bar], n, k, by simp, h1, .some h4⟩

theorem st_lpar {ts last nb} (h : St ts last nb) : St (ts ++ [.lpar]) false (nb + 1) := by
  cases last with
  | true =>
    obtain ⟨s, u, r, n, m, k, e, rfl, h1, h2, h3⟩ := h
    exact ⟨s ++ (u ++ r) ++ [.lpar], [], k + 1, k + 1, by simp, .push h1 (cats_push h2 h3), .none⟩
  | false =>
    obtain ⟨s, u, n, m, rfl, h1, h2⟩ := h
    exact ⟨s ++ u ++ [.lpar], [], m + 1, m + 1, by simp, .push h1 (.none h2), .none⟩

theorem st_rpar {ts nb} (h : St ts true (nb + 1)) : St (ts ++ [.rpar]) true nb := by
  obtain ⟨s, u, r, n, m, k, e, rfl, h1, h2, h3⟩ := h
  obtain ⟨e', h4⟩ := alts_done h2 h3
  cases h1 with
  | @push ts n _ us m' h5 h6 =>
    exact ⟨ts, us, .lpar :: (u ++ r ++ [.rpar]), n, m', k, _, by simp, h5, h6, .base (.grp h4)⟩

theorem st_done {ts} (h : St ts true 0) : ∃ e n, Reads .alts 0 ts e n := by
  obtain ⟨s, u, r, n, m, k, e, rfl, h1, h2, h3⟩ := h
  obtain ⟨e', h4⟩ := alts_done h2 h3
  cases h1 with
  | nil => exact ⟨e', k, by simpa using h4⟩

/-! ## Operands -/

/-- The operators on the stack. -/
def IsOp (t : Nat) : Prop := t = OR ∨ t = CAT ∨ t = STAR ∨ t = PLUS ∨ t = QUEST ∨ t = LBRA

/-- Operators with two operands. -/
def isBin (t : Nat) : Nat := if t = OR ∨ t = CAT then 1 else 0

def bins : List (Nat × Nat) → Nat
  | [] => 0
  | p :: l => isBin p.1 + bins l

def lbras : List (Nat × Nat) → Nat
  | [] => 0
  | p :: l => (if p.1 = LBRA then 1 else 0) + lbras l

/-- The stack of operators. -/
def Sh (l : List (Nat × Nat)) : Prop := ∃ q g, l = q ++ [(START - 1, g)] ∧ ∀ p ∈ q, IsOp p.1

theorem applyOp_length {op es es'} (h : applyOp op es = some es') (ho : IsOp op) : op ≠ LBRA ∧ es'.length + isBin op = es.length ∧ 1 ≤ es'.length := by
  rcases ho with rfl | rfl | rfl | rfl | rfl | rfl
  · match es, h with
    | b :: a :: r, h => cases h; exact ⟨by decide, by simp [isBin], by simp⟩
  · match es, h with
    | b :: a :: r, h => cases h; exact ⟨by decide, by simp [isBin], by simp⟩
  · match es, h with
    | a :: r, h => cases h; exact ⟨by decide, by simp [isBin, STAR, OR, CAT], by simp⟩
  · match es, h with
    | a :: r, h => cases h; exact ⟨by decide, by simp [isBin, PLUS, OR, CAT], by simp⟩
  · match es, h with
    | a :: r, h => cases h; exact ⟨by decide, by simp [isBin, QUEST, OR, CAT], by simp⟩
  · cases h

theorem evalA_bottom {pri g es s' es'} (h : evalA pri [(START - 1, g)] es = some (s', es')) : pri ≠ RBRA ∧ s' = [(START - 1, g)] ∧ es' = es := by
  rw [evalA_cons] at h
  split at h
  · rw [if_neg (by decide)] at h
    have : applyOp (START - 1) es = none := rfl
    rw [this] at h; cases h
  · rename_i hn
    cases h
    exact ⟨fun h => hn (Or.inl h), rfl, rfl⟩

/-- What an evaluation leaves. -/
theorem evalA_count {pri : Nat} : ∀ {q : List (Nat × Nat)} {g es s' es'}, (∀ p ∈ q, IsOp p.1) → evalA pri (q ++ [(START - 1, g)]) es = some (s', es') →
    ∃ q', s' = q' ++ [(START - 1, g)] ∧ (∀ p ∈ q', IsOp p.1) ∧ es'.length + bins q = es.length + bins q' ∧
      (pri = RBRA → lbras q' + 1 = lbras q) ∧ (LBRA < pri → lbras q' = lbras q) ∧ (pri ≤ START → lbras q = 0 → q' = []) := by
  intro q
  induction q with
  | nil =>
    intro g es s' es' _ h
    obtain ⟨h1, rfl, rfl⟩ := evalA_bottom h
    exact ⟨[], rfl, by simp, rfl, fun h => absurd h h1, fun _ => rfl, fun _ _ => rfl⟩
  | cons p q ih =>
    intro g es s' es' hq h
    obtain ⟨op, g'⟩ := p
    have hop := hq (op, g') (by simp)
    have hq' : ∀ p ∈ q, IsOp p.1 := fun p hp => hq p (List.mem_cons_of_mem _ hp)
    simp only at hop
    rw [List.cons_append, evalA_cons] at h
    split at h
    · rename_i hc
      split at h
      · rename_i hl
        cases es with
        | nil => cases h
        | cons a r =>
          cases h
          subst hl
          refine ⟨q, rfl, hq', by simp [bins, isBin, LBRA, OR, CAT], fun _ => by simp [lbras]; omega, fun hlt => ?_, fun _ h0 => ?_⟩
          · rcases hc with rfl | hc
            · exact absurd hlt (by decide)
            · omega
          · simp [lbras] at h0
      · rename_i hl
        cases ha : applyOp op es with
        | none => rw [ha] at h; cases h
        | some es1 =>
          rw [ha] at h
          obtain ⟨q', h1, h2, h3, h4, h5, h6⟩ := ih hq' h
          have hlen := (applyOp_length ha hop).2.1
          have hlb : lbras ((op, g') :: q) = lbras q := by simp [lbras, hl]
          have hbn : bins ((op, g') :: q) = isBin op + bins q := rfl
          rw [hlb, hbn]
          exact ⟨q', h1, h2, by omega, h4, h5, h6⟩
    · rename_i hc
      cases h
      refine ⟨(op, g') :: q, by simp, hq, rfl, fun h => absurd (Or.inl h) hc, fun _ => rfl, fun hle _ => ?_⟩
      exfalso
      apply hc
      right
      simp only [START] at hle
      rcases hop with rfl | rfl | rfl | rfl | rfl | rfl <;> simp only [OR, CAT, STAR, PLUS, QUEST, LBRA] <;> omega

/-- An evaluation that uses an operator leaves an operand. -/
theorem evalA_pos {pri : Nat} : ∀ {q : List (Nat × Nat)} {g es s' es'}, (∀ p ∈ q, IsOp p.1) → evalA pri (q ++ [(START - 1, g)]) es = some (s', es') →
    1 ≤ es.length → 1 ≤ es'.length := by
  intro q
  induction q with
  | nil => intro g es s' es' _ h; obtain ⟨_, _, rfl⟩ := evalA_bottom h; exact fun h => h
  | cons p q ih =>
    intro g es s' es' hq h hes
    obtain ⟨op, g'⟩ := p
    rw [List.cons_append, evalA_cons] at h
    split at h
    · split at h
      · cases es with
        | nil => cases h
        | cons a r => cases h; simp
      · cases ha : applyOp op es with
        | none => rw [ha] at h; cases h
        | some es1 =>
          rw [ha] at h
          exact ih (fun p hp => hq p (List.mem_cons_of_mem _ hp)) h (applyOp_length ha (hq (op, g') (by simp))).2.2
    · cases h; exact hes

/-! ## The compiler -/

/-- How many operands there should be. -/
def want (a : A) : Nat := bins a.ators + (if a.last then 1 else 0)

/-- The stack of operators of the compiler. -/
def ShA (a : A) : Prop := ∃ q, a.ators = q ++ [(START - 1, 0)] ∧ (∀ p ∈ q, IsOp p.1) ∧ lbras q = a.nbra

theorem bins_append (q r : List (Nat × Nat)) : bins (q ++ r) = bins q + bins r := by
  induction q with
  | nil => simp [bins]
  | cons p q ih => simp [bins, ih]; omega

theorem bins_bottom (q : List (Nat × Nat)) : bins (q ++ [(START - 1, 0)]) = bins q := by
  rw [bins_append]; simp [bins, isBin, START, OR, CAT]

theorem op1A_step {L a a' t} (h : ShA a) (ht : IsOp t) (ht' : LBRA < t) (ho : op1A L a t = some a') :
    ShA a' ∧ a'.nbra = a.nbra ∧ a'.sub = a.sub ∧ a'.last = decide (t = STAR ∨ t = QUEST ∨ t = PLUS) ∧ a'.es.length + bins a.ators + isBin t = a.es.length + bins a'.ators := by
  obtain ⟨q, h1, h2, h3⟩ := h
  unfold op1A at ho
  cases he : evalA t a.ators a.es with
  | none => rw [he] at ho; cases ho
  | some p =>
    obtain ⟨s', es'⟩ := p
    rw [he] at ho
    simp only [Option.bind_some] at ho
    rw [h1] at he
    obtain ⟨q', g1, g2, g3, _, g5, _⟩ := evalA_count h2 he
    split at ho
    · cases ho
      refine ⟨⟨(t, 0) :: q', by simp [g1], ?_, ?_⟩, rfl, rfl, rfl, ?_⟩
      · intro p hp
        rcases List.mem_cons.1 hp with rfl | hp
        · exact ht
        · exact g2 p hp
      · simp only [lbras]
        rw [if_neg (by omega), g5 ht', h3]; omega
      · simp only [bins, g1, h1, bins_bottom]
        omega
    · cases ho

theorem catA_step {L a a'} (h : ShA a) (ho : catA L a = some a') :
    ShA a' ∧ a'.nbra = a.nbra ∧ a'.sub = a.sub ∧ a'.last = false ∧ a'.es.length + want a = a.es.length + bins a'.ators := by
  unfold catA at ho
  split at ho
  · rename_i hl
    obtain ⟨h1, h2, h3, h4, h5⟩ := op1A_step h (Or.inr (Or.inl rfl)) (by decide) ho
    refine ⟨h1, h2, h3, by rw [h4]; rfl, ?_⟩
    have : isBin CAT = 1 := rfl
    rw [want, hl]; simp only [if_true]; omega
  · rename_i hl
    cases ho
    refine ⟨h, rfl, rfl, by simpa using hl, ?_⟩
    rw [want, if_neg hl]; omega

theorem opdA_step {L a a' e} (h : ShA a) (ho : opdA L a e = some a') :
    ShA a' ∧ a'.nbra = a.nbra ∧ a'.last = true ∧ a'.es.length + want a = a.es.length + want a' := by
  unfold opdA at ho
  cases hc : catA L a with
  | none => rw [hc] at ho; cases ho
  | some b =>
    rw [hc] at ho
    obtain ⟨⟨q, g1, g2, g3⟩, h2, _, h3, h4⟩ := catA_step h hc
    simp only [Option.bind_some] at ho
    split at ho
    · cases ho
      refine ⟨⟨q, g1, g2, g3⟩, h2, rfl, ?_⟩
      simp only [want, List.length_cons, if_true] at h4 ⊢
      omega
    · cases ho

/-- The symbols read so far are the beginning of an expression, or operands are missing. -/
def Known (ts : List Tok) (a : A) : Prop :=
  ShA a ∧ ((a.es.length = want a ∧ St ts a.last a.nbra) ∨ a.es.length < want a)

theorem known_step {L ts a a' t} (h : Known ts a) (ho : tokA L a t = some a') : Known (ts ++ [t]) a' := by
  obtain ⟨h0, h⟩ := h
  have opd : ∀ e, opdA L a e = some a' → (∀ n, ∃ e, Reads .base n [t] e n) → Known (ts ++ [t]) a' := by
    intro e he ht
    obtain ⟨g1, g2, g3, g4⟩ := opdA_step h0 he
    refine ⟨g1, ?_⟩
    rcases h with ⟨h1, h2⟩ | h
    · refine Or.inl ⟨by omega, ?_⟩
      rw [g3, g2]
      exact st_base h2 ht
    · exact Or.inr (by omega)
  have un : ∀ k, (k = STAR ∨ k = QUEST ∨ k = PLUS) → op1A L a k = some a' → (∀ {n r e m}, Reads .rep n r e m → ∃ e', Reads .rep n (r ++ [t]) e' m) →
      Known (ts ++ [t]) a' := by
    intro k hk he ht
    obtain ⟨g1, g2, _, g3, g4⟩ := op1A_step h0 (by rcases hk with rfl | rfl | rfl <;> simp [IsOp]) (by rcases hk with rfl | rfl | rfl <;> decide) he
    have hb : isBin k = 0 := by rcases hk with rfl | rfl | rfl <;> rfl
    rw [decide_eq_true hk] at g3
    refine ⟨g1, ?_⟩
    cases hl : a.last with
    | true =>
      simp only [want, hl, g3, if_true] at h ⊢
      rcases h with ⟨h1, h2⟩ | h
      · refine Or.inl ⟨by omega, ?_⟩
        rw [g2]
        exact st_post h2 ht
      · exact Or.inr (by omega)
    | false =>
      simp only [want, hl, g3, if_true, Bool.false_eq_true, if_false] at h ⊢
      right
      rcases h with ⟨h1, h2⟩ | h <;> omega
  cases t with
  | atom x => exact opd _ ho (fun n => ⟨_, .atom⟩)
  | bol => exact opd _ ho (fun n => ⟨_, .bol⟩)
  | eol => exact opd _ ho (fun n => ⟨_, .eol⟩)
  | star => exact un STAR (by simp) ho (fun h => ⟨_, .star h⟩)
  | plus => exact un PLUS (by simp) ho (fun h => ⟨_, .plus h⟩)
  | opt => exact un QUEST (by simp) ho (fun h => ⟨_, .opt h⟩)
  | bar =>
    obtain ⟨g1, g2, _, g3, g4⟩ := op1A_step h0 (Or.inl rfl) (by decide) ho
    have hb : isBin OR = 1 := rfl
    have g3 : a'.last = false := by rw [g3]; rfl
    refine ⟨g1, ?_⟩
    cases hl : a.last with
    | true =>
      simp only [want, hl, g3, if_true, Bool.false_eq_true, if_false] at h ⊢
      rcases h with ⟨h1, h2⟩ | h
      · refine Or.inl ⟨by omega, ?_⟩
        rw [g2]
        exact st_bar h2
      · exact Or.inr (by omega)
    | false =>
      simp only [want, hl, g3, Bool.false_eq_true, if_false] at h ⊢
      right
      rcases h with ⟨h1, h2⟩ | h <;> omega
  | lpar =>
    unfold tokA at ho
    simp only at ho
    split at ho
    · cases hc : catA L { a with sub := a.sub + 1, nbra := a.nbra + 1 } with
      | none => rw [hc] at ho; cases ho
      | some b =>
        rw [hc] at ho
        simp only [Option.bind_some] at ho
        have hc2 : catA L a = some { b with sub := a.sub, nbra := a.nbra } := by
          have := catA_vars L a (a.sub + 1) (a.nbra + 1)
          unfold catA op1A at hc ⊢
          simp only at hc ⊢
          split at hc
          · rename_i hl
            rw [if_pos hl]
            cases he : evalA CAT a.ators a.es with
            | none => rw [he] at hc; cases hc
            | some p =>
              rw [he] at hc
              simp only [Option.bind_some] at hc ⊢
              split at hc
              · rename_i hs; rw [if_pos hs]; cases hc; rfl
              · cases hc
          · rename_i hl
            rw [if_neg hl]; cases hc; rfl
        obtain ⟨⟨q, k1, k2, k3⟩, g2, _, g3, g4⟩ := catA_step h0 hc2
        simp only at k1 k3 g3 g4
        have hnb : b.nbra = a.nbra + 1 := by
          unfold catA op1A at hc
          simp only at hc
          split at hc
          · cases he : evalA CAT a.ators a.es with
            | none => rw [he] at hc; cases hc
            | some p =>
              rw [he] at hc
              simp only [Option.bind_some] at hc
              split at hc
              · cases hc; rfl
              · cases hc
          · cases hc; rfl
        split at ho
        · cases ho
          have hbn : bins ((LBRA, b.sub) :: b.ators) = bins b.ators := by simp [bins, isBin, LBRA, OR, CAT]
          refine ⟨⟨(LBRA, b.sub) :: q, by simp [k1], ?_, ?_⟩, ?_⟩
          · intro p hp
            rcases List.mem_cons.1 hp with rfl | hp
            · simp [IsOp]
            · exact k2 p hp
          · simp only [lbras, if_true, k3, hnb]; omega
          · simp only [want, Bool.false_eq_true, if_false, hbn]
            rcases h with ⟨h1, h2⟩ | h
            · refine Or.inl ⟨by omega, ?_⟩
              rw [hnb]
              exact st_lpar h2
            · exact Or.inr (by omega)
        · cases ho
    · cases ho
  | rpar =>
    unfold tokA at ho
    simp only at ho
    split at ho
    · cases ho
    · rename_i hnb
      obtain ⟨q, k1, k2, k3⟩ := h0
      cases he : evalA RBRA a.ators a.es with
      | none => rw [he] at ho; cases ho
      | some p =>
        obtain ⟨s', es'⟩ := p
        rw [he] at ho
        simp only [Option.bind_some] at ho
        cases ho
        rw [k1] at he
        obtain ⟨q', g1, g2, g3, g4, _, _⟩ := evalA_count k2 he
        have g4 := g4 rfl
        refine ⟨⟨q', g1, g2, by simp only; omega⟩, ?_⟩
        simp only [want, if_true]
        have hb : bins a.ators = bins q := by rw [k1, bins_bottom]
        have hb' : bins s' = bins q' := by rw [g1, bins_bottom]
        cases hl : a.last with
        | true =>
          simp only [want, hl, if_true] at h
          rcases h with ⟨h1, h2⟩ | h
          · refine Or.inl ⟨by omega, ?_⟩
            have : a.nbra = (a.nbra - 1) + 1 := by omega
            rw [this] at h2
            exact st_rpar h2
          · exact Or.inr (by omega)
        | false =>
          simp only [want, hl, Bool.false_eq_true, if_false] at h
          right
          rcases h with ⟨h1, h2⟩ | h <;> omega

theorem known_run {L} : ∀ {us ts : List Tok} {a a' : A}, Known ts a → runA L a us = some a' → Known (ts ++ us) a'
  | [], ts, a, a', h, ho => by cases ho; simpa using h
  | t :: us, ts, a, a', h, ho => by
    rw [runA] at ho
    cases ht : tokA L a t with
    | none => rw [ht] at ho; cases ho
    | some b =>
      rw [ht] at ho
      have := known_run (known_step h ht) ho
      simpa using this

/-- After a bar there is an operator to evaluate. -/
theorem last_bar {L us a a'} (hn : us ≠ []) (h : runA L a us = some a') (hl : a'.last = false) :
    (∃ g r, a'.ators = (OR, g) :: r) ∨ (∃ g r, a'.ators = (LBRA, g) :: r) := by
  obtain ⟨vs, t, rfl⟩ : ∃ vs t, us = vs ++ [t] := ⟨us.dropLast, us.getLast hn, (List.dropLast_concat_getLast hn).symm⟩
  rw [runA_append] at h
  cases hv : runA L a vs with
  | none => rw [hv] at h; cases h
  | some b =>
    rw [hv] at h
    simp only [Option.bind_some, runA] at h
    have hb : tokA L b t = some a' := by
      cases ht : tokA L b t with
      | none => rw [ht] at h; cases h
      | some c => rw [ht] at h; cases h; rfl
    have opd : ∀ e, opdA L b e = some a' → a'.last = true := by
      intro e he
      unfold opdA at he
      cases hc : catA L b with
      | none => rw [hc] at he; cases he
      | some c =>
        rw [hc] at he
        simp only [Option.bind_some] at he
        split at he
        · cases he; rfl
        · cases he
    have op1 : ∀ k, op1A L b k = some a' → a'.last = decide (k = STAR ∨ k = QUEST ∨ k = PLUS) ∧ ∃ r, a'.ators = (k, 0) :: r := by
      intro k he
      unfold op1A at he
      cases hc : evalA k b.ators b.es with
      | none => rw [hc] at he; cases he
      | some c =>
        rw [hc] at he
        simp only [Option.bind_some] at he
        split at he
        · cases he; exact ⟨rfl, _, rfl⟩
        · cases he
    cases t with
    | atom x => rw [opd _ hb] at hl; cases hl
    | bol => rw [opd _ hb] at hl; cases hl
    | eol => rw [opd _ hb] at hl; cases hl
    | star => rw [(op1 _ hb).1] at hl; simp at hl
    | plus => rw [(op1 _ hb).1] at hl; simp at hl
    | opt => rw [(op1 _ hb).1] at hl; simp at hl
    | bar => obtain ⟨r, h⟩ := (op1 _ hb).2; exact Or.inl ⟨_, r, h⟩
    | lpar =>
      unfold tokA at hb
      simp only at hb
      split at hb
      · cases hc : catA L { b with sub := b.sub + 1, nbra := b.nbra + 1 } with
        | none => rw [hc] at hb; cases hb
        | some c =>
          rw [hc] at hb
          simp only [Option.bind_some] at hb
          split at hb
          · cases hb; exact Or.inr ⟨_, _, rfl⟩
          · cases hb
      · cases hb
    | rpar =>
      unfold tokA at hb
      simp only at hb
      split at hb
      · cases hb
      · cases hc : evalA RBRA b.ators b.es with
        | none => rw [hc] at hb; cases hb
        | some c => rw [hc] at hb; cases hb; cases hl

/-- If the end of the compiler is reached without an operand then it fails. -/
theorem finish_none {c : Comp} (hat : ∃ g, c.ators = [(START - 1, g)]) (hands : c.ands = []) (hl : c.lastwasand = true) :
    ∀ p, ((operand c .fin).bind fun c => (evaluntil c START).bind fun c =>
      if c.nbra ≠ 0 then (.err "unmatched left paren" : Res String Prog) else
      match c.ands with
      | [] => .panic "undefined: read below the stack of operands"
      | (f, _) :: _ =>
        (optLoop (c.insts.length + 1) 0 c.insts).bind fun insts => .ok { start := f, insts := insts }) ≠ .ok p := by
  obtain ⟨I, ands, ators, sub, last, nb⟩ := c
  obtain ⟨g, hat⟩ := hat
  simp only at hat hands hl
  subst hat hands hl
  intro p
  have hop : operand ⟨I, [], [(START - 1, g)], sub, true, nb⟩ .fin =
      .ok ⟨I ++ [⟨.fin, none⟩], [(I.length, I.length)], [(CAT, sub), (START - 1, g)], sub, true, nb⟩ := by
    simp [operand, operator1, evaluntil, evalLoop, CAT, RBRA, START, pushator, newinst, pushand, Res.bind]
  rw [hop]
  simp only [Res.bind]
  have hev : evaluntil ⟨I ++ [⟨.fin, none⟩], [(I.length, I.length)], [(CAT, sub), (START - 1, g)], sub, true, nb⟩ START = .err "missing operand for " := by
    simp [evaluntil, evalLoop, CAT, OR, LBRA, RBRA, START, evalOp, popand, Res.bind]
  rw [hev]
  simp

/-! ## What does not change -/

theorem popand_nbra {c op r} (h : popand c op = .ok r) : r.1.nbra = c.nbra := by
  unfold popand at h
  split at h
  · cases h
  · cases h; rfl

theorem pushand_nbra {c f l c'} (h : pushand c f l = .ok c') : c'.nbra = c.nbra := by
  unfold pushand at h
  split at h
  · cases h
  · cases h; rfl

theorem evalBra_nbra {c id c'} (h : evalBra c id = .ok c') : c'.nbra = c.nbra := by
  unfold evalBra at h
  obtain ⟨r, h1, h2⟩ := Res.bind_eq_ok' h
  have := pushand_nbra h2
  rw [this]
  exact popand_nbra h1

theorem evalOp_nbra {c op c'} (h : evalOp c op = .ok c') : c'.nbra = c.nbra := by
  unfold evalOp at h
  split at h
  · obtain ⟨r, h1, h2⟩ := Res.bind_eq_ok' h
    obtain ⟨r', h3, h4⟩ := Res.bind_eq_ok' h2
    exact (pushand_nbra h4).trans ((popand_nbra h3).trans (popand_nbra h1))
  split at h
  · obtain ⟨r, h1, h2⟩ := Res.bind_eq_ok' h
    obtain ⟨r', h3, h4⟩ := Res.bind_eq_ok' h2
    exact (pushand_nbra h4).trans ((popand_nbra h3).trans (popand_nbra h1))
  split at h
  · obtain ⟨r, h1, h2⟩ := Res.bind_eq_ok' h
    exact (pushand_nbra h2).trans (popand_nbra h1)
  split at h
  · obtain ⟨r, h1, h2⟩ := Res.bind_eq_ok' h
    exact (pushand_nbra h2).trans (popand_nbra h1)
  split at h
  · obtain ⟨r, h1, h2⟩ := Res.bind_eq_ok' h
    exact (pushand_nbra h2).trans (popand_nbra h1)
  · cases h

theorem evalLoop_nbra {pri} : ∀ {l c c'}, evalLoop pri l c = .ok c' → c'.nbra = c.nbra
  | [], _, _, h => by cases h
  | (op, id) :: rest, c, c', h => by
    rw [evalLoop] at h
    split at h
    · split at h
      · exact evalBra_nbra (c := { c with ators := rest }) h
      · obtain ⟨r, h1, h2⟩ := Res.bind_eq_ok' h
        exact (evalLoop_nbra h2).trans (evalOp_nbra (c := { c with ators := rest }) h1)
    · cases h; rfl

theorem operand_nbra {c o c'} (h : operand c o = .ok c') : c'.nbra = c.nbra := by
  unfold operand at h
  obtain ⟨r, h1, h2⟩ := Res.bind_eq_ok' h
  obtain ⟨r', h3, h4⟩ := Res.bind_eq_ok' h2
  cases h4
  refine (pushand_nbra h3).trans ?_
  show r.nbra = c.nbra
  split at h1
  · unfold operator1 at h1
    obtain ⟨a, g1, g2⟩ := Res.bind_eq_ok' h1
    obtain ⟨b, g3, g4⟩ := Res.bind_eq_ok' g2
    cases g4
    have := evalLoop_nbra g1
    unfold pushator at g3
    split at g3
    · cases g3
    · cases g3; exact this
  · cases h1; rfl

/-! ## The end -/

theorem finish_known {c a ts prog} (hr : Rel c a) (hk : Known ts a) (hrun : runA lim20 a0 ts = some a) (h : finishC c = .ok prog) :
    ts = [] ∨ ∃ e n, Reads .alts 0 ts e n := by
  have h1 := evaluntil_ref hr START
  unfold finishC at h
  obtain ⟨c1, g1, h⟩ := Res.bind_eq_ok' h
  cases he : evalA START a.ators a.es with
  | none => rw [he] at h1; exact absurd g1 (h1 c1)
  | some p =>
    obtain ⟨s', es'⟩ := p
    rw [he] at h1
    obtain ⟨c1', g1', r1⟩ := h1
    rw [g1] at g1'; cases g1'
    have hnb : a.nbra = 0 := by
      obtain ⟨c2, g2, h⟩ := Res.bind_eq_ok' h
      obtain ⟨c3, g3, h⟩ := Res.bind_eq_ok' h
      have e1 := evalLoop_nbra g3
      have e2 := operand_nbra g2
      have e3 := r1.nbra
      simp only at e3
      refine Classical.byContradiction fun hne => ?_
      rw [if_pos (by omega)] at h
      cases h
    obtain ⟨⟨q, k1, k2, k3⟩, hk⟩ := hk
    rw [hnb] at k3
    have he0 := he
    rw [k1] at he
    obtain ⟨q', j1, j2, j3, _, _, j6⟩ := evalA_count k2 he
    obtain rfl := j6 (Nat.le_refl _) k3
    simp only [List.nil_append] at j1
    have hb : bins a.ators = bins q := by rw [k1, bins_bottom]
    simp only [bins] at j3
    cases hl : a.last with
    | true =>
      simp only [want, hl, if_true, hb] at hk
      rcases hk with ⟨m1, m2⟩ | m
      · rw [hnb] at m2
        exact Or.inr (st_done m2)
      · exfalso
        have hes : es' = [] := List.eq_nil_of_length_eq_zero (by omega)
        subst hes
        have hs := r1.holds.stk
        have hat := r1.ators
        have hlast := r1.last
        simp only at hs hat hlast
        refine finish_none (c := c1) ?_ ?_ (by rw [← hl, hlast]) prog h
        · rw [j1] at hat
          cases hca : c1.ators with
          | nil => rw [hca] at hat; simp at hat
          | cons p rest =>
            rw [hca] at hat
            simp only [List.map_cons, List.cons.injEq] at hat
            have h2 : rest = [] := by
              cases rest with
              | nil => rfl
              | cons _ _ => exact absurd hat.2 (by simp)
            have h3 := norm_fst p
            rw [← hat.1] at h3
            obtain ⟨p1, p2⟩ := p
            simp only at h3
            exact ⟨p2, by rw [h2, ← h3]⟩
        · cases hca : c1.ands with
          | nil => rfl
          | cons p as => rw [hca] at hs; simp [Stk] at hs
    | false =>
      left
      refine Classical.byContradiction fun hne => ?_
      simp only [want, hl, Bool.false_eq_true, if_false, hb] at hk
      have hes : es'.length = 0 := by rcases hk with ⟨m1, _⟩ | m <;> omega
      rcases last_bar hne hrun hl with ⟨g, r, hat⟩ | ⟨g, r, hat⟩
      · rw [k1] at hat
        cases q with
        | nil => simp only [List.nil_append, List.cons.injEq, Prod.mk.injEq] at hat; exact absurd hat.1.1 (by decide)
        | cons p q =>
          simp only [List.cons_append, List.cons.injEq] at hat
          obtain ⟨rfl, rfl⟩ := hat
          rw [List.cons_append, evalA_cons, if_pos (Or.inr (by decide)), if_neg (by decide)] at he
          cases ha : applyOp OR a.es with
          | none => rw [ha] at he; cases he
          | some es1 =>
            rw [ha] at he
            have := evalA_pos (fun p hp => k2 p (List.mem_cons_of_mem _ hp)) he (applyOp_length ha (Or.inl rfl)).2.2
            omega
      · rw [k1] at hat
        cases q with
        | nil => simp only [List.nil_append, List.cons.injEq, Prod.mk.injEq] at hat; exact absurd hat.1.1 (by decide)
        | cons p q =>
          simp only [List.cons_append, List.cons.injEq] at hat
          obtain ⟨rfl, rfl⟩ := hat
          simp [lbras] at k3

/-! ## Symbols -/

theorem nextc_inv {pre y : List Char} (hz : ∀ c ∈ y, c ≠ '\x00') {l q r} (h : nextc (encode (pre ++ y)) (at_ pre) = .ok (l, q, r)) :
    (y = [] ∧ q = false ∧ r = 0) ∨ (y = ['\\'] ∧ q = true ∧ r = 0) ∨
    (∃ c z, y = '\\' :: c :: z ∧ c ≠ '\x00' ∧ q = true ∧ r = c.val.toNat ∧ l = at_ (pre ++ ['\\', c])) ∨
    (∃ c z, y = c :: z ∧ c ≠ '\x00' ∧ c ≠ '\\' ∧ q = false ∧ r = c.val.toNat ∧ l = at_ (pre ++ [c])) := by
  cases y with
  | nil =>
    rw [List.append_nil, nextc_end] at h; cases h
    exact Or.inl ⟨rfl, rfl, rfl⟩
  | cons c z =>
    by_cases hc : c = '\\'
    · subst hc
      cases z with
      | nil => rw [nextc_slash] at h; cases h; exact Or.inr (Or.inl ⟨rfl, rfl, rfl⟩)
      | cons d w =>
        rw [nextc_quoted] at h; cases h
        exact Or.inr (Or.inr (Or.inl ⟨d, w, rfl, hz d (by simp), rfl, rfl, rfl⟩))
    · rw [nextc_bare hc (hz c (by simp))] at h; cases h
      exact Or.inr (Or.inr (Or.inr ⟨c, z, rfl, hz c (by simp), hc, rfl, rfl, rfl⟩))

/-- What a class that is accepted looks like from the place after some spans. -/
def Spanned (spans : List (Nat × Nat)) (y : List Char) : Prop :=
  match spans with
  | [] => ∃ l z post, Items l z ∧ y = z ++ ']' :: post
  | (_, hi) :: _ => ∃ b u l z post, Upto hi b u ∧ Items l z ∧ y = u ++ z ++ ']' :: post

/-- A character that is no dash. -/
theorem spanned_item {c : Char} {x y : List Char} {spans : List (Nat × Nat)} {a : Nat} (hc : InClass c x)
    (h : Spanned ((a, c.val.toNat) :: spans) y) : Spanned spans (x ++ y) := by
  obtain ⟨b, u, l, z, post, h1, h2, rfl⟩ := h
  have hi := Items.item hc h1 h2
  cases spans with
  | nil => exact ⟨_, _, post, hi, by simp⟩
  | cons p rest =>
    obtain ⟨lo, hi'⟩ := p
    exact ⟨hi', [], _, _, post, .nil, hi, by simp⟩

theorem spansLoop_inv : ∀ (fuel : Nat) (pre y : List Char) (spans : List (Nat × Nat)) (l0 : Lex) (q0 : Bool) (r0 : Nat) (res : Lex × List (Nat × Nat)),
    (∀ c ∈ y, c ≠ '\x00') → nextc (encode (pre ++ y)) (at_ pre) = .ok (l0, q0, r0) →
    spansLoop (encode (pre ++ y)) fuel l0 q0 r0 spans = .ok res → Spanned spans y := by
  intro fuel
  induction fuel with
  | zero => intro pre y spans l0 q0 r0 res _ _ h; cases h
  | succ n ih =>
    intro pre y spans l0 q0 r0 res hz hn h
    rw [spansLoop_succ] at h
    split at h
    · cases h
    split at h
    · cases h
    rename_i hr0
    -- a character that is no dash
    have item : ∀ {c : Char} {x z : List Char}, y = x ++ z → InClass c x → r0 = c.val.toNat → l0 = at_ (pre ++ x) →
        ((nextc (encode (pre ++ y)) l0).bind fun (l, quoted, rune') =>
          spansLoop (encode (pre ++ y)) n l quoted rune' ((r0, r0) :: spans)) = .ok res → Spanned spans y := by
      intro c x z hy hc hr hl h
      obtain ⟨⟨l1, q1, r1⟩, h1, h2⟩ := Res.bind_eq_ok' h
      subst hy
      rw [hl, ← List.append_assoc] at h1
      rw [← List.append_assoc] at h2
      have := ih (pre ++ x) z _ l1 q1 r1 res (fun c hc => hz c (by simp [hc])) h1 h2
      rw [hr] at this
      exact spanned_item hc this
    rcases nextc_inv hz hn with ⟨_, _, h3⟩ | ⟨_, _, h3⟩ | ⟨c, z, hy, hc, hq, hr, hl⟩ | ⟨c, z, hy, hc, hc2, hq, hr, hl⟩
    · exact absurd h3 hr0
    · exact absurd h3 hr0
    · subst hq
      simp only [not_true_eq_false, false_and, if_false] at h
      exact item (x := ['\\', c]) (z := z) hy (.quoted hc) hr hl h
    · subst hq
      split at h
      · rename_i h93
        have : c = ']' := (val_eq c ']').1 (by rw [← hr]; exact h93.2)
        subst this
        cases spans with
        | nil => exact ⟨[], [], z, .nil, hy⟩
        | cons p rest => exact ⟨p.2, [], [], [], z, .nil, .nil, hy⟩
      · rename_i h93
        split at h
        · rename_i h45
          have : c = '-' := (val_eq c '-').1 (by rw [← hr]; exact h45.2)
          subst this
          cases spans with
          | nil => cases h
          | cons p rest =>
            obtain ⟨lo, hi⟩ := p
            simp only at h
            obtain ⟨⟨l1, q1, r1⟩, h1, h⟩ := Res.bind_eq_ok' h
            simp only at h
            split at h
            · cases h
            rename_i hbad
            subst hy hl
            have key : ∀ {d : Char} {x w : List Char}, z = x ++ w → Last d x → r1 = d.val.toNat → l1 = at_ (pre ++ ['-'] ++ x) → Spanned ((lo, hi) :: rest) ('-' :: z) := by
              intro d x w hz' hd hr1 hl1
              subst hz' hl1
              obtain ⟨⟨l2, q2, r2⟩, h2, h⟩ := Res.bind_eq_ok' h
              have e : pre ++ '-' :: (x ++ w) = pre ++ ['-'] ++ x ++ w := by simp
              rw [e] at h2 h
              obtain ⟨b, u, l, z', post, k1, k2, rfl⟩ := ih (pre ++ ['-'] ++ x) w _ l2 q2 r2 res (fun c hc => hz c (by simp [hc])) h2 h
              rw [hr1] at k1
              exact ⟨b, _, l, z', post, .dash hd k1, k2, by simp⟩
            have e : pre ++ '-' :: z = pre ++ ['-'] ++ z := by simp
            rw [e] at h1
            rcases nextc_inv (fun c hc => hz c (by simp [hc])) h1 with ⟨_, _, h3⟩ | ⟨_, _, h3⟩ | ⟨d, w, hy, hd, hq, hr1, hl⟩ | ⟨d, w, hy, hd, hd2, hq, hr1, hl⟩
            · exact absurd (Or.inr h3) hbad
            · exact absurd (Or.inr h3) hbad
            · exact key (x := ['\\', d]) (w := w) hy (.chr (.quoted hd)) hr1 hl
            · by_cases hdash : d = '-'
              · subst hdash
                exact key (x := ['-']) (w := w) hy .dash hr1 hl
              · refine key (x := [d]) (w := w) hy (.chr (.bare ?_)) hr1 hl
                simp only [List.mem_cons, List.not_mem_nil, or_false, not_or]
                refine ⟨hd, ?_, hdash, hd2⟩
                rintro rfl
                exact hbad (Or.inl ⟨by simp [hq], hr1⟩)
        · rename_i h45
          refine item (x := [c]) (z := z) hy (.bare ?_) hr hl h
          simp only [List.mem_cons, List.not_mem_nil, or_false, not_or]
          refine ⟨hc, ?_, ?_, hc2⟩
          · rintro rfl; exact h93 ⟨by simp, hr⟩
          · rintro rfl; exact h45 ⟨by simp, hr⟩

/-- A class that is accepted. -/
theorem bldcclass_inv {dot : Atom} {pre y : List Char} (hz : ∀ c ∈ y, c ≠ '\x00') {n : Nat} {res} (h : bldcclass (encode (pre ++ y)) (at_ pre) n = .ok res) :
    ∃ k x post, '[' :: y = x ++ post ∧ TokText dot k x := by
  unfold bldcclass at h
  split at h
  · cases h
  obtain ⟨⟨l, q, r⟩, h1, h⟩ := Res.bind_eq_ok' h
  simp only at h
  split at h
  · rename_i h94
    obtain ⟨⟨l2, q2, r2⟩, h2, h⟩ := Res.bind_eq_ok' h
    simp only at h
    obtain ⟨res', h3, _⟩ := Res.bind_eq_ok' h
    rcases nextc_inv hz h1 with ⟨_, _, h4⟩ | ⟨_, _, h4⟩ | ⟨c, z, hy, hc, hq, hr, hl⟩ | ⟨c, z, hy, hc, hc2, hq, hr, hl⟩
    · rw [h4] at h94; exact absurd h94.2 (by decide)
    · rw [h4] at h94; exact absurd h94.2 (by decide)
    · rw [hq] at h94; exact absurd rfl h94.1
    · have : c = '^' := (val_eq c '^').1 (by rw [← hr]; exact h94.2)
      subst this hy hl
      have e : pre ++ '^' :: z = pre ++ ['^'] ++ z := by simp
      rw [e] at h2 h3
      obtain ⟨b, u, l, w, post, k1, k2, rfl⟩ := spansLoop_inv _ _ _ _ _ _ _ _ (fun c hc => hz c (by simp [hc])) h2 h3
      exact ⟨_, _, post, by simp, .ncls k1 k2⟩
  · rename_i h94
    obtain ⟨res', h3, _⟩ := Res.bind_eq_ok' h
    obtain ⟨l, z, post, k1, rfl⟩ := spansLoop_inv _ _ _ _ _ _ _ _ hz h1 h3
    refine ⟨_, _, post, by simp, .cls k1 ?_⟩
    intro hh
    cases z with
    | nil => simp at hh
    | cons c z =>
      simp only [List.head?_cons, Option.some.injEq] at hh
      subst hh
      rw [List.cons_append, nextc_bare (by decide) (by decide)] at h1
      cases h1
      exact h94 ⟨by simp, rfl⟩

theorem lex_inv {dot : Op} {da : Atom} {pre y : List Char} (hz : ∀ c ∈ y, c ≠ '\x00') {n : Nat} {l t}
    (h : lex false dot (encode (pre ++ y)) (at_ pre) n = .ok (l, t)) :
    (t = .end_ ∧ (y = [] ∨ y = ['\\'])) ∨ ∃ k x post, y = x ++ post ∧ TokText da k x := by
  unfold lex at h
  obtain ⟨⟨l1, q, r⟩, h1, h⟩ := Res.bind_eq_ok' h
  simp only at h
  rcases nextc_inv hz h1 with ⟨h3, h4, h5⟩ | ⟨h3, h4, h5⟩ | ⟨c, z, hy, hc, hq, hr, hl⟩ | ⟨c, z, hy, hc, hc2, hq, hr, hl⟩
  · subst h4 h5
    rw [if_neg (by simp), if_pos rfl] at h
    cases h
    exact Or.inl ⟨rfl, Or.inl h3⟩
  · subst h4 h5
    rw [if_pos (by simp), if_pos rfl] at h
    cases h
    exact Or.inl ⟨rfl, Or.inr h3⟩
  · exact Or.inr ⟨_, ['\\', c], z, hy, .quoted hc⟩
  · right
    subst hq
    by_cases hs : c ∈ special
    · simp only [special, List.mem_cons, List.not_mem_nil, or_false] at hs
      rcases hs with rfl | rfl | rfl | rfl | rfl | rfl | rfl | rfl | rfl | rfl | rfl
      · exact ⟨_, ['*'], z, hy, .star⟩
      · exact ⟨_, ['?'], z, hy, .opt⟩
      · exact ⟨_, ['+'], z, hy, .plus⟩
      · exact ⟨_, ['|'], z, hy, .bar⟩
      · exact ⟨_, ['.'], z, hy, .dot⟩
      · exact ⟨_, ['('], z, hy, .lpar⟩
      · exact ⟨_, [')'], z, hy, .rpar⟩
      · exact ⟨_, ['^'], z, hy, .bol⟩
      · exact ⟨_, ['$'], z, hy, .eol⟩
      · subst hr hl hy
        have e : pre ++ '[' :: z = pre ++ ['['] ++ z := by simp
        rw [e] at h
        exact bldcclass_inv (fun c hc => hz c (by simp [hc])) h
      · exact absurd rfl hc2
    · exact ⟨_, [c], z, hy, .chr hc hs⟩

theorem compLoop_inv {dot : Op} {da : Atom} (hd : DotFor dot da) : ∀ (fuel : Nat) (pre y : List Char) (n : Nat) (c c' : Comp), (∀ c ∈ y, c ≠ '\x00') →
    compLoop false dot (encode (pre ++ y)) fuel (at_ pre) n c = .ok c' → ∃ ts, ToksText da ts y := by
  intro fuel
  induction fuel with
  | zero => intro pre y n c c' _ h; cases h
  | succ fuel ih =>
    intro pre y n c c' hz h
    have h0 := h
    rw [compLoop] at h
    obtain ⟨⟨l, t⟩, h1, _⟩ := Res.bind_eq_ok' h
    rcases lex_inv (da := da) hz h1 with ⟨_, rfl | rfl⟩ | ⟨k, x, post, rfl, hk⟩
    · exact ⟨[], .nil⟩
    · exact ⟨[], .slash⟩
    · obtain ⟨t', _, t2, _, t4⟩ := lex_spec hd hk
      rw [← List.append_assoc] at h1 h0
      have := (t4 pre post n).1 _ h1
      cases this
      rw [compLoop_tok c h1 t2] at h0
      obtain ⟨c1, _, h2⟩ := Res.bind_eq_ok' h0
      obtain ⟨ts, hts⟩ := ih _ _ _ _ _ (fun c hc => hz c (by simp [hc])) h2
      exact ⟨k :: ts, .cons hk hts⟩

/-- What is accepted is an expression. -/
theorem regcomp_written {dot da} (hd : DotFor dot da) {x prog} (hz : ∀ c ∈ x, c ≠ '\x00') (hp : regcomp1 false dot (encode x) = .ok prog) :
    ∃ e, Written da x e := by
  rw [regcomp1_eq] at hp
  obtain ⟨c, h1, h2⟩ := Res.bind_eq_ok' hp
  rw [at_nil] at h1
  obtain ⟨ts, ht⟩ := compLoop_inv hd _ [] x 0 c0 c hz h1
  obtain ⟨toks, t1, t2, t3⟩ := compLoop_spec hd ht
  have hlen := toksText_length ht
  have hle := length_le_encode x
  have h3 := (t3 [] ((encode x).length + 2) 0 c0 (by omega)).1 c h1
  have href := steps_ref t1 t2 rel0
  cases hr : runA lim20 a0 ts with
  | none => rw [hr] at href; exact absurd h3 (href c)
  | some a =>
    rw [hr] at href
    obtain ⟨c', hc', hrel⟩ := href
    rw [h3] at hc'; cases hc'
    have k0 : Known [] a0 := ⟨⟨[], rfl, by simp, rfl⟩, Or.inl ⟨rfl, ⟨[], [], 0, 0, rfl, .nil, .none⟩⟩⟩
    have hk := known_run k0 hr
    rw [List.nil_append] at hk
    rcases finish_known hrel hk hr h2 with rfl | ⟨e, n, he⟩
    · exact ⟨.eps, .empty ht⟩
    · exact ⟨e, .some ht he⟩

end Che.Proofs.Regexp9
