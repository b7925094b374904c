import Verif.Spec.Prog.Logic

/-!
Unification: the program keeps a set of equations with the same solutions.
-/
namespace Che.Prog.Logic
open Che.Lib Che.Spec.Logic

/-! ## `eq` -/

theorem unify_succ (n : Nat) (x y : Term) (s : Subst) : unify (n + 1) x y s =
    (eq x y).bind fun e =>
    if e then .ok (some s) else
    match x with
    | .var v => unify_variable n v y s
    | .const c => match y with
      | .var v => unify_variable n v (.const c) s
      | _ => .ok none
    | .func f as => match y with
      | .var v => unify_variable n v (.func f as) s
      | .const _ => .ok none
      | .func g bs =>
        if f ≠ g ∨ as.length ≠ bs.length then .ok none else unifyArgs n as bs s := by
  rfl

theorem term_has_var_succ (n : Nat) (t v : Term) (s : Subst) : term_has_var (n + 1) t v s =
    (eq v t).bind fun e =>
    if e then .ok true else
    match t with
    | .var w => match get s w with
      | some d => term_has_var n d v s
      | none => .ok false
    | .const _ => .ok false
    | .func _ as => hasVarArgs n as v s := by
  rfl

theorem unify_variable_succ (n : Nat) (v : Bytes) (x : Term) (s : Subst) : unify_variable (n + 1) v x s =
    match get s v with
    | some d => unify n d x s
    | none => match bound x s with
      | some d => unify n (.var v) d s
      | none => extend n v x s := by
  rfl

theorem eq_ok {arity : Bytes → Nat} (x : Term) : ∀ y, Uniform arity x → Uniform arity y →
    (x = y ∧ eq x y = .ok true) ∨ (x ≠ y ∧ eq x y = .ok false) := by
  refine Term.rec
    (motive_1 := fun x => ∀ y, Uniform arity x → Uniform arity y →
      (x = y ∧ eq x y = .ok true) ∨ (x ≠ y ∧ eq x y = .ok false))
    (motive_2 := fun as => ∀ bs, as.length = bs.length → UniformArgs arity as → UniformArgs arity bs →
      (as = bs ∧ eqArgs as bs = .ok true) ∨ (as ≠ bs ∧ eqArgs as bs = .ok false)) ?_ ?_ ?_ ?_ ?_ x
  · intro n y _ _
    cases y with
    | var m =>
      by_cases h : n = m
      · exact .inl ⟨by rw [h], by rw [eq, decide_eq_true h]⟩
      · exact .inr ⟨fun e => h (by injection e), by rw [eq, decide_eq_false h]⟩
    | const m => exact .inr ⟨fun e => (by cases e), (by rw [eq])⟩
    | func m as => exact .inr ⟨fun e => (by cases e), (by rw [eq])⟩
  · intro n y _ _
    cases y with
    | var m => exact .inr ⟨fun e => (by cases e), (by rw [eq])⟩
    | const m =>
      by_cases h : n = m
      · exact .inl ⟨by rw [h], by rw [eq, decide_eq_true h]⟩
      · exact .inr ⟨fun e => h (by injection e), by rw [eq, decide_eq_false h]⟩
    | func m as => exact .inr ⟨fun e => (by cases e), (by rw [eq])⟩
  · intro n as ih y hx hy
    cases y with
    | var m => exact .inr ⟨fun e => (by cases e), (by rw [eq])⟩
    | const m => exact .inr ⟨fun e => (by cases e), (by rw [eq])⟩
    | func m bs =>
      rw [Uniform] at hx hy
      by_cases h : n = m
      · subst h
        rcases ih bs (by rw [hx.1, hy.1]) hx.2 hy.2 with ⟨e, h⟩ | ⟨e, h⟩
        · exact .inl ⟨by rw [e], by rw [eq, if_neg (by simp), h]⟩
        · exact .inr ⟨fun e' => e (by injection e'), by rw [eq, if_neg (by simp), h]⟩
      · exact .inr ⟨fun e => h (by injection e), by rw [eq, if_pos h]⟩
  · intro bs hl _ _
    have : bs = [] := List.length_eq_zero_iff.mp hl.symm
    subst this
    exact .inl ⟨rfl, by rw [eqArgs]⟩
  · intro a as iha ihs bs hl hx hy
    cases bs with
    | nil => simp at hl
    | cons b bs =>
      rw [UniformArgs] at hx hy
      rw [eqArgs]
      rcases iha b hx.1 hy.1 with ⟨e, h⟩ | ⟨e, h⟩
      · rw [h]
        simp only [Res.bind, if_true]
        rcases ihs bs (by simpa using hl) hx.2 hy.2 with ⟨e', h'⟩ | ⟨e', h'⟩
        · exact .inl ⟨by rw [e, e'], h'⟩
        · exact .inr ⟨fun h => e' (by injection h), h'⟩
      · rw [h]
        exact .inr ⟨fun h => e (by injection h), rfl⟩

/-! ## The equations -/

theorem get_sets (s : Subst) (v w : Bytes) (x : Term) (h : get s v = none) :
    get (sets s v x) w = if v = w then some x else get s w := by
  unfold sets
  induction s with
  | nil => simp [get]
  | cons e s ih =>
    obtain ⟨u, t⟩ := e
    rw [get] at h
    split at h
    · cases h
    · rename_i hu
      rw [List.cons_append, get, ih h, get]
      by_cases huw : u = w
      · subst huw
        rw [if_pos rfl, if_neg (fun e => hu e.symm), if_pos rfl]
      · rw [if_neg huw, if_neg huw]

theorem solves_sets (σ : Bytes → Term) (s : Subst) (v : Bytes) (x : Term) (h : get s v = none) :
    Solves σ (sets s v x) ↔ Solves σ s ∧ σ v = app σ x := by
  unfold Solves
  constructor
  · intro hs
    constructor
    · intro w t hw
      apply hs
      rw [get_sets s v w x h]
      by_cases hvw : v = w
      · subst hvw
        rw [h] at hw
        cases hw
      · rw [if_neg hvw, hw]
    · apply hs
      rw [get_sets s v v x h, if_pos rfl]
  · rintro ⟨hs, hv⟩ w t hw
    rw [get_sets s v w x h] at hw
    split at hw
    · rename_i e
      cases hw
      rw [← e]
      exact hv
    · exact hs w t hw

/-- All terms of a substitution are uniform. -/
def UniformS (arity : Bytes → Nat) (s : Subst) : Prop := ∀ v t, get s v = some t → Uniform arity t

theorem uniformS_sets {arity : Bytes → Nat} {s : Subst} (hs : UniformS arity s) {v : Bytes} {x : Term}
    (h : get s v = none) (hx : Uniform arity x) : UniformS arity (sets s v x) := by
  intro w t hw
  rw [get_sets s v w x h] at hw
  split at hw
  · cases hw
    exact hx
  · exact hs w t hw

/-- The occurs check never finds anything: it looks for the term in the variable. -/
theorem term_has_var_false {arity : Bytes → Nat} {s : Subst} {v : Bytes} {x : Term} (hx : Uniform arity x)
    (hv : get s v = none) (hne : x ≠ .var v) (n : Nat) : term_has_var (n + 1) (.var v) x s = .ok false := by
  rw [term_has_var_succ]
  rcases eq_ok (arity := arity) x (.var v) hx (by rw [Uniform]; trivial) with ⟨e, _⟩ | ⟨_, e⟩
  · exact absurd e hne
  · rw [e]
    simp only [Res.bind]
    rw [hv]
    rfl

theorem extend_eq {arity : Bytes → Nat} {s : Subst} {v : Bytes} {x : Term} (hx : Uniform arity x)
    (hv : get s v = none) (hne : x ≠ .var v) (n : Nat) : extend (n + 1) v x s = .ok (some (sets s v x)) := by
  rw [extend, term_has_var_false hx hv hne]
  rfl

/-- What a call may return: the substitution has the old solutions that make the terms equal,
and without one there are none. -/
def Right (arity : Bytes → Nat) (s : Subst) (E : (Bytes → Term) → Prop) : Res Empty (Option Subst) → Prop
  | .ok (some s') => UniformS arity s' ∧ ∀ σ, Solves σ s' ↔ Solves σ s ∧ E σ
  | .ok none => ∀ σ, Solves σ s → ¬ E σ
  | .diverge => True
  | _ => False

theorem right_iff {arity : Bytes → Nat} {s : Subst} {E F : (Bytes → Term) → Prop}
    {r : Res Empty (Option Subst)} (h : ∀ σ, Solves σ s → (E σ ↔ F σ)) (hr : Right arity s E r) :
    Right arity s F r := by
  cases r with
  | ok o =>
    cases o with
    | none => exact fun σ hs hf => hr σ hs ((h σ hs).mpr hf)
    | some s' =>
      refine ⟨hr.1, fun σ => ?_⟩
      rw [hr.2 σ]
      constructor
      · exact fun ⟨a, b⟩ => ⟨a, (h σ a).mp b⟩
      · exact fun ⟨a, b⟩ => ⟨a, (h σ a).mpr b⟩
  | err e => exact hr.elim
  | panic m => exact hr.elim
  | diverge => trivial

theorem uniform_bound {arity : Bytes → Nat} {s : Subst} (hs : UniformS arity s) {x d : Term}
    (h : bound x s = some d) : Uniform arity d := by
  cases x with
  | var w => exact hs w d h
  | const _ => cases h
  | func _ _ => cases h

theorem app_bound {s : Subst} {σ : Bytes → Term} (hs : Solves σ s) {x d : Term} (h : bound x s = some d) :
    app σ x = app σ d := by
  cases x with
  | var w => rw [app]; exact hs w d h
  | const _ => cases h
  | func _ _ => cases h

/-- Soundness of the three functions, for any number of steps. -/
theorem unify_right {arity : Bytes → Nat} (n : Nat) :
    (∀ x y s, Uniform arity x → Uniform arity y → UniformS arity s →
      Right arity s (fun σ => app σ x = app σ y) (unify n x y s)) ∧
    (∀ as bs s, UniformArgs arity as → UniformArgs arity bs → UniformS arity s → as.length = bs.length →
      Right arity s (fun σ => appArgs σ as = appArgs σ bs) (unifyArgs n as bs s)) ∧
    (∀ v x s, Uniform arity x → UniformS arity s → x ≠ .var v →
      Right arity s (fun σ => σ v = app σ x) (unify_variable n v x s)) := by
  induction n with
  | zero =>
    refine ⟨fun _ _ _ _ _ _ => ?_, fun _ _ _ _ _ _ _ => ?_, fun _ _ _ _ _ _ => ?_⟩
    · rw [unify]; trivial
    · rw [unifyArgs]; trivial
    · rw [unify_variable]; trivial
  | succ n ih =>
    obtain ⟨ih1, ih2, ih3⟩ := ih
    refine ⟨fun x y s hx hy hs => ?_, fun as bs s ha hb hs hl => ?_, fun v x s hx hs hne => ?_⟩
    · rw [unify_succ]
      rcases eq_ok x y hx hy with ⟨e, h⟩ | ⟨e, h⟩
      · rw [h]
        subst e
        exact ⟨hs, fun σ => ⟨fun h => ⟨h, rfl⟩, fun h => h.1⟩⟩
      · rw [h]
        simp only [Res.bind, Bool.false_eq_true, if_false]
        cases x with
        | var v =>
          have := ih3 v y s hy hs (fun h => e h.symm)
          simpa only [app] using this
        | const c =>
          cases y with
          | var v =>
            have := ih3 v (.const c) s hx hs (fun h => by cases h)
            exact right_iff (fun σ _ => (eq_comm : σ v = _ ↔ _)) this
          | const d =>
            intro σ _ h
            rw [app, app] at h
            exact e h
          | func g bs =>
            intro σ _ h
            rw [app, app] at h
            cases h
        | func f as =>
          cases y with
          | var v =>
            have := ih3 v (.func f as) s hx hs (fun h => by cases h)
            exact right_iff (fun σ _ => (eq_comm : σ v = _ ↔ _)) this
          | const d =>
            intro σ _ h
            rw [app, app] at h
            cases h
          | func g bs =>
            simp only
            rw [Uniform] at hx hy
            by_cases hfg : f ≠ g ∨ as.length ≠ bs.length
            · rw [if_pos hfg]
              intro σ _ h
              rw [app, app] at h
              injection h with h1 h2
              subst h1
              rcases hfg with h | h
              · exact h rfl
              · exact h (by rw [hx.1, hy.1])
            · rw [if_neg hfg]
              have hfg' : f = g ∧ as.length = bs.length := by
                constructor
                · exact Classical.byContradiction fun h => hfg (.inl h)
                · exact Classical.byContradiction fun h => hfg (.inr h)
              refine right_iff (fun σ _ => ?_) (ih2 as bs s hx.2 hy.2 hs hfg'.2)
              rw [app, app, hfg'.1]
              constructor
              · intro h; rw [h]
              · intro h; injection h
    · cases as with
      | nil =>
        have : bs = [] := List.length_eq_zero_iff.mp hl.symm
        subst this
        rw [unifyArgs]
        exact ⟨hs, fun σ => ⟨fun h => ⟨h, rfl⟩, fun h => h.1⟩⟩
      | cons a as =>
        cases bs with
        | nil => simp at hl
        | cons b bs =>
          rw [UniformArgs] at ha hb
          rw [unifyArgs]
          have h1 := ih1 a b s ha.1 hb.1 hs
          cases hr : unify n a b s with
          | ok o =>
            rw [hr] at h1
            simp only [Res.bind]
            cases o with
            | none =>
              intro σ hσ h
              rw [appArgs, appArgs] at h
              injection h with h _
              exact h1 σ hσ h
            | some s' =>
              simp only
              have h2 := ih2 as bs s' ha.2 hb.2 h1.1 (by simpa using hl)
              cases hr' : unifyArgs n as bs s' with
              | ok o =>
                rw [hr'] at h2
                cases o with
                | none =>
                  intro σ hσ h
                  rw [appArgs, appArgs] at h
                  injection h with h h'
                  exact h2 σ ((h1.2 σ).mpr ⟨hσ, h⟩) h'
                | some s'' =>
                  refine ⟨h2.1, fun σ => ?_⟩
                  rw [h2.2 σ, h1.2 σ]
                  show (Solves σ s ∧ app σ a = app σ b) ∧ appArgs σ as = appArgs σ bs ↔
                    Solves σ s ∧ appArgs σ (a :: as) = appArgs σ (b :: bs)
                  rw [appArgs.eq_2, appArgs.eq_2]
                  constructor
                  · rintro ⟨⟨h, h'⟩, h''⟩
                    exact ⟨h, by rw [h', h'']⟩
                  · rintro ⟨h, h'⟩
                    injection h' with h' h''
                    exact ⟨⟨h, h'⟩, h''⟩
              | err e => rw [hr'] at h2; exact h2.elim
              | panic m => rw [hr'] at h2; exact h2.elim
              | diverge => trivial
          | err e => rw [hr] at h1; exact h1.elim
          | panic m => rw [hr] at h1; exact h1.elim
          | diverge => trivial
    · rw [unify_variable_succ]
      cases hv : get s v with
      | some d =>
        simp only
        refine right_iff (fun σ hσ => ?_) (ih1 d x s (hs v d hv) hx hs)
        rw [hσ v d hv]
      | none =>
        simp only
        cases hb : bound x s with
        | some d =>
          simp only
          refine right_iff (fun σ hσ => ?_) (ih1 (.var v) d s (by rw [Uniform]; trivial) (uniform_bound hs hb) hs)
          rw [app, app_bound hσ hb]
        | none =>
          simp only
          cases n with
          | zero =>
            rw [extend, term_has_var]
            trivial
          | succ n =>
            rw [extend_eq hx hv hne]
            exact ⟨uniformS_sets hs hv hx, fun σ => solves_sets σ s v x hv⟩

/-! ## More steps do not change the result -/

theorem bind_mono {α β : Type} {a a' : Res Empty α} {f f' : α → Res Empty β} (h : a ≠ .diverge → a' = a)
    (hf : ∀ x, f x ≠ .diverge → f' x = f x) (hd : a.bind f ≠ .diverge) : a'.bind f' = a.bind f := by
  cases a with
  | ok x =>
    rw [h (by simp)]
    exact hf x hd
  | err e => rw [h (by simp)]; rfl
  | panic m => rw [h (by simp)]; rfl
  | diverge => exact absurd rfl hd

theorem has_mono (n : Nat) :
    (∀ t v s, term_has_var n t v s ≠ .diverge → term_has_var (n + 1) t v s = term_has_var n t v s) ∧
    (∀ as v s, hasVarArgs n as v s ≠ .diverge → hasVarArgs (n + 1) as v s = hasVarArgs n as v s) := by
  induction n with
  | zero =>
    refine ⟨fun t v s h => ?_, fun as v s h => ?_⟩
    · rw [term_has_var] at h; exact absurd rfl h
    · rw [hasVarArgs] at h; exact absurd rfl h
  | succ n ih =>
    refine ⟨fun t v s h => ?_, fun as v s h => ?_⟩
    · rw [term_has_var_succ] at h
      rw [term_has_var_succ, term_has_var_succ]
      refine bind_mono (fun _ => rfl) (fun e he => ?_) h
      split
      · rfl
      · rename_i hne
        rw [if_neg hne] at he
        cases t with
        | var w =>
          simp only at he ⊢
          cases hw : get s w with
          | some d => rw [hw] at he; exact ih.1 _ _ _ he
          | none => rfl
        | const c => rfl
        | func f as => exact ih.2 _ _ _ he
    · cases as with
      | nil => rw [hasVarArgs, hasVarArgs]
      | cons a as =>
        rw [hasVarArgs] at h ⊢
        rw [hasVarArgs.eq_3 v s n a as]
        refine bind_mono (fun h => ih.1 _ _ _ h) (fun e he => ?_) h
        split
        · rfl
        · rename_i hne
          rw [if_neg hne] at he
          exact ih.2 _ _ _ he

theorem extend_mono {n : Nat} {v : Bytes} {x : Term} {s : Subst} (h : extend n v x s ≠ .diverge) :
    extend (n + 1) v x s = extend n v x s := by
  unfold extend at h ⊢
  exact bind_mono (fun h => (has_mono n).1 _ _ _ h) (fun _ _ => rfl) h

theorem unify_mono (n : Nat) :
    (∀ x y s, unify n x y s ≠ .diverge → unify (n + 1) x y s = unify n x y s) ∧
    (∀ as bs s, unifyArgs n as bs s ≠ .diverge → unifyArgs (n + 1) as bs s = unifyArgs n as bs s) ∧
    (∀ v x s, unify_variable n v x s ≠ .diverge → unify_variable (n + 1) v x s = unify_variable n v x s) := by
  induction n with
  | zero =>
    refine ⟨fun _ _ _ h => ?_, fun _ _ _ h => ?_, fun _ _ _ h => ?_⟩
    · rw [unify] at h; exact absurd rfl h
    · rw [unifyArgs] at h; exact absurd rfl h
    · rw [unify_variable] at h; exact absurd rfl h
  | succ n ih =>
    obtain ⟨ih1, ih2, ih3⟩ := ih
    refine ⟨fun x y s h => ?_, fun as bs s h => ?_, fun v x s h => ?_⟩
    · rw [unify_succ] at h
      rw [unify_succ, unify_succ]
      refine bind_mono (fun _ => rfl) (fun e he => ?_) h
      split
      · rfl
      · rename_i hne
        rw [if_neg hne] at he
        cases x with
        | var v => exact ih3 _ _ _ he
        | const c =>
          cases y with
          | var v => exact ih3 _ _ _ he
          | const d => rfl
          | func g bs => rfl
        | func f as =>
          cases y with
          | var v => exact ih3 _ _ _ he
          | const d => rfl
          | func g bs =>
            simp only at he ⊢
            split
            · rfl
            · rename_i hne
              rw [if_neg hne] at he
              exact ih2 _ _ _ he
    · cases as with
      | nil => rw [unifyArgs, unifyArgs]
      | cons a as =>
        cases bs with
        | nil => rw [unifyArgs, unifyArgs]
        | cons b bs =>
          rw [unifyArgs] at h ⊢
          rw [unifyArgs.eq_4]
          refine bind_mono (fun h => ih1 _ _ _ h) (fun e he => ?_) h
          cases e with
          | none => rfl
          | some s' => exact ih2 _ _ _ he
    · rw [unify_variable_succ] at h
      rw [unify_variable_succ, unify_variable_succ]
      cases hv : get s v with
      | some d => rw [hv] at h; exact ih1 _ _ _ h
      | none =>
        rw [hv] at h
        simp only at h ⊢
        cases hb : bound x s with
        | some d => rw [hb] at h; exact ih1 _ _ _ h
        | none => rw [hb] at h; exact extend_mono h

theorem mono_le {α : Type} {f : Nat → Res Empty α} (h : ∀ n, f n ≠ .diverge → f (n + 1) = f n) {n m : Nat}
    (hd : f n ≠ .diverge) (hle : n ≤ m) : f m = f n := by
  obtain ⟨k, rfl⟩ := Nat.le.dest hle
  induction k with
  | zero => rfl
  | succ k ih =>
    have := ih (by omega)
    rw [← Nat.add_assoc, h _ (by rw [this]; exact hd), this]

end Che.Prog.Logic
