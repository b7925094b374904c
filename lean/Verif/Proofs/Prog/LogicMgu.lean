import Verif.Proofs.Prog.Logic

/-!
Unification: if there is a unifier then the program finds a most general one.
-/
namespace Che.Prog.Logic
open Che.Lib Che.Spec.Logic

mutual
def size : Term → Nat
  | .var _ => 1
  | .const _ => 1
  | .func _ as => 1 + sizeArgs as
def sizeArgs : List Term → Nat
  | [] => 0
  | t :: ts => size t + sizeArgs ts
end

/-- Names are bound once, and a name bound to a name is older than the binding of that name. -/
def Ordered (older : List Bytes) : Subst → Prop
  | [] => True
  | (v, t) :: s => (∀ w, t = .var w → w ≠ v ∧ w ∉ older) ∧ Ordered (v :: older) s

/-- How many entries there are from the entry of the name on. -/
def rankV : Subst → Bytes → Nat
  | [], _ => 0
  | (w, _) :: s, v => if w = v then s.length + 1 else rankV s v

def rank (s : Subst) : Term → Nat
  | .var v => rankV s v
  | .const _ => 0
  | .func _ _ => 0

theorem rankV_le (s : Subst) (v : Bytes) : rankV s v ≤ s.length := by
  induction s with
  | nil => exact Nat.le_refl _
  | cons e s ih =>
    obtain ⟨w, t⟩ := e
    rw [rankV]
    split
    · simp
    · simp only [List.length_cons]; omega

theorem rankV_edge (s : Subst) : ∀ (older : List Bytes), Ordered older s → ∀ u w, get s u = some (.var w) →
    w ∉ older ∧ rankV s w < rankV s u := by
  induction s with
  | nil => intro older _ u w h; cases h
  | cons e s ih =>
    obtain ⟨v, t⟩ := e
    intro older ho u w h
    rw [Ordered] at ho
    rw [get] at h
    rw [rankV, rankV]
    split at h
    · rename_i hvu
      cases h
      obtain ⟨h1, h2⟩ := ho.1 w rfl
      rw [if_neg (fun e => h1 e.symm), if_pos hvu]
      have := rankV_le s w
      exact ⟨h2, by omega⟩
    · rename_i hvu
      obtain ⟨h1, h2⟩ := ih _ ho.2 u w h
      rw [List.mem_cons, not_or] at h1
      rw [if_neg (fun e => h1.1 e.symm), if_neg hvu]
      exact ⟨h1.2, h2⟩

theorem rank_edge {s : Subst} (ho : Ordered [] s) {u : Bytes} {d : Term} (h : get s u = some d) :
    rank s d < rankV s u := by
  cases d with
  | var w => exact (rankV_edge s [] ho u w h).2
  | const _ =>
    rw [rank]
    clear ho
    induction s with
    | nil => cases h
    | cons e s ih =>
      obtain ⟨v, t⟩ := e
      rw [get] at h
      rw [rankV]
      split
      · simp
      · rename_i hne
        rw [if_neg hne] at h
        exact ih h
  | func _ _ =>
    rw [rank]
    clear ho
    induction s with
    | nil => cases h
    | cons e s ih =>
      obtain ⟨v, t⟩ := e
      rw [get] at h
      rw [rankV]
      split
      · simp
      · rename_i hne
        rw [if_neg hne] at h
        exact ih h

theorem ordered_sets (s : Subst) : ∀ (older : List Bytes), Ordered older s → ∀ v x,
    (∀ w, x = .var w → w ≠ v ∧ w ∉ older ∧ get s w = none) → Ordered older (sets s v x) := by
  induction s with
  | nil =>
    intro older _ v x h
    exact ⟨fun w hw => ⟨(h w hw).1, (h w hw).2.1⟩, trivial⟩
  | cons e s ih =>
    obtain ⟨u, t⟩ := e
    intro older ho v x h
    rw [Ordered] at ho
    refine ⟨ho.1, ih _ ho.2 v x fun w hw => ?_⟩
    obtain ⟨h1, h2, h3⟩ := h w hw
    rw [get] at h3
    split at h3
    · cases h3
    · rename_i hne
      exact ⟨h1, by rw [List.mem_cons, not_or]; exact ⟨fun e => hne e.symm, h2⟩, h3⟩

/-- What holds of the substitutions between the steps. -/
structure Good (arity : Bytes → Nat) (σ : Bytes → Term) (s : Subst) : Prop where
  uniform : UniformS arity s
  ordered : Ordered [] s
  solves : Solves σ s

/-- The call returns a substitution. -/
def Finds (arity : Bytes → Nat) (σ : Bytes → Term) (f : Nat → Res Empty (Option Subst)) : Prop :=
  ∃ n s', f n = .ok (some s') ∧ Good arity σ s'

theorem finds_args {arity : Bytes → Nat} {σ : Bytes → Term} {k : Nat}
    (ih : ∀ x y s, Uniform arity x → Uniform arity y → Good arity σ s → app σ x = app σ y →
      size (app σ x) < k → Finds arity σ fun n => unify n x y s) (as : List Term) :
    ∀ bs s, UniformArgs arity as → UniformArgs arity bs → Good arity σ s → appArgs σ as = appArgs σ bs →
      sizeArgs (appArgs σ as) < k → Finds arity σ fun n => unifyArgs n as bs s := by
  induction as with
  | nil =>
    intro bs s _ _ hs _ _
    exact ⟨1, s, rfl, hs⟩
  | cons a as iha =>
    intro bs s ha hb hs he hk
    cases bs with
    | nil => rw [appArgs, appArgs] at he; cases he
    | cons b bs =>
      rw [appArgs, appArgs] at he
      injection he with h1 h2
      rw [UniformArgs] at ha hb
      rw [appArgs, sizeArgs] at hk
      obtain ⟨n, s', hn, hs'⟩ := ih a b s ha.1 hb.1 hs h1 (by omega)
      obtain ⟨m, s'', hm, hs''⟩ := iha bs s' ha.2 hb.2 hs' h2 (by omega)
      refine ⟨max n m + 1, s'', ?_, hs''⟩
      simp only at hn hm ⊢
      rw [unifyArgs, mono_le (fun n => (unify_mono n).1 a b s) (by rw [hn]; simp) (Nat.le_max_left n m), hn]
      simp only [Res.bind]
      rw [mono_le (fun n => (unify_mono n).2.1 as bs s') (by rw [hm]; simp) (Nat.le_max_right n m), hm]

theorem good_extend {arity : Bytes → Nat} {σ : Bytes → Term} {s : Subst} (hs : Good arity σ s) {v : Bytes}
    {x : Term} (hx : Uniform arity x) (hne : x ≠ .var v) (hv : get s v = none) (hb : bound x s = none)
    (he : σ v = app σ x) : Finds arity σ fun n => extend n v x s := by
  refine ⟨1, sets s v x, extend_eq hx hv hne 0, uniformS_sets hs.uniform hv hx, ?_,
    (solves_sets σ s v x hv).mpr ⟨hs.solves, he⟩⟩
  refine ordered_sets s [] hs.ordered v x fun w hw => ?_
  subst hw
  exact ⟨fun h => hne (by rw [h]), by simp, hb⟩

theorem finds_variable {arity : Bytes → Nat} {σ : Bytes → Term} {k m : Nat}
    (ih : ∀ x y s, Uniform arity x → Uniform arity y → Good arity σ s → app σ x = app σ y →
      size (app σ x) = k → rank s x + rank s y < m → Finds arity σ fun n => unify n x y s)
    {v : Bytes} {x : Term} {s : Subst} (hx : Uniform arity x) (hs : Good arity σ s) (hne : x ≠ .var v)
    (he : σ v = app σ x) (hk : size (σ v) = k) (hm : rankV s v + rank s x ≤ m) :
    Finds arity σ fun n => unify_variable n v x s := by
  cases hv : get s v with
  | some d =>
    have hd : app σ d = σ v := (hs.solves v d hv).symm
    have := rank_edge hs.ordered hv
    obtain ⟨n, s', hn, hs'⟩ := ih d x s (hs.uniform v d hv) hx hs (by rw [hd, he]) (by rw [hd, hk]) (by omega)
    refine ⟨n + 1, s', ?_, hs'⟩
    simp only
    rw [unify_variable_succ, hv]
    exact hn
  | none =>
    cases hb : bound x s with
    | some d =>
      have hd : app σ x = app σ d := app_bound hs.solves hb
      have hr : rank s d < rank s x := by
        cases x with
        | var w => exact rank_edge hs.ordered hb
        | const _ => cases hb
        | func _ _ => cases hb
      obtain ⟨n, s', hn, hs'⟩ := ih (.var v) d s (by rw [Uniform]; trivial) (uniform_bound hs.uniform hb) hs
        (by rw [app, he, hd]) (by rw [app, hk]) (by rw [rank.eq_1]; omega)
      refine ⟨n + 1, s', ?_, hs'⟩
      simp only
      rw [unify_variable_succ, hv, hb]
      exact hn
    | none =>
      obtain ⟨n, s', hn, hs'⟩ := good_extend hs hx hne hv hb he
      refine ⟨n + 1, s', ?_, hs'⟩
      simp only
      rw [unify_variable_succ, hv, hb]
      exact hn

theorem finds_all {arity : Bytes → Nat} {σ : Bytes → Term} (k : Nat) : ∀ m x y s, Uniform arity x →
    Uniform arity y → Good arity σ s → app σ x = app σ y → size (app σ x) = k → rank s x + rank s y = m →
    Finds arity σ fun n => unify n x y s := by
  induction k using Nat.strongRecOn with
  | ind k ihk =>
    intro m
    induction m using Nat.strongRecOn with
    | ind m ihm =>
      intro x y s hx hy hs he hk hm
      rcases eq_ok x y hx hy with ⟨_, h⟩ | ⟨e, h⟩
      · refine ⟨1, s, ?_, hs⟩
        simp only
        rw [unify_succ, h]
        rfl
      · have hstep : ∀ f : Nat → Res Empty (Option Subst), Finds arity σ f →
            (∀ n, unify (n + 1) x y s = f n) → Finds arity σ fun n => unify n x y s := by
          intro f ⟨n, s', hn, hs'⟩ hf
          exact ⟨n + 1, s', by simp only; rw [hf n, hn], hs'⟩
        have hm' : ∀ x y s, Uniform arity x → Uniform arity y → Good arity σ s → app σ x = app σ y →
            size (app σ x) = k → rank s x + rank s y < m → Finds arity σ fun n => unify n x y s :=
          fun x y s hx hy hs he hk hlt => ihm _ hlt x y s hx hy hs he hk rfl
        cases x with
        | var v =>
          rw [app] at he hk
          exact hstep _ (finds_variable hm' hy hs (fun h => e h.symm) he hk (by rw [← hm, rank]; exact Nat.le_refl _))
            fun n => by rw [unify_succ, h]; rfl
        | const c =>
          cases y with
          | var v =>
            rw [he] at hk
            rw [app.eq_1] at he hk
            refine hstep _ (finds_variable hm' hx hs (fun h => by cases h) he.symm hk ?_)
              fun n => by rw [unify_succ, h]; rfl
            rw [← hm]
            simp only [rank]
            omega
          | const d =>
            rw [app, app] at he
            exact absurd he e
          | func g bs =>
            rw [app, app] at he
            cases he
        | func f as =>
          cases y with
          | var v =>
            rw [he] at hk
            rw [app.eq_1] at he hk
            refine hstep _ (finds_variable hm' hx hs (fun h => by cases h) he.symm hk ?_)
              fun n => by rw [unify_succ, h]; rfl
            rw [← hm]
            simp only [rank]
            omega
          | const d =>
            rw [app, app] at he
            cases he
          | func g bs =>
            rw [Uniform] at hx hy
            rw [app, app] at he
            rw [app, size] at hk
            injection he with h1 h2
            subst h1
            refine hstep _ (finds_args (k := k) (fun x y s hx hy hs he hlt => ?_) as bs s hx.2 hy.2 hs h2
              (by omega)) fun n => ?_
            · exact ihk _ hlt _ x y s hx hy hs he rfl rfl
            · rw [unify_succ, h]
              simp only [Res.bind, Bool.false_eq_true, if_false]
              rw [if_neg]
              rintro (h | h)
              · exact h rfl
              · exact h (by rw [hx.1, hy.1])

/-! ## The most general unifier -/

mutual
/-- The term when all bound names are replaced as often as possible. -/
inductive Resolves (s : Subst) : Term → Term → Prop
  | free (v : Bytes) : get s v = none → Resolves s (.var v) (.var v)
  | bound (v : Bytes) (t r : Term) : get s v = some t → Resolves s t r → Resolves s (.var v) r
  | const (c : Bytes) : Resolves s (.const c) (.const c)
  | func (f : Bytes) (as rs : List Term) : ResolvesArgs s as rs → Resolves s (.func f as) (.func f rs)
inductive ResolvesArgs (s : Subst) : List Term → List Term → Prop
  | nil : ResolvesArgs s [] []
  | cons (a r : Term) (as rs : List Term) : Resolves s a r → ResolvesArgs s as rs →
      ResolvesArgs s (a :: as) (r :: rs)
end

theorem resolves_unique {s : Subst} {t r : Term} (h : Resolves s t r) : ∀ r', Resolves s t r' → r = r' := by
  refine Resolves.rec (motive_1 := fun t r _ => ∀ r', Resolves s t r' → r = r')
    (motive_2 := fun as rs _ => ∀ rs', ResolvesArgs s as rs' → rs = rs') ?_ ?_ ?_ ?_ ?_ ?_ h
  · intro v hv r' h'
    cases h' with
    | free _ _ => rfl
    | bound _ t _ ht _ => rw [hv] at ht; cases ht
  · intro v t r hv _ ih r' h'
    cases h' with
    | free _ h => rw [hv] at h; cases h
    | bound _ t' _ ht h => rw [hv] at ht; cases ht; exact ih _ h
  · intro c r' h'
    cases h'
    rfl
  · intro f as rs _ ih r' h'
    cases h' with
    | func _ _ rs' h => rw [ih _ h]
  · intro rs' h'
    cases h'
    rfl
  · intro a r as rs _ _ ih1 ih2 rs' h'
    cases h' with
    | cons _ r' _ rs' h1 h2 => rw [ih1 _ h1, ih2 _ h2]

theorem resolves_app {s : Subst} {t r : Term} (h : Resolves s t r) {σ : Bytes → Term} (hσ : Solves σ s) :
    app σ t = app σ r := by
  refine Resolves.rec (motive_1 := fun t r _ => app σ t = app σ r)
    (motive_2 := fun as rs _ => appArgs σ as = appArgs σ rs) ?_ ?_ ?_ ?_ ?_ ?_ h
  · intro v _; rfl
  · intro v t r hv _ ih
    rw [app, hσ v t hv, ih]
  · intro c; rfl
  · intro f as rs _ ih
    rw [app, app, ih]
  · rfl
  · intro a r as rs _ _ h1 h2
    rw [appArgs, appArgs, h1, h2]

theorem resolves_exists {s : Subst} {σ : Bytes → Term} (hσ : Solves σ s) (ho : Ordered [] s) (k : Nat) :
    ∀ m t, size (app σ t) = k → rank s t = m → ∃ r, Resolves s t r := by
  induction k using Nat.strongRecOn with
  | ind k ihk =>
    intro m
    induction m using Nat.strongRecOn with
    | ind m ihm =>
      intro t hk hm
      cases t with
      | var v =>
        cases hv : get s v with
        | none => exact ⟨_, .free v hv⟩
        | some d =>
          have hlt := rank_edge ho hv
          rw [rank] at hm
          rw [app, hσ v d hv] at hk
          obtain ⟨r, hr⟩ := ihm _ (by omega) d hk rfl
          exact ⟨r, .bound v d r hv hr⟩
      | const c => exact ⟨_, .const c⟩
      | func f as =>
        have : ∀ as, sizeArgs (appArgs σ as) < k → ∃ rs, ResolvesArgs s as rs := by
          intro as
          induction as with
          | nil => exact fun _ => ⟨[], .nil⟩
          | cons a as ih =>
            intro h
            rw [appArgs, sizeArgs] at h
            obtain ⟨r, hr⟩ := ihk (size (app σ a)) (by omega) _ a rfl rfl
            obtain ⟨rs, hrs⟩ := ih (by omega)
            exact ⟨r :: rs, .cons a r as rs hr hrs⟩
        rw [app, size] at hk
        obtain ⟨rs, hrs⟩ := this as (by omega)
        exact ⟨_, .func f as rs hrs⟩

/-- A solvable substitution has a solution of which all others are instances. -/
theorem solved {s : Subst} {σ : Bytes → Term} (hσ : Solves σ s) (ho : Ordered [] s) :
    ∃ τ, Solves τ s ∧ ∀ σ, Solves σ s → ∀ v, σ v = app σ (τ v) := by
  have hex : ∀ t, ∃ r, Resolves s t r := fun t => resolves_exists hσ ho _ _ t rfl rfl
  let τ : Bytes → Term := fun v => Classical.choose (hex (.var v))
  have hτ : ∀ v, Resolves s (.var v) (τ v) := fun v => Classical.choose_spec (hex (.var v))
  have happ : ∀ t, Resolves s t (app τ t) := by
    intro t
    refine Term.rec (motive_1 := fun t => Resolves s t (app τ t))
      (motive_2 := fun as => ResolvesArgs s as (appArgs τ as)) ?_ ?_ ?_ ?_ ?_ t
    · intro v; exact hτ v
    · intro c; exact .const c
    · intro f as ih; exact .func f as _ ih
    · exact .nil
    · intro a as h1 h2; exact .cons a _ as _ h1 h2
  refine ⟨τ, fun v t hv => ?_, fun σ h v => ?_⟩
  · exact resolves_unique (hτ v) _ (.bound v t _ hv (happ t))
  · exact resolves_app (hτ v) h

end Che.Prog.Logic
