import Verif.Proofs.Prog.LogicMgu
import Verif.Proofs.Prog.LogicText

/-!
C89: `unify` of prog/logic.  C90: reading and printing its terms.
-/
namespace Che.Props
open Che.Lib Che.Prog.Logic Che.Spec.Logic

/-! ## Unification -/

/-- C89: for terms in which each function name has one number of arguments, `unify` does not
fail; if it returns a substitution then the solutions of the substitution are exactly the
unifiers of the terms, and if it returns none then there is no unifier. -/
theorem C89_sound {arity : Bytes → Nat} {x y : Term} (hx : Uniform arity x) (hy : Uniform arity y) (n : Nat) :
    match unify n x y [] with
    | .ok (some s) => ∀ σ, Solves σ s ↔ Unifier σ x y
    | .ok none => ∀ σ, ¬ Unifier σ x y
    | .err _ => False
    | .panic _ => False
    | .diverge => True := by
  have h := (unify_right (arity := arity) n).1 x y [] hx hy (fun v t h => by cases h)
  have hnil : ∀ σ, Solves σ [] := fun σ v t h => by cases h
  generalize unify n x y [] = r at h
  cases r with
  | ok o =>
    cases o with
    | none => exact fun σ hu => h σ (hnil σ) hu
    | some s => exact fun σ => (h.2 σ).trans ⟨fun h => h.2, fun h => ⟨hnil σ, h⟩⟩
  | err e => exact h
  | panic m => exact h
  | diverge => trivial

/-- C89: if there is a unifier then `unify` returns a substitution (with enough steps, and then
always the same), and it describes a most general unifier: one that solves the substitution
and of which every unifier is an instance. -/
theorem C89_complete {arity : Bytes → Nat} {x y : Term} (hx : Uniform arity x) (hy : Uniform arity y)
    {σ : Bytes → Term} (hσ : Unifier σ x y) :
    ∃ n s, (∀ m, n ≤ m → unify m x y [] = .ok (some s)) ∧ ∃ τ, Solves τ s ∧ MostGeneral τ x y := by
  have hgood : Good arity σ [] :=
    ⟨fun v t h => (by cases h), trivial, fun v t h => (by cases h)⟩
  obtain ⟨n, s, hn, hs⟩ := finds_all (arity := arity) (σ := σ) _ _ x y [] hx hy hgood hσ rfl rfl
  simp only at hn
  have hsound := C89_sound hx hy n
  rw [hn] at hsound
  obtain ⟨τ, h1, h2⟩ := solved hs.solves hs.ordered
  refine ⟨n, s, fun m hm => ?_, τ, h1, (hsound τ).mp h1, fun σ hσ => h2 σ ((hsound σ).mpr hσ)⟩
  rw [mono_le (fun n => (unify_mono n).1 x y []) (by rw [hn]; simp) hm, hn]

/-- C89: what `unify` returns, if anything, does not depend on the number of steps. -/
theorem C89_steps {x y : Term} {n m : Nat} (hn : unify n x y [] ≠ .diverge) (hm : unify m x y [] ≠ .diverge) :
    unify n x y [] = unify m x y [] := by
  have h := fun n => (unify_mono n).1 x y []
  rcases Nat.le_total n m with hle | hle
  · exact (mono_le h hn hle).symm
  · exact mono_le h hm hle

/-- C89: the terms `x` and `f(x)` have no unifier, and `unify` returns `{X = f(X)}` for them:
its occurs check looks for the term in the variable. -/
theorem C89_counterexample_occurs :
    unify 9 (.var [88]) (.func [102] [.var [88]]) [] = .ok (some [([88], .func [102] [.var [88]])]) ∧
    ∀ σ, ¬ Unifier σ (.var [88]) (.func [102] [.var [88]]) := by
  refine ⟨rfl, fun σ h => ?_⟩
  unfold Unifier at h
  simp only [app, appArgs] at h
  have := congrArg size h
  simp only [size, sizeArgs] at this
  omega

/-- The terms `g(X)` and `g(Y)` after `X = g(X)` and `Y = g(Y)`. -/
private theorem cycle (n : Nat) :
    unify n (.func [103] [.var [88]]) (.func [103] [.var [89]])
      [([88], .func [103] [.var [88]]), ([89], .func [103] [.var [89]])] = .diverge ∧
    unify n (.func [103] [.var [89]]) (.func [103] [.var [88]])
      [([88], .func [103] [.var [88]]), ([89], .func [103] [.var [89]])] = .diverge := by
  induction n using Nat.strongRecOn with
  | ind n ih =>
    match n with
    | 0 => exact ⟨rfl, rfl⟩
    | 1 => exact ⟨rfl, rfl⟩
    | 2 => exact ⟨rfl, rfl⟩
    | 3 => exact ⟨rfl, rfl⟩
    | 4 => exact ⟨rfl, rfl⟩
    | 5 => exact ⟨rfl, rfl⟩
    | n + 6 =>
      have h1 := (ih n (by omega)).1
      have h2 := (ih n (by omega)).2
      constructor
      · have : unify (n + 6) (.func [103] [.var [88]]) (.func [103] [.var [89]])
            [([88], .func [103] [.var [88]]), ([89], .func [103] [.var [89]])] =
          ((unify n (.func [103] [.var [89]]) (.func [103] [.var [88]])
            [([88], .func [103] [.var [88]]), ([89], .func [103] [.var [89]])]).bind fun r =>
            match r with
            | none => .ok none
            | some s => unifyArgs (n + 4) [] [] s) := rfl
        rw [this, h2]
        rfl
      · have : unify (n + 6) (.func [103] [.var [89]]) (.func [103] [.var [88]])
            [([88], .func [103] [.var [88]]), ([89], .func [103] [.var [89]])] =
          ((unify n (.func [103] [.var [88]]) (.func [103] [.var [89]])
            [([88], .func [103] [.var [88]]), ([89], .func [103] [.var [89]])]).bind fun r =>
            match r with
            | none => .ok none
            | some s => unifyArgs (n + 4) [] [] s) := rfl
        rw [this, h1]
        rfl

/-- C89: for `f(X, Y, X)` and `f(g(X), g(Y), Y)` `unify` does not return (by `C89_complete` they
have no unifier). -/
theorem C89_counterexample_endless (n : Nat) :
    unify n (.func [102] [.var [88], .var [89], .var [88]])
      (.func [102] [.func [103] [.var [88]], .func [103] [.var [89]], .var [89]]) [] = .diverge := by
  match n with
  | 0 | 1 | 2 | 3 | 4 | 5 | 6 | 7 => rfl
  | n + 8 =>
    have : unify (n + 8) (.func [102] [.var [88], .var [89], .var [88]])
        (.func [102] [.func [103] [.var [88]], .func [103] [.var [89]], .var [89]]) [] =
      ((unify n (.func [103] [.var [89]]) (.func [103] [.var [88]])
        [([88], .func [103] [.var [88]]), ([89], .func [103] [.var [89]])]).bind fun r =>
        match r with
        | none => .ok none
        | some s => unifyArgs (n + 4) [] [] s) := rfl
    rw [this, (cycle n).2]
    rfl

/-- C89: `f(a)` and `f(a, b)` have no unifier and `unify` takes them for equal, though not in
the other order. -/
theorem C89_counterexample_arity :
    unify 9 (.func [102] [.const [97]]) (.func [102] [.const [97], .const [98]]) [] = .ok (some []) ∧
    (∀ σ, ¬ Unifier σ (.func [102] [.const [97]]) (.func [102] [.const [97], .const [98]])) ∧
    unify 9 (.func [102] [.const [97], .const [98]]) (.func [102] [.const [97]]) [] =
      .panic "undefined: NULL is used as a term" := by
  refine ⟨rfl, fun σ h => ?_, rfl⟩
  unfold Unifier at h
  simp [app, appArgs] at h

/- The fourth line of the program: `f(a, V, bar(D))` and `f(D, k, bar(a))` give `D=a V=k`. -/
example : run 20 [102, 40, 97, 44, 32, 86, 44, 32, 98, 97, 114, 40, 68, 41, 41]
    [102, 40, 68, 44, 32, 107, 44, 32, 98, 97, 114, 40, 97, 41, 41] = .ok [68, 61, 97, 32, 86, 61, 107, 10] := by
  decide +kernel

/- `f(X, Y)` and `f(Z, g(X))`. -/
example : unify 9 (.func [102] [.var [88], .var [89]]) (.func [102] [.var [90], .func [103] [.var [88]]]) [] =
    .ok (some [([88], .var [90]), ([89], .func [103] [.var [88]])]) := rfl

/- `f(X, Y, X)` and `f(r, g(X), p)`. -/
example : unify 9 (.func [102] [.var [88], .var [89], .var [88]])
    (.func [102] [.const [114], .func [103] [.var [88]], .const [112]]) [] = .ok none := rfl

/-! ## Text -/

/-- C90: a term with names of at most nine letters and at most ten arguments is printed as a
text from which it is read back. -/
theorem C90_round_trip (t : Term) (h : Readable t) : parse_term (print_term t) = .ok t := by
  obtain ⟨b', e, _⟩ := parse_print t h (2 * (print_term t).length + 2) (Tok.from_str (print_term t)) []
    (by omega) (by rw [List.append_nil]; exact from_str_at _) (fun c hc => by cases hc)
  unfold parse_term
  rw [e]
  rfl

/-- C90: reading ends for every text; a term that is read is printed as a text from which it is
read again; otherwise a bracket is missing, a name has ten letters or more, or there are more
than ten arguments. -/
theorem C90_read (s : Bytes) :
    (∃ t, parse_term s = .ok t ∧ Readable t ∧ parse_term (print_term t) = .ok t) ∨
    parse_term s = .panic "logic.c:164: missing closing brace" ∨
    parse_term s = .panic "undefined: write past the end of name" ∨
    parse_term s = .panic "undefined: write past the end of args" := by
  have h := (parse_ended (2 * s.length + 2)).1 _ _ (from_str_at s) (Nat.le_refl _)
  unfold parse_term
  generalize parse_term1 (2 * s.length + 2) (Tok.from_str s) = r at h
  cases r with
  | ok p =>
    obtain ⟨b, t⟩ := p
    exact .inl ⟨t, rfl, h.1, C90_round_trip t h.1⟩
  | err e => exact h.elim
  | panic m =>
    rcases h with rfl | rfl | rfl
    · exact .inr (.inr (.inl rfl))
    · exact .inr (.inr (.inr rfl))
    · exact .inr (.inl rfl)
  | diverge => exact h.elim

/-- C89 and C90: for two texts of terms the program prints `NULL` only if the terms have no
unifier, and otherwise the entries of a substitution whose solutions are the unifiers. -/
theorem C90_run {arity : Bytes → Nat} {x y : Term} (hx : Uniform arity x) (hy : Uniform arity y)
    (rx : Readable x) (ry : Readable y) (n : Nat) :
    (run n (print_term x) (print_term y) = .ok [78, 85, 76, 76, 10] ∧ ∀ σ, ¬ Unifier σ x y) ∨
    (∃ s, run n (print_term x) (print_term y) = .ok (print_map s ++ [10]) ∧ ∀ σ, Solves σ s ↔ Unifier σ x y) ∨
    run n (print_term x) (print_term y) = .diverge := by
  unfold run
  rw [C90_round_trip x rx, C90_round_trip y ry]
  have h := C89_sound hx hy n
  simp only [Res.bind]
  generalize unify n x y [] = r at h
  cases r with
  | ok o =>
    cases o with
    | none => exact .inl ⟨rfl, h⟩
    | some s => exact .inr (.inl ⟨s, rfl, h⟩)
  | err e => exact h.elim
  | panic m => exact h.elim
  | diverge => exact .inr (.inr rfl)

/- `f(a, V, X)` -/
example : print_term (.func [102] [.const [97], .var [86], .var [88]]) =
    [102, 40, 97, 44, 32, 86, 44, 32, 88, 41] := by rfl

example : Readable (.func [102] [.const [97], .var [86], .var [88]]) := by
  simp only [Readable, ReadableArgs, Name, Small]
  decide

/-- C90: the name of a term can be read past its end: a name of ten letters. -/
theorem C90_counterexample_name :
    parse_term [97, 98, 99, 100, 101, 102, 103, 104, 105, 106] = .panic "undefined: write past the end of name" := by
  rfl

end Che.Props
