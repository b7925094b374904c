import Verif.Proofs.Lib.Opt

/-!
C94 options of a program.
-/
namespace Che.Props
open Che.Lib Che.Lib.Opt Che.Spec.Opt

/-- C94: options are declared, in order, when their names have one letter at most and there
are 32 of them at most. -/
theorem C94_declare (nargs : Option (Nat × Bool)) (ds : List (Ty × Bytes)) (o : Opts) :
    declareAll nargs ds ⟨[], none⟩ = .ok o ↔
      (∀ d ∈ ds, d.2.length ≤ 1) ∧ ds.length ≤ 32 ∧ o = ⟨ds.map (fun d => ⟨d.1, d.2⟩), nargs⟩ := by
  have gen : ∀ o0 : Opts, (o0.specs.length ≤ 32) → (declareAll nargs ds o0 = .ok o ↔
      (∀ d ∈ ds, d.2.length ≤ 1) ∧ o0.specs.length + ds.length ≤ 32 ∧
        o = ⟨o0.specs ++ ds.map (fun d => ⟨d.1, d.2⟩), nargs⟩) := by
    induction ds with
    | nil =>
      intro o0 h0
      simp only [declareAll, Res.ok.injEq, List.map_nil, List.append_nil, List.length_nil, Nat.add_zero]
      exact ⟨fun h => ⟨by simp, h0, h.symm⟩, fun h => h.2.2.symm⟩
    | cons d ds ih =>
      obtain ⟨ty, name⟩ := d
      intro o0 h0
      rw [declareAll, declare]
      by_cases h1 : name.length > 1
      · rw [if_pos h1]
        constructor
        · intro h; cases h
        · rintro ⟨h, -⟩
          have := h (ty, name) (by simp)
          simp only at this
          omega
      · rw [if_neg h1]
        by_cases h2 : o0.specs.length ≥ 32
        · rw [if_pos h2]
          constructor
          · intro h; cases h
          · rintro ⟨-, h, -⟩
            simp only [List.length_cons] at h
            omega
        · rw [if_neg h2]
          simp only [Res.bind]
          rw [ih _ (by simp only [List.length_append, List.length_singleton]; omega)]
          simp only [List.length_append, List.length_cons, List.length_nil, List.map_cons, List.append_assoc,
            List.singleton_append, List.forall_mem_cons]
          constructor
          · rintro ⟨a, b, c⟩; exact ⟨⟨by omega, a⟩, by omega, c⟩
          · rintro ⟨⟨_, a⟩, b, c⟩; exact ⟨a, by omega, c⟩
  have := gen ⟨[], none⟩ (by simp)
  simpa using this

/-- C94: arguments are accepted exactly when they are a line of options followed by as many
positional arguments as asked for; the values set and the positional arguments are those of
the line. -/
theorem C94_parse {F : Type} (scan : Bytes → Option F) (nargs : Option (Nat × Bool)) (ds : List (Ty × Bytes)) (o : Opts)
    (ho : declareAll nargs ds ⟨[], none⟩ = .ok o) (args : List Bytes) (h0 : ∀ a ∈ args, (0 : UInt8) ∉ a)
    (st : List (Nat × Val F)) (r : List Bytes) :
    parse scan o args = .ok (r, st) ↔
      Line scan (ds.map fun d => ⟨d.1, d.2⟩) args st r ∧ ∀ n b, nargs = some (n, b) → r.length = n := by
  obtain ⟨hs, e1, e2⟩ := declareAll_spec nargs ds _ o ho (by intro s hs; simp at hs)
  simp only [List.nil_append] at e1
  have := parseLoop_spec scan hs (args.length + 1) args h0 (by omega) []
  rw [e1] at this
  unfold parse
  generalize parseLoop scan o (args.length + 1) args [] = res at this
  cases this with
  | ok st1 r1 hL hu hno =>
    simp only [Res.bind, List.nil_append]
    rcases checkNargs_spec o r1.length with ⟨hc, h⟩ | ⟨⟨m, hc⟩, n, b, hn, hne⟩
    · rw [hc]
      simp only [Res.ok.injEq, Prod.mk.injEq]
      constructor
      · rintro ⟨rfl, rfl⟩; exact ⟨hL, fun n b hn => h n b (e2.trans hn)⟩
      · rintro ⟨hL', -⟩
        obtain ⟨rfl, rfl⟩ := hu _ _ hL'
        exact ⟨rfl, rfl⟩
    · rw [hc]
      constructor
      · intro h; cases h
      · rintro ⟨hL', h⟩
        obtain ⟨rfl, rfl⟩ := hu _ _ hL'
        exact absurd (h n b (e2.symm.trans hn)) hne
  | err m hL hno =>
    constructor
    · intro h; cases h
    · rintro ⟨h, -⟩; exact absurd h (hL _ _)
  | panic m hL hov =>
    constructor
    · intro h; cases h
    · rintro ⟨h, -⟩; exact absurd h (hL _ _)

/-- C94: a command line means one thing at most. -/
theorem C94_unambiguous {F : Type} (scan : Bytes → Option F) (specs : List Spec) (hs : ∀ s ∈ specs, s.name.length ≤ 1)
    (args : List Bytes) (h0 : ∀ a ∈ args, (0 : UInt8) ∉ a) (st st' : List (Nat × Val F)) (r r' : List Bytes)
    (h : Line scan specs args st r) (h' : Line scan specs args st' r') : st = st' ∧ r = r' := by
  have := parseLoop_spec scan (o := ⟨specs, none⟩) hs (args.length + 1) args h0 (by omega) []
  generalize parseLoop scan _ (args.length + 1) args [] = res at this
  cases this with
  | ok st1 r1 hL hu hno => exact ⟨(hu _ _ h).1.trans (hu _ _ h').1.symm, (hu _ _ h).2.trans (hu _ _ h').2.symm⟩
  | err m hL => exact absurd h (hL _ _)
  | panic m hL => exact absurd h (hL _ _)

/-- C94: the program exits with a message for all other arguments, except that what happens
is not defined when a number is given that its type does not hold. -/
theorem C94_refused_partial {F : Type} (scan : Bytes → Option F) (nargs : Option (Nat × Bool)) (ds : List (Ty × Bytes)) (o : Opts)
    (ho : declareAll nargs ds ⟨[], none⟩ = .ok o) (args : List Bytes) (h0 : ∀ a ∈ args, (0 : UInt8) ∉ a)
    (hno : ¬ ∃ st r, Line scan (ds.map fun d => ⟨d.1, d.2⟩) args st r ∧ ∀ n b, nargs = some (n, b) → r.length = n) :
    ((∃ m, parse scan o args = .err m) ↔ ¬ Overflow scan (ds.map fun d => ⟨d.1, d.2⟩) args) ∧
    ((∃ m, parse scan o args = .panic m) ↔ Overflow scan (ds.map fun d => ⟨d.1, d.2⟩) args) := by
  obtain ⟨hs, e1, e2⟩ := declareAll_spec nargs ds _ o ho (by intro s hs; simp at hs)
  simp only [List.nil_append] at e1
  have hp := C94_parse scan nargs ds o ho args h0
  have := parseLoop_spec scan hs (args.length + 1) args h0 (by omega) []
  rw [e1] at this
  unfold parse at hp ⊢
  generalize parseLoop scan o (args.length + 1) args [] = res at this hp
  cases this with
  | ok st1 r1 hL hu hov =>
    simp only [Res.bind, List.nil_append] at hp ⊢
    rcases checkNargs_spec o r1.length with ⟨hc, h⟩ | ⟨⟨m, hc⟩, n, b, hn, hne⟩
    · rw [hc] at hp
      exact absurd ⟨st1, r1, (hp _ _).mp rfl⟩ hno
    · rw [hc]
      exact ⟨⟨fun _ => hov, fun _ => ⟨m, rfl⟩⟩, ⟨fun ⟨_, h⟩ => (nomatch h), fun h => absurd h hov⟩⟩
  | err m hL hov => exact ⟨⟨fun _ => hov, fun _ => ⟨m, rfl⟩⟩, ⟨fun ⟨_, h⟩ => (nomatch h), fun h => absurd h hov⟩⟩
  | panic m hL hov =>
    exact ⟨⟨fun ⟨_, h⟩ => (nomatch h), fun h => absurd hov h⟩, ⟨fun _ => hov, fun _ => ⟨m, rfl⟩⟩⟩

/-- C94 is false of large numbers: `-n 2147483648` is a number, and it has no defined outcome. -/
theorem C94_counterexample : ∃ m, parse (F := Unit) (fun _ => none) ⟨[⟨.int, [110]⟩], none⟩
    [[45, 110], [50, 49, 52, 55, 52, 56, 51, 54, 52, 56]] = .panic m := ⟨_, rfl⟩

/-- C94: of several values for one option the last one stays. -/
theorem C94_last {F : Type} (i : Nat) (st : List (Nat × Val F)) :
    (∀ x, stored i st = some x ↔ ∃ a b, st = a ++ (i, x) :: b ∧ ∀ p ∈ b, p.1 ≠ i) ∧
    (stored i st = none ↔ ∀ p ∈ st, p.1 ≠ i) := by
  have gen : ∀ (st : List (Nat × Val F)),
      (stored i st = none ∧ ∀ p ∈ st, p.1 ≠ i) ∨
      (∃ x a b, stored i st = some x ∧ st = a ++ (i, x) :: b ∧ ∀ p ∈ b, p.1 ≠ i) := by
    intro st
    induction hl : st.length generalizing st with
    | zero => rw [List.length_eq_zero_iff.mp hl]; exact .inl ⟨rfl, by simp⟩
    | succ k ih =>
      have hne : st ≠ [] := by rintro rfl; simp at hl
      obtain ⟨⟨j, y⟩, s', rfl⟩ : ∃ p s', st = s' ++ [p] := ⟨st.getLast hne, st.dropLast, (List.dropLast_concat_getLast hne).symm⟩
      have hst : stored i (s' ++ [(j, y)]) = if j = i then some y else stored i s' := by
        simp [stored, List.foldl_append]
      rw [hst]
      by_cases hj : j = i
      · subst hj
        rw [if_pos rfl]
        exact .inr ⟨y, s', [], rfl, rfl, by simp⟩
      · rw [if_neg hj]
        rcases ih s' (by simpa using hl) with ⟨h1, h2⟩ | ⟨x, a, b, h1, rfl, h2⟩
        · refine .inl ⟨h1, ?_⟩
          intro p hp
          rcases List.mem_append.mp hp with h | h
          · exact h2 p h
          · simp at h; subst h; exact hj
        · refine .inr ⟨x, a, b ++ [(j, y)], h1, by simp, ?_⟩
          intro p hp
          rcases List.mem_append.mp hp with h | h
          · exact h2 p h
          · simp at h; subst h; exact hj
  have back : ∀ (x : Val F) (a b : List (Nat × Val F)), (∀ p ∈ b, p.1 ≠ i) → stored i (a ++ (i, x) :: b) = some x := by
    intro x a b hb
    simp only [stored, List.foldl_append, List.foldl_cons, if_true]
    generalize some x = acc
    induction b generalizing acc with
    | nil => rfl
    | cons p b ih =>
      rw [List.foldl_cons, if_neg (hb p (by simp))]
      exact ih (fun q hq => hb q (by simp [hq])) acc
  constructor
  · intro x
    constructor
    · intro h
      rcases gen st with ⟨h1, -⟩ | ⟨x', a, b, h1, h2, h3⟩
      · rw [h1] at h; cases h
      · rw [h1] at h; cases h; exact ⟨a, b, h2, h3⟩
    · rintro ⟨a, b, rfl, h⟩; exact back x a b h
  · constructor
    · intro h
      rcases gen st with ⟨_, h2⟩ | ⟨x', a, b, h1, _, _⟩
      · exact h2
      · rw [h1] at h; cases h
    · intro h
      rcases gen st with ⟨h1, _⟩ | ⟨x', a, b, _, rfl, _⟩
      · exact h1
      · exact absurd rfl (h (i, x') (by simp))

/-- C94: a subcommand is called by its name, the first one of that name, with the arguments
from the name on. -/
theorem C94_dispatch (cmds argv : List Bytes) (i : Nat) (rest : List Bytes) :
    dispatch cmds argv = some (i, rest) ↔
      ∃ prog name args, argv = prog :: name :: args ∧ rest = name :: args ∧ cmds[i]? = some name ∧
        ∀ j, j < i → cmds[j]? ≠ some name := by
  unfold dispatch
  split
  · rename_i p name args
    constructor
    · intro h
      split at h
      · rename_i k hk
        cases h
        rw [List.findIdx?_eq_some_iff_getElem] at hk
        obtain ⟨hl, h1, h2⟩ := hk
        refine ⟨p, name, args, rfl, rfl, ?_, ?_⟩
        · rw [List.getElem?_eq_getElem hl]; simpa using h1
        · intro j hj
          rw [List.getElem?_eq_getElem (by omega)]
          simpa using h2 j hj
      · cases h
    · rintro ⟨p', name', args', h1, h2, h3, h4⟩
      cases h1
      obtain ⟨hl, h3⟩ := List.getElem?_eq_some_iff.mp h3
      have : cmds.findIdx? (fun c => c = name) = some i := by
        rw [List.findIdx?_eq_some_iff_getElem]
        refine ⟨hl, by simpa using h3, ?_⟩
        intro j hj
        have := h4 j hj
        rw [List.getElem?_eq_getElem (by omega)] at this
        simpa using this
      rw [this, h2]
  · rename_i hne
    constructor
    · intro h; cases h
    · rintro ⟨p', name', args', h1, -⟩
      exact absurd h1 (hne p' name' args')

/-! `prog -vx -n -12 - -v` with flags `v` and `x` and a number `n`. -/
example : parse (F := Unit) (fun _ => none) ⟨[⟨.bool, [118]⟩, ⟨.int, [110]⟩, ⟨.bool, [120]⟩], some (2, false)⟩
    [[45, 118, 120], [45, 110], [45, 49, 50], [45], [45, 118]] =
    .ok ([[45], [45, 118]], [(0, .true), (2, .true), (1, .int (-12))]) := by decide
example : declareAll (some (2, false)) [(.bool, [118]), (.int, [110]), (.bool, [120])] ⟨[], none⟩ =
    .ok ⟨[⟨.bool, [118]⟩, ⟨.int, [110]⟩, ⟨.bool, [120]⟩], some (2, false)⟩ := by decide
example : stored (F := Unit) 1 [(1, .int 5), (0, .true), (1, .int 6), (0, .true)] = some (.int 6) := by decide
example : dispatch [[97], [98], [98]] [[112], [98], [99]] = some (1, [[98], [99]]) := by decide
end Che.Props
