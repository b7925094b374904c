import Verif.Proofs.ParseStmt
import Verif.Proofs.ParseCompleteModule
/-!
# The module loop: budgets, crashes and the grammar
-/
namespace Che
open Spec

variable {ctx : ParseCtx} {ts ts' : List Token}

theorem finish_ne_diverge {objs : List ModElem} {errs : List Error} : finishModule objs errs ≠ .diverge := by
  unfold finishModule; split <;> simp

theorem finish_ne_panic {objs : List ModElem} {errs : List Error} {m : String} :
    finishModule objs errs ≠ .panic m := by
  unfold finishModule; split <;> simp

/-- What the module loop does with an element that is not an import. -/
def elemStep (ctx : ParseCtx) (n : Nat) (t : Token) (ts : List Token) : PR (ModElem × List Error) :=
  if t.kind = "macro" then
    match parseCompatMacro ctx (t :: ts) with
    | .ok r ts' => .ok (r, []) ts'
    | .err e ts' => .err e ts'
    | .panic m => .panic m
    | .diverge => .diverge
  else parseModuleObject n ctx (t :: ts)

theorem moduleLoop_import {n : Nat} {objs : List ModElem} {errs : List Error} {t : Token} {ts : List Token}
    (h : t.kind = "import") : moduleLoop ctx (n + 1) objs errs (t :: ts) = moduleLoop ctx n objs errs ts := by
  rw [moduleLoop]; simp only [h]

theorem moduleLoop_step {n : Nat} {objs : List ModElem} {errs : List Error} {t : Token} {ts : List Token}
    (h : t.kind ≠ "import") : moduleLoop ctx (n + 1) objs errs (t :: ts) =
      match elemStep ctx n t ts with
      | .ok (r, es) ts' => moduleLoop ctx n (objs ++ [r]) (errs ++ es) ts'
      | .err e _ => finishModule objs (errs ++ [e])
      | .panic m => .panic m
      | .diverge => .diverge := by
  rw [moduleLoop, elemStep]
  by_cases hm : t.kind = "macro"
  · simp only [hm, if_true]
    cases parseCompatMacro ctx (t :: ts) <;> simp
  · rw [if_neg hm]
    simp only
    cases parseModuleObject n ctx (t :: ts) <;> rfl

theorem elemStep_J (m : Nat) {n : Nat} {t : Token} {ts : List Token} (hn : 40 * (t :: ts).length + 1 ≤ n) :
    J (t :: ts) 1 False (elemStep ctx m t ts) (elemStep ctx n t ts) := by
  unfold elemStep
  split
  · have h := parseCompatMacro_J (T := False) ctx (t :: ts)
    obtain ⟨h1, _, _, _, h5⟩ := h
    cases hr : parseCompatMacro ctx (t :: ts) with
    | ok r ts' => rw [hr] at h1; exact ⟨h1, h1, fun _ => rfl, fun h => h.elim, by simp⟩
    | err e ts' => rw [hr] at h1; exact ⟨h1, h1, fun _ => rfl, fun h => h.elim, by simp⟩
    | panic s =>
      exact ⟨trivial, trivial, fun _ => rfl, fun h => h.elim, fun m e => h5 m (by rw [hr]; cases e; rfl)⟩
    | diverge => exact ⟨trivial, trivial, fun _ => rfl, fun h => h.elim, by simp⟩
  · exact parseModuleObject_J ctx m hn

/-- A budget in proportion to the number of tokens gives the answer any budget gives. -/
theorem moduleLoop_stable : ∀ (m n : Nat) (objs : List ModElem) (errs : List Error) (ts : List Token),
    40 * ts.length + 2 ≤ n → moduleLoop ctx m objs errs ts ≠ .diverge →
    moduleLoop ctx n objs errs ts = moduleLoop ctx m objs errs ts := by
  intro m
  induction m with
  | zero => intro n objs errs ts _ h; exact absurd rfl h
  | succ m ih =>
    intro n objs errs ts hn h
    obtain ⟨n, rfl⟩ : ∃ k, n = k + 1 := ⟨n - 1, by omega⟩
    cases ts with
    | nil => rfl
    | cons t ts =>
      simp only [List.length_cons] at hn
      by_cases hi : t.kind = "import"
      · rw [moduleLoop_import hi] at h ⊢
        rw [moduleLoop_import hi]
        exact ih n objs errs ts (by omega) h
      · rw [moduleLoop_step hi] at h ⊢
        rw [moduleLoop_step hi]
        have hJ := elemStep_J (ctx := ctx) (t := t) (ts := ts) m (n := n) (by simp only [List.length_cons]; omega)
        have hd : elemStep ctx m t ts ≠ .diverge := by
          intro e; rw [e] at h; exact h rfl
        rw [hJ.stable hd]
        have hl := hJ.left
        cases hr : elemStep ctx m t ts with
        | ok x ts' =>
          obtain ⟨r, es⟩ := x
          rw [hr] at h hl
          have := hl.length
          simp only [List.length_cons] at this
          exact ih n _ _ ts' (by omega) h
        | err e ts' => rfl
        | panic s => rfl
        | diverge => exact absurd hr hd

/-- A crash has a reason. -/
theorem moduleLoop_reason : ∀ (n : Nat) (objs : List ModElem) (errs : List Error) (ts : List Token) (m : String),
    moduleLoop ctx n objs errs ts = .panic m → Bad ts m := by
  intro n
  induction n with
  | zero => intro objs errs ts m h; cases h
  | succ n ih =>
    intro objs errs ts m h
    cases ts with
    | nil => exact absurd h finish_ne_panic
    | cons t ts =>
      by_cases hi : t.kind = "import"
      · rw [moduleLoop_import hi] at h
        exact (ih _ _ _ _ h).mono (by simp +contextual)
      · rw [moduleLoop_step hi] at h
        have hJ := elemStep_J (ctx := ctx) (t := t) (ts := ts) n (n := max n (40 * (t :: ts).length + 1)) (by omega)
        have hl := hJ.left
        cases hr : elemStep ctx n t ts with
        | ok x ts' =>
          obtain ⟨r, es⟩ := x
          rw [hr] at h hl
          exact (ih _ _ _ _ h).mono fun t ht => hl.mem ht
        | err e ts' => rw [hr] at h; exact absurd h finish_ne_panic
        | panic s =>
          rw [hr] at h
          cases h
          exact hJ.reason _ ((hJ.stable (by rw [hr]; simp)).trans hr)
        | diverge => rw [hr] at h; cases h

/-- The parser returns a module exactly for the token sequences of the grammar. -/
theorem parseModule_iff {n : Nat} (hn : 40 * ts.length + 2 ≤ n) (m : Module) :
    parseModule n ctx ts = .ok m ↔ ModG ctx m.elements ts ∧ m.exports = getExports m.elements := by
  refine ⟨parseModule_ok, fun ⟨h, he⟩ => ?_⟩
  obtain ⟨k, hk, h⟩ := h.parse.get 0
  have h1 := moduleLoop_stable k n [] [] ts hn (by unfold parseModule at h; rw [h]; simp)
  unfold parseModule at h ⊢
  rw [h1, h, ← he]

end Che
