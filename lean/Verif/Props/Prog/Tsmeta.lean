import Verif.Proofs.Prog.Tsmeta

/-!
C165: what calls of types are in tsmeta.
-/
namespace Che.Props
open Che.Lib Che.Prog.Tsmeta Che.Spec.Tsmeta

/-- A call of a type has a result just when the expression of the type with the arguments in the place of the parameters has, and it is the same,
if the names of the type and of its parameters are not used elsewhere.
Missing: what is false of the code when they are (see `C165_counterexample_capture`). -/
theorem C165_partial (types : List Def) (name : Bytes) (ps : List Bytes) (body : E) (args : List E) (r : E)
    (hd : get_tdef types name = some ⟨name, ps, some body⟩) (hn : ps.Nodup) (ha : Apart types name ps body args) :
    (∃ k, eval k types (.call name args) = .ok r) ↔ ∃ k, eval k types (subst (argument ps args) body) = .ok r := by
  constructor
  · rintro ⟨k, h⟩
    cases k with
    | zero => rw [eval] at h; cases h
    | succ k =>
      rw [eval, hd] at h
      exact ⟨k, sim ha hn k _ types body r .base ha.own.1 h⟩
  · rintro ⟨k, h⟩
    refine ⟨2 * k + 1, ?_⟩
    rw [eval, hd]
    exact sim_back ha hn k _ types body r .base ha.own.1 h

/-- There is at most one result, whatever the bounds on the depth are. -/
theorem C165_unique (types : List Def) (e r s : E) (k m : Nat) (h1 : eval k types e = .ok r) (h2 : eval m types e = .ok s) : r = s := by
  have up : ∀ (d k : Nat) (r : E), eval k types e = .ok r → eval (k + d) types e = .ok r := by
    intro d
    induction d with
    | zero => intro k r h; exact h
    | succ d ih => intro k r h; exact eval_mono (k + d) types e r (ih k r h)
  have a := up m k r h1
  have b := up k m s h2
  rw [Nat.add_comm m k, a] at b
  cases b
  rfl

/-- Expressions without names are their own results. -/
theorem C165_values (types : List Def) (e : E) (h : names e = []) : ∃ k, eval k types e = .ok e :=
  (value_eval types e h).imp fun k hk => hk k (Nat.le_refl k) types

/-- A call of a type whose expression has only names of parameters has a result, if the arguments are values: the expression with the arguments in it. -/
theorem C165_result (types : List Def) (name : Bytes) (ps : List Bytes) (body : E) (args : List E)
    (hd : get_tdef types name = some ⟨name, ps, some body⟩) (hn : ps.Nodup) (hl : ps.length = args.length)
    (hb : ∀ n ∈ names body, n ∈ ps) (ha : namesAll args = []) : ∃ k, eval k types (.call name args) = .ok (subst (argument ps args) body) := by
  obtain ⟨k, hk⟩ := closed_eval types hn hl ha body hb
  exact ⟨k + 1, by rw [eval, hd]; exact hk k (Nat.le_refl k)⟩

/-- A name that is not defined is an error. -/
theorem C165_unknown (k : Nat) (types : List Def) (name : Bytes) (args : List E) (h : ∀ d ∈ types, d.name ≠ name) :
    eval (k + 1) types (.call name args) = .panic "unknown identifier" := by
  rw [eval]
  cases hg : get_tdef types name with
  | none => rfl
  | some d => exact absurd (get_mem hg).2 (h d (get_mem hg).1)

private def wrap : Def := ⟨cstr "Wrap", [cstr "T"], some (.list [.call (cstr "T") []])⟩
private def other : Def := ⟨cstr "G", [cstr "T"], some (.call (cstr "Wrap") [.call (cstr "T") []])⟩

/-- `type Wrap<T> = [T]`, `type G<T> = Wrap<T>`: `G<1>` has no result, as the parameter of `Wrap` is its own argument. -/
theorem C165_counterexample_capture (k : Nat) : eval k [other, wrap] (.call (cstr "G") [.num (cstr "1")]) = .diverge := by
  have loop : ∀ (k : Nat) (types : List Def), get_tdef types (cstr "T") = some ⟨cstr "T", [], some (.call (cstr "T") [])⟩ →
      eval k types (.call (cstr "T") []) = .diverge := by
    intro k
    induction k with
    | zero => intro types _; rw [eval]
    | succ k ih =>
      intro types h
      rw [eval, h]
      exact ih types h
  match k with
  | 0 => rw [eval]
  | 1 => rfl
  | 2 => rfl
  | k + 3 =>
    rw [eval, show get_tdef [other, wrap] (cstr "G") = some other from if_pos rfl]
    show eval (k + 2) (push [cstr "T"] [.num (cstr "1")] [other, wrap]) (.call (cstr "Wrap") [.call (cstr "T") []]) = _
    rw [eval, show get_tdef (push [cstr "T"] [.num (cstr "1")] [other, wrap]) (cstr "Wrap") = some wrap from by
      show get_tdef (_ :: other :: wrap :: []) _ = _
      rw [get_tdef, if_neg (by decide +kernel), get_tdef, if_neg (by decide +kernel), get_tdef]
      exact if_pos rfl]
    show eval (k + 1) (push [cstr "T"] [.call (cstr "T") []] _) (.list [.call (cstr "T") []]) = _
    rw [eval, evalAll, loop k _ (by show get_tdef (_ :: _) _ = _; rw [get_tdef, if_pos rfl]; rfl)]
    rfl

/-- `Wrap` without an argument. -/
theorem C165_counterexample_missing : eval 3 [wrap] (.call (cstr "Wrap") []) = .panic "undefined: no expression" := by
  show eval 3 [wrap] _ = _
  rw [eval, show get_tdef [wrap] (cstr "Wrap") = some wrap from if_pos rfl]
  rfl

/-- `Wrap<1>` is `[1]`. -/
example : ∃ k, eval k [wrap] (.call (cstr "Wrap") [.num (cstr "1")]) = .ok (.list [.num (cstr "1")]) := by
  have := C165_result [wrap] (cstr "Wrap") [cstr "T"] (.list [.call (cstr "T") []]) [.num (cstr "1")] (if_pos rfl) (by simp) rfl
    (by simp [names, namesAll]) (by simp [names, namesAll])
  simpa [subst, substAll, argument] using this

/-- `Wrap<A>` is what `[A]` is. -/
example (a r : E) (hv : names a = []) : (∃ k, eval k [⟨cstr "A", [], some a⟩, wrap] (.call (cstr "Wrap") [.call (cstr "A") []]) = .ok r) ↔
    ∃ k, eval k [⟨cstr "A", [], some a⟩, wrap] (.list [.call (cstr "A") []]) = .ok r := by
  have e1 : cstr "A" ≠ cstr "Wrap" := by decide +kernel
  have e2 : cstr "A" ≠ cstr "T" := by decide +kernel
  have e3 : cstr "T" ≠ cstr "Wrap" := by decide +kernel
  have := C165_partial [⟨cstr "A", [], some a⟩, wrap] (cstr "Wrap") [cstr "T"] (.list [.call (cstr "T") []]) [.call (cstr "A") []] r
    (by rw [get_tdef, if_neg e1, get_tdef]; exact if_pos rfl) (by simp)
    { own := by simp [names, namesAll, e3.symm]
      args := by simp [names, namesAll, e1, e2]
      other := by
        intro d hd hne
        simp only [List.mem_cons, List.not_mem_nil, or_false] at hd
        rcases hd with rfl | rfl
        · refine ⟨by simp [e2], by simp, fun e he n hm => ?_⟩
          cases he
          rw [hv] at hm
          cases hm
        · exact absurd rfl hne }
  simpa [subst, substAll, argument] using this
end Che.Props
