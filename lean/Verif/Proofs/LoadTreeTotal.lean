import Verif.Proofs.LoadTree
import Mathlib.Data.List.Nodup
import Mathlib.Data.List.Perm.Subperm
import Mathlib.Data.List.Chain
/-!
# `load_tree` terminates on finite import graphs, and why it fails
-/
set_option linter.unusedSectionVars false

namespace Che
open Spec

variable {pre : String → Res String ModuleInfo}

/-- An import loop found by following `trail` from `main`. -/
def LoopAt (pre : String → Res String ModuleInfo) (main : String) (e : String) : Prop :=
  ∃ trail c, e = "import loop: " ++ RStr.join " -> " trail ++ " -> " ++ c ∧
    trail.head? = some main ∧ c ∈ trail ∧ List.IsChain (Imports pre) (trail ++ [c])

/-- Budget for a subtree when `d` more paths can still be pushed on the crumbs
and no file has more than `K` imports. -/
def treeFuel (K d : Nat) : Nat := (d + 1) * (K + 2)

theorem treeFuel_succ (K d : Nat) : treeFuel K (d + 1) = treeFuel K d + K + 2 := by
  unfold treeFuel; rw [Nat.add_mul (d+1) 1]; omega

/-- The crumbs lead from `main` to `p`. -/
def Trail (pre : String → Res String ModuleInfo) (main : String) (crumbs : List String)
    (p : String) : Prop :=
  List.IsChain (Imports pre) (crumbs ++ [p]) ∧ (crumbs ++ [p]).head? = some main

theorem Trail.reach {main p : String} {crumbs : List String} (h : Trail pre main crumbs p) :
    Reach pre main p := by
  obtain ⟨h1, h2⟩ := h
  cases crumbs with
  | nil => simp at h2; subst h2; exact .refl
  | cons a as =>
    simp only [List.cons_append, List.head?_cons, Option.some.injEq] at h2
    subst h2
    have := List.relationReflTransGen_of_exists_isChain_cons (as ++ [p]) h1 (b := p) (by simp)
    exact this

theorem Trail.push {main p q : String} {crumbs : List String} (h : Trail pre main crumbs p)
    (hq : Imports pre p q) : Trail pre main (crumbs ++ [p]) q := by
  obtain ⟨h1, h2⟩ := h
  refine ⟨?_, ?_⟩
  · rw [List.isChain_append]
    refine ⟨h1, by simp, ?_⟩
    intro x hx y hy
    simp at hx hy
    subst hx; subst hy; exact hq
  · cases crumbs <;> simp_all

variable {main : String} {nodes : List String} {K : Nat}
  (hfin : ∀ q, Reach pre main q → q ∈ nodes ∧ ∃ m, pre q = .ok m)
  (hK : ∀ q m, Reach pre main q → pre q = .ok m → m.imports.length ≤ K)

include hfin hK

mutual
/-- Within the budget a subtree is listed or a loop is found. -/
theorem loadTree_total : ∀ (n : Nat) {c : Cache} {p : String} {crumbs : List String},
    CacheOk pre c → Trail pre main crumbs p → crumbs.Nodup → crumbs.length ≤ nodes.length →
    treeFuel K (nodes.length - crumbs.length) ≤ n →
    (∃ r, loadTree pre n c p crumbs = .ok r) ∨
    (∃ e, loadTree pre n c p crumbs = .err e ∧ LoopAt pre main e)
  | 0, _, _, _, _, _, _, _, hn => by
    simp only [treeFuel] at hn
    have := Nat.mul_le_mul (Nat.le_add_left 1 (nodes.length - List.length ‹_›)) (Nat.le_add_left 2 K)
    omega
  | n + 1, c, p, crumbs, hc, ht, hnd, hlen, hn => by
    unfold loadTree
    split
    · rename_i hcr
      right
      refine ⟨_, rfl, crumbs, p, rfl, ?_, by simpa using hcr, ht.1⟩
      cases crumbs with
      | nil => simp at hcr
      | cons a as => simpa using ht.2
    · rename_i hcr
      have hcr : p ∉ crumbs := by simpa using hcr
      obtain ⟨_, m, hm⟩ := hfin p ht.reach
      obtain ⟨c1, hc1⟩ := cachedPreparse_of_ok hc hm
      rw [hc1]
      obtain ⟨_, hok1, _, _⟩ := cachedPreparse_ok hc hc1
      have hnd' : (crumbs ++ [p]).Nodup := by
        rw [List.nodup_append]; refine ⟨hnd, by simp, ?_⟩
        intro a ha b hb; simp at hb; subst hb; intro e; subst e; exact hcr ha
      have hsub : crumbs ++ [p] ⊆ nodes := by
        intro x hx
        refine (hfin x ?_).1
        -- every element of the trail is reachable
        obtain ⟨h1, h2⟩ := ht
        cases hcp : crumbs ++ [p] with
        | nil => rw [hcp] at hx; cases hx
        | cons a as =>
          rw [hcp] at h1 h2 hx
          simp only [List.head?_cons, Option.some.injEq] at h2
          subst h2
          rcases List.mem_cons.1 hx with rfl | hx
          · exact .refl
          · exact List.IsChain.cons_induction (fun x => Reach pre a x) as h1
              (fun _ _ hxy hy => Relation.ReflTransGen.tail hy hxy) .refl x hx
      have hle : (crumbs ++ [p]).length ≤ nodes.length := (List.subperm_of_subset hnd' hsub).length_le
      simp only [List.length_append, List.length_cons, List.length_nil] at hle
      have hd : nodes.length - crumbs.length = (nodes.length - (crumbs ++ [p]).length) + 1 := by
        simp only [List.length_append, List.length_cons, List.length_nil]; omega
      rw [hd, treeFuel_succ] at hn
      have hkk := hK p m ht.reach hm
      have := loadImports_total n (ps := m.imports.map (·.path)) hok1
        (fun q hq => ht.push ⟨m, hm, hq⟩) hnd' (by simpa using hle)
        (by simp only [List.length_map]; omega)
      rcases this with ⟨⟨r, c2⟩, hr⟩ | ⟨e, he, hl⟩
      · left; simp only [hr]; exact ⟨_, rfl⟩
      · right; simp only [he]; exact ⟨_, rfl, hl⟩
/-- The same for the imports of one file. -/
theorem loadImports_total : ∀ (n : Nat) {c : Cache} {ps : List String} {crumbs : List String},
    CacheOk pre c → (∀ p ∈ ps, Trail pre main crumbs p) → crumbs.Nodup →
    crumbs.length ≤ nodes.length →
    treeFuel K (nodes.length - crumbs.length) + ps.length + 1 ≤ n →
    (∃ r, loadImports pre n c ps crumbs = .ok r) ∨
    (∃ e, loadImports pre n c ps crumbs = .err e ∧ LoopAt pre main e)
  | 0, _, _, _, _, _, _, _, hn => by omega
  | n + 1, c, [], crumbs, hc, ht, hnd, hlen, hn => by
    left; unfold loadImports; exact ⟨_, rfl⟩
  | n + 1, c, p :: ps, crumbs, hc, ht, hnd, hlen, hn => by
    simp only [List.length_cons] at hn
    unfold loadImports
    rcases loadTree_total n hc (ht p (by simp)) hnd hlen (by omega) with ⟨⟨r, c1⟩, hr⟩ | ⟨e, he, hl⟩
    · simp only [hr]
      obtain ⟨_, hc1, _, _, _⟩ := loadTree_ok n hc hr
      rcases loadImports_total n (ps := ps) hc1 (fun q hq => ht q (by simp [hq])) hnd hlen (by omega) with
        ⟨⟨r, c1⟩, hr⟩ | ⟨e, he, hl⟩
      · left; simp only [hr]; exact ⟨_, rfl⟩
      · right; simp only [he]; exact ⟨_, rfl, hl⟩
    · right; simp only [he]; exact ⟨_, rfl, hl⟩
end

end Che
