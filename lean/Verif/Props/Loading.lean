import Verif.Proofs.LoadTreeTotal
import Verif.Proofs.Heads
import Verif.Spec.Demo
/-!
# C11, C12, C13: loading the import graph
-/
namespace Che.Props
open Che Spec

/-! ## C11 -/

/-- C11, for the loader itself: over a finite import graph of readable files
`load_tree` stops; it succeeds exactly when no cycle can be reached, and
otherwise reports a loop that is really there. -/
theorem C11_load_tree {pre : String → Res String ModuleInfo} {main : String}
    (hfin : FiniteReadable pre main) :
    ∃ N, ∀ n, N ≤ n →
      ((∃ r, loadTree pre n [] main [] = .ok r) ∧ ¬ CycleReachable pre main) ∨
      ((∃ e, loadTree pre n [] main [] = .err e ∧ LoopAt pre main e) ∧
        CycleReachable pre main) := by
  obtain ⟨nodes, hn⟩ := hfin
  -- a bound for the number of imports of any reachable file
  have hK : ∃ K, ∀ q m, q ∈ nodes → pre q = .ok m → m.imports.length ≤ K := by
    clear hn
    induction nodes with
    | nil => exact ⟨0, by simp⟩
    | cons a as ih =>
      obtain ⟨K, hK⟩ := ih
      cases ha : pre a with
      | ok m =>
        refine ⟨max K m.imports.length, ?_⟩
        intro q m' hq hm'
        rcases List.mem_cons.1 hq with rfl | hq
        · rw [ha] at hm'; cases hm'; omega
        · have := hK q m' hq hm'; omega
      | _ =>
        refine ⟨K, ?_⟩
        intro q m' hq hm'
        rcases List.mem_cons.1 hq with rfl | hq
        · rw [ha] at hm'; cases hm'
        · exact hK q m' hq hm'
  obtain ⟨K, hK⟩ := hK
  refine ⟨treeFuel K nodes.length, fun n hN => ?_⟩
  have := loadTree_total hn (fun q m hq hm => hK q m (hn q hq).1 hm) n (c := []) (p := main)
    (crumbs := []) CacheOk.nil ⟨by simp, by simp⟩ (by simp) (by simp) (by simpa using hN)
  rcases this with ⟨⟨l, c⟩, hr⟩ | ⟨e, he, hl⟩
  · left
    exact ⟨⟨_, hr⟩, (loadTree_ok n CacheOk.nil hr).1.acyclic⟩
  · right
    refine ⟨⟨e, he, hl⟩, ?_⟩
    obtain ⟨trail, c, _, hhead, hmem, hchain⟩ := hl
    refine ⟨c, ?_, ?_⟩
    · have ht : Trail pre main trail c := by
        refine ⟨hchain, ?_⟩
        cases trail <;> simp_all
      exact ht.reach
    · -- from the occurrence of `c` in the trail to its end
      obtain ⟨t1, t2, rfl⟩ := List.append_of_mem hmem
      rw [List.append_assoc, List.isChain_append] at hchain
      have h2 := hchain.2.1
      simp only [List.cons_append] at h2
      have : ∀ (l : List String) (a : String), List.IsChain (Imports pre) (a :: (l ++ [c])) →
          Relation.TransGen (Imports pre) a c := by
        intro l
        induction l with
        | nil => intro a h; simp at h; exact .single h
        | cons b l ih =>
          intro a h
          simp only [List.cons_append, List.isChain_cons_cons] at h
          exact .head h.1 (ih b h.2)
      exact this t2 c h2

/-- C11: a project whose reachable files are finitely many and can be pre-parsed
either fails with an `import loop` error, exactly when a cycle of imports can be
reached, or its modules are loaded. -/
theorem C11_project [Unicode] {fs : FS} {pfuel : Nat} {main : String}
    (hfin : FiniteReadable (preparse fs pfuel) main) :
    ∃ N, ∀ n, N ≤ n →
      ((∃ l c heads, loadTree (preparse fs pfuel) n [] main [] = .ok (l, c) ∧
          lookupHeads c (modOrder l) = some heads) ∧
        ¬ CycleReachable (preparse fs pfuel) main) ∨
      ((∃ e, loadTree (preparse fs pfuel) n [] main [] = .err e ∧
          LoopAt (preparse fs pfuel) main e) ∧
        CycleReachable (preparse fs pfuel) main) := by
  obtain ⟨N, hN⟩ := C11_load_tree hfin
  refine ⟨N, fun n hn => ?_⟩
  rcases hN n hn with ⟨⟨⟨l, c⟩, hr⟩, hac⟩ | h
  · left
    obtain ⟨_, _, _, hcov, _⟩ := loadTree_ok n CacheOk.nil hr
    obtain ⟨ms, hms⟩ := lookupHeads_some (cache := c) (ps := modOrder l) (by
      intro p hp
      exact hcov p (by simpa [modOrder, mem_uniq] using hp))
    exact ⟨⟨l, c, ms, hr, hms⟩, hac⟩
  · exact .inr h

/-- A pre-parser for which every file `p` imports `p ++ "x"`. -/
def growingPre (p : String) : Res String ModuleInfo :=
  .ok { imports := [{ path := p ++ "x", ns := "" }], filepath := p, uniqid := "", typedefs := [] }

/-- Loading a graph with infinitely many paths never stops. -/
theorem C11_needs_finite (n : Nat) : loadTree growingPre n [] "a" [] = .diverge := by
  have hlen : ∀ (p : String), (p ++ "x").length = p.length + 1 := by
    intro p; rw [String.length_append]; rfl
  have key : ∀ (n : Nat) (p : String) (cache : Cache) (crumbs : List String),
      CacheOk growingPre cache →
      (∀ c ∈ crumbs, c.length < p.length) →
      loadTree growingPre n cache p crumbs = .diverge := by
    intro n
    induction n using Nat.strongRecOn with
    | _ n ih =>
      intro p cache crumbs hc hcr
      match n with
      | 0 => rfl
      | 1 =>
        unfold loadTree
        have : crumbs.contains p = false := by
          rw [Bool.eq_false_iff]; intro h
          have := hcr p (by simpa using h); omega
        rw [this]
        obtain ⟨c', hc'⟩ := cachedPreparse_of_ok (p := p) hc rfl
        simp [hc', loadImports]
      | n + 2 =>
        unfold loadTree
        have : crumbs.contains p = false := by
          rw [Bool.eq_false_iff]; intro h
          have := hcr p (by simpa using h); omega
        rw [this]
        obtain ⟨c', hc'⟩ := cachedPreparse_of_ok (p := p) hc rfl
        have hok := (cachedPreparse_ok hc hc').2.1
        simp only [hc', loadImports, List.map_cons, List.map_nil]
        rw [ih n (by omega) _ _ _ hok]
        · simp
        · intro c hcm
          rw [hlen]
          rcases List.mem_append.1 hcm with h | h
          · have := hcr c h; omega
          · simp at h; subst h; omega
  exact key n "a" [] [] CacheOk.nil (by simp)

/-! ## C12, C13 -/

/-- C12: every module comes after all modules it imports, and the main module
comes last. -/
theorem C12_dependencies_first [Unicode] {fs : FS} {fuel : Nat} {main : String}
    {heads : List ModuleInfo} (h : projectHeads fs fuel main = .ok heads) :
    (∀ (i : Nat) (hd : ModuleInfo), heads[i]? = some hd → ∀ imp ∈ hd.imports,
      ∃ (j : Nat) (dep : ModuleInfo), j < i ∧ heads[j]? = some dep ∧ dep.filepath = imp.path) ∧
    (∃ hd, heads.getLast? = some hd ∧ hd.filepath = main) := by
  obtain ⟨l, c, hl, hmap, hget⟩ := projectHeads_get h
  obtain ⟨hpo, _, _, _, hcr⟩ := loadTree_ok _ CacheOk.nil hl
  have hfol := Listing.followed _ (Nat.le_refl _) hpo
  constructor
  · intro i hd hi imp himp
    obtain ⟨m, hm, hdm⟩ := hget i hd hi
    have hlt : i < heads.length := (List.getElem?_eq_some_iff.1 hi).1
    have hmi : (modOrder l)[i]? = some hd.filepath := by
      rw [← hmap, List.getElem?_map, hi]; rfl
    have hlt' : i < (modOrder l).length := (List.getElem?_eq_some_iff.1 hmi).1
    have hsplit : modOrder l = (modOrder l).take i ++ hd.filepath :: (modOrder l).drop (i + 1) := by
      have e : (modOrder l)[i] = hd.filepath := (List.getElem?_eq_some_iff.1 hmi).2
      conv_lhs => rw [← List.take_append_drop i (modOrder l), List.drop_eq_getElem_cons hlt', e]
    have hq : imp.path ∈ (modOrder l).take i := by
      refine modOrder_before hfol hsplit (q := imp.path) ⟨m, hm, ?_⟩
      rw [hdm] at himp
      exact List.mem_map.2 ⟨imp, himp, rfl⟩
    obtain ⟨j, hj, hje⟩ := List.getElem_of_mem hq
    rw [List.length_take] at hj
    rw [List.getElem_take] at hje
    have hjh : j < heads.length := by omega
    refine ⟨j, heads[j], by omega, List.getElem?_eq_getElem hjh, ?_⟩
    rw [← hje]
    have := congrArg (·[j]?) hmap
    simp only [List.getElem?_map, List.getElem?_eq_getElem hjh] at this
    rw [List.getElem?_eq_getElem (by omega)] at this
    simpa using this
  · -- the root of the listing does not occur again
    have hroot : ∃ t, l = main :: t ∧ main ∉ t := by
      cases hpo with
      | @node _ m rs hp hr =>
        refine ⟨_, rfl, ?_⟩
        intro hin
        obtain ⟨lq, hlq, hx⟩ := List.mem_flatten.1 hin
        obtain ⟨q, hq, hqpo⟩ := Forall₂.mem_right hr hlq
        have hreach := Listing.mem_reach _ (Nat.le_refl _) hqpo main hx
        refine (Listing.node hp hr).acyclic ⟨main, .refl, ?_⟩
        exact Relation.TransGen.head' ⟨m, hp, hq⟩ hreach
    obtain ⟨t, rfl, hnt⟩ := hroot
    obtain ⟨o, ho⟩ := modOrder_last hnt
    rw [ho] at hmap
    have := congrArg List.getLast? hmap
    rw [List.getLast?_map] at this
    cases hgl : heads.getLast? with
    | none => rw [hgl] at this; simp at this
    | some hd =>
      rw [hgl] at this
      simp at this
      exact ⟨hd, rfl, this⟩

/-- C13: the module list has exactly the paths reachable from the main file, no
path twice. -/
theorem C13_each_module_once [Unicode] {fs : FS} {fuel : Nat} {main : String}
    {heads : List ModuleInfo} (h : projectHeads fs fuel main = .ok heads) :
    (∀ p, p ∈ heads.map (·.filepath) ↔ Reach (preparse fs fuel) main p) ∧
    (heads.map (·.filepath)).Nodup := by
  obtain ⟨l, c, hl, hmap, _⟩ := projectHeads_get h
  obtain ⟨hpo, _, _, _, _⟩ := loadTree_ok _ CacheOk.nil hl
  rw [hmap]
  constructor
  · intro p
    rw [modOrder, mem_uniq, List.mem_reverse]
    exact ⟨Listing.mem_reach _ (Nat.le_refl _) hpo p, hpo.reach_mem⟩
  · exact nodup_uniq _

section Examples
attribute [local instance] asciiOnly

/-- C12, C13 are not vacuous: the demo project loads as `/a.c`, `/b.c`, `/m.c`. -/
example : (match projectHeads demoFS 40 "/m.c" with
    | .ok heads => heads.map (·.filepath)
    | _ => []) = ["/a.c", "/b.c", "/m.c"] := by decide +kernel

/-- C11: the demo loop is reported. -/
example : (match loadTree (preparse demoFS 40) 40 [] "/x.c" [] with
    | .err e => e
    | _ => "") = "import loop: /x.c -> /y.c -> /x.c" := by decide +kernel

end Examples

end Che.Props
