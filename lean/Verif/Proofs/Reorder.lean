import Verif.Proofs.TrModule
import Verif.Proofs.Project
import Mathlib.Data.List.Basic
import Mathlib.Data.List.Perm.Basic
/-!
# `reorder_elems` and `expand_imports`
-/
namespace Che
open Spec

theorem elemOrder_lt (e : CModElem) : elemOrder e < 7 := by cases e <;> simp [elemOrder]

theorem groups_perm (es : List CModElem) : ∀ n,
    ((List.range n).flatMap (fun i => es.filter (fun e => elemOrder e == i))).Perm
      (es.filter (fun e => decide (elemOrder e < n)))
  | 0 => by simp
  | n + 1 => by
    rw [List.range_succ, List.flatMap_append, List.flatMap_singleton]
    refine ((groups_perm es n).append_right _).trans ?_
    have h := List.filter_append_perm (fun e => decide (elemOrder e < n))
      (es.filter (fun e => decide (elemOrder e < n + 1)))
    rw [List.filter_filter, List.filter_filter] at h
    convert h using 2
    · apply List.filter_congr
      intro e _
      by_cases h : elemOrder e < n
      · simp [h, Nat.lt_succ_of_lt h]
      · simp [h]
    · apply List.filter_congr
      intro e _
      rw [Bool.eq_iff_iff]
      simp
      omega

theorem groupElems_perm (es : List CModElem) : (groupElems es).Perm es := by
  refine (groups_perm es 7).trans ?_
  rw [List.filter_eq_self.2 (by intro e _; simpa using elemOrder_lt e)]

theorem mem_groupElems {es : List CModElem} {e : CModElem} : e ∈ groupElems es ↔ e ∈ es :=
  (groupElems_perm es).mem_iff

theorem groups_filter (es : List CModElem) (i : Nat) : ∀ n,
    ((List.range n).flatMap (fun i => es.filter (fun e => elemOrder e == i))).filter
      (fun e => elemOrder e == i) = if i < n then es.filter (fun e => elemOrder e == i) else []
  | 0 => by simp
  | n + 1 => by
    rw [List.range_succ, List.flatMap_append, List.flatMap_singleton, List.filter_append,
      groups_filter es i n, List.filter_filter]
    by_cases h : i = n
    · subst h; simp
    · have : es.filter (fun e => elemOrder e == i && elemOrder e == n) = [] := by
        rw [List.filter_eq_nil_iff]
        intro e _; simp only [Bool.and_eq_true, beq_iff_eq, not_and]; omega
      rw [this, List.append_nil]
      by_cases h1 : i < n
      · rw [if_pos h1, if_pos (by omega)]
      · rw [if_neg h1, if_neg (by omega)]

theorem groupElems_filter (es : List CModElem) (i : Nat) :
    (groupElems es).filter (fun e => elemOrder e == i) = es.filter (fun e => elemOrder e == i) := by
  rw [groupElems, groups_filter]
  split
  · rfl
  · symm; rw [List.filter_eq_nil_iff]
    intro e _; have := elemOrder_lt e; simp; omega

theorem groups_pairwise (es : List CModElem) : ∀ n,
    ((List.range n).flatMap (fun i => es.filter (fun e => elemOrder e == i))).Pairwise
      (fun a b => elemOrder a ≤ elemOrder b)
  | 0 => by simp
  | n + 1 => by
    rw [List.range_succ, List.flatMap_append, List.flatMap_singleton, List.pairwise_append]
    refine ⟨groups_pairwise es n, ?_, ?_⟩
    · apply List.pairwise_of_forall_mem_list
      intro a ha b hb
      simp only [List.mem_filter, beq_iff_eq] at ha hb
      omega
    · intro a ha b hb
      have := (groups_perm es n).mem_iff.1 ha
      simp only [List.mem_filter, decide_eq_true_eq, beq_iff_eq] at this hb
      omega

theorem groupElems_pairwise (es : List CModElem) :
    (groupElems es).Pairwise (fun a b => elemOrder a ≤ elemOrder b) := groups_pairwise es 7

/-! ## Repeated declarations -/

theorem mem_dedup_of_none {e : CModElem} (h : dedupKey e = none) :
    ∀ {es : List CModElem} {seen : List String}, e ∈ dedupElems seen es ↔ e ∈ es := by
  intro es
  induction es with
  | nil => intro seen; simp [dedupElems]
  | cons x xs ih =>
    intro seen
    unfold dedupElems
    cases hx : dedupKey x with
    | none => simp [ih]
    | some s =>
      have hne : e ≠ x := by rintro rfl; simp [h] at hx
      simp only
      split <;> simp [ih, hne]

theorem dedup_sublist : ∀ (es : List CModElem) (seen : List String),
    (dedupElems seen es).Sublist es := by
  intro es
  induction es with
  | nil => intro seen; exact List.Sublist.slnil
  | cons x xs ih =>
    intro seen
    unfold dedupElems
    split
    · split
      · exact (ih _).cons _
      · exact (ih _).cons_cons _
    · exact (ih _).cons_cons _

/-- Whatever is dropped was printed before. -/
theorem mem_dedup_text {e : CModElem} : ∀ {es : List CModElem} {seen : List String}, e ∈ es →
    e ∈ dedupElems seen es ∨ (∃ s, dedupKey e = some s ∧
      (s ∈ seen ∨ ∃ e' ∈ dedupElems seen es, dedupKey e' = some s)) := by
  intro es
  induction es with
  | nil => intro seen h; cases h
  | cons x xs ih =>
    intro seen h
    unfold dedupElems
    cases hx : dedupKey x with
    | none =>
      simp only
      rcases List.mem_cons.1 h with rfl | h
      · simp
      · rcases ih (seen := seen) h with h | ⟨s, h1, h2 | ⟨e', h2, h3⟩⟩
        · exact .inl (by simp [h])
        · exact .inr ⟨s, h1, .inl h2⟩
        · exact .inr ⟨s, h1, .inr ⟨e', by simp [h2], h3⟩⟩
    | some t =>
      simp only
      by_cases ht : seen.contains t = true
      · rw [if_pos ht]
        rcases List.mem_cons.1 h with rfl | h
        · exact .inr ⟨t, hx, .inl (by simpa using ht)⟩
        · exact ih h
      · rw [if_neg ht]
        rcases List.mem_cons.1 h with rfl | h
        · simp
        · rcases ih (seen := t :: seen) h with h | ⟨s, h1, h2 | ⟨e', h2, h3⟩⟩
          · exact .inl (by simp [h])
          · rcases List.mem_cons.1 h2 with rfl | h2
            · exact .inr ⟨s, h1, .inr ⟨x, by simp, hx⟩⟩
            · exact .inr ⟨s, h1, .inl h2⟩
          · exact .inr ⟨s, h1, .inr ⟨e', by simp [h2], h3⟩⟩

theorem mem_reorder_of_none {e : CModElem} (h : dedupKey e = none) {es : List CModElem} :
    e ∈ reorderElems es ↔ e ∈ es := by
  rw [reorderElems, mem_groupElems, mem_dedup_of_none h]

theorem mem_of_mem_reorder {e : CModElem} {es : List CModElem} (h : e ∈ reorderElems es) : e ∈ es :=
  (dedup_sublist _ _).mem (mem_groupElems.1 h)

/-! ## Imports -/

theorem addSynopsis_some {present : List String} {es : List CModElem} :
    ∀ {p' : List String} {out : List CModElem}, addSynopsis present es = some (p', out) →
    out.Sublist es ∧
    (∀ e ∈ out, ∃ k, getObjKey e = some k ∧ k ∉ present ∧ k ∈ p') ∧
    (∀ e ∈ es, ∃ k, getObjKey e = some k ∧ k ∈ p') ∧
    (∀ k, k ∈ p' ↔ k ∈ present ∨ ∃ e ∈ out, getObjKey e = some k) ∧
    (out.map getObjKey).Nodup := by
  induction es generalizing present with
  | nil =>
    intro p' out h
    simp only [addSynopsis, Option.some.injEq, Prod.mk.injEq] at h
    obtain ⟨rfl, rfl⟩ := h
    simp
  | cons e es ih =>
    intro p' out h
    unfold addSynopsis at h
    cases hk : getObjKey e with
    | none => simp [hk] at h
    | some k =>
      simp only [hk] at h
      by_cases hp : present.contains k = true
      · rw [if_pos hp] at h
        obtain ⟨h1, h2, h3, h4, h5⟩ := ih h
        have hp' : k ∈ present := by simpa using hp
        refine ⟨h1.cons _, h2, ?_, h4, h5⟩
        intro x hx
        rcases List.mem_cons.1 hx with rfl | hx
        · exact ⟨k, hk, (h4 k).2 (.inl hp')⟩
        · exact h3 x hx
      · rw [if_neg hp] at h
        cases hr : addSynopsis (k :: present) es with
        | none => simp [hr] at h
        | some r =>
          obtain ⟨q, rest⟩ := r
          simp only [hr, Option.map_some, Option.some.injEq, Prod.mk.injEq] at h
          obtain ⟨rfl, rfl⟩ := h
          have hp' : k ∉ present := by simpa using hp
          obtain ⟨h1, h2, h3, h4, h5⟩ := ih hr
          refine ⟨h1.cons_cons _, ?_, ?_, ?_, ?_⟩
          · intro x hx
            rcases List.mem_cons.1 hx with rfl | hx
            · exact ⟨k, hk, hp', (h4 k).2 (.inl (by simp))⟩
            · obtain ⟨k', a, b, c⟩ := h2 x hx
              exact ⟨k', a, fun h => b (by simp [h]), c⟩
          · intro x hx
            rcases List.mem_cons.1 hx with rfl | hx
            · exact ⟨k, hk, (h4 k).2 (.inl (by simp))⟩
            · exact h3 x hx
          · intro x
            rw [h4]
            simp only [List.mem_cons, exists_eq_or_imp, hk, Option.some.injEq]
            constructor
            · rintro ((rfl | h) | h)
              · exact .inr (.inl rfl)
              · exact .inl h
              · exact .inr (.inr h)
            · rintro (h | rfl | h)
              · exact .inl (.inr h)
              · exact .inl (.inl rfl)
              · exact .inr h
          · rw [List.map_cons, List.nodup_cons]
            refine ⟨?_, h5⟩
            rw [List.mem_map]
            rintro ⟨x, hx, hxk⟩
            obtain ⟨k', a, b, _⟩ := h2 x hx
            rw [hk] at hxk
            rw [hxk] at a
            cases a
            exact b (by simp)

/-- Where an import is found. -/
def importAt (c : TrCtx) (imp : ModuleRef) : Option CModule :=
  (c.allModHeads.findIdx? (fun x => x.filepath == imp.path)).bind (fun i => c.cmods[i]?)

theorem expandLoop_ok {c : TrCtx} : ∀ {imps : List ModuleRef} {present : List String}
    {out : List CModElem}, expandLoop c present imps = .ok out →
    (∀ e ∈ out, ∃ imp ∈ imps, ∃ m, importAt c imp = some m ∧ e ∈ m.elements ∧
      inSynopsis e = true) ∧
    (∀ imp ∈ imps, ∃ m, importAt c imp = some m ∧ ∀ e ∈ m.elements, inSynopsis e = true →
      ∃ k, getObjKey e = some k ∧ (k ∈ present ∨ ∃ e' ∈ out, getObjKey e' = some k)) ∧
    (∀ e ∈ out, ∃ k, getObjKey e = some k ∧ k ∉ present) ∧
    (out.map getObjKey).Nodup := by
  intro imps
  induction imps with
  | nil =>
    intro present out h
    simp only [expandLoop, Res.ok.injEq] at h
    subst h; simp
  | cons imp imps ih =>
    intro present out h
    unfold expandLoop at h
    cases hf : c.allModHeads.findIdx? (fun x => x.filepath == imp.path) with
    | none => simp [hf] at h
    | some pos =>
      simp only [hf] at h
      cases hm : c.cmods[pos]? with
      | none => simp [hm] at h
      | some m =>
        simp only [hm] at h
        cases ha : addSynopsis present (getModuleSynopsis m) with
        | none => simp [ha] at h
        | some r =>
          obtain ⟨present', es⟩ := r
          simp only [ha] at h
          cases hr : expandLoop c present' imps with
          | err e => simp [hr] at h
          | panic e => simp [hr] at h
          | diverge => simp [hr] at h
          | ok es' =>
            simp only [hr, Res.ok.injEq] at h
            subst h
            obtain ⟨a1, a2, a3, a4, a5⟩ := addSynopsis_some ha
            obtain ⟨b1, b2, b3, b4⟩ := ih hr
            have hat : importAt c imp = some m := by simp [importAt, hf, hm]
            refine ⟨?_, ?_, ?_, ?_⟩
            · intro e he
              rcases List.mem_append.1 he with he | he
              · have := a1.mem he
                simp only [getModuleSynopsis, List.mem_filter] at this
                exact ⟨imp, by simp, m, hat, this.1, this.2⟩
              · obtain ⟨i, hi, x⟩ := b1 e he
                exact ⟨i, by simp [hi], x⟩
            · intro i hi
              rcases List.mem_cons.1 hi with rfl | hi
              · refine ⟨m, hat, ?_⟩
                intro e he hs
                obtain ⟨k, hk, hp⟩ := a3 e (by simp [getModuleSynopsis, he, hs])
                refine ⟨k, hk, ?_⟩
                rcases (a4 k).1 hp with h | ⟨e', h1, h2⟩
                · exact .inl h
                · exact .inr ⟨e', by simp [h1], h2⟩
              · obtain ⟨m', h1, h2⟩ := b2 i hi
                refine ⟨m', h1, ?_⟩
                intro e he hs
                obtain ⟨k, hk, hp⟩ := h2 e he hs
                refine ⟨k, hk, ?_⟩
                rcases hp with hp | ⟨e', h3, h4⟩
                · rcases (a4 k).1 hp with h | ⟨e', h3, h4⟩
                  · exact .inl h
                  · exact .inr ⟨e', by simp [h3], h4⟩
                · exact .inr ⟨e', by simp [h3], h4⟩
            · intro e he
              rcases List.mem_append.1 he with he | he
              · obtain ⟨k, h1, h2, _⟩ := a2 e he; exact ⟨k, h1, h2⟩
              · obtain ⟨k, h1, h2⟩ := b3 e he
                exact ⟨k, h1, fun h => h2 ((a4 k).2 (.inl h))⟩
            · rw [List.map_append, List.nodup_append]
              refine ⟨a5, b4, ?_⟩
              intro x hx y hy hxy
              rw [List.mem_map] at hx hy
              obtain ⟨e1, he1, rfl⟩ := hx
              obtain ⟨e2, he2, rfl⟩ := hy
              obtain ⟨k1, c1, _, c3⟩ := a2 e1 he1
              obtain ⟨k2, d1, d2⟩ := b3 e2 he2
              rw [c1, d1, Option.some.injEq] at hxy
              subst hxy
              exact d2 c3

/-- Imported elements are never function or variable definitions. -/
theorem expandImports_interface {c : TrCtx} {out : List CModElem} (h : expandImports c = .ok out) :
    ∀ e ∈ out, inSynopsis e = true := by
  intro e he
  obtain ⟨_, _, _, _, _, h⟩ := (expandLoop_ok h).1 e he
  exact h

end Che
