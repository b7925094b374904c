import Mathlib.Data.List.Forall2
import Verif.Model.Build
import Verif.Spec.Graph
/-!
# Lemmas about `load_tree`
-/
namespace Che
open Spec

variable {pre : String → Res String ModuleInfo}

theorem mapGet_insert {β} (m : List (String × β)) (k k' : String) (v : β) :
    mapGet (mapInsert m k v) k' = if k = k' then some v else mapGet m k' := by
  simp [mapGet, mapInsert]

/-- Every cache entry is what the pre-parser says. -/
def CacheOk (pre : String → Res String ModuleInfo) (c : Cache) : Prop :=
  ∀ p m, mapGet c p = some m → pre p = .ok m

/-- `c'` has every entry of `c`. -/
def CacheLe (c c' : Cache) : Prop := ∀ p m, mapGet c p = some m → mapGet c' p = some m

theorem CacheLe.trans {a b c : Cache} (h : CacheLe a b) (h' : CacheLe b c) : CacheLe a c :=
  fun p m x => h' p m (h p m x)

theorem CacheOk.nil : CacheOk pre [] := by intro p m h; simp [mapGet] at h

theorem cachedPreparse_ok {c c' : Cache} {p : String} {m : ModuleInfo} (hc : CacheOk pre c)
    (h : cachedPreparse pre c p = .ok (m, c')) :
    pre p = .ok m ∧ CacheOk pre c' ∧ CacheLe c c' ∧ mapGet c' p = some m := by
  unfold cachedPreparse at h
  split at h
  · rename_i m' hm
    simp only [Res.ok.injEq, Prod.mk.injEq] at h
    obtain ⟨rfl, rfl⟩ := h
    exact ⟨hc _ _ hm, hc, fun _ _ x => x, hm⟩
  · rename_i hn
    split at h <;> simp only [Res.ok.injEq, Prod.mk.injEq, reduceCtorEq] at h
    rename_i m' hm
    obtain ⟨rfl, rfl⟩ := h
    refine ⟨hm, ?_, ?_, ?_⟩
    · intro q x hx
      rw [mapGet_insert] at hx
      split at hx
      · rename_i e; subst e; simp only [Option.some.injEq] at hx; subst hx; exact hm
      · exact hc _ _ hx
    · intro q x hx
      rw [mapGet_insert]
      split
      · rename_i e; subst e; rw [hn] at hx; cases hx
      · exact hx
    · rw [mapGet_insert]; simp

/-- With a correct cache the cache only saves time. -/
theorem cachedPreparse_of_ok {c : Cache} {p : String} {m : ModuleInfo} (hc : CacheOk pre c)
    (h : pre p = .ok m) : ∃ c', cachedPreparse pre c p = .ok (m, c') := by
  unfold cachedPreparse
  split
  · rename_i m' hm
    have := hc _ _ hm
    rw [h] at this; cases this
    exact ⟨_, rfl⟩
  · rw [h]; exact ⟨_, rfl⟩

theorem cachedPreparse_not_ok {c : Cache} {p : String} (hc : CacheOk pre c)
    (h : ∀ m, pre p ≠ .ok m) :
    (∀ e, pre p = .err e → cachedPreparse pre c p = .err e) ∧
    (∀ e, pre p = .panic e → cachedPreparse pre c p = .panic e) ∧
    (pre p = .diverge → cachedPreparse pre c p = .diverge) := by
  unfold cachedPreparse
  cases hg : mapGet c p with
  | some m => exact absurd (hc _ _ hg) (h m)
  | none =>
    refine ⟨?_, ?_, ?_⟩ <;> intro x <;> (try intro hx) <;> simp_all

/-- The preorder listing of the import tree of a path. -/
inductive Listing (pre : String → Res String ModuleInfo) : String → List String → Prop
  | node {p m rs} (h : pre p = .ok m)
      (hr : List.Forall₂ (Listing pre) (m.imports.map (·.path)) rs) :
      Listing pre p (p :: rs.flatten)

mutual
/-- What a successful `load_tree` returns. -/
theorem loadTree_ok : ∀ (n : Nat) {c c' : Cache} {p : String} {crumbs l : List String},
    CacheOk pre c → loadTree pre n c p crumbs = .ok (l, c') →
    Listing pre p l ∧ CacheOk pre c' ∧ CacheLe c c' ∧
    (∀ x ∈ l, ∃ m, mapGet c' x = some m) ∧ (∀ x ∈ l, x ∉ crumbs)
  | 0, _, _, _, _, _, _, h => by simp [loadTree] at h
  | n + 1, c, c', p, crumbs, l, hc, h => by
    unfold loadTree at h
    split at h
    · cases h
    rename_i hcr
    split at h <;> try cases h
    rename_i head c1 hp
    obtain ⟨hpre, hc1, hle1, hget⟩ := cachedPreparse_ok hc hp
    split at h <;> try cases h
    rename_i r c2 hr
    obtain ⟨rs, hfa, rfl, hc2, hle2, hcov, hcr2⟩ := loadImports_ok n hc1 hr
    refine ⟨.node hpre hfa, hc2, hle1.trans hle2, ?_, ?_⟩
    · intro x hx
      rcases List.mem_cons.1 hx with rfl | hx
      · exact ⟨_, hle2 _ _ hget⟩
      · exact hcov x hx
    · intro x hx
      rcases List.mem_cons.1 hx with rfl | hx
      · simpa using hcr
      · have := hcr2 x hx
        simp only [List.mem_append, List.mem_singleton, not_or] at this
        exact this.1
/-- What the loop over the imports returns. -/
theorem loadImports_ok : ∀ (n : Nat) {c c' : Cache} {ps crumbs l : List String},
    CacheOk pre c → loadImports pre n c ps crumbs = .ok (l, c') →
    ∃ rs, List.Forall₂ (Listing pre) ps rs ∧ l = rs.flatten ∧ CacheOk pre c' ∧ CacheLe c c' ∧
    (∀ x ∈ l, ∃ m, mapGet c' x = some m) ∧ (∀ x ∈ l, x ∉ crumbs)
  | 0, _, _, _, _, _, _, h => by simp [loadImports] at h
  | n + 1, c, c', [], crumbs, l, hc, h => by
    simp only [loadImports, Res.ok.injEq, Prod.mk.injEq] at h
    obtain ⟨rfl, rfl⟩ := h
    exact ⟨[], .nil, rfl, hc, fun _ _ x => x, by simp, by simp⟩
  | n + 1, c, c', p :: ps, crumbs, l, hc, h => by
    unfold loadImports at h
    split at h <;> try cases h
    rename_i r c1 hr
    obtain ⟨hpo, hc1, hle1, hcov1, hcr1⟩ := loadTree_ok n hc hr
    split at h <;> try cases h
    rename_i r2 c2 hr2
    obtain ⟨rs, hfa, rfl, hc2, hle2, hcov2, hcr2⟩ := loadImports_ok n hc1 hr2
    refine ⟨r :: rs, .cons hpo hfa, by simp, hc2, hle1.trans hle2, ?_, ?_⟩
    · intro x hx
      rcases List.mem_append.1 hx with hx | hx
      · obtain ⟨m, hm⟩ := hcov1 x hx; exact ⟨m, hle2 _ _ hm⟩
      · exact hcov2 x hx
    · intro x hx
      rcases List.mem_append.1 hx with hx | hx
      · exact hcr1 x hx
      · exact hcr2 x hx
end

/-! ## Facts about preorder listings -/

theorem Forall₂.mem_left {α β} {R : α → β → Prop} {as : List α} {bs : List β}
    (h : List.Forall₂ R as bs) {a : α} (ha : a ∈ as) : ∃ b ∈ bs, R a b := by
  induction h with
  | nil => cases ha
  | cons hab _ ih =>
    rcases List.mem_cons.1 ha with rfl | ha
    · exact ⟨_, by simp, hab⟩
    · obtain ⟨b, hb, hr⟩ := ih ha; exact ⟨b, by simp [hb], hr⟩

theorem Forall₂.mem_right {α β} {R : α → β → Prop} {as : List α} {bs : List β}
    (h : List.Forall₂ R as bs) {b : β} (hb : b ∈ bs) : ∃ a ∈ as, R a b := by
  induction h with
  | nil => cases hb
  | cons hab _ ih =>
    rcases List.mem_cons.1 hb with rfl | hb
    · exact ⟨_, by simp, hab⟩
    · obtain ⟨a, ha, hr⟩ := ih hb; exact ⟨a, by simp [ha], hr⟩

/-- A preorder listing starts with its root. -/
theorem Listing.head {p : String} {l : List String} (h : Listing pre p l) : ∃ t, l = p :: t := by
  cases h; exact ⟨_, rfl⟩

theorem Listing.mem_self {p : String} {l : List String} (h : Listing pre p l) : p ∈ l := by
  obtain ⟨t, rfl⟩ := h.head; simp

/-- Induction over a preorder listing by length. -/
theorem Listing.child {p q : String} {l : List String} (h : Listing pre p l)
    (hq : Imports pre p q) : ∃ lq, Listing pre q lq ∧ lq.length < l.length ∧ ∀ x ∈ lq, x ∈ l := by
  cases h with
  | node hp hr =>
    obtain ⟨m', hm', hin⟩ := hq
    rw [hp] at hm'; cases hm'
    obtain ⟨lq, hlq, hpo⟩ := Forall₂.mem_left hr hin
    refine ⟨lq, hpo, ?_, ?_⟩
    · have := (List.sublist_flatten_of_mem hlq).length_le
      simp only [List.length_cons]; omega
    · intro x hx
      exact List.mem_cons_of_mem _ (List.mem_flatten.2 ⟨lq, hlq, hx⟩)

/-- Every reachable path is in the listing. -/
theorem Listing.reach_mem {p q : String} {l : List String} (h : Listing pre p l)
    (hq : Reach pre p q) : q ∈ l := by
  unfold Reach at hq
  induction hq using Relation.ReflTransGen.head_induction_on generalizing l with
  | refl => exact h.mem_self
  | head hpq _ ih =>
    obtain ⟨lq, hpo, _, hsub⟩ := h.child hpq
    exact hsub _ (ih hpo)

theorem Listing.mem_reach : ∀ (k : Nat) {p : String} {l : List String}, l.length ≤ k →
    Listing pre p l → ∀ x ∈ l, Reach pre p x := by
  intro k
  induction k with
  | zero =>
    intro p l hk h
    obtain ⟨t, rfl⟩ := h.head
    simp at hk
  | succ k ih =>
    intro p l hk h x hx
    cases h with
    | node hp hr =>
      rcases List.mem_cons.1 hx with rfl | hx
      · exact .refl
      · obtain ⟨lq, hlq, hx⟩ := List.mem_flatten.1 hx
        obtain ⟨q, hq, hpo⟩ := Forall₂.mem_right hr hlq
        have hlen := (List.sublist_flatten_of_mem hlq).length_le
        simp only [List.length_cons] at hk
        exact .head ⟨_, hp, hq⟩ (ih (by omega) hpo x hx)

/-- All of a listing is readable. -/
theorem Listing.readable : ∀ (k : Nat) {p : String} {l : List String}, l.length ≤ k →
    Listing pre p l → ∀ x ∈ l, ∃ m, pre x = .ok m := by
  intro k
  induction k with
  | zero =>
    intro p l hk h
    obtain ⟨t, rfl⟩ := h.head
    simp at hk
  | succ k ih =>
    intro p l hk h x hx
    cases h with
    | node hp hr =>
      rcases List.mem_cons.1 hx with rfl | hx
      · exact ⟨_, hp⟩
      · obtain ⟨lq, hlq, hx⟩ := List.mem_flatten.1 hx
        obtain ⟨q, hq, hpo⟩ := Forall₂.mem_right hr hlq
        have hlen := (List.sublist_flatten_of_mem hlq).length_le
        simp only [List.length_cons] at hk
        exact ih (by omega) hpo x hx

/-- Every occurrence of a path is followed by everything it imports. -/
theorem Listing.followed : ∀ (k : Nat) {p : String} {l : List String}, l.length ≤ k →
    Listing pre p l → ∀ l1 x l2, l = l1 ++ x :: l2 → ∀ q, Imports pre x q → q ∈ l2 := by
  intro k
  induction k with
  | zero =>
    intro p l hk h
    obtain ⟨t, rfl⟩ := h.head
    simp at hk
  | succ k ih =>
    intro p l hk h l1 x l2 hl q hq
    cases h with
    | @node _ m rs hp hr =>
      cases l1 with
      | nil =>
        simp only [List.nil_append, List.cons.injEq] at hl
        obtain ⟨rfl, rfl⟩ := hl
        obtain ⟨m', hm', hin⟩ := hq
        rw [hp] at hm'; cases hm'
        obtain ⟨lq, hlq, hpo⟩ := Forall₂.mem_left hr hin
        exact List.mem_flatten.2 ⟨lq, hlq, hpo.mem_self⟩
      | cons y l1 =>
        simp only [List.cons_append, List.cons.injEq] at hl
        obtain ⟨rfl, hl⟩ := hl
        simp only [List.length_cons] at hk
        -- find the block the occurrence lies in
        clear hp
        generalize m.imports.map (·.path) = ps at hr
        have hk' : rs.flatten.length ≤ k := by omega
        clear hk
        induction hr generalizing l1 with
        | nil => simp at hl
        | @cons a b as bs hab hrest ihr =>
          simp only [List.flatten_cons] at hl hk'
          rw [List.append_eq_append_iff] at hl
          rcases hl with ⟨t, ht1, ht2⟩ | ⟨t, ht1, ht2⟩
          · exact ihr t ht2 (by simp only [List.length_append] at hk'; omega)
          · cases t with
            | nil =>
              simp only [List.nil_append] at ht2
              exact ihr [] (by simpa using ht2.symm) (by simp only [List.length_append] at hk'; omega)
            | cons z t =>
              simp only [List.cons_append, List.cons.injEq] at ht2
              obtain ⟨rfl, rfl⟩ := ht2
              have := ih (by simp only [List.length_append] at hk'; omega) hab l1 _ t ht1 q hq
              exact List.mem_append.2 (.inl this)

/-- A listing exists only for cycle-free graphs. -/
theorem Listing.unique : ∀ (k : Nat) {p : String} {l l' : List String}, l.length ≤ k →
    Listing pre p l → Listing pre p l' → l = l' := by
  intro k
  induction k with
  | zero =>
    intro p l l' hk h
    obtain ⟨t, rfl⟩ := h.head
    simp at hk
  | succ k ih =>
    intro p l l' hk h h'
    cases h with
    | @node _ m rs hp hr =>
      cases h' with
      | @node _ m' rs' hp' hr' =>
        rw [hp] at hp'; cases hp'
        simp only [List.length_cons] at hk
        have hk' : rs.flatten.length ≤ k := by omega
        clear hk
        congr 2
        clear hp
        generalize m.imports.map (·.path) = ps at hr hr'
        induction hr generalizing rs' with
        | nil => cases hr'; rfl
        | @cons a b as bs hab hrest ihr =>
          cases hr' with
          | cons hab' hrest' =>
            simp only [List.flatten_cons, List.length_append] at hk'
            rw [ih (by omega) hab hab', ihr (by omega) hrest']

theorem Listing.trans_shorter {p q : String} {l : List String} (h : Listing pre p l)
    (hq : Relation.TransGen (Imports pre) p q) :
    ∃ lq, Listing pre q lq ∧ lq.length < l.length := by
  induction hq using Relation.TransGen.head_induction_on generalizing l with
  | single hpq =>
    obtain ⟨lq, h1, h2, _⟩ := h.child hpq
    exact ⟨lq, h1, h2⟩
  | head hpq _ ih =>
    obtain ⟨lq, h1, h2, _⟩ := h.child hpq
    obtain ⟨lr, h3, h4⟩ := ih h1
    exact ⟨lr, h3, by omega⟩

/-- A listed path is not on a cycle, nor is anything reachable. -/
theorem Listing.acyclic {p : String} {l : List String} (h : Listing pre p l) :
    ¬ CycleReachable pre p := by
  rintro ⟨c, hc, hcyc⟩
  have : ∃ lc, Listing pre c lc := by
    unfold Reach at hc
    induction hc using Relation.ReflTransGen.head_induction_on generalizing l with
    | refl => exact ⟨l, h⟩
    | head hpq _ ih =>
      obtain ⟨lq, h1, _, _⟩ := h.child hpq
      exact ih h1
  obtain ⟨lc, hlc⟩ := this
  obtain ⟨lc', h1, h2⟩ := hlc.trans_shorter hcyc
  rw [Listing.unique _ (Nat.le_refl _) hlc h1] at h2
  omega

/-! ## `uniq` -/

theorem mem_uniqLoop {x : String} : ∀ (l seen : List String),
    x ∈ uniqLoop seen l ↔ x ∈ l ∧ x ∉ seen := by
  intro l
  induction l with
  | nil => simp [uniqLoop]
  | cons p ps ih =>
    intro seen
    unfold uniqLoop
    split
    · rename_i hp
      rw [ih]
      have hp : p ∈ seen := by simpa using hp
      constructor
      · rintro ⟨a, b⟩; exact ⟨by simp [a], b⟩
      · rintro ⟨a, b⟩
        rcases List.mem_cons.1 a with rfl | a
        · exact absurd hp b
        · exact ⟨a, b⟩
    · rename_i hp
      have hp : p ∉ seen := by simpa using hp
      rw [List.mem_cons, ih]
      simp only [List.mem_cons, not_or]
      constructor
      · rintro (rfl | ⟨a, b, c⟩)
        · exact ⟨.inl rfl, hp⟩
        · exact ⟨.inr a, c⟩
      · rintro ⟨rfl | a, b⟩
        · exact .inl rfl
        · by_cases e : x = p
          · exact .inl e
          · exact .inr ⟨a, e, b⟩

theorem mem_uniq {x : String} {l : List String} : x ∈ uniq l ↔ x ∈ l := by
  simp [uniq, mem_uniqLoop]

theorem nodup_uniqLoop : ∀ (l seen : List String), (uniqLoop seen l).Nodup := by
  intro l
  induction l with
  | nil => simp [uniqLoop]
  | cons p ps ih =>
    intro seen
    unfold uniqLoop
    split
    · exact ih _
    · rw [List.nodup_cons]
      refine ⟨?_, ih _⟩
      rw [mem_uniqLoop]; simp

theorem nodup_uniq (l : List String) : (uniq l).Nodup := nodup_uniqLoop l []

/-- What `uniq` keeps before an element are the elements before its first
occurrence. -/
theorem uniqLoop_split : ∀ (l seen o1 : List String) (x : String) (o2 : List String),
    uniqLoop seen l = o1 ++ x :: o2 →
    ∃ l1 l2, l = l1 ++ x :: l2 ∧ ∀ y ∈ l1, y ∈ o1 ∨ y ∈ seen := by
  intro l
  induction l with
  | nil => intro seen o1 x o2 h; simp [uniqLoop] at h
  | cons p ps ih =>
    intro seen o1 x o2 h
    unfold uniqLoop at h
    split at h
    · rename_i hp
      obtain ⟨l1, l2, rfl, h1⟩ := ih _ _ _ _ h
      refine ⟨p :: l1, l2, rfl, ?_⟩
      intro y hy
      rcases List.mem_cons.1 hy with rfl | hy
      · right; simpa using hp
      · exact h1 y hy
    · cases o1 with
      | nil =>
        simp only [List.nil_append, List.cons.injEq] at h
        obtain ⟨rfl, _⟩ := h
        exact ⟨[], ps, rfl, by simp⟩
      | cons a o1 =>
        simp only [List.cons_append, List.cons.injEq] at h
        obtain ⟨rfl, h⟩ := h
        obtain ⟨l1, l2, rfl, h1⟩ := ih _ _ _ _ h
        refine ⟨p :: l1, l2, rfl, ?_⟩
        intro y hy
        rcases List.mem_cons.1 hy with rfl | hy
        · left; simp
        · rcases h1 y hy with h | h
          · left; simp [h]
          · rcases List.mem_cons.1 h with rfl | h
            · left; simp
            · right; exact h

/-- In the module order everything a module imports comes before it. -/
theorem modOrder_before {l : List String} {E : String → String → Prop}
    (h : ∀ l1 x l2, l = l1 ++ x :: l2 → ∀ q, E x q → q ∈ l2)
    {o1 : List String} {x : String} {o2 : List String} (ho : modOrder l = o1 ++ x :: o2)
    {q : String} (hq : E x q) : q ∈ o1 := by
  obtain ⟨l1, l2, hl, h1⟩ := uniqLoop_split _ _ _ _ _ ho
  have : l = l2.reverse ++ x :: l1.reverse := by
    have := congrArg List.reverse hl
    simpa using this
  have := h _ _ _ this q hq
  rcases h1 q (by simpa using this) with h | h
  · exact h
  · cases h

theorem uniqLoop_append_last : ∀ (l seen : List String) (x : String), x ∉ l → x ∉ seen →
    ∃ o, uniqLoop seen (l ++ [x]) = o ++ [x] := by
  intro l
  induction l with
  | nil => intro seen x _ h; exact ⟨[], by simp [uniqLoop, h]⟩
  | cons p ps ih =>
    intro seen x hx hs
    simp only [List.mem_cons, not_or] at hx
    simp only [List.cons_append]
    unfold uniqLoop
    split
    · exact ih _ _ hx.2 hs
    · obtain ⟨o, ho⟩ := ih (p :: seen) x hx.2 (by simp [hx.1, hs])
      exact ⟨p :: o, by simp [ho]⟩

/-- The main file comes last. -/
theorem modOrder_last {p : String} {t : List String} (h : p ∉ t) :
    ∃ o, modOrder (p :: t) = o ++ [p] := by
  unfold modOrder uniq
  rw [List.reverse_cons]
  exact uniqLoop_append_last _ _ _ (by simpa using h) (by simp)

end Che
