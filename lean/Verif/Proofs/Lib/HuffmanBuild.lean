import Verif.Proofs.Lib.Huffman
import Mathlib.Data.Nat.Fib.Basic

/-! The tree that `buildtree` makes. -/
namespace Che.Proofs.Lib.Huff
open Che Che.Lib Che.Lib.Bits Che.Lib.Huffman Che.Spec.Lib Che.Spec.Lib.Huff

/-- How often a character comes in a text. -/
def times (s : Bytes) (i : Nat) : Nat := s.countP (fun b => b.toNat == i)

theorem countLoop_spec : ∀ (s : Bytes) (counts : List Nat), counts.length = 256 →
    ∀ i, i < 256 → (countLoop s counts).getD i 0 = counts.getD i 0 + times s i
  | [], counts, _, i, _ => by simp [countLoop, times]
  | b :: s, counts, hc, i, hi => by
    rw [countLoop, countLoop_spec s _ (by simp [hc]) i hi]
    have hb : b.toNat < counts.length := by rw [hc]; exact b.toNat_lt
    simp only [times, List.countP_cons, beq_iff_eq]
    by_cases he : b.toNat = i
    · subst he
      rw [if_pos rfl]
      simp [List.getD, hb]
      omega
    · rw [if_neg he]
      simp [List.getD, he]

/-- A leaf. -/
def leaf (cnt : Nat → Nat) (i : Nat) : Node := .mk false i (cnt i) .null .null

theorem listLoop_spec (counts : List Nat) : ∀ (is : List Nat) (pos : Nat) (list : List Node),
    pos + is.length ≤ 512 → ∃ pos', listLoop counts is pos list =
      .ok (pos', list ++ (is.filter (fun i => counts.getD i 0 != 0)).map (leaf (counts.getD · 0))) ∧
      pos' = pos + (is.filter (fun i => counts.getD i 0 != 0)).length
  | [], pos, list, _ => ⟨pos, by simp [listLoop]; rfl, by simp⟩
  | i :: is, pos, list, h => by
    simp only [List.length_cons] at h
    rw [listLoop]
    by_cases h0 : counts.getD i 0 = 0
    · rw [if_pos h0]
      obtain ⟨p, h1, h2⟩ := listLoop_spec counts is pos list (by omega)
      refine ⟨p, ?_, ?_⟩
      · rw [h1, List.filter_cons_of_neg (by simpa using h0)]
      · rw [h2, List.filter_cons_of_neg (by simpa using h0)]
    · rw [if_neg h0]
      obtain ⟨p, h1, h2⟩ := listLoop_spec counts is (pos + 1) (list ++ [leaf (counts.getD · 0) i]) (by omega)
      refine ⟨p, ?_, ?_⟩
      · rw [show newnode pos = .ok (pos + 1) by rw [newnode, if_neg (by omega)]]
        show listLoop counts is (pos + 1) (list ++ [leaf (counts.getD · 0) i]) = _
        rw [h1, List.filter_cons_of_pos (by simpa using h0)]
        simp
      · rw [h2, List.filter_cons_of_pos (by simpa using h0)]
        simp only [List.length_cons]
        omega

/-- The node made of two. -/
def merged (a b : Node) : Node := .mk false 0 (a.count + b.count) a b

/-- The last two of a sorted list. -/
theorem split_last {l : List Node} {n : Nat} (h : l.length = n + 2) :
    l = l.take n ++ [l.getD n .null, l.getD (n + 1) .null] := by
  conv => lhs; rw [← List.take_append_drop n l]
  congr 1
  rw [List.drop_eq_getElem_cons (by omega), List.drop_eq_getElem_cons (by omega),
    List.drop_of_length_le (by omega)]
  simp [List.getD, h]

/-- An invariant of the merging loop holds at its end. -/
theorem mergeLoop_ind {sort : List Node → List Node} (hs : SortsDown sort) (P : List Node → Prop)
    (hstep : ∀ list pre a b, P list → list.Perm (pre ++ [b, a]) →
      (pre ++ [b, a]).Pairwise (fun a b => b.count ≤ a.count) → P (pre ++ [merged a b])) :
    ∀ (n pos : Nat) (list : List Node), list.length = n → 0 < n → pos + n ≤ 513 → P list →
      ∃ t, mergeLoop sort n pos list = .ok [t] ∧ P [t]
  | 0, _, _, _, h0, _, _ => absurd h0 (by omega)
  | 1, pos, list, hl, _, _, hp => by
    match list, hl with
    | [t], _ => exact ⟨t, rfl, hp⟩
  | n + 2, pos, list, hl, _, hpos, hp => by
    obtain ⟨h1, h2⟩ := hs list
    have hlen : (sort list).length = n + 2 := h1.length_eq.trans hl
    have he := split_last hlen
    rw [mergeLoop, show newnode pos = .ok (pos + 1) by rw [newnode, if_neg (by omega)]]
    refine mergeLoop_ind hs P hstep (n + 1) (pos + 1) _ ?_ (by omega) (by omega)
      (hstep list ((sort list).take n) _ _ hp ?_ ?_)
    · simp [hlen]
    · rw [← he]; exact h1.symm
    · rw [← he]; exact h2

/-- A tree over the characters counted. -/
def Built (cnt : Nat → Nat) : Node → Prop
  | .null => False
  | .mk _ v c .null r => r = .null ∧ c = cnt v ∧ 0 < c ∧ v < 256
  | .mk _ _ c l r => c = l.count + r.count ∧ Built cnt l ∧ Built cnt r

theorem built_inner {cnt b v c l r} (hl : l ≠ .null) :
    Built cnt (.mk b v c l r) ↔ c = l.count + r.count ∧ Built cnt l ∧ Built cnt r := by
  cases l with
  | null => exact absurd rfl hl
  | mk => rfl

theorem built_ne {cnt t} (h : Built cnt t) : t ≠ .null := by
  rintro rfl
  exact h

theorem built_proper {cnt} : ∀ {t}, Built cnt t → Proper t
  | .null, h => h
  | .mk b v c l r, h => by
    by_cases hl : l = .null
    · subst hl; exact h.1
    · rw [built_inner hl] at h
      rw [proper_inner hl]
      exact ⟨built_proper h.2.1, built_proper h.2.2⟩

/-- The values of a tree. -/
def vals (t : Node) : List Nat := (words t).map (·.1)

theorem vals_inner {b v c l r} (hl : l ≠ .null) : vals (.mk b v c l r) = vals l ++ vals r := by
  rw [vals, words_inner hl, List.map_append, List.map_map, List.map_map]
  rfl

/-- The number of steps to the deepest value. -/
def height : Node → Nat
  | .null => 0
  | .mk _ _ _ .null _ => 0
  | .mk _ _ _ l r => max (height l) (height r) + 1

theorem height_inner {b v c l r} (hl : l ≠ .null) :
    height (.mk b v c l r) = max (height l) (height r) + 1 := by
  cases l with
  | null => exact absurd rfl hl
  | mk => rfl

theorem word_le_height : ∀ {t : Node} {p}, p ∈ words t → p.2.length ≤ height t
  | .null, p, h => by simp [words] at h
  | .mk b v c l r, p, h => by
    by_cases hl : l = .null
    · subst hl
      rw [words_leaf, List.mem_singleton] at h
      subst h; simp
    · rw [words_inner hl, List.mem_append, List.mem_map, List.mem_map] at h
      rw [height_inner hl]
      rcases h with ⟨q, hq, rfl⟩ | ⟨q, hq, rfl⟩
      · have := word_le_height hq
        simp only [List.length_cons]; omega
      · have := word_le_height hq
        simp only [List.length_cons]; omega

/-- The counts of the inner nodes together. -/
def cost : Node → Nat
  | .null => 0
  | .mk _ _ _ .null _ => 0
  | .mk _ _ c l r => c + cost l + cost r

theorem cost_inner {b v c l r} (hl : l ≠ .null) :
    cost (.mk b v c l r) = c + cost l + cost r := by
  cases l with
  | null => exact absurd rfl hl
  | mk => rfl

theorem built_count {cnt} : ∀ {t}, Built cnt t → t.count = ((words t).map (fun p => cnt p.1)).sum
  | .null, h => absurd h (by simp [Built])
  | .mk b v c l r, h => by
    by_cases hl : l = .null
    · subst hl
      simp only [words_leaf, Node.count, h.2.1]; simp
    · rw [built_inner hl] at h
      rw [words_inner hl, List.map_append, List.map_map, List.map_map, List.sum_append]
      have h1 := built_count h.2.1
      have h2 := built_count h.2.2
      rw [Node.count, h.1, h1, h2]
      rfl

theorem sum_map_add' {α} (l : List α) (f g : α → Nat) :
    (l.map (fun a => f a + g a)).sum = (l.map f).sum + (l.map g).sum := by
  induction l with
  | nil => rfl
  | cons a l ih => simp only [List.map_cons, List.sum_cons, ih]; omega

/-- The words cost what the inner nodes count. -/
theorem built_cost {cnt} : ∀ {t}, Built cnt t → cost t = ((words t).map (fun p => cnt p.1 * p.2.length)).sum
  | .null, h => absurd h (by simp [Built])
  | .mk b v c l r, h => by
    by_cases hl : l = .null
    · subst hl
      simp [words_leaf, cost]
    · rw [built_inner hl] at h
      have e : ∀ (x : Node) (bit : Bool), Built cnt x →
          cost x = ((words x).map (fun p => cnt p.1 * p.2.length)).sum →
          (((words x).map (fun p => (p.1, bit :: p.2))).map (fun p => cnt p.1 * p.2.length)).sum = x.count + cost x := by
        intro x bit hx hcx
        rw [List.map_map, built_count hx]
        rw [hcx, ← sum_map_add']
        congr 1
        apply List.map_congr_left
        intro p _
        simp only [Function.comp_apply, List.length_cons, Nat.mul_add]
        omega
      rw [words_inner hl, List.map_append, List.sum_append, e l false h.2.1 (built_cost h.2.1),
        e r true h.2.2 (built_cost h.2.2), cost_inner hl, h.1]
      omega

/-- All that holds of the list while trees are merged. -/
def Forest (cnt : Nat → Nat) (vs : List Nat) (list : List Node) : Prop :=
  (∀ t ∈ list, Built cnt t) ∧ (list.flatMap vals).Perm vs ∧
  ∀ t ∈ list, Nat.fib (height t + 2) ≤ t.count ∧ ∀ u ∈ list, Nat.fib (height t + 1) ≤ u.count

theorem forest_step {cnt vs} (list pre : List Node) (a b : Node) (h : Forest cnt vs list)
    (hp : list.Perm (pre ++ [b, a])) (hs : (pre ++ [b, a]).Pairwise (fun a b => b.count ≤ a.count)) :
    Forest cnt vs (pre ++ [merged a b]) := by
  obtain ⟨h1, h2, h3⟩ := h
  have ma : a ∈ list := hp.mem_iff.2 (by simp)
  have mb : b ∈ list := hp.mem_iff.2 (by simp)
  have mp : ∀ u ∈ pre, u ∈ list := fun u hu => hp.mem_iff.2 (by simp [hu])
  have hna := built_ne (h1 a ma)
  rw [List.pairwise_append] at hs
  obtain ⟨_, s2, s3⟩ := hs
  have hab : a.count ≤ b.count := by simpa using s2
  have hpb : ∀ u ∈ pre, b.count ≤ u.count := fun u hu => s3 u hu b (by simp)
  have hm : height (merged a b) = max (height a) (height b) + 1 := height_inner hna
  have hc : (merged a b).count = a.count + b.count := rfl
  have hmax : Nat.fib (max (height a) (height b) + 2) ≤ b.count := by
    rcases Nat.le_total (height a) (height b) with h | h
    · rw [Nat.max_eq_right h]; exact (h3 b mb).1
    · rw [Nat.max_eq_left h]; exact Nat.le_trans (h3 a ma).1 hab
  have hmax1 : Nat.fib (max (height a) (height b) + 1) ≤ a.count := by
    rcases Nat.le_total (height a) (height b) with h | h
    · rw [Nat.max_eq_right h]; exact (h3 b mb).2 a ma
    · rw [Nat.max_eq_left h]; exact (h3 a ma).2 a ma
  have hmf : Nat.fib (height (merged a b) + 2) ≤ (merged a b).count := by
    rw [hm, hc, show max (height a) (height b) + 1 + 2 = (max (height a) (height b) + 1) + 2 from rfl, Nat.fib_add_two]
    have e : max (height a) (height b) + 1 + 1 = max (height a) (height b) + 2 := rfl
    rw [e]
    omega
  refine ⟨?_, ?_, ?_⟩
  · intro t ht
    rw [List.mem_append, List.mem_singleton] at ht
    rcases ht with ht | rfl
    · exact h1 t (mp t ht)
    · exact (built_inner hna).2 ⟨rfl, h1 a ma, h1 b mb⟩
  · refine List.Perm.trans ?_ ((hp.flatMap_right vals).symm.trans h2)
    rw [List.flatMap_append, List.flatMap_append]
    refine List.Perm.append_left _ ?_
    simp only [List.flatMap_cons, List.flatMap_nil, List.append_nil]
    rw [show vals (merged a b) = vals a ++ vals b from vals_inner hna]
    exact List.perm_append_comm
  · intro t ht
    rw [List.mem_append, List.mem_singleton] at ht
    rcases ht with ht | rfl
    · refine ⟨(h3 t (mp t ht)).1, fun u hu => ?_⟩
      rw [List.mem_append, List.mem_singleton] at hu
      rcases hu with hu | rfl
      · exact (h3 t (mp t ht)).2 u (mp u hu)
      · have := (h3 t (mp t ht)).2 a ma
        rw [hc]; omega
    · refine ⟨hmf, fun u hu => ?_⟩
      rw [List.mem_append, List.mem_singleton] at hu
      rcases hu with hu | rfl
      · rw [hm]
        exact Nat.le_trans hmax (hpb u hu)
      · exact Nat.le_trans (Nat.fib_mono (by omega)) hmf

/-- The characters of a text, each once. -/
def chars (s : Bytes) : List Nat := (List.range 256).filter (fun i => times s i != 0)

theorem mem_chars {s : Bytes} {c : UInt8} : c.toNat ∈ chars s ↔ c ∈ s := by
  simp only [chars, List.mem_filter, List.mem_range, times, bne_iff_ne, ne_eq, List.countP_eq_zero,
    beq_iff_eq, not_forall, Decidable.not_not]
  constructor
  · rintro ⟨_, b, hb, he⟩
    rw [← UInt8.toNat_inj.1 he]; exact hb
  · exact fun h => ⟨c.toNat_lt, c, h, rfl⟩

theorem chars_lt {s : Bytes} {i : Nat} (h : i ∈ chars s) : i < 256 := by
  simp only [chars, List.mem_filter, List.mem_range] at h
  exact h.1

theorem chars_nodup (s : Bytes) : (chars s).Nodup := List.nodup_range.filter _

/-- What `buildtree` starts from and how it ends, for any invariant. -/
theorem buildtree_ind {sort : List Node → List Node} (hs : SortsDown sort) (s : Bytes) (hne : s ≠ []) (P : List Node → Prop)
    (h0 : P ((chars s).map (leaf (times s))))
    (hstep : ∀ list pre a b, P list → list.Perm (pre ++ [b, a]) →
      (pre ++ [b, a]).Pairwise (fun a b => b.count ≤ a.count) → P (pre ++ [merged a b])) :
    ∃ t, buildtree sort s = .ok t ∧ P [t] := by
  have hc : ∀ i, i < 256 → (countLoop s (List.replicate 256 0)).getD i 0 = times s i := by
    intro i hi
    rw [countLoop_spec s _ List.length_replicate i hi, List.getD, List.getElem?_replicate, if_pos hi]
    exact Nat.zero_add _
  obtain ⟨pos, h1, h2⟩ := listLoop_spec (countLoop s (List.replicate 256 0)) (List.range 256) 0 []
    (by rw [List.length_range]; omega)
  have hf : (List.range 256).filter (fun i => (countLoop s (List.replicate 256 0)).getD i 0 != 0) = chars s := by
    apply List.filter_congr
    intro i hi
    rw [hc i (List.mem_range.1 hi)]
  rw [hf] at h1 h2
  have hm : (chars s).map (leaf ((countLoop s (List.replicate 256 0)).getD · 0)) = (chars s).map (leaf (times s)) := by
    apply List.map_congr_left
    intro i hi
    simp only [leaf, hc i (chars_lt hi)]
  rw [hm, List.nil_append] at h1
  have hlen : (chars s).length ≤ 256 := by
    have := List.length_filter_le (fun i => times s i != 0) (List.range 256)
    simpa [chars] using this
  have hpos : 0 < (chars s).length := by
    cases s with
    | nil => exact absurd rfl hne
    | cons c s => exact List.length_pos_of_mem (mem_chars.2 (List.mem_cons_self (a := c)))
  obtain ⟨t, m1, m2⟩ := mergeLoop_ind hs P hstep ((chars s).map (leaf (times s))).length pos _ rfl (by simpa using hpos)
    (by simp; omega) h0
  refine ⟨t, ?_, m2⟩
  rw [buildtree]
  simp only [h1]
  show (mergeLoop sort ((chars s).map (leaf (times s))).length pos _).bind _ = _
  rw [m1]
  rfl

theorem forest_start (s : Bytes) : Forest (times s) (chars s) ((chars s).map (leaf (times s))) := by
  have hpos : ∀ i ∈ chars s, 0 < times s i := by
    intro i hi
    simp only [chars, List.mem_filter, bne_iff_ne] at hi
    omega
  refine ⟨?_, ?_, ?_⟩
  · intro t ht
    obtain ⟨i, hi, rfl⟩ := List.mem_map.1 ht
    exact ⟨rfl, rfl, hpos i hi, chars_lt hi⟩
  · rw [List.flatMap_map]
    have : ∀ l : List Nat, l.flatMap (fun a => vals (leaf (times s) a)) = l := by
      intro l
      induction l with
      | nil => rfl
      | cons a l ih => rw [List.flatMap_cons, ih]; rfl
    rw [this]
  · intro t ht
    obtain ⟨i, hi, rfl⟩ := List.mem_map.1 ht
    refine ⟨hpos i hi, ?_⟩
    intro u hu
    obtain ⟨j, hj, rfl⟩ := List.mem_map.1 hu
    exact hpos j hj

theorem times_sum (g : Nat → Nat) : ∀ s : Bytes,
    (s.map (fun b => g b.toNat)).sum = ((List.range 256).map (fun i => times s i * g i)).sum
  | [] => by
    generalize List.range 256 = l
    induction l with
    | nil => rfl
    | cons a l ih => rw [List.map_cons, List.sum_cons, ← ih]; simp [times]
  | b :: s => by
    have h : ∀ l : List Nat, l.Nodup → (l.map (fun i => times (b :: s) i * g i)).sum =
        (if b.toNat ∈ l then g b.toNat else 0) + (l.map (fun i => times s i * g i)).sum := by
      intro l
      induction l with
      | nil => simp
      | cons a l ih =>
        intro hn
        rw [List.nodup_cons] at hn
        rw [List.map_cons, List.sum_cons, ih hn.2, List.map_cons, List.sum_cons]
        have ht : times (b :: s) a = times s a + if b.toNat = a then 1 else 0 := by
          simp [times, List.countP_cons]
        rw [ht]
        by_cases he : b.toNat = a
        · subst he
          rw [if_pos rfl, if_neg hn.1, if_pos (by simp), Nat.add_mul]
          omega
        · rw [if_neg he, Nat.add_zero]
          have : (b.toNat ∈ a :: l) ↔ b.toNat ∈ l := by simp [he]
          simp only [this]
          omega
    rw [h _ List.nodup_range, if_pos (List.mem_range.2 b.toNat_lt), List.map_cons, List.sum_cons, times_sum g s]

theorem times_sum_chars (g : Nat → Nat) (s : Bytes) :
    (s.map (fun b => g b.toNat)).sum = ((chars s).map (fun i => times s i * g i)).sum := by
  rw [times_sum, chars]
  generalize List.range 256 = l
  induction l with
  | nil => rfl
  | cons a l ih =>
    by_cases h : times s a = 0
    · rw [List.filter_cons_of_neg (by simpa using h), List.map_cons, List.sum_cons, ih, h]
      simp
    · rw [List.filter_cons_of_pos (by simpa using h), List.map_cons, List.sum_cons, ih, List.map_cons, List.sum_cons]

end Che.Proofs.Lib.Huff
