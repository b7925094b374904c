import Verif.Model.Prog.SortCircle

namespace Che.Prog.SortCircle
open Che

/-! ## Values and swaps -/

theorem get_at {l r : List Int} {x : Int} {i : Nat} (h : l.length = i) : get (l ++ x :: r) i = .ok x := by
  unfold get
  rw [List.getElem?_append_right (by omega), h, Nat.sub_self]
  rfl

/-- Two values of a list. -/
theorem swap_at {l m r : List Int} {x y : Int} {i j : Nat} (hi : l.length = i) (hj : l.length + m.length + 1 = j) :
    swap (l ++ x :: (m ++ y :: r)) i j = .ok (l ++ y :: (m ++ x :: r)) := by
  unfold swap
  have e : l ++ x :: (m ++ y :: r) = (l ++ x :: m) ++ y :: r := by simp
  rw [get_at hi]
  simp only [Res.bind]
  rw [e, get_at (by simp; omega)]
  simp only
  congr 1
  rw [← e, List.set_append_right _ _ (by omega), hi, Nat.sub_self, List.set_cons_zero, List.set_append_right _ _ (by omega),
    show j - l.length = m.length + 1 by omega, List.set_cons_succ, List.set_append_right _ _ (by omega), Nat.sub_self, List.set_cons_zero]

theorem swap_back {l m r : List Int} {x y : Int} {i j : Nat} (hi : l.length = i) (hj : l.length + m.length + 1 = j) :
    swap (l ++ x :: (m ++ y :: r)) j i = .ok (l ++ y :: (m ++ x :: r)) := by
  unfold swap
  have e : l ++ x :: (m ++ y :: r) = (l ++ x :: m) ++ y :: r := by simp
  rw [e, get_at (by simp; omega), ← e, get_at hi]
  simp only [Res.bind]
  congr 1
  rw [List.set_append_right _ _ (by omega), show j - l.length = m.length + 1 by omega, List.set_cons_succ, List.set_append_right _ _ (by omega),
    List.set_append_right _ _ (by omega), hi, Nat.sub_self, Nat.sub_self, List.set_cons_zero, List.set_cons_zero]

theorem swap_self {l r : List Int} {x : Int} {i : Nat} (hi : l.length = i) : swap (l ++ x :: r) i i = .ok (l ++ x :: r) := by
  unfold swap
  rw [get_at hi]
  simp only [Res.bind]
  congr 1
  rw [List.set_append_right _ _ (by omega), hi, Nat.sub_self, List.set_cons_zero, List.set_append_right _ _ (by omega), hi, Nat.sub_self, List.set_cons_zero]

theorem split_at {a : List Int} {i : Nat} (h : i + 1 < a.length) : ∃ l x y r, a = l ++ x :: y :: r ∧ l.length = i := by
  refine ⟨a.take i, a[i], a[i + 1], a.drop (i + 2), ?_, by simp; omega⟩
  rw [List.getElem_cons_drop, List.getElem_cons_drop, List.take_append_drop]

/-! ## Neighbours -/

/-- What grows when neighbours are put in order. -/
def weight (key : Int → Int) : Int → List Int → Int
  | _, [] => 0
  | k, x :: xs => k * key x + weight key (k + 1) xs

theorem weight_append (key : Int → Int) : ∀ (l r : List Int) (k : Int), weight key k (l ++ r) = weight key k l + weight key (k + l.length) r
  | [], r, k => by simp [weight]
  | x :: l, r, k => by
    rw [List.cons_append, weight, weight, weight_append key l r]
    simp only [List.length_cons]
    rw [show k + 1 + (l.length : Int) = k + ((l.length + 1 : Nat) : Int) by omega]
    omega

theorem weight_swap (key : Int → Int) (l r : List Int) (x y : Int) (k : Int) : weight key k (l ++ y :: x :: r) = weight key k (l ++ x :: y :: r) + (key x - key y) := by
  rw [weight_append, weight_append]
  generalize k + (l.length : Int) = j
  simp only [weight, Int.add_mul, Int.one_mul]
  omega

/-- A bound that does not depend on the order. -/
def total (key : Int → Int) : List Int → Nat
  | [] => 0
  | x :: xs => (key x).natAbs + total key xs

theorem total_perm (key : Int → Int) {a b : List Int} (h : a.Perm b) : total key a = total key b := by
  induction h with
  | nil => rfl
  | cons x _ ih => simp [total, ih]
  | swap x y l => simp [total]; omega
  | trans _ _ ih1 ih2 => rw [ih1, ih2]

theorem weight_le (key : Int → Int) : ∀ (a : List Int) (k m : Nat), k + a.length ≤ m → weight key k a ≤ (m * total key a : Nat)
  | [], k, m, _ => by simp [weight, total]
  | x :: a, k, m, h => by
    have ih := weight_le key a (k + 1) m (by simp at h; omega)
    rw [weight, total, Nat.mul_add]
    have h1 : (k : Int) * key x ≤ (k * (key x).natAbs : Nat) := by
      rw [Int.natCast_mul]
      exact Int.mul_le_mul_of_nonneg_left Int.le_natAbs (by omega)
    have h2 : k * (key x).natAbs ≤ m * (key x).natAbs := Nat.mul_le_mul_right _ (by simp at h; omega)
    have e : ((k + 1 : Nat) : Int) = (k : Int) + 1 := by omega
    rw [e] at ih
    omega

/-- How far a list is from its order. -/
def far (key : Int → Int) (a : List Int) : Nat := (((a.length * total key a : Nat) : Int) - weight key 0 a).toNat

theorem far_lt (key : Int → Int) {a b : List Int} (h : a.Perm b) (hw : weight key 0 a < weight key 0 b) : far key b < far key a := by
  unfold far
  rw [← total_perm key h, ← h.length_eq]
  have := weight_le key b 0 b.length (by omega)
  rw [← total_perm key h, ← h.length_eq] at this
  simp only [Int.ofNat_zero] at this
  omega

/-- What a loop over some neighbours does with the array and the flag. -/
structure Pass (key : Int → Int) (ps : Nat → Prop) (a : List Int) (c : Bool) (a' : List Int) (c' : Bool) : Prop where
  perm : a.Perm a'
  weight : weight key 0 a ≤ weight key 0 a'
  stable : ∀ k, a'.filter (fun x => key x = k) = a.filter (fun x => key x = k)
  more : c' = true → c = true ∨ SortCircle.weight key 0 a < SortCircle.weight key 0 a'
  same : c' = false → c = false ∧ a' = a ∧ ∀ l x y r, a = l ++ x :: y :: r → ps l.length → key x ≤ key y

theorem Pass.trans {key : Int → Int} {ps qs : Nat → Prop} {a a' a'' : List Int} {c c' c'' : Bool} (h1 : Pass key ps a c a' c') (h2 : Pass key qs a' c' a'' c'') :
    Pass key (fun i => ps i ∨ qs i) a c a'' c'' := by
  refine ⟨h1.perm.trans h2.perm, Int.le_trans h1.weight h2.weight, fun k => (h2.stable k).trans (h1.stable k), fun h => ?_, fun h => ?_⟩
  · rcases h2.more h with h | h
    · rcases h1.more h with h | h
      · exact .inl h
      · exact .inr (Int.lt_of_lt_of_le h h2.weight)
    · exact .inr (Int.lt_of_le_of_lt h1.weight h)
  · obtain ⟨e1, e2, e3⟩ := h2.same h
    obtain ⟨f1, f2, f3⟩ := h1.same e1
    subst e2 f2
    exact ⟨f1, rfl, fun l x y r e h => h.elim (f3 l x y r e) (e3 l x y r e)⟩

theorem Pass.nil {key : Int → Int} {a : List Int} {c : Bool} : Pass key (fun _ => False) a c a c :=
  ⟨.refl _, Int.le_refl _, fun _ => rfl, .inl, fun h => ⟨h, rfl, fun _ _ _ _ _ h => h.elim⟩⟩

theorem Pass.weaken {key : Int → Int} {ps qs : Nat → Prop} {a a' : List Int} {c c' : Bool} (h : Pass key ps a c a' c') (hq : ∀ i, i + 1 < a.length → qs i → ps i) : Pass key qs a c a' c' := by
  refine ⟨h.perm, h.weight, h.stable, h.more, fun hc => ?_⟩
  obtain ⟨e1, e2, e3⟩ := h.same hc
  exact ⟨e1, e2, fun l x y r e hl => e3 l x y r e (hq _ (by rw [e]; simp) hl)⟩

theorem order_pass (key : Int → Int) {a : List Int} {i : Nat} (h : i + 1 < a.length) (c : Bool) : ∃ a' c', order key i (i + 1) a c = .ok (a', c') ∧ Pass key (· = i) a c a' c' := by
  obtain ⟨l, x, y, r, rfl, hl⟩ := split_at h
  have e : l ++ x :: y :: r = (l ++ [x]) ++ y :: r := by simp
  have g1 : get (l ++ x :: y :: r) i = .ok x := get_at hl
  have g2 : get (l ++ x :: y :: r) (i + 1) = .ok y := by rw [e]; exact get_at (by simp; omega)
  unfold order
  rw [g1, g2]
  simp only [Res.bind]
  split
  · rename_i hk
    have hs : swap (l ++ x :: y :: r) i (i + 1) = .ok (l ++ y :: x :: r) := by
      have := swap_at (l := l) (m := []) (r := r) (x := x) (y := y) hl (j := i + 1) (by simp; omega)
      simpa using this
    rw [hs]
    refine ⟨_, _, rfl, ?_⟩
    have hw := weight_swap key l r x y 0
    refine ⟨?_, by omega, fun k => ?_, fun _ => .inr (by omega), fun h => by simp at h⟩
    · exact List.Perm.append_left l (List.Perm.swap y x r)
    · simp only [List.filter_append, List.filter_cons]
      by_cases h1 : key x = k <;> by_cases h2 : key y = k
      · omega
      · simp [h1, h2]
      · simp [h1, h2]
      · simp [h1, h2]
  · rename_i hk
    refine ⟨_, _, rfl, .refl _, Int.le_refl _, fun _ => rfl, .inl, fun hc => ⟨hc, rfl, fun l' x' y' r' e' h' => ?_⟩⟩
    obtain ⟨rfl, e2⟩ := List.append_inj e' (by omega)
    injection e2 with e2 e3
    injection e3 with e3 _
    subst e2 e3
    omega

theorem pairsFor_pass (key : Int → Int) : ∀ (k : Nat) {i : Nat} {a : List Int} (c : Bool), a.length ≤ i + 2 * k → ∃ a' c', pairsFor key k i a c = .ok (a', c') ∧ Pass key (fun p => i ≤ p ∧ (p - i) % 2 = 0) a c a' c'
  | 0, i, a, c, h => ⟨a, c, rfl, Pass.nil.weaken fun p hp hq => by omega⟩
  | k + 1, i, a, c, h => by
    rw [pairsFor]
    split
    · rename_i hi
      obtain ⟨a1, c1, e1, p1⟩ := order_pass key hi c
      obtain ⟨a2, c2, e2, p2⟩ := pairsFor_pass key k (i := i + 2) (a := a1) c1 (by rw [← p1.perm.length_eq]; omega)
      rw [e1]
      refine ⟨a2, c2, e2, (p1.trans p2).weaken fun p _ hq => ?_⟩
      by_cases h0 : p = i
      · exact .inl h0
      · exact .inr ⟨by omega, by omega⟩
    · exact ⟨a, c, rfl, Pass.nil.weaken fun p hp hq => by omega⟩

theorem bubbleFor_pass : ∀ (k : Nat) {i : Nat} {a : List Int} (c : Bool), 1 ≤ i → a.length ≤ i + k → ∃ a' c', bubbleFor k i a c = .ok (a', c') ∧ Pass id (fun p => i ≤ p + 1) a c a' c'
  | 0, i, a, c, _, h => ⟨a, c, rfl, Pass.nil.weaken fun p hp hq => by omega⟩
  | k + 1, i, a, c, h1, h => by
    rw [bubbleFor]
    split
    · rename_i hi
      obtain ⟨a1, c1, e1, p1⟩ := order_pass id (i := i - 1) (a := a) (by omega) c
      rw [show i - 1 + 1 = i by omega] at e1
      obtain ⟨a2, c2, e2, p2⟩ := bubbleFor_pass k (i := i + 1) (a := a1) c1 (by omega) (by rw [← p1.perm.length_eq]; omega)
      rw [e1]
      refine ⟨a2, c2, e2, (p1.trans p2).weaken fun p _ hq => ?_⟩
      by_cases h0 : p = i - 1
      · exact .inl h0
      · exact .inr (by omega)
    · exact ⟨a, c, rfl, Pass.nil.weaken fun p hp hq => by omega⟩

theorem oddEvenRound_pass (key : Int → Int) (a : List Int) : ∃ a' c', oddEvenRound key a = .ok (a', c') ∧ Pass key (fun _ => True) a false a' c' := by
  obtain ⟨a1, c1, e1, p1⟩ := pairsFor_pass key a.length (i := 1) (a := a) false (by omega)
  obtain ⟨a2, c2, e2, p2⟩ := pairsFor_pass key a1.length (i := 0) (a := a1) c1 (by omega)
  unfold oddEvenRound
  rw [e1]
  exact ⟨a2, c2, e2, (p1.trans p2).weaken fun p _ _ => by omega⟩

/-- Neighbours in order: everything in order. -/
theorem sorted_of (key : Int → Int) : ∀ {a : List Int}, (∀ l x y r, a = l ++ x :: y :: r → key x ≤ key y) → a.Pairwise (fun x y => key x ≤ key y)
  | [], _ => .nil
  | [x], _ => by simp
  | x :: y :: r, h => by
    have ih := sorted_of key (a := y :: r) fun l x' y' r' e => h (x :: l) x' y' r' (by rw [e]; rfl)
    refine .cons ?_ ih
    have h0 := h [] x y r rfl
    rw [List.pairwise_cons] at ih
    intro z hz
    rcases List.mem_cons.1 hz with rfl | hz
    · exact h0
    · exact Int.le_trans h0 (ih.1 z hz)

/-- What a sort must do. -/
def Sorts (key : Int → Int) (a a' : List Int) : Prop :=
  a.Perm a' ∧ a'.Pairwise (fun x y => key x ≤ key y) ∧ ∀ k, a'.filter (fun x => key x = k) = a.filter (fun x => key x = k)

/-- Rounds until nothing changes. -/
def loop (f : List Int → Res String (List Int × Bool)) : Nat → List Int → Nat → Res String (List Int × Nat)
  | 0, _, _ => .diverge
  | n + 1, a, t => (f a).bind fun (a, c) => if !c then .ok (a, t) else loop f n a (t + 1)

theorem loop_sorts {key : Int → Int} {f : List Int → Res String (List Int × Bool)} (hf : ∀ a, ∃ a' c', f a = .ok (a', c') ∧ Pass key (fun _ => True) a false a' c') :
    ∀ (m : Nat) {a : List Int}, far key a ≤ m → ∃ a' t, (∀ n t0, m < n → loop f n a t0 = .ok (a', t0 + t)) ∧ Sorts key a a' ∧ (t = 0 → a' = a) := by
  intro m
  induction m with
  | zero =>
    intro a h
    obtain ⟨a1, c1, e1, p1⟩ := hf a
    have hc : c1 = false := by
      cases c1 with
      | false => rfl
      | true =>
        rcases p1.more rfl with h' | h'
        · simp at h'
        · have := far_lt key p1.perm h'; omega
    subst hc
    obtain ⟨_, e2, e3⟩ := p1.same rfl
    refine ⟨a1, 0, fun n t0 hn => ?_, ⟨p1.perm, ?_, p1.stable⟩, fun _ => e2⟩
    · obtain ⟨n, rfl⟩ : ∃ k, n = k + 1 := ⟨n - 1, by omega⟩
      rw [loop, e1]; rfl
    · subst e2
      exact sorted_of key fun l x y r e => e3 l x y r e trivial
  | succ m ih =>
    intro a h
    obtain ⟨a1, c1, e1, p1⟩ := hf a
    cases c1 with
    | false =>
      obtain ⟨_, e2, e3⟩ := p1.same rfl
      refine ⟨a1, 0, fun n t0 hn => ?_, ⟨p1.perm, ?_, p1.stable⟩, fun _ => e2⟩
      · obtain ⟨n, rfl⟩ : ∃ k, n = k + 1 := ⟨n - 1, by omega⟩
        rw [loop, e1]; rfl
      · subst e2
        exact sorted_of key fun l x y r e => e3 l x y r e trivial
    | true =>
      have hlt : far key a1 < far key a := by
        rcases p1.more rfl with h' | h'
        · simp at h'
        · exact far_lt key p1.perm h'
      obtain ⟨a2, t, e2, ⟨q1, q2, q3⟩, _⟩ := ih (a := a1) (by omega)
      refine ⟨a2, t + 1, fun n t0 hn => ?_, ⟨p1.perm.trans q1, q2, fun k => (q3 k).trans (p1.stable k)⟩, by omega⟩
      obtain ⟨n, rfl⟩ : ∃ k, n = k + 1 := ⟨n - 1, by omega⟩
      rw [loop, e1]
      simp only [Res.bind, Bool.not_true, Bool.false_eq_true, if_false]
      rw [e2 n (t0 + 1) (by omega), Nat.add_assoc, Nat.add_comm 1 t]

theorem bubble_loop : ∀ (n : Nat) (a : List Int) (t : Nat), bubble n a = (loop (fun a => bubbleFor a.length 1 a false) n a t).bind fun p => .ok p.1
  | 0, _, _ => rfl
  | n + 1, a, t => by
    rw [bubble, loop]
    cases bubbleFor a.length 1 a false with
    | ok p =>
      obtain ⟨a', c⟩ := p
      cases c with
      | false => rfl
      | true => exact bubble_loop n a' (t + 1)
    | err e => rfl
    | panic e => rfl
    | diverge => rfl

theorem oddEven_loop : ∀ (n : Nat) (a : List Int) (t : Nat), oddEven n a = (loop (oddEvenRound id) n a t).bind fun p => .ok p.1
  | 0, _, _ => rfl
  | n + 1, a, t => by
    rw [oddEven, loop]
    cases oddEvenRound id a with
    | ok p =>
      obtain ⟨a', c⟩ := p
      cases c with
      | false => rfl
      | true => exact oddEven_loop n a' (t + 1)
    | err e => rfl
    | panic e => rfl
    | diverge => rfl

theorem radixRound_loop (b : Int) (d : Nat) : ∀ (n : Nat) (a : List Int) (t : Nat), radixRound b d n a t = loop (oddEvenRound fun v => digit v b d) n a t
  | 0, _, _ => rfl
  | n + 1, a, t => by
    rw [radixRound, loop]
    cases oddEvenRound (fun v => digit v b d) a with
    | ok p =>
      obtain ⟨a', c⟩ := p
      cases c with
      | false => rfl
      | true => exact radixRound_loop b d n a' (t + 1)
    | err e => rfl
    | panic e => rfl
    | diverge => rfl

theorem bubble_sorts (a : List Int) : ∃ a', (∀ n, far id a < n → bubble n a = .ok a') ∧ Sorts id a a' := by
  obtain ⟨a', t, h, hs, _⟩ := loop_sorts (key := id) (f := fun a => bubbleFor a.length 1 a false) (fun a => by
    obtain ⟨a1, c1, e1, p1⟩ := bubbleFor_pass a.length (i := 1) (a := a) false (by omega) (by omega)
    exact ⟨a1, c1, e1, p1.weaken fun p _ _ => by omega⟩) (far id a) (Nat.le_refl _)
  exact ⟨a', fun n hn => by rw [bubble_loop n a 0, h n 0 hn]; rfl, hs⟩

theorem oddEven_sorts (a : List Int) : ∃ a', (∀ n, far id a < n → oddEven n a = .ok a') ∧ Sorts id a a' := by
  obtain ⟨a', t, h, hs, _⟩ := loop_sorts (key := id) (oddEvenRound_pass id) (far id a) (Nat.le_refl _)
  exact ⟨a', fun n hn => by rw [oddEven_loop n a 0, h n 0 hn]; rfl, hs⟩

/-! ## Insertion -/

theorem insertFor_sorts : ∀ (j : Nat) {s t u : List Int} {x : Int}, s.length = j → (s ++ t).Pairwise (· ≤ ·) → (∀ y ∈ t, x < y) →
    ∃ s', insertFor j (s ++ x :: (t ++ u)) = .ok (s' ++ u) ∧ (s ++ x :: t).Perm s' ∧ s'.Pairwise (· ≤ ·)
  | 0, s, t, u, x, hl, hs, ht => by
    have : s = [] := List.eq_nil_of_length_eq_zero hl
    subst this
    exact ⟨x :: t, rfl, .refl _, .cons (fun y hy => Int.le_of_lt (ht y hy)) hs⟩
  | j + 1, s, t, u, x, hl, hs, ht => by
    obtain ⟨s0, z, rfl⟩ : ∃ s0 z, s = s0 ++ [z] := by
      rcases List.eq_nil_or_concat s with h | ⟨s0, z, h⟩
      · subst h; simp at hl
      · exact ⟨s0, z, by rw [h, List.concat_eq_append]⟩
    have hl0 : s0.length = j := by simp at hl; omega
    have e : s0 ++ [z] ++ x :: (t ++ u) = s0 ++ z :: x :: (t ++ u) := by simp
    have g1 : get (s0 ++ z :: x :: (t ++ u)) j = .ok z := get_at hl0
    have g2 : get (s0 ++ z :: x :: (t ++ u)) (j + 1) = .ok x := by rw [← e]; exact get_at (by simp; omega)
    rw [e, insertFor, g1, g2]
    simp only [Res.bind]
    split
    · rename_i hk
      have hsw : swap (s0 ++ z :: x :: (t ++ u)) (j + 1) j = .ok (s0 ++ x :: z :: (t ++ u)) := by
        have := swap_back (l := s0) (m := []) (r := t ++ u) (x := z) (y := x) hl0 (j := j + 1) (by simp; omega)
        simpa using this
      rw [hsw]
      obtain ⟨s', e1, p1, q1⟩ := insertFor_sorts j (s := s0) (t := z :: t) (u := u) (x := x) hl0 (by simpa using hs) (by
        intro y hy
        rcases List.mem_cons.1 hy with rfl | hy
        · exact hk
        · exact ht y hy)
      refine ⟨s', e1, List.Perm.trans ?_ p1, q1⟩
      rw [List.append_assoc]
      exact List.Perm.append_left s0 (List.Perm.swap x z t)
    · rename_i hk
      refine ⟨s0 ++ [z] ++ x :: t, by simp, .refl _, ?_⟩
      rw [List.pairwise_append] at hs ⊢
      refine ⟨hs.1, .cons (fun y hy => Int.le_of_lt (ht y hy)) hs.2.1, fun a ha b hb => ?_⟩
      rcases List.mem_cons.1 hb with rfl | hb
      · rcases List.mem_append.1 ha with ha | ha
        · have h1 := hs.1
          rw [List.pairwise_append] at h1
          exact Int.le_trans (h1.2.2 a ha z (by simp)) (by omega)
        · rw [List.mem_singleton] at ha; omega
      · exact hs.2.2 a ha b hb

theorem insertion_sorts : ∀ (k : Nat) {i : Nat} {s u : List Int}, s.length = i → s.Pairwise (· ≤ ·) → u.length ≤ k →
    ∃ a', insertion k i (s ++ u) = .ok a' ∧ (s ++ u).Perm a' ∧ a'.Pairwise (· ≤ ·)
  | 0, i, s, u, hl, hs, hu => by
    have : u = [] := List.eq_nil_of_length_eq_zero (by omega)
    subst this
    exact ⟨s ++ [], rfl, .refl _, by simpa using hs⟩
  | k + 1, i, s, u, hl, hs, hu => by
    rw [insertion]
    cases u with
    | nil =>
      rw [if_neg (by simp; omega)]
      exact ⟨s ++ [], rfl, .refl _, by simpa using hs⟩
    | cons x u =>
      rw [if_pos (by simp; omega)]
      obtain ⟨s', e1, p1, q1⟩ := insertFor_sorts i (s := s) (t := []) (u := u) (x := x) hl (by simpa using hs) (by simp)
      rw [List.nil_append] at e1
      rw [e1]
      simp only [Res.bind]
      have hl' : s'.length = i + 1 := by rw [← p1.length_eq]; simp; omega
      obtain ⟨a', e2, p2, q2⟩ := insertion_sorts k (i := i + 1) (s := s') (u := u) hl' q1 (by simp at hu; omega)
      refine ⟨a', e2, List.Perm.trans ?_ p2, q2⟩
      have : s ++ x :: u = (s ++ [x]) ++ u := by simp
      rw [this]
      exact List.Perm.append_right u p1

/-! ## Stooge sort -/

theorem ends_at {s : List Int} (hs : 0 < s.length) : ∃ s1, (∀ pre post, ends (pre ++ (s ++ post)) pre.length (pre.length + s.length - 1) = .ok (pre ++ (s1 ++ post))) ∧ s.Perm s1 ∧
    (s.length ≤ 2 → s1.Pairwise (· ≤ ·)) := by
  match s, hs with
  | [x], _ =>
    refine ⟨[x], fun pre post => ?_, .refl _, fun _ => by simp⟩
    unfold ends
    have g : get (pre ++ ([x] ++ post)) pre.length = .ok x := get_at rfl
    have hj : pre.length + [x].length - 1 = pre.length := by simp
    rw [hj, g]
    simp only [Res.bind]
    rw [if_neg (by omega)]
  | x :: y :: u, _ =>
    obtain ⟨m, z, e⟩ : ∃ m z, y :: u = m ++ [z] := by
      rcases List.eq_nil_or_concat (y :: u) with h | ⟨m, z, h⟩
      · simp at h
      · exact ⟨m, z, by rw [h, List.concat_eq_append]⟩
    rw [e]
    have hm : ∀ pre : List Int, pre.length + (x :: (m ++ [z])).length - 1 = pre.length + m.length + 1 := fun pre => by simp; omega
    have e2 : ∀ pre post : List Int, pre ++ (x :: (m ++ [z]) ++ post) = pre ++ x :: (m ++ z :: post) := fun pre post => by simp
    have g1 : ∀ pre post : List Int, get (pre ++ x :: (m ++ z :: post)) pre.length = .ok x := fun pre post => get_at rfl
    have g2 : ∀ pre post : List Int, get (pre ++ x :: (m ++ z :: post)) (pre.length + m.length + 1) = .ok z := fun pre post => by
      have : pre ++ x :: (m ++ z :: post) = (pre ++ x :: m) ++ z :: post := by simp
      rw [this]; exact get_at (by simp; omega)
    by_cases hk : x > z
    · refine ⟨z :: (m ++ [x]), fun pre post => ?_, ?_, fun h => ?_⟩
      · unfold ends
        rw [hm, e2, g1, g2]
        simp only [Res.bind]
        rw [if_pos hk, swap_at rfl rfl]
        simp
      · refine List.Perm.trans (List.Perm.cons x List.perm_append_comm) ?_
        refine List.Perm.trans (List.Perm.swap z x m) ?_
        exact List.Perm.cons z (List.perm_append_comm (l₁ := [x]))
      · have : m = [] := List.eq_nil_of_length_eq_zero (by simp only [List.length_cons, List.length_append, List.length_nil] at h; omega)
        subst this
        simp; omega
    · refine ⟨x :: (m ++ [z]), fun pre post => ?_, .refl _, fun h => ?_⟩
      · unfold ends
        rw [hm, e2, g1, g2]
        simp only [Res.bind]
        rw [if_neg hk]
      · have : m = [] := List.eq_nil_of_length_eq_zero (by simp only [List.length_cons, List.length_append, List.length_nil] at h; omega)
        subst this
        simp; omega

/-- The last third has the greatest values after the second step. -/
theorem greatest {p m z1 z2 y : List Int} (h1 : (p ++ m).Pairwise (· ≤ ·)) (h2 : (z1 ++ z2).Pairwise (· ≤ ·)) (hp : (m ++ y).Perm (z1 ++ z2)) (hl : z2.length ≤ m.length) :
    ∀ a ∈ p, ∀ b ∈ z2, a ≤ b := by
  intro a ha b hb
  apply Int.not_lt.1
  intro hlt
  rw [List.pairwise_append] at h1 h2
  have c1 : m.countP (fun v => decide (b < v)) = m.length := by
    rw [List.countP_eq_length]
    intro v hv
    have := h1.2.2 a ha v hv
    simp; omega
  have c2 : (m ++ y).countP (fun v => decide (b < v)) = (z1 ++ z2).countP (fun v => decide (b < v)) := hp.countP_eq _
  have c3 : z1.countP (fun v => decide (b < v)) = 0 := by
    rw [List.countP_eq_zero]
    intro v hv
    have := h2.2.2 v hv b hb
    simp; omega
  have c4 : z2.countP (fun v => decide (b < v)) < z2.length := by
    obtain ⟨l, r, rfl⟩ := List.append_of_mem hb
    rw [List.countP_append, List.countP_cons_of_neg (by simp), List.length_append, List.length_cons]
    have := List.countP_le_length (p := fun v => decide (b < v)) (l := l)
    have := List.countP_le_length (p := fun v => decide (b < v)) (l := r)
    omega
  rw [List.countP_append, List.countP_append] at c2
  omega

theorem stooge_sorts : ∀ (L : Nat) {s : List Int}, s.length = L → 0 < L → ∃ s', (∀ n pre post, L ≤ n → stooge n (pre ++ (s ++ post)) pre.length (pre.length + L - 1) = .ok (pre ++ (s' ++ post))) ∧
    s.Perm s' ∧ s'.Pairwise (· ≤ ·) := by
  intro L
  induction L using Nat.strongRecOn with
  | _ L ih =>
    intro s hs hL
    obtain ⟨s1, e1, p1, q1⟩ := ends_at (s := s) (by omega)
    have hl1 : s1.length = L := by rw [← p1.length_eq, hs]
    by_cases h2 : L ≤ 2
    · refine ⟨s1, fun n pre post hn => ?_, p1, q1 (by omega)⟩
      obtain ⟨n, rfl⟩ : ∃ k, n = k + 1 := ⟨n - 1, by omega⟩
      rw [stooge, ← hs, e1]
      simp only [Res.bind]
      rw [if_neg (by omega)]
    · obtain ⟨t, ht⟩ : ∃ t, t = L / 3 := ⟨_, rfl⟩
      -- the first two thirds
      obtain ⟨x', ex, px, qx⟩ := ih (L - t) (by omega) (s := s1.take (L - t)) (by simp; omega) (by omega)
      have hx : x'.length = L - t := by rw [← px.length_eq]; simp; omega
      -- the last two thirds
      obtain ⟨z, ez, pz, qz⟩ := ih (L - t) (by omega) (s := x'.drop t ++ s1.drop (L - t)) (by simp; omega) (by omega)
      have hz : z.length = L - t := by rw [← pz.length_eq]; simp; omega
      -- the first two thirds again
      obtain ⟨w, ew, pw, qw⟩ := ih (L - t) (by omega) (s := x'.take t ++ z.take (L - 2 * t)) (by simp; omega) (by omega)
      have e2 : s1 = s1.take (L - t) ++ s1.drop (L - t) := (List.take_append_drop _ _).symm
      have e3 : x' = x'.take t ++ x'.drop t := (List.take_append_drop _ _).symm
      have e4 : z = z.take (L - 2 * t) ++ z.drop (L - 2 * t) := (List.take_append_drop _ _).symm
      refine ⟨w ++ z.drop (L - 2 * t), fun n pre post hn => ?_, ?_, ?_⟩
      · obtain ⟨n, rfl⟩ : ∃ k, n = k + 1 := ⟨n - 1, by omega⟩
        rw [stooge, ← hs, e1, hs]
        simp only [Res.bind]
        rw [if_pos (by omega)]
        have i1 : pre.length + L - 1 - pre.length + 1 = L := by omega
        rw [i1, ← ht]
        have f1 := ex n pre (s1.drop (L - t) ++ post) (by omega)
        rw [← List.append_assoc (s1.take (L - t)), ← e2] at f1
        rw [show pre.length + L - 1 - t = pre.length + (L - t) - 1 by omega, f1]
        simp only
        have f2 := ez n (pre ++ x'.take t) post (by omega)
        have l2 : (pre ++ x'.take t).length = pre.length + t := by simp; omega
        rw [l2, show pre.length + t + (L - t) - 1 = pre.length + L - 1 by omega] at f2
        have r2 : pre ++ (x' ++ (s1.drop (L - t) ++ post)) = pre ++ x'.take t ++ (x'.drop t ++ s1.drop (L - t) ++ post) := by
          conv => lhs; rw [e3]
          simp only [List.append_assoc]
        rw [r2, f2]
        simp only
        have f3 := ew n pre (z.drop (L - 2 * t) ++ post) (by omega)
        have r3 : pre ++ x'.take t ++ (z ++ post) = pre ++ (x'.take t ++ z.take (L - 2 * t) ++ (z.drop (L - 2 * t) ++ post)) := by
          conv => lhs; rw [e4]
          simp only [List.append_assoc]
        rw [r3, f3]
        simp only [List.append_assoc]
      · refine p1.trans ?_
        rw [e2]
        refine (List.Perm.append_right _ px).trans ?_
        conv => lhs; rw [e3]
        rw [List.append_assoc]
        refine (List.Perm.append_left _ pz).trans ?_
        conv => lhs; rw [e4]
        rw [← List.append_assoc]
        exact List.Perm.append_right _ pw
      · have hg := greatest (p := x'.take t) (m := x'.drop t) (z1 := z.take (L - 2 * t)) (z2 := z.drop (L - 2 * t)) (y := s1.drop (L - t)) (by rw [← e3]; exact qx) (by rw [← e4]; exact qz)
          (by rw [← e4]; exact pz) (by simp; omega)
        rw [e4, List.pairwise_append] at qz
        rw [List.pairwise_append]
        refine ⟨qw, qz.2.1, fun a ha b hb => ?_⟩
        rcases List.mem_append.1 (pw.mem_iff.2 ha) with h | h
        · exact hg a h b hb
        · exact qz.2.2 a h b hb

/-! ## Quicksort -/

theorem partition_at (p : Int) : ∀ (k : Nat) {a b c : List Int}, b.length ≤ k → (∀ x ∈ a, x ≤ p) → (∀ x ∈ c, p < x) →
    ∃ a' c', (∀ pre post k', k ≤ k' → partition k' (pre ++ p :: (a ++ (b ++ (c ++ post)))) pre.length (1 + a.length) (1 + a.length + b.length) = .ok (pre ++ p :: (a' ++ (c' ++ post)), 1 + a'.length)) ∧
      (a ++ (b ++ c)).Perm (a' ++ c') ∧ (∀ x ∈ a', x ≤ p) ∧ (∀ x ∈ c', p < x)
  | k, a, [], c, _, ha, hc => by
    refine ⟨a, c, fun pre post k' _ => ?_, .refl _, ha, hc⟩
    cases k' with
    | zero => simp [partition]
    | succ k' => rw [partition, if_neg (by simp)]; simp
  | 0, a, x :: b, c, h, _, _ => by simp at h
  | k + 1, a, x :: b, c, h, ha, hc => by
    have g1 : ∀ pre post : List Int, get (pre ++ p :: (a ++ (x :: b ++ (c ++ post)))) pre.length = .ok p := fun pre post => get_at rfl
    have g2 : ∀ pre post : List Int, get (pre ++ p :: (a ++ (x :: b ++ (c ++ post)))) (pre.length + (1 + a.length)) = .ok x := fun pre post => by
      have : pre ++ p :: (a ++ (x :: b ++ (c ++ post))) = (pre ++ p :: a) ++ x :: (b ++ (c ++ post)) := by simp
      rw [this]; exact get_at (by simp; omega)
    by_cases hk : p < x
    · rcases List.eq_nil_or_concat b with rfl | ⟨m, z, e⟩
      · obtain ⟨a', c', e1, p1, q1, q2⟩ := partition_at p k (a := a) (b := []) (c := x :: c) (by simp) ha (by
          intro y hy
          rcases List.mem_cons.1 hy with rfl | hy
          · exact hk
          · exact hc y hy)
        refine ⟨a', c', fun pre post k' hk' => ?_, by simpa using p1, q1, q2⟩
        obtain ⟨k', rfl⟩ : ∃ j, k' = j + 1 := ⟨k' - 1, by omega⟩
        rw [partition, if_pos (by simp), g1, g2]
        simp only [Res.bind]
        have hsw : swap (pre ++ p :: (a ++ ([x] ++ (c ++ post)))) (pre.length + (1 + a.length)) (pre.length + (1 + a.length + [x].length - 1)) = .ok (pre ++ p :: (a ++ ([x] ++ (c ++ post)))) := by
          have : pre ++ p :: (a ++ ([x] ++ (c ++ post))) = (pre ++ p :: a) ++ x :: (c ++ post) := by simp
          rw [this, show pre.length + (1 + a.length + [x].length - 1) = pre.length + (1 + a.length) by simp]
          exact swap_self (by simp; omega)
        rw [if_pos hk, hsw]
        have := e1 pre post k' (by omega)
        simpa using this
      · rw [List.concat_eq_append] at e
        subst e
        obtain ⟨a', c', e1, p1, q1, q2⟩ := partition_at p k (a := a) (b := z :: m) (c := x :: c) (by simp at h ⊢; omega) ha (by
          intro y hy
          rcases List.mem_cons.1 hy with rfl | hy
          · exact hk
          · exact hc y hy)
        refine ⟨a', c', fun pre post k' hk' => ?_, ?_, q1, q2⟩
        · obtain ⟨k', rfl⟩ : ∃ j, k' = j + 1 := ⟨k' - 1, by omega⟩
          rw [partition, if_pos (by simp), g1, g2]
          simp only [Res.bind]
          have hsw : swap (pre ++ p :: (a ++ (x :: (m ++ [z]) ++ (c ++ post)))) (pre.length + (1 + a.length)) (pre.length + (1 + a.length + (x :: (m ++ [z])).length - 1)) =
              .ok (pre ++ p :: (a ++ (z :: m ++ (x :: c ++ post)))) := by
            have := swap_at (l := pre ++ p :: a) (m := m) (r := c ++ post) (x := x) (y := z) (i := pre.length + (1 + a.length)) (j := pre.length + (1 + a.length + (x :: (m ++ [z])).length - 1))
              (by simp; omega) (by simp; omega)
            simpa using this
          rw [if_pos hk, hsw]
          have := e1 pre post k' (by omega)
          simp only
          rw [← this]
          congr 1
          simp
        · refine List.Perm.trans ?_ p1
          refine List.Perm.append_left a ?_
          have h1 : (x :: (m ++ [z])).Perm (z :: (m ++ [x])) := by
            refine List.Perm.trans (List.Perm.cons x List.perm_append_comm) ?_
            refine List.Perm.trans (List.Perm.swap z x m) ?_
            exact List.Perm.cons z (List.perm_append_comm (l₁ := [x]))
          have := List.Perm.append_right c h1
          simpa using this
    · obtain ⟨a', c', e1, p1, q1, q2⟩ := partition_at p k (a := a ++ [x]) (b := b) (c := c) (by simp at h; omega) (by
        intro y hy
        rcases List.mem_append.1 hy with hy | hy
        · exact ha y hy
        · rw [List.mem_singleton] at hy; omega) hc
      refine ⟨a', c', fun pre post k' hk' => ?_, by simpa using p1, q1, q2⟩
      obtain ⟨k', rfl⟩ : ∃ j, k' = j + 1 := ⟨k' - 1, by omega⟩
      rw [partition, if_pos (by simp), g1, g2]
      simp only [Res.bind]
      rw [if_neg hk]
      have := e1 pre post k' (by omega)
      rw [← this]
      simp only [List.append_assoc, List.length_append, List.length_cons, List.length_nil, List.cons_append]
      congr 1
      omega

/-- A part of the array is sorted with enough rounds. -/
def Quick (s : List Int) (N : Nat) : Prop :=
  ∃ s', (∀ n pre post, N ≤ n → quick n (pre ++ (s ++ post)) pre.length s.length = .ok (pre ++ (s' ++ post))) ∧ s.Perm s' ∧ s'.Pairwise (· ≤ ·)

theorem quick_short {s : List Int} (h : s.length ≤ 1) {N : Nat} (hN : 0 < N) : Quick s N := by
  refine ⟨s, fun n pre post hn => ?_, .refl _, ?_⟩
  · obtain ⟨n, rfl⟩ : ∃ k, n = k + 1 := ⟨n - 1, by omega⟩
    rw [quick, if_neg (by omega)]
  · match s, h with
    | [], _ => exact .nil
    | [x], _ => simp

/-- What is left to be sorted when a part has been divided. -/
theorem quick_parts {p : Int} {rest : List Int} (hr : rest ≠ []) : ∃ s1 c, (p :: rest).Perm (s1 ++ c) ∧ (∀ x ∈ s1, x ≤ p) ∧ (∀ x ∈ c, p < x) ∧ p ∈ s1 ∧ s1.length + c.length = rest.length + 1 ∧
    (c = [] → ∃ x m, s1 = x :: m ∧ p ∈ m) ∧
    ∀ N, Quick s1 N → Quick c N → Quick (p :: rest) (N + 1) := by
  obtain ⟨a, c, e1, p1, q1, q2⟩ := partition_at p rest.length (a := []) (b := rest) (c := []) (by omega) (by simp) (by simp)
  simp only [List.nil_append, List.append_nil, List.length_nil, Nat.add_zero] at e1 p1
  have hlen : a.length + c.length = rest.length := by rw [← List.length_append, ← p1.length_eq]
  have hs1 : ∃ s1, (∀ pre post : List Int, swap (pre ++ p :: (a ++ (c ++ post))) pre.length (pre.length + (1 + a.length - 1)) = .ok (pre ++ (s1 ++ (c ++ post)))) ∧ (p :: a).Perm s1 ∧
      (c = [] → ∃ x m, s1 = x :: m ∧ p ∈ m) := by
    rcases List.eq_nil_or_concat a with rfl | ⟨m, x, e⟩
    · refine ⟨[p], fun pre post => ?_, .refl _, fun h => ?_⟩
      · simp only [List.length_nil, Nat.add_zero, Nat.sub_self, List.nil_append]
        exact swap_self rfl
      · subst h
        simp at hlen
        exact absurd (List.eq_nil_of_length_eq_zero hlen.symm) hr
    · rw [List.concat_eq_append] at e
      subst e
      refine ⟨x :: (m ++ [p]), fun pre post => ?_, ?_, fun _ => ⟨x, m ++ [p], rfl, by simp⟩⟩
      · have := swap_at (l := pre) (m := m) (r := c ++ post) (x := p) (y := x) (i := pre.length) (j := pre.length + (1 + (m ++ [x]).length - 1)) rfl (by simp; omega)
        simpa using this
      · refine List.Perm.trans (List.Perm.cons p List.perm_append_comm) ?_
        refine List.Perm.trans (List.Perm.swap x p m) ?_
        exact List.Perm.cons x (List.perm_append_comm (l₁ := [p]))
  obtain ⟨s1, e2, p2, q3⟩ := hs1
  have hl1 : s1.length = 1 + a.length := by rw [← p2.length_eq]; simp; omega
  have hle : ∀ x ∈ s1, x ≤ p := by
    intro x hx
    rcases List.mem_cons.1 (p2.mem_iff.2 hx) with rfl | h
    · exact Int.le_refl _
    · exact q1 x h
  have hperm : (p :: rest).Perm (s1 ++ c) := (List.Perm.cons p p1).trans (List.Perm.append_right c p2)
  refine ⟨s1, c, hperm, hle, q2, p2.mem_iff.1 (by simp), by omega, q3, fun N ⟨s', f1, r1, t1⟩ ⟨c', f2, r2, t2⟩ => ?_⟩
  have hr0 : 0 < rest.length := List.length_pos_iff.2 hr
  refine ⟨s' ++ c', fun n pre post hn => ?_, hperm.trans ((List.Perm.append_right c r1).trans (List.Perm.append_left s' r2)), ?_⟩
  · obtain ⟨n, rfl⟩ : ∃ k, n = k + 1 := ⟨n - 1, by omega⟩
    have h1 := e1 pre post (rest.length + 1) (by omega)
    have hlc : (p :: rest).length = 1 + rest.length := by simp; omega
    rw [Nat.add_comm 1 rest.length] at h1
    rw [quick, if_pos (by simp; omega), List.length_cons, List.cons_append, h1]
    simp only [Res.bind]
    rw [e2]
    simp only
    have h2 := f1 n pre (c ++ post) (by omega)
    rw [show 1 + a.length - 1 + 1 = s1.length by omega, h2]
    simp only
    have h3 := f2 n (pre ++ s') post (by omega)
    have hl' : (pre ++ s').length = pre.length + (1 + a.length - 1) + 1 := by rw [List.length_append, ← r1.length_eq]; omega
    rw [hl', List.append_assoc] at h3
    rw [show rest.length + 1 - (1 + a.length - 1) - 1 = c.length by omega, h3]
    simp
  · rw [List.pairwise_append]
    refine ⟨t1, t2, fun x hx y hy => ?_⟩
    have := hle x (r1.mem_iff.2 hx)
    have := q2 y (r2.mem_iff.2 hy)
    omega

theorem quick_sorts : ∀ (L : Nat) {s : List Int}, s.length = L → s.Nodup → Quick s (2 * L + 2) := by
  intro L
  induction L using Nat.strongRecOn with
  | _ L ih =>
    have mono : ∀ {s : List Int} {N M : Nat}, N ≤ M → Quick s N → Quick s M := fun h ⟨s', e, r⟩ => ⟨s', fun n pre post hn => e n pre post (by omega), r⟩
    -- when the first value is not the greatest one
    have small : ∀ {p : Int} {rest : List Int}, (p :: rest).length = L → (p :: rest).Nodup → (∃ y ∈ rest, p < y) → Quick (p :: rest) (2 * L + 1) := by
      intro p rest hl hn ⟨y, hy, hpy⟩
      have hr : rest ≠ [] := by rintro rfl; simp at hy
      obtain ⟨s1, c, h1, h2, h3, h4, h5, _, h7⟩ := quick_parts (p := p) hr
      have hc : 0 < c.length := by
        have := h1.mem_iff.1 (List.mem_cons_of_mem p hy)
        rcases List.mem_append.1 this with h | h
        · have := h2 y h; omega
        · exact List.length_pos_of_mem h
      have hs : 0 < s1.length := List.length_pos_of_mem h4
      have hnd := h1.nodup_iff.1 hn
      rw [List.nodup_append] at hnd
      simp at hl
      exact h7 (2 * L) (mono (by omega) (ih s1.length (by omega) rfl hnd.1)) (mono (by omega) (ih c.length (by omega) rfl hnd.2.1))
    intro s hl hn
    match s, hl, hn with
    | [], hl, _ => exact quick_short (by simp) (by omega)
    | [x], hl, _ => exact quick_short (by simp) (by omega)
    | p :: y :: rest, hl, hn =>
      obtain ⟨s1, c, h1, h2, h3, h4, h5, h6, h7⟩ := quick_parts (p := p) (rest := y :: rest) (by simp)
      have hs : 0 < s1.length := List.length_pos_of_mem h4
      have hnd := h1.nodup_iff.1 hn
      rw [List.nodup_append] at hnd
      simp at hl h5
      by_cases hc : c = []
      · obtain ⟨x, m, rfl, hm⟩ := h6 hc
        subst hc
        refine h7 (2 * L + 1) (small (by simp at h5 ⊢; omega) hnd.1 ⟨p, hm, ?_⟩) (quick_short (by simp) (by omega))
        have hx := h2 x (by simp)
        have : x ≠ p := by
          rintro rfl
          exact (List.nodup_cons.1 hnd.1).1 hm
        omega
      · have := List.length_pos_iff.2 hc
        exact h7 (2 * L + 1) (mono (by omega) (ih s1.length (by omega) rfl hnd.1)) (mono (by omega) (ih c.length (by omega) rfl hnd.2.1))

/-! ## Digits -/

/-- A stable sort of a list that has an order keeps it among equal values. -/
theorem stable_pairwise {key : Int → Int} {R : Int → Int → Prop} {a a' : List Int} (h : Sorts key a a') (hR : a.Pairwise R) : a'.Pairwise fun x y => key x < key y ∨ key x = key y ∧ R x y := by
  rw [List.pairwise_iff_forall_sublist]
  intro x y hs
  have h1 := List.pairwise_iff_forall_sublist.1 h.2.1 hs
  by_cases he : key x = key y
  · refine .inr ⟨he, ?_⟩
    have h2 := hs.filter (fun z => decide (key z = key y))
    rw [h.2.2 (key y)] at h2
    have h3 : [x, y].filter (fun z => decide (key z = key y)) = [x, y] := by simp [he]
    rw [h3] at h2
    exact List.pairwise_iff_forall_sublist.1 hR (h2.trans List.filter_sublist)
  · exact .inl (by omega)

theorem digit_eq : ∀ (d : Nat) {v : Int}, 0 ≤ v → digit v 8 d = v / 8 ^ d % 8
  | 0, v, h => by simp [digit, Int.tmod_eq_emod_of_nonneg h]
  | d + 1, v, h => by
    rw [digit, digit_eq d (Int.tdiv_nonneg h (by omega)), Int.tdiv_eq_ediv_of_nonneg h, Int.pow_succ, Int.mul_comm (8 ^ d) 8, Int.ediv_ediv_of_nonneg (by omega)]

theorem low_succ (d : Nat) {v : Int} (h : 0 ≤ v) : v % 8 ^ (d + 1) = v % 8 ^ d + 8 ^ d * (v / 8 ^ d % 8) := by
  obtain ⟨n, rfl⟩ := Int.eq_ofNat_of_zero_le h
  have := Nat.mod_mul (x := n) (a := 8 ^ d) (b := 8)
  rw [← Nat.pow_succ] at this
  exact_mod_cast this

theorem low_le (d : Nat) {x y : Int} (hx : 0 ≤ x) (hy : 0 ≤ y) (h : digit x 8 d < digit y 8 d ∨ digit x 8 d = digit y 8 d ∧ x % 8 ^ d ≤ y % 8 ^ d) : x % 8 ^ (d + 1) ≤ y % 8 ^ (d + 1) := by
  rw [digit_eq d hx, digit_eq d hy] at h
  rw [low_succ d hx, low_succ d hy]
  have hp : (0 : Int) < 8 ^ d := Int.pow_pos (by omega)
  rcases h with h | ⟨h1, h2⟩
  · have h3 : (8 : Int) ^ d * (x / 8 ^ d % 8 + 1) ≤ 8 ^ d * (y / 8 ^ d % 8) := Int.mul_le_mul_of_nonneg_left (by omega) (by omega)
    have h4 := Int.emod_lt_of_pos x hp
    have h5 := Int.emod_nonneg y (b := 8 ^ d) (by omega)
    rw [Int.mul_add] at h3
    omega
  · rw [h1]; omega

theorem weight_zero (key : Int → Int) : ∀ (a : List Int) (k : Int), (∀ x ∈ a, key x = 0) → weight key k a = 0
  | [], _, _ => rfl
  | x :: a, k, h => by
    rw [weight, h x (by simp), weight_zero key a (k + 1) fun y hy => h y (by simp [hy])]
    simp

theorem loop_zero {key : Int → Int} {f : List Int → Res String (List Int × Bool)} (hf : ∀ a, ∃ a' c', f a = .ok (a', c') ∧ Pass key (fun _ => True) a false a' c') {a : List Int} (h : ∀ x ∈ a, key x = 0)
    (n t : Nat) : loop f (n + 1) a t = .ok (a, t) := by
  obtain ⟨a1, c1, e1, p1⟩ := hf a
  have hc : c1 = false := by
    cases c1 with
    | false => rfl
    | true =>
      rcases p1.more rfl with h' | h'
      · simp at h'
      · rw [weight_zero key a 0 h, weight_zero key a1 0 fun x hx => h x (p1.perm.mem_iff.2 hx)] at h'
        omega
  subst hc
  obtain ⟨_, rfl, _⟩ := p1.same rfl
  rw [loop, e1]
  rfl

theorem radix_digits {D : Nat} : ∀ (k : Nat) {d : Nat} {a : List Int}, k + d = D → (∀ x ∈ a, 0 ≤ x ∧ x < 8 ^ D) → a.Pairwise (fun x y => x % 8 ^ d ≤ y % 8 ^ d) →
    ∃ a' e N, (∀ n, N ≤ n → radix 8 n d a = .ok a') ∧ a.Perm a' ∧ d ≤ e ∧ e ≤ D ∧ a'.Pairwise (fun x y => x % 8 ^ (e + 1) ≤ y % 8 ^ (e + 1)) := by
  intro k
  induction k with
  | zero =>
    intro d a hk hb hp
    refine ⟨a, d, 2, fun n hn => ?_, .refl _, Nat.le_refl _, by omega, ?_⟩
    · obtain ⟨n, rfl⟩ : ∃ k, n = k + 2 := ⟨n - 2, by omega⟩
      rw [radix, radixRound_loop, loop_zero (oddEvenRound_pass _) (fun x hx => ?_)]
      · rfl
      · obtain ⟨h0, h1⟩ := hb x hx
        have hd : d = D := by omega
        rw [digit_eq d h0, hd, Int.ediv_eq_zero_of_lt h0 h1]
        rfl
    · have hd : d = D := by omega
      refine hp.imp_of_mem fun {x y} hx hy h => ?_
      obtain ⟨hx0, hx1⟩ := hb x hx
      obtain ⟨hy0, hy1⟩ := hb y hy
      rw [hd] at h ⊢
      rw [low_succ D hx0, low_succ D hy0, Int.ediv_eq_zero_of_lt hx0 hx1, Int.ediv_eq_zero_of_lt hy0 hy1]
      simpa using h
  | succ k ih =>
    intro d a hk hb hp
    obtain ⟨a1, t, h1, h2, h3⟩ := loop_sorts (oddEvenRound_pass fun v => digit v 8 d) (far (fun v => digit v 8 d) a) (a := a) (Nat.le_refl _)
    have hb1 : ∀ x ∈ a1, 0 ≤ x ∧ x < 8 ^ D := fun x hx => hb x (h2.1.mem_iff.2 hx)
    have hp1 : a1.Pairwise fun x y => x % 8 ^ (d + 1) ≤ y % 8 ^ (d + 1) :=
      (stable_pairwise h2 hp).imp_of_mem fun {x y} hx hy h => low_le d (hb1 x hx).1 (hb1 y hy).1 h
    by_cases ht : t = 0
    · refine ⟨a1, d, far (fun v => digit v 8 d) a + 2, fun n hn => ?_, h2.1, Nat.le_refl _, by omega, hp1⟩
      obtain ⟨n, rfl⟩ : ∃ k, n = k + 1 := ⟨n - 1, by omega⟩
      rw [radix, radixRound_loop, h1 n 0 (by omega)]
      simp [Res.bind, ht]
    · obtain ⟨a2, e, N, f1, f2, f3, f4, f5⟩ := ih (d := d + 1) (by omega) hb1 hp1
      refine ⟨a2, e, N + far (fun v => digit v 8 d) a + 2, fun n hn => ?_, h2.1.trans f2, by omega, f4, f5⟩
      obtain ⟨n, rfl⟩ : ∃ k, n = k + 1 := ⟨n - 1, by omega⟩
      rw [radix, radixRound_loop, h1 n 0 (by omega)]
      simp only [Res.bind, Nat.zero_add]
      rw [if_neg ht, f1 n (by omega)]

/-! ## The shuffle -/

theorem split_one {a : List Int} {i : Nat} (h : i < a.length) : ∃ l r, a = l ++ a[i] :: r ∧ l.length = i :=
  ⟨a.take i, a.drop (i + 1), by rw [List.getElem_cons_drop, List.take_append_drop], by simp; omega⟩

/-- The last value of a part is exchanged with another one. -/
theorem swap_last {x : List Int} {i r : Nat} (hl : x.length = i + 1) (hr : r < x.length) : ∃ m, (∀ post, swap (x ++ post) i r = .ok (m ++ x[r] :: post)) ∧ x.Perm (m ++ [x[r]]) ∧ m.length = i := by
  obtain ⟨m0, z, e⟩ : ∃ m0 z, x = m0 ++ [z] := by
    rcases List.eq_nil_or_concat x with h | ⟨m0, z, h⟩
    · subst h; simp at hl
    · exact ⟨m0, z, by rw [h, List.concat_eq_append]⟩
  have hm : m0.length = i := by rw [e] at hl; simp at hl; exact hl
  by_cases h : r = i
  · subst h
    have hx : x[r] = z := by subst e; simp [hm]
    rw [hx]
    refine ⟨m0, fun post => ?_, by rw [e], hm⟩
    rw [e, List.append_assoc]
    exact swap_self hm
  · have hr' : r < m0.length := by omega
    obtain ⟨l, q, e2, hl2⟩ := split_one hr'
    have hx : x[r] = m0[r] := by subst e; simp [hr']
    rw [hx]
    generalize m0[r] = w at *
    subst e2
    refine ⟨l ++ z :: q, fun post => ?_, ?_, by simp at hm ⊢; omega⟩
    · have := swap_back (l := l) (m := q) (r := post) (x := w) (y := z) (i := r) (j := i) hl2 (by simp at hm; omega)
      subst e
      simpa using this
    · subst e
      have h1 : (w :: (q ++ [z])).Perm (z :: (q ++ [w])) := by
        refine List.Perm.trans (List.Perm.cons w List.perm_append_comm) ?_
        refine List.Perm.trans (List.Perm.swap z w q) ?_
        exact List.Perm.cons z (List.perm_append_comm (l₁ := [w]))
      have := List.Perm.append_left l h1
      simpa using this

/-- Two values of a list change their places. -/
def exchange (a : List Int) (i j : Nat) : List Int := (a.set i (a.getD j 0)).set j (a.getD i 0)

/-- Beginning with the last place, each place is exchanged with one that is given by a number. -/
def deal : Nat → List Nat → List Int → List Int
  | i + 1, r :: rs, a => deal i rs (exchange a (i + 1) r)
  | _, _, a => a

/-- Numbers for all places but the first one, of which none is beyond its place. -/
def Numbers : Nat → List Nat → Prop
  | 0, rs => rs = []
  | i + 1, rs => ∃ r rs', rs = r :: rs' ∧ r ≤ i + 1 ∧ Numbers i rs'

theorem swap_exchange {a : List Int} {i j : Nat} (hi : i < a.length) (hj : j < a.length) : swap a i j = .ok (exchange a i j) := by
  unfold swap get exchange
  simp [hi, hj, Res.bind, List.getD]

theorem exchange_last {x : List Int} {i r : Nat} (hl : x.length = i + 1) (hr : r < x.length) : ∃ m, (∀ post, exchange (x ++ post) i r = m ++ x[r] :: post) ∧ x.Perm (m ++ [x[r]]) ∧ m.length = i := by
  obtain ⟨m, e, p, hm⟩ := swap_last hl hr
  refine ⟨m, fun post => ?_, p, hm⟩
  have := e post
  rw [swap_exchange (by simp; omega) (by simp; omega)] at this
  injection this

theorem deal_append : ∀ (i : Nat) {rs : List Nat} {x : List Int} (post : List Int), Numbers i rs → x.length = i + 1 → deal i rs (x ++ post) = deal i rs x ++ post ∧ x.Perm (deal i rs x)
  | 0, rs, x, post, hn, _ => by
    subst hn
    exact ⟨rfl, .refl _⟩
  | i + 1, rs, x, post, ⟨r, rs', e, hr, hn⟩, hl => by
    subst e
    obtain ⟨m, e, p, hm⟩ := exchange_last hl (r := r) (by omega)
    rw [deal, deal]
    have e1 := e []
    rw [List.append_nil] at e1
    rw [e, e1]
    have h1 : ∀ q : List Int, deal i rs' (m ++ q) = deal i rs' m ++ q := fun q => (deal_append i q hn hm).1
    rw [h1, h1]
    exact ⟨by simp, p.trans (List.Perm.append_right _ (deal_append i [] hn hm).2)⟩

theorem deal_once : ∀ (i : Nat) {x y : List Int}, x.length = i + 1 → x.Nodup → x.Perm y → ∃ rs, (Numbers i rs ∧ deal i rs x = y) ∧ ∀ rs', Numbers i rs' → deal i rs' x = y → rs' = rs
  | 0, x, y, hl, _, hp => by
    match x, hl with
    | [z], _ =>
      have : y = [z] := List.perm_singleton.1 hp.symm
      subst this
      exact ⟨[], ⟨rfl, rfl⟩, fun rs' h _ => h⟩
  | i + 1, x, y, hl, hd, hp => by
    obtain ⟨y0, z, rfl⟩ : ∃ y0 z, y = y0 ++ [z] := by
      rcases List.eq_nil_or_concat y with h | ⟨y0, z, h⟩
      · subst h; have := hp.length_eq; simp at this; subst this; simp at hl
      · exact ⟨y0, z, by rw [h, List.concat_eq_append]⟩
    obtain ⟨r, hr, hz⟩ := List.getElem_of_mem (hp.mem_iff.2 (by simp : z ∈ y0 ++ [z]))
    -- what any number does
    have step : ∀ r' (hr' : r' < x.length), ∃ m, x.Perm (m ++ [x[r']]) ∧ m.length = i + 1 ∧ ∀ rs', Numbers i rs' → deal (i + 1) (r' :: rs') x = deal i rs' m ++ [x[r']] := by
      intro r' hr'
      obtain ⟨m, e, p, hm⟩ := exchange_last hl hr'
      refine ⟨m, p, hm, fun rs' hn => ?_⟩
      have e1 := e []
      rw [List.append_nil] at e1
      rw [deal, e1, (deal_append i _ hn hm).1]
    obtain ⟨m, p, hm, e⟩ := step r hr
    rw [hz] at p e
    have hmp : m.Perm y0 := (List.perm_append_right_iff [z]).1 (p.symm.trans hp)
    have hmd : m.Nodup := by
      have := p.nodup_iff.1 hd
      rw [List.nodup_append] at this
      exact this.1
    obtain ⟨rs, ⟨h1, h2⟩, h3⟩ := deal_once i hm hmd hmp
    refine ⟨r :: rs, ⟨⟨r, rs, rfl, by omega, h1⟩, by rw [e rs h1, h2]⟩, ?_⟩
    rintro _ ⟨r', rs', rfl, hr', hn'⟩ he
    obtain ⟨m', _, _, e'⟩ := step r' (by omega)
    have h4 := he
    rw [e' rs' hn'] at h4
    have h5 := (List.append_inj' h4 rfl).2
    have h6 : x[r'] = x[r] := by rw [hz]; simpa using h5
    have h7 : r' = r := (List.getElem_inj hd).1 h6
    subst h7
    rw [e rs' hn'] at he
    rw [h3 rs' hn' (List.append_inj' he rfl).1]

end Che.Prog.SortCircle
