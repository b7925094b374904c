import Verif.Proofs.Prog.SortShuffle

/-!
C123: every sort of `prog/sort-circle` puts the array in order.
C124: the shuffle is a Fisher-Yates shuffle.

The array of the program is an order of the numbers from 0 to `N - 1`.  An order of the array that is asked for is the list of these numbers.
-/
namespace Che.Props
open Che Che.Prog.SortCircle

/-- The array in order. -/
def C123_ordered (n : Nat) : List Int := (List.range n).map fun k : Nat => (k : Int)

theorem C123_ordered_pairwise (n : Nat) : (C123_ordered n).Pairwise (· < ·) := by
  unfold C123_ordered
  rw [List.pairwise_map]
  exact (List.pairwise_lt_range (n := n)).imp fun h => by omega

theorem C123_ordered_nodup {n : Nat} {a : List Int} (h : a.Perm (C123_ordered n)) : a.Nodup :=
  h.nodup_iff.2 ((C123_ordered_pairwise n).imp fun h => by omega)

theorem C123_eq {n : Nat} {a a' : List Int} (h : a.Perm (C123_ordered n)) (hp : a.Perm a') (hs : a'.Pairwise (· ≤ ·)) : a' = C123_ordered n :=
  List.Perm.eq_of_pairwise (le := (· ≤ ·)) (fun x y _ _ h1 h2 => by omega) hs ((C123_ordered_pairwise n).imp fun h => by omega) (hp.symm.trans h)

/-- C123: the five first sorts, in any order of an array that is not empty, end and leave it in order. -/
theorem C123_sorts {n : Nat} (hn : 0 < n) {a : List Int} (h : a.Perm (C123_ordered n)) {type : Nat} (ht : type = 1 ∨ type = 2 ∨ type = 3 ∨ type = 4 ∨ type = 5) :
    ∃ N, ∀ k, N ≤ k → run_sort k type a = .ok (C123_ordered n) := by
  have hl : a.length = n := by rw [h.length_eq]; simp [C123_ordered]
  rcases ht with rfl | rfl | rfl | rfl | rfl
  · obtain ⟨a', e, h1, h2, _⟩ := bubble_sorts a
    rw [C123_eq h h1 h2] at e
    exact ⟨far id a + 1, fun k hk => e k (by omega)⟩
  · obtain ⟨a', e, h1, h2, _⟩ := oddEven_sorts a
    rw [C123_eq h h1 h2] at e
    exact ⟨far id a + 1, fun k hk => e k (by omega)⟩
  · refine ⟨0, fun k _ => ?_⟩
    match a, hl, h with
    | [], hl, _ => simp at hl; omega
    | x :: u, _, h =>
      obtain ⟨a', e, h1, h2⟩ := insertion_sorts (x :: u).length (i := 1) (s := [x]) (u := u) rfl (by simp) (by simp)
      rw [C123_eq h h1 h2] at e
      exact e
  · obtain ⟨a', e, h1, h2⟩ := stooge_sorts n hl hn
    rw [C123_eq h h1 h2] at e
    refine ⟨n, fun k hk => ?_⟩
    have := e k [] [] hk
    simp only [List.append_nil, List.nil_append, List.length_nil, Nat.zero_add] at this
    rw [run_sort, hl]
    exact this
  · obtain ⟨a', e, h1, h2⟩ := quick_sorts n hl (C123_ordered_nodup h)
    rw [C123_eq h h1 h2] at e
    refine ⟨2 * n + 2, fun k hk => ?_⟩
    have := e k [] [] hk
    simp only [List.append_nil, List.nil_append, List.length_nil] at this
    exact this

example : run_sort 20 5 [3, 0, 2, 1] = .ok [0, 1, 2, 3] := by decide

/-- C123: with equal values the quicksort would not end. -/
theorem C123_equal (n : Nat) : run_sort n 5 [1, 1] = .diverge := by
  show quick n [1, 1] 0 2 = .diverge
  induction n with
  | zero => rfl
  | succ n ih =>
    have h1 : partition 2 [1, 1] 0 1 2 = .ok ([1, 1], 2) := by decide
    have h2 : swap [1, 1] 0 1 = .ok [1, 1] := by decide
    rw [quick, if_pos (by omega), h1]
    simp only [Res.bind, Nat.zero_add, Nat.add_one_sub_one, Nat.reduceSub]
    rw [h2]
    simp only [Nat.reduceAdd]
    rw [ih]

/-- C123: the sixth sort ends, loses nothing, and leaves the array in the order of the last digits (base 8) of its values, one digit or more. -/
theorem C123_radix_partial {n : Nat} {a : List Int} (h : a.Perm (C123_ordered n)) :
    ∃ a' d N, (∀ k, N ≤ k → run_sort k 6 a = .ok a') ∧ a.Perm a' ∧ 0 < d ∧ a'.Pairwise (fun x y => x % 8 ^ d ≤ y % 8 ^ d) := by
  obtain ⟨a', e, N, h1, h2, _, _, h5⟩ := radix_digits (D := n) n (d := 0) (a := a) (by omega) (fun x hx => by
    have := h.mem_iff.1 hx
    unfold C123_ordered at this
    rw [List.mem_map] at this
    obtain ⟨k, hk, rfl⟩ := this
    rw [List.mem_range] at hk
    have h8 : k < 8 ^ n := Nat.lt_trans hk (Nat.lt_pow_self (by omega))
    exact ⟨by omega, by exact_mod_cast h8⟩) (by
    simp only [Int.pow_zero]
    rw [List.pairwise_iff_forall_sublist]
    intro x y _
    omega)
  exact ⟨a', e + 1, N, h1, h2, by omega, h5⟩

/-- C123: so it sorts an array of no more than 8 values. -/
theorem C123_radix_small {n : Nat} (hn : n ≤ 8) {a : List Int} (h : a.Perm (C123_ordered n)) : ∃ N, ∀ k, N ≤ k → run_sort k 6 a = .ok (C123_ordered n) := by
  obtain ⟨a', d, N, h1, h2, h3, h4⟩ := C123_radix_partial h
  have : a'.Pairwise (· ≤ ·) := by
    refine h4.imp_of_mem fun {x y} hx hy hxy => ?_
    have hb : ∀ x ∈ a', x % 8 ^ d = x := by
      intro x hx
      have := h.mem_iff.1 (h2.mem_iff.2 hx)
      unfold C123_ordered at this
      rw [List.mem_map] at this
      obtain ⟨k, hk, rfl⟩ := this
      rw [List.mem_range] at hk
      apply Int.emod_eq_of_lt (by omega)
      have h8 : 8 ^ 1 ≤ 8 ^ d := Nat.pow_le_pow_right (by omega) h3
      have h9 : k < 8 ^ d := by omega
      exact_mod_cast h9
    rw [hb x hx, hb y hy] at hxy
    exact hxy
  rw [C123_eq h h2 this] at h1
  exact ⟨N, h1⟩

/-- C123 is false of the sixth sort: it stops at the first digit whose column is in order, though others are not. -/
theorem C123_counterexample_radix : ∃ a : List Int, a.Perm (C123_ordered 9) ∧ a ≠ C123_ordered 9 ∧ ∀ k, 2 ≤ k → run_sort k 6 a = .ok a := by
  refine ⟨[8, 0, 1, 2, 3, 4, 5, 6, 7], by decide, by decide, fun k hk => ?_⟩
  obtain ⟨k, rfl⟩ : ∃ j, k = j + 2 := ⟨k - 2, by omega⟩
  have h1 : oddEvenRound (fun v => digit v 8 0) [8, 0, 1, 2, 3, 4, 5, 6, 7] = .ok ([8, 0, 1, 2, 3, 4, 5, 6, 7], false) := by decide
  show radix 8 (k + 2) 0 _ = _
  rw [radix, radixRound, h1]
  rfl

/-- C123 is false of the fourth sort when there are no values: it reads an array that has none. -/
theorem C123_counterexample_empty (k : Nat) : ∃ m, run_sort (k + 1) 4 [] = .panic ("undefined" ++ m) := ⟨": index out of the array", rfl⟩

/-- C124: the shuffle of an array that is not empty draws one number for each place but the first, and each of these places is exchanged with the place of that number. -/
theorem C124_shuffle (v : UInt64) {n : Nat} {a : List Int} (hl : a.length = n + 1) (hn : n + 1 < 2 ^ 31) :
    shuffle v a = .ok (Lib.Rnd.after v n, deal n ((List.range n).map fun k => (Lib.Rnd.value v k).toNat % (n + 1 - k)) a) := by
  unfold shuffle
  rw [show a.length - 1 = n by omega]
  exact shuffleFor_deal n v (by omega) (by show n + 2 < 2 ^ 32; omega)

/-- C124: nothing is lost. -/
theorem C124_perm (v : UInt64) {a : List Int} (hn : a.length < 2 ^ 31) : ∃ v' a', shuffle v a = .ok (v', a') ∧ a.Perm a' := by
  match a, hn with
  | [], _ => exact ⟨v, [], rfl, .refl _⟩
  | x :: u, hn =>
    refine ⟨_, _, C124_shuffle v (n := u.length) (by simp) hn, ?_⟩
    exact (deal_append u.length [] (drawn_numbers u.length v) (by simp)).2

/-- C124: every order of different values comes from exactly one sequence of numbers, so if these are drawn evenly, all orders are equally likely. -/
theorem C124_orders {n : Nat} {a b : List Int} (hl : a.length = n + 1) (hd : a.Nodup) (hp : a.Perm b) :
    ∃ rs, (rs.length = n ∧ (∀ k r, rs[k]? = some r → r ≤ n - k) ∧ deal n rs a = b) ∧
      ∀ rs', rs'.length = n → (∀ k r, rs'[k]? = some r → r ≤ n - k) → deal n rs' a = b → rs' = rs := by
  have hnum : ∀ (n : Nat) (rs : List Nat), Numbers n rs ↔ rs.length = n ∧ ∀ k r, rs[k]? = some r → r ≤ n - k := by
    intro n
    induction n with
    | zero =>
      intro rs
      refine ⟨fun h => ?_, fun h => List.eq_nil_of_length_eq_zero h.1⟩
      have : rs = [] := h
      subst this
      exact ⟨rfl, by simp⟩
    | succ n ih =>
      intro rs
      refine ⟨?_, fun ⟨h1, h2⟩ => ?_⟩
      · rintro ⟨r, rs', rfl, hr, hn⟩
        obtain ⟨h1, h2⟩ := (ih rs').1 hn
        refine ⟨by simp [h1], fun k r' hk => ?_⟩
        cases k with
        | zero => simp at hk; omega
        | succ k =>
          have := h2 k r' (by simpa using hk)
          omega
      · match rs, h1 with
        | r :: rs', h1 =>
          refine ⟨r, rs', rfl, h2 0 r rfl, (ih rs').2 ⟨by simpa using h1, fun k r' hk => ?_⟩⟩
          have := h2 (k + 1) r' (by simpa using hk)
          omega
  obtain ⟨rs, ⟨h1, h2⟩, h3⟩ := deal_once n hl hd hp
  obtain ⟨g1, g2⟩ := (hnum n rs).1 h1
  exact ⟨rs, ⟨g1, g2, h2⟩, fun rs' e1 e2 e3 => h3 rs' ((hnum n rs').2 ⟨e1, e2⟩) e3⟩

example : deal 2 [0, 1] [10, 20, 30] = [30, 20, 10] ∧ deal 2 [2, 0] [10, 20, 30] = [20, 10, 30] := by decide

/-- C123, C124: so the program, that shuffles and sorts once and again, ends each of the first five sorts with an array in order, whatever the numbers are. -/
theorem C124_then_sorted (v : UInt64) {n : Nat} (hn : 0 < n) (hn' : n < 2 ^ 31) {a : List Int} (h : a.Perm (C123_ordered n)) {type : Nat} (ht : type = 1 ∨ type = 2 ∨ type = 3 ∨ type = 4 ∨ type = 5) :
    ∃ v' a' N, shuffle v a = .ok (v', a') ∧ ∀ k, N ≤ k → run_sort k type a' = .ok (C123_ordered n) := by
  have hl : a.length = n := by rw [h.length_eq]; simp [C123_ordered]
  obtain ⟨v', a', e, p⟩ := C124_perm v (a := a) (by omega)
  obtain ⟨N, hN⟩ := C123_sorts hn (p.symm.trans h) ht
  exact ⟨v', a', N, e, hN⟩

/-- C123: the program begins with the array in order. -/
theorem C123_start (n : Nat) : start n = C123_ordered n := rfl
end Che.Props
