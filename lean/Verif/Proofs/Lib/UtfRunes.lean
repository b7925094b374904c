import Verif.Model.Lib.Utf
import Verif.Spec.Lib.Utf

/-!
Strings of runes.
-/
namespace Che.Lib.Utf
open Che.Spec.Utf

theorem rdr_lt {s : List Nat} {i : Nat} (h : i < s.length) : rdr s i = .ok s[i] := by
  simp [rdr, h, List.getD_eq_getElem?_getD]

theorem rdr_end (s : List Nat) : rdr s s.length = .ok 0 := by simp [rdr]

theorem rdr_past {s : List Nat} {i : Nat} (h : s.length < i) :
    rdr s i = .panic "undefined: read past the end of the string" := by
  rw [rdr, if_neg (by omega), if_neg (by omega)]

theorem wr_ok {d : List Nat} {i r : Nat} (h : i < d.length) : wr d i r = .ok (d.set i r) := by
  rw [wr, if_pos h]

/-- A character that is not the first is looked for forever. -/
theorem chrLoop_diverge (s : List Nat) (i c : Nat) (h : i < s.length) (h0 : s[i] ≠ 0) (hc : s[i] ≠ c) :
    ∀ fuel, chrLoop s i c fuel = .diverge := by
  intro fuel
  induction fuel with
  | zero => rfl
  | succ fuel ih =>
    rw [chrLoop, rdr_lt h]
    simp only [Res.bind]
    rw [if_neg h0, if_neg hc, ih]

/-- The copying loop: what it leaves in the buffer. -/
theorem cpyLoop_eq (t : List Nat) : ∀ (p d : List Nat) (o fuel x : Nat), (∀ r ∈ t, r ≠ 0) → t.length < fuel →
    o + t.length < d.length →
    cpyLoop (p ++ x :: t) fuel d o p.length = .ok (d.take o ++ (x :: t) ++ d.drop (o + t.length + 1)) := by
  induction t with
  | nil =>
    intro p d o fuel x _ hf hd
    obtain ⟨fuel, rfl⟩ : ∃ k, fuel = k + 1 := ⟨fuel - 1, by simp only [List.length_nil] at hf; omega⟩
    rw [cpyLoop, rdr_lt (by simp)]
    simp only [Res.bind]
    rw [wr_ok (by simpa using hd)]
    simp only
    rw [show rdr (p ++ [x]) (p.length + 1) = .ok 0 by simpa using rdr_end (p ++ [x])]
    simp only [List.getElem_append_right (Nat.le_refl _), Nat.sub_self, List.getElem_cons_zero, if_true]
    congr 1
    rw [List.set_eq_take_append_cons_drop, if_pos (by simpa using hd)]
    simp
  | cons y t ih =>
    intro p d o fuel x hz hf hd
    simp only [List.length_cons] at hf hd
    obtain ⟨fuel, rfl⟩ : ∃ k, fuel = k + 1 := ⟨fuel - 1, by omega⟩
    rw [cpyLoop, rdr_lt (by simp)]
    simp only [Res.bind]
    rw [wr_ok (by omega)]
    simp only
    rw [rdr_lt (by simp)]
    simp only [List.getElem_append_right (Nat.le_refl _), Nat.sub_self, List.getElem_cons_zero]
    have e1 : (p ++ x :: y :: t)[p.length + 1]'(by simp) = y := by
      rw [List.getElem_append_right (by omega)]
      simp
    rw [e1, if_neg (hz y (by simp))]
    have := ih (p ++ [x]) (d.set o x) (o + 1) fuel y (fun r hr => hz r (by simp [hr])) (by omega)
      (by rw [List.length_set]; omega)
    rw [List.append_assoc, List.singleton_append, List.length_append, List.length_singleton] at this
    rw [this]
    congr 1
    rw [List.take_set, List.drop_set_of_lt (by omega), List.set_eq_take_append_cons_drop,
      if_pos (by rw [List.length_take]; omega), List.take_take, Nat.min_eq_left (by omega),
      List.drop_eq_nil_of_le (by rw [List.length_take]; omega)]
    simp only [List.length_cons, List.append_assoc, List.cons_append, List.nil_append]
    rw [show o + 1 + t.length + 1 = o + (t.length + 1) + 1 by omega]

theorem runestrcpy_eq {d s : List Nat} {o : Nat} (hs : s ≠ []) (hz : ∀ r ∈ s, r ≠ 0)
    (hd : o + s.length ≤ d.length) : runestrcpy d o s = .ok (d.take o ++ s ++ d.drop (o + s.length)) := by
  cases s with
  | nil => exact absurd rfl hs
  | cons x t =>
    have := cpyLoop_eq t [] d o ((x :: t).length + 2) x (fun r hr => hz r (by simp [hr]))
      (by simp only [List.length_cons]; omega) (by simp only [List.length_cons] at hd; omega)
    rw [List.nil_append] at this
    rw [runestrcpy, show (0 : Nat) = ([] : List Nat).length from rfl, this]
    simp only [List.length_cons, Nat.add_assoc]

theorem runestrcpy_empty {d : List Nat} {o : Nat} (hd : o < d.length) :
    runestrcpy d o [] = .panic "undefined: read past the end of the string" := by
  rw [runestrcpy, cpyLoop, show rdr [] 0 = .ok 0 from rfl]
  simp only [Res.bind]
  rw [wr_ok hd, rdr_past (by simp)]

theorem endLoop_eq (s : List Nat) : ∀ (p rest : List Nat) (fuel : Nat), (∀ r ∈ s, r ≠ 0) → s.length < fuel →
    endLoop (p ++ (s ++ 0 :: rest)) fuel p.length = .ok (p.length + s.length) := by
  induction s with
  | nil =>
    intro p rest fuel _ hf
    obtain ⟨fuel, rfl⟩ : ∃ k, fuel = k + 1 := ⟨fuel - 1, by simp only [List.length_nil] at hf; omega⟩
    rw [endLoop, List.getElem?_append_right (Nat.le_refl _), Nat.sub_self]
    rfl
  | cons x s ih =>
    intro p rest fuel hz hf
    simp only [List.length_cons] at hf
    obtain ⟨fuel, rfl⟩ : ∃ k, fuel = k + 1 := ⟨fuel - 1, by omega⟩
    rw [endLoop, List.getElem?_append_right (Nat.le_refl _), Nat.sub_self]
    obtain ⟨y, rfl⟩ : ∃ y, x = y + 1 := ⟨x - 1, by have := hz x (by simp); omega⟩
    simp only [List.cons_append, List.getElem?_cons_zero]
    have := ih (p ++ [y + 1]) rest fuel (fun r hr => hz r (by simp [hr])) (by omega)
    rw [List.append_assoc, List.length_append] at this
    simp only [List.length_singleton, List.singleton_append] at this
    rw [this, List.length_cons]
    congr 1
    omega

theorem padLoop_eq (k : Nat) : ∀ (fuel : Nat) (d : List Nat) (i n : Nat), n - i = k → k < fuel → i ≤ n →
    n ≤ d.length → padLoop fuel d i n = .ok (d.take i ++ List.replicate (n - i) 0 ++ d.drop n) := by
  induction k with
  | zero =>
    intro fuel d i n hk hf hi hn
    obtain ⟨fuel, rfl⟩ : ∃ k, fuel = k + 1 := ⟨fuel - 1, by omega⟩
    have : i = n := by omega
    subst this
    rw [padLoop, if_neg (by omega)]
    simp
  | succ k ih =>
    intro fuel d i n hk hf hi hn
    obtain ⟨fuel, rfl⟩ : ∃ k, fuel = k + 1 := ⟨fuel - 1, by omega⟩
    rw [padLoop, if_pos (by omega)]
    simp only [Res.bind]
    rw [wr_ok (by omega)]
    simp only
    rw [ih fuel (d.set i 0) (i + 1) n (by omega) (by omega) (by omega) (by rw [List.length_set]; omega)]
    congr 1
    rw [List.take_set, List.drop_set_of_lt (by omega), List.set_eq_take_append_cons_drop,
      if_pos (by rw [List.length_take]; omega), List.take_take, Nat.min_eq_left (by omega),
      List.drop_eq_nil_of_le (by rw [List.length_take]; omega)]
    rw [show n - i = (n - (i + 1)) + 1 by omega, List.replicate_succ]
    simp

theorem ncpyLoop_eq (t : List Nat) : ∀ (p d : List Nat) (n fuel x : Nat), (∀ r ∈ t, r ≠ 0) → n - p.length < fuel →
    n ≤ d.length → p.length < n →
    ncpyLoop (p ++ x :: t) n fuel d p.length =
      .ok (d.take p.length ++ ((x :: t) ++ List.replicate n 0).take (n - p.length) ++ d.drop n) := by
  induction t with
  | nil =>
    intro p d n fuel x _ hf hd hp
    obtain ⟨fuel, rfl⟩ : ∃ k, fuel = k + 1 := ⟨fuel - 1, by omega⟩
    rw [ncpyLoop, if_neg (by omega), rdr_lt (by simp)]
    simp only [Res.bind]
    rw [wr_ok (by omega)]
    simp only
    rw [show rdr (p ++ [x]) (p.length + 1) = .ok 0 by simpa using rdr_end (p ++ [x])]
    simp only [List.getElem_append_right (Nat.le_refl _), Nat.sub_self, List.getElem_cons_zero, if_true]
    rw [padLoop_eq (n - (p.length + 1)) _ _ _ _ rfl (by omega) (by omega) (by rw [List.length_set]; omega)]
    congr 1
    rw [List.take_set, List.drop_set_of_lt (by omega),
      List.set_eq_take_append_cons_drop, if_pos (by rw [List.length_take]; omega), List.take_take,
      Nat.min_eq_left (by omega), List.drop_eq_nil_of_le (by rw [List.length_take]; omega)]
    rw [show n - p.length = (n - (p.length + 1)) + 1 by omega, List.singleton_append, List.take_succ_cons,
      List.take_replicate, Nat.min_eq_left (by omega)]
    simp
  | cons y t ih =>
    intro p d n fuel x hz hf hd hp
    obtain ⟨fuel, rfl⟩ : ∃ k, fuel = k + 1 := ⟨fuel - 1, by omega⟩
    rw [ncpyLoop, if_neg (by omega), rdr_lt (by simp)]
    simp only [Res.bind]
    rw [wr_ok (by omega)]
    simp only
    rw [rdr_lt (by simp)]
    simp only [List.getElem_append_right (Nat.le_refl _), Nat.sub_self, List.getElem_cons_zero]
    have e1 : (p ++ x :: y :: t)[p.length + 1]'(by simp) = y := by
      rw [List.getElem_append_right (by omega)]
      simp
    rw [e1, if_neg (hz y (by simp))]
    have hset : (d.set p.length x).take (p.length + 1) = d.take p.length ++ [x] := by
      rw [List.take_set, List.set_eq_take_append_cons_drop, if_pos (by rw [List.length_take]; omega),
        List.take_take, Nat.min_eq_left (by omega), List.drop_eq_nil_of_le (by rw [List.length_take]; omega)]
    by_cases hn : p.length + 1 < n
    · have := ih (p ++ [x]) (d.set p.length x) n fuel y (fun r hr => hz r (by simp [hr]))
        (by rw [List.length_append, List.length_singleton]; omega)
        (by rw [List.length_set]; omega) (by rw [List.length_append, List.length_singleton]; omega)
      rw [List.append_assoc, List.singleton_append, List.length_append, List.length_singleton] at this
      rw [this, hset, List.drop_set_of_lt (by omega), show n - p.length = (n - (p.length + 1)) + 1 by omega]
      simp
    · have hn' : n = p.length + 1 := by omega
      obtain ⟨fuel, rfl⟩ : ∃ k, fuel = k + 1 := ⟨fuel - 1, by omega⟩
      rw [ncpyLoop, if_pos (by omega)]
      congr 1
      have h1 : d.set p.length x = (d.set p.length x).take (p.length + 1) ++ (d.set p.length x).drop (p.length + 1) :=
        (List.take_append_drop _ _).symm
      rw [h1, hset, List.drop_set_of_lt (by omega), hn', show p.length + 1 - p.length = 0 + 1 by omega,
        List.cons_append, List.take_succ_cons]
      simp

theorem runestrncpy_eq {d s : List Nat} {n : Nat} (hs : s ≠ []) (hz : ∀ r ∈ s, r ≠ 0) (hn : n ≤ d.length) :
    runestrncpy d s n = .ok ((s ++ List.replicate n 0).take n ++ d.drop n) := by
  cases s with
  | nil => exact absurd rfl hs
  | cons x t =>
    rcases Nat.eq_zero_or_pos n with h0 | h0
    · subst h0
      rw [runestrncpy, ncpyLoop, if_pos (by omega)]
      simp
    · have := ncpyLoop_eq t [] d n (n + 1) x (fun r hr => hz r (by simp [hr])) (by omega) hn h0
      simpa [runestrncpy] using this

/-! ## Comparing -/

theorem cmpLoop_eq (s1 : List Nat) : ∀ (p q s2 : List Nat) (fuel : Nat), p.length = q.length → (∀ r ∈ s1, r ≠ 0) →
    (∀ r ∈ s2, r ≠ 0) → s1.length < fuel → cmpLoop (p ++ s1) (q ++ s2) fuel p.length = .ok (order s1 s2) := by
  induction s1 with
  | nil =>
    intro p q s2 fuel hpq _ hz hf
    obtain ⟨fuel, rfl⟩ : ∃ k, fuel = k + 1 := ⟨fuel - 1, by simp only [List.length_nil] at hf; omega⟩
    rw [cmpLoop, List.append_nil, rdr_end]
    cases s2 with
    | nil =>
      rw [List.append_nil, hpq, rdr_end]
      rfl
    | cons y s2 =>
      rw [rdr_lt (by simp [hpq])]
      have hy := hz y (by simp)
      simp only [Res.bind, hpq, List.getElem_append_right (Nat.le_refl _), Nat.sub_self, List.getElem_cons_zero]
      rw [if_pos (fun h => hy h.symm), if_neg (by omega)]
      rfl
  | cons x s1 ih =>
    intro p q s2 fuel hpq hz1 hz hf
    simp only [List.length_cons] at hf
    obtain ⟨fuel, rfl⟩ : ∃ k, fuel = k + 1 := ⟨fuel - 1, by omega⟩
    have hx := hz1 x (by simp)
    rw [cmpLoop, rdr_lt (by simp)]
    cases s2 with
    | nil =>
      rw [List.append_nil]
      simp only [Res.bind, List.getElem_append_right (Nat.le_refl _), Nat.sub_self, List.getElem_cons_zero]
      rw [hpq, rdr_end]
      simp only
      rw [if_pos hx, if_pos (by omega)]
      rfl
    | cons y s2 =>
      rw [rdr_lt (by simp [hpq])]
      have e : (q ++ y :: s2)[p.length]'(by simp [hpq]) = y := by
        rw [List.getElem_append_right (by omega)]
        simp [hpq]
      simp only [Res.bind, List.getElem_append_right (Nat.le_refl _), Nat.sub_self, List.getElem_cons_zero]
      rw [e, order]
      by_cases hxy : x = y
      · subst hxy
        rw [if_neg (by omega), if_neg hx, if_neg (by omega), if_neg (by omega)]
        have := ih (p ++ [x]) (q ++ [x]) s2 fuel (by simp [hpq]) (fun r hr => hz1 r (by simp [hr]))
          (fun r hr => hz r (by simp [hr])) (by omega)
        simpa using this
      · rw [if_pos hxy]
        by_cases hlt : x < y
        · rw [if_neg (by omega), if_pos hlt]
        · rw [if_pos (by omega), if_neg hlt, if_pos (by omega)]

theorem runestrcmp_eq {s1 s2 : List Nat} (h1 : ∀ r ∈ s1, r ≠ 0) (h2 : ∀ r ∈ s2, r ≠ 0) :
    runestrcmp s1 s2 = .ok (order s1 s2) := by
  have := cmpLoop_eq s1 [] [] s2 (s1.length + 1) rfl h1 h2 (by omega)
  simpa [runestrcmp] using this

theorem ncmpLoop_eq (n : Nat) : ∀ (s1 p q s2 : List Nat), p.length = q.length → (∀ r ∈ s1, r ≠ 0) →
    (∀ r ∈ s2, r ≠ 0) → ncmpLoop (p ++ s1) (q ++ s2) n p.length = .ok (order (s1.take n) (s2.take n)) := by
  induction n with
  | zero => intro s1 p q s2 _ _ _; simp [ncmpLoop, order]
  | succ n ih =>
    intro s1 p q s2 hpq hz1 hz
    rw [ncmpLoop]
    cases s1 with
    | nil =>
      rw [List.append_nil, rdr_end]
      cases s2 with
      | nil =>
        rw [List.append_nil, hpq, rdr_end]
        simp [Res.bind, order]
      | cons y s2 =>
        rw [rdr_lt (by simp [hpq])]
        have hy := hz y (by simp)
        simp only [Res.bind, hpq, List.getElem_append_right (Nat.le_refl _), Nat.sub_self, List.getElem_cons_zero]
        rw [if_pos (fun h => hy h.symm), if_neg (by omega)]
        simp [order]
    | cons x s1 =>
      have hx := hz1 x (by simp)
      rw [rdr_lt (by simp)]
      cases s2 with
      | nil =>
        rw [List.append_nil]
        simp only [Res.bind, List.getElem_append_right (Nat.le_refl _), Nat.sub_self, List.getElem_cons_zero]
        rw [hpq, rdr_end]
        simp only
        rw [if_pos hx, if_pos (by omega)]
        simp [order]
      | cons y s2 =>
        rw [rdr_lt (by simp [hpq])]
        have e : (q ++ y :: s2)[p.length]'(by simp [hpq]) = y := by
          rw [List.getElem_append_right (by omega)]
          simp [hpq]
        simp only [Res.bind, List.getElem_append_right (Nat.le_refl _), Nat.sub_self, List.getElem_cons_zero]
        rw [e, List.take_succ_cons, List.take_succ_cons, order]
        by_cases hxy : x = y
        · subst hxy
          rw [if_neg (by omega), if_neg hx, if_neg (by omega), if_neg (by omega)]
          have := ih s1 (p ++ [x]) (q ++ [x]) s2 (by simp [hpq]) (fun r hr => hz1 r (by simp [hr]))
            (fun r hr => hz r (by simp [hr]))
          simpa using this
        · rw [if_pos hxy]
          by_cases hlt : x < y
          · rw [if_neg (by omega), if_pos hlt]
          · rw [if_pos (by omega), if_neg hlt, if_pos (by omega)]

theorem runestrncmp_eq {s1 s2 : List Nat} (n : Nat) (h1 : ∀ r ∈ s1, r ≠ 0) (h2 : ∀ r ∈ s2, r ≠ 0) :
    runestrncmp s1 s2 n = .ok (order (s1.take n) (s2.take n)) := by
  have := ncmpLoop_eq n s1 [] [] s2 rfl h1 h2
  simpa [runestrncmp] using this

/-! ## `utfecpy` -/

theorem nih_memcpy_nil {to : Bytes} (h : 0 < to.length) :
    nih_memcpy to [] 0 to.length = (to.set 0 0, some 1) := by
  obtain ⟨n, hn⟩ : ∃ n, to.length = n + 1 := ⟨to.length - 1, by omega⟩
  rw [hn, nih_memcpy]
  simp

theorem nih_memcpy_loop {to src : Bytes} (h : src.getD 0 0 ≠ 0) : ∀ n, nih_memcpy (to.set 0 (src.getD 0 0)) src 0 n =
    (to.set 0 (src.getD 0 0), none) := by
  intro n
  induction n with
  | zero => rfl
  | succ n ih =>
    rw [nih_memcpy, if_neg h, List.set_set, ih]

end Che.Lib.Utf
