import Verif.Proofs.Lib.HuffmanBuild
import Mathlib.InformationTheory.Coding.KraftMcMillan

/-! No code that can be decoded is shorter than the one of the tree. -/
namespace Che.Proofs.Lib.Huff
open Che Che.Lib Che.Lib.Huffman Che.Spec.Lib Che.Spec.Lib.Huff

theorem lift_perm {α β} (f : α → β) {l L : List β} (h : l.Perm L) :
    ∀ Q : List α, Q.map f = l → ∃ Q' : List α, Q'.Perm Q ∧ Q'.map f = L := by
  induction h with
  | nil => exact fun Q hq => ⟨Q, .refl _, hq⟩
  | cons x _ ih =>
    intro Q hq
    obtain ⟨a, Q1, rfl, rfl, h1⟩ := List.map_eq_cons_iff.1 hq
    obtain ⟨Q', h2, h3⟩ := ih Q1 h1
    exact ⟨a :: Q', h2.cons a, by simp [h3]⟩
  | swap x y l =>
    intro Q hq
    obtain ⟨a, Q1, rfl, rfl, h1⟩ := List.map_eq_cons_iff.1 hq
    obtain ⟨b, Q2, rfl, rfl, h2⟩ := List.map_eq_cons_iff.1 h1
    exact ⟨b :: a :: Q2, .swap a b Q2, by simp [h2]⟩
  | trans _ _ ih1 ih2 =>
    intro Q hq
    obtain ⟨Q1, h1, h2⟩ := ih1 Q hq
    obtain ⟨Q2, h3, h4⟩ := ih2 Q1 h2
    exact ⟨Q2, h3.trans h1, h4⟩

/-- Counts times depths. -/
def wsum (Q : List (Node × Nat)) : Nat := (Q.map (fun q => q.1.count * q.2)).sum

theorem wsum_perm {Q Q' : List (Node × Nat)} (h : Q.Perm Q') : wsum Q = wsum Q' := (h.map _).sum_nat

theorem wsum_append (Q Q' : List (Node × Nat)) : wsum (Q ++ Q') = wsum Q + wsum Q' := by
  simp [wsum]

/-- The Kraft sum, times `2 ^ M`. -/
def ksum (M : Nat) (ds : List Nat) : Nat := (ds.map (fun d => 2 ^ (M - d))).sum

theorem ksum_perm {M} {ds ds' : List Nat} (h : ds.Perm ds') : ksum M ds = ksum M ds' := (h.map _).sum_nat

/-- The depths can be swapped so that a least weight is deepest. -/
theorem swapMax (w d : Nat) : ∀ Q : List (Node × Nat), (∀ q ∈ Q, w ≤ q.1.count) →
    ∃ (Q' : List (Node × Nat)) (d' : Nat), Q'.map (·.1) = Q.map (·.1) ∧
      (d' :: Q'.map (·.2)).Perm (d :: Q.map (·.2)) ∧ (∀ q ∈ Q', q.2 ≤ d') ∧
      w * d' + wsum Q' ≤ w * d + wsum Q
  | [], _ => ⟨[], d, rfl, .refl _, by simp, Nat.le_refl _⟩
  | (t, e) :: Q, h => by
    obtain ⟨Q', d', h1, h2, h3, h4⟩ := swapMax w d Q (fun q hq => h q (by simp [hq]))
    have hw : w ≤ t.count := h (t, e) (by simp)
    by_cases he : e ≤ d'
    · refine ⟨(t, e) :: Q', d', by simp [h1], ?_, ?_, ?_⟩
      · simp only [List.map_cons]
        exact (List.Perm.swap e d' _).trans ((h2.cons e).trans (List.Perm.swap d e _))
      · intro q hq
        rcases List.mem_cons.1 hq with rfl | hq
        · exact he
        · exact h3 q hq
      · simp only [wsum, List.map_cons, List.sum_cons] at h4 ⊢
        omega
    · refine ⟨(t, d') :: Q', e, by simp [h1], ?_, ?_, ?_⟩
      · simp only [List.map_cons]
        exact (h2.cons e).trans (List.Perm.swap d e _)
      · intro q hq
        rcases List.mem_cons.1 hq with rfl | hq
        · exact Nat.le_of_lt (Nat.lt_of_not_le he)
        · exact Nat.le_trans (h3 q hq) (Nat.le_of_lt (Nat.lt_of_not_le he))
      · simp only [wsum, List.map_cons, List.sum_cons] at h4 ⊢
        obtain ⟨x, hx⟩ := Nat.exists_eq_add_of_le hw
        obtain ⟨y, hy⟩ := Nat.exists_eq_add_of_le (Nat.le_of_lt (Nat.lt_of_not_le he))
        rw [hx, hy]
        have e1 : (w + x) * (d' + y) = w * d' + w * y + x * d' + x * y := by
          rw [Nat.add_mul, Nat.mul_add, Nat.mul_add]; omega
        have e2 : (w + x) * d' = w * d' + x * d' := Nat.add_mul ..
        have e3 : w * (d' + y) = w * d' + w * y := Nat.mul_add ..
        rw [e1, e2, e3]
        omega

/-- Some depths for the trees of a list satisfy Kraft's inequality and cost at most `C`. -/
def Cheap (C M : Nat) (list : List Node) : Prop :=
  ∃ Q : List (Node × Nat), Q.map (·.1) = list ∧ (∀ q ∈ Q, q.2 ≤ M) ∧ ksum M (Q.map (·.2)) ≤ 2 ^ M ∧
    (list.map cost).sum + wsum Q ≤ C

theorem ksum_dvd (M D : Nat) : ∀ ds : List Nat, (∀ d ∈ ds, d ≤ D) → ∃ m, ksum M ds = 2 ^ (M - D) * m
  | [], _ => ⟨0, rfl⟩
  | d :: ds, h => by
    obtain ⟨m, hm⟩ := ksum_dvd M D ds (fun e he => h e (by simp [he]))
    have hd := h d (by simp)
    refine ⟨2 ^ ((M - d) - (M - D)) + m, ?_⟩
    have e : ksum M (d :: ds) = 2 ^ (M - d) + ksum M ds := by simp [ksum]
    rw [e, hm, Nat.mul_add, ← Nat.pow_add]
    congr 2
    omega

theorem cheap_step {C M} (list pre : List Node) (a b : Node) (hna : a ≠ .null) (h : Cheap C M list)
    (hp : list.Perm (pre ++ [b, a])) (hs : (pre ++ [b, a]).Pairwise (fun a b => b.count ≤ a.count)) :
    Cheap C M (pre ++ [merged a b]) := by
  obtain ⟨Q0, q1, q2, q3, q4⟩ := h
  obtain ⟨Q, p1, p2⟩ := lift_perm (·.1) hp Q0 q1
  rw [List.pairwise_append] at hs
  obtain ⟨_, s2, s3⟩ := hs
  have hab : a.count ≤ b.count := by simpa using s2
  have hpb : ∀ u ∈ pre, b.count ≤ u.count := fun u hu => s3 u hu b (by simp)
  obtain ⟨Qp, Qr, rfl, e1, e2⟩ := List.map_eq_append_iff.1 p2
  obtain ⟨⟨b', db⟩, Qr1, rfl, rfl, e3⟩ := List.map_eq_cons_iff.1 e2
  obtain ⟨⟨a', da⟩, Qr2, rfl, rfl, e4⟩ := List.map_eq_cons_iff.1 e3
  obtain rfl := List.map_eq_nil_iff.1 e4
  simp only at *
  -- the least weight deepest
  obtain ⟨Q1, da', a1, a2, a3, a4⟩ := swapMax a'.count da (Qp ++ [(b', db)]) (by
    intro q hq
    rcases List.mem_append.1 hq with hq | hq
    · exact Nat.le_trans hab (hpb q.1 (by rw [← e1]; exact List.mem_map_of_mem hq))
    · rw [List.mem_singleton] at hq; subst hq; exact hab)
  rw [List.map_append] at a1
  obtain ⟨Qp1, Qb, rfl, b1, b2⟩ := List.map_eq_append_iff.1 a1
  obtain ⟨⟨b'', db1⟩, Qr3, rfl, rfl, b3⟩ := List.map_eq_cons_iff.1 b2
  obtain rfl := List.map_eq_nil_iff.1 b3
  simp only at *
  -- the second next to it
  obtain ⟨Q2, db2, c1, c2, c3, c4⟩ := swapMax b''.count db1 Qp1 (by
    intro q hq
    exact hpb q.1 (by rw [← e1, ← b1]; exact List.mem_map_of_mem hq))
  -- the depths
  have hd : (da' :: db2 :: Q2.map (·.2)).Perm (Q0.map (·.2)) := by
    refine ((c2.cons da').trans ?_).trans (p1.map (·.2))
    refine List.Perm.trans (l₂ := da' :: (Qp1 ++ [(b'', db1)]).map (·.2)) ?_ (a2.trans ?_)
    · refine List.Perm.cons _ ?_
      rw [List.map_append]
      exact (List.perm_append_comm (l₁ := [db1]) (l₂ := Qp1.map (·.2)))
    · simp only [List.map_append, List.map_cons, List.map_nil]
      have e : Qp.map (·.2) ++ [db, da] = (Qp.map (·.2) ++ [db]) ++ [da] := by simp
      rw [e]
      exact List.perm_append_comm (l₁ := [da])
  have hle : ∀ d ∈ da' :: db2 :: Q2.map (·.2), d ≤ M := by
    intro d hd'
    obtain ⟨q, hq, rfl⟩ := List.mem_map.1 (hd.mem_iff.1 hd')
    exact q2 q hq
  have hda : da' ≤ M := hle da' (by simp)
  have hdb : db2 ≤ da' := by
    have : db2 ∈ (Qp1 ++ [(b'', db1)]).map (·.2) := by
      have := c2.mem_iff.1 (List.mem_cons_self (a := db2) (l := Q2.map (·.2)))
      simp only [List.map_append, List.map_cons, List.map_nil, List.mem_append, List.mem_singleton]
      rcases List.mem_cons.1 this with h | h
      · exact .inr h
      · exact .inl h
    obtain ⟨q, hq, he⟩ := List.mem_map.1 this
    rw [← he]
    exact a3 q hq
  have hk : 2 ^ (M - da') + (2 ^ (M - db2) + ksum M (Q2.map (·.2))) ≤ 2 ^ M := by
    have e := ksum_perm (M := M) hd
    rw [← e] at q3
    simpa [ksum] using q3
  obtain ⟨m, hm⟩ := ksum_dvd M db2 (Q2.map (·.2)) (by
    intro d hd'
    obtain ⟨q, hq, rfl⟩ := List.mem_map.1 hd'
    exact c3 q hq)
  have hpow : 2 ^ M = 2 ^ (M - db2) * 2 ^ db2 := by rw [← Nat.pow_add]; congr 1; omega
  have hpos : 0 < 2 ^ (M - da') := Nat.two_pow_pos _
  have hpos2 : 0 < 2 ^ (M - db2) := Nat.two_pow_pos _
  have hlt : m + 1 < 2 ^ db2 := by
    apply Nat.lt_of_mul_lt_mul_left (a := 2 ^ (M - db2))
    rw [← hpow, Nat.mul_add, Nat.mul_one, ← hm]
    omega
  have hdb1 : 1 ≤ db2 := by
    rcases Nat.eq_zero_or_pos db2 with h | h
    · rw [h] at hlt; simp at hlt
    · exact h
  refine ⟨Q2 ++ [(merged a' b'', db2 - 1)], ?_, ?_, ?_, ?_⟩
  · rw [List.map_append, c1, b1, e1]; rfl
  · intro q hq
    rcases List.mem_append.1 hq with hq | hq
    · exact Nat.le_trans (c3 q hq) (Nat.le_trans hdb hda)
    · rw [List.mem_singleton] at hq; subst hq
      simp only; omega
  · have e : ksum M ((Q2 ++ [(merged a' b'', db2 - 1)]).map (·.2)) = ksum M (Q2.map (·.2)) + 2 ^ (M - (db2 - 1)) := by
      simp [ksum]
    rw [e, hm, show M - (db2 - 1) = (M - db2) + 1 by omega, Nat.pow_succ, ← Nat.mul_add, hpow]
    exact Nat.mul_le_mul_left _ hlt
  · have ec : (list.map cost).sum = (pre.map cost).sum + (cost b'' + cost a') := by
      rw [(hp.map cost).sum_nat]
      simp
    have ew : wsum Q0 = wsum Qp + (b''.count * db + a'.count * da) := by
      rw [← wsum_perm p1, wsum_append]; simp [wsum]
    have e5 : wsum (Qp ++ [(b'', db)]) = wsum Qp + b''.count * db := by rw [wsum_append]; simp [wsum]
    have e6 : wsum (Qp1 ++ [(b'', db1)]) = wsum Qp1 + b''.count * db1 := by rw [wsum_append]; simp [wsum]
    have e7 : wsum (Q2 ++ [(merged a' b'', db2 - 1)]) = wsum Q2 + (a'.count + b''.count) * (db2 - 1) := by
      rw [wsum_append]; simp [wsum, merged, Node.count]
    have e8 : cost (merged a' b'') = a'.count + b''.count + cost a' + cost b'' := cost_inner hna
    rw [e5, e6] at a4
    rw [ec, ew] at q4
    rw [e7, List.map_append, List.sum_append, List.map_cons, List.map_nil, List.sum_cons, List.sum_nil, e8]
    obtain ⟨k, rfl⟩ := Nat.exists_eq_add_of_le hdb1
    rw [Nat.add_sub_cancel_left, Nat.add_mul]
    rw [Nat.mul_add, Nat.mul_one] at c4
    have e9 : a'.count * (1 + k) ≤ a'.count * da' := Nat.mul_le_mul_left _ hdb
    rw [Nat.mul_add, Nat.mul_one] at e9
    omega

/-- Kraft's inequality for a code that can be decoded. -/
theorem decodable_kraft {s : Bytes} {f : UInt8 → List Bool} (h : Decodable s f) {M : Nat}
    (hM : ∀ c ∈ s, (f c).length ≤ M) :
    ksum M ((chars s).map (fun i => (f (UInt8.ofNat i)).length)) ≤ 2 ^ M := by
  have hinj : ∀ c ∈ s, ∀ d ∈ s, f c = f d → c = d := by
    intro c hc d hd he
    have := h [c] [d] (by simpa using hc) (by simpa using hd) (by simpa using he)
    simpa using this
  have hud : InformationTheory.UniquelyDecodable ((s.toFinset.image f : Finset (List Bool)) : Set (List Bool)) := by
    have hget : ∀ L : List (List Bool), (∀ w ∈ L, w ∈ ((s.toFinset.image f : Finset (List Bool)) : Set (List Bool))) →
        ∃ a : Bytes, (∀ c ∈ a, c ∈ s) ∧ a.map f = L := by
      intro L
      induction L with
      | nil => exact fun _ => ⟨[], by simp, rfl⟩
      | cons w L ih =>
        intro hw
        obtain ⟨a, h1, h2⟩ := ih (fun w' hw' => hw w' (by simp [hw']))
        have := hw w (by simp)
        simp only [Finset.coe_image, Set.mem_image, SetLike.mem_coe, List.mem_toFinset] at this
        obtain ⟨c, hc, rfl⟩ := this
        refine ⟨c :: a, ?_, by simp [h2]⟩
        intro d hd
        rcases List.mem_cons.1 hd with rfl | hd
        · exact hc
        · exact h1 d hd
    intro L1 L2 h1 h2 he
    obtain ⟨a, a1, rfl⟩ := hget L1 h1
    obtain ⟨b, b1, rfl⟩ := hget L2 h2
    rw [h a b a1 b1 (by simpa [List.flatMap] using he)]
  have hk := InformationTheory.kraft_mcmillan_inequality hud
  rw [Finset.sum_image (by
    intro c hc d hd he
    exact hinj c (by simpa using hc) d (by simpa using hd) he)] at hk
  -- from the reals to natural numbers
  have hsum : ((ksum M ((chars s).map (fun i => (f (UInt8.ofNat i)).length)) : Nat) : ℝ) =
      2 ^ M * ∑ c ∈ s.toFinset, (1 / (Fintype.card Bool : ℝ)) ^ (f c).length := by
    have e1 : s.toFinset = ((chars s).map UInt8.ofNat).toFinset := by
      ext c
      simp only [List.mem_toFinset, List.mem_map]
      constructor
      · exact fun hc => ⟨c.toNat, mem_chars.2 hc, by simp⟩
      · rintro ⟨i, hi, rfl⟩
        have : (UInt8.ofNat i).toNat = i := by
          rw [UInt8.toNat_ofNat']; exact Nat.mod_eq_of_lt (chars_lt hi)
        exact mem_chars.1 (by rw [this]; exact hi)
    have hnd : ((chars s).map UInt8.ofNat).Nodup := by
      refine List.Nodup.map_on ?_ (chars_nodup s)
      intro i hi j hj he
      have := congrArg UInt8.toNat he
      rw [UInt8.toNat_ofNat', UInt8.toNat_ofNat', Nat.mod_eq_of_lt (chars_lt hi), Nat.mod_eq_of_lt (chars_lt hj)] at this
      exact this
    rw [e1, List.sum_toFinset _ hnd, List.map_map, ksum, List.map_map, Nat.cast_list_sum, List.map_map,
      ← List.sum_map_mul_left]
    congr 1
    apply List.map_congr_left
    intro i hi
    have hi' : UInt8.ofNat i ∈ s := by
      have : (UInt8.ofNat i).toNat = i := by
        rw [UInt8.toNat_ofNat']; exact Nat.mod_eq_of_lt (chars_lt hi)
      exact mem_chars.1 (by rw [this]; exact hi)
    have hle := hM _ hi'
    simp only [Function.comp_apply, Fintype.card_bool, Nat.cast_pow, Nat.cast_ofNat]
    rw [one_div, inv_pow, pow_sub₀ _ two_ne_zero hle]
  have : ((ksum M ((chars s).map (fun i => (f (UInt8.ofNat i)).length)) : Nat) : ℝ) ≤ ((2 ^ M : Nat) : ℝ) := by
    rw [hsum, Nat.cast_pow, Nat.cast_ofNat]
    calc (2 : ℝ) ^ M * _ ≤ 2 ^ M * 1 := mul_le_mul_of_nonneg_left hk (by positivity)
      _ = 2 ^ M := mul_one _
  exact_mod_cast this

/-- What a code costs. -/
theorem flatMap_length (s : Bytes) (f : UInt8 → List Bool) :
    (s.flatMap f).length = ((chars s).map (fun i => times s i * (f (UInt8.ofNat i)).length)).sum := by
  rw [List.length_flatMap, ← times_sum_chars (fun i => (f (UInt8.ofNat i)).length) s]
  simp

theorem cheap_start {s : Bytes} {f : UInt8 → List Bool} (h : Decodable s f) :
    ∃ M, Cheap (s.flatMap f).length M ((chars s).map (leaf (times s))) := by
  refine ⟨(s.map (fun c => (f c).length)).sum, (chars s).map (fun i => (leaf (times s) i, (f (UInt8.ofNat i)).length)), ?_, ?_, ?_, ?_⟩
  · rw [List.map_map]; rfl
  · intro q hq
    obtain ⟨i, hi, rfl⟩ := List.mem_map.1 hq
    have hi' : UInt8.ofNat i ∈ s := by
      have : (UInt8.ofNat i).toNat = i := by
        rw [UInt8.toNat_ofNat']; exact Nat.mod_eq_of_lt (chars_lt hi)
      exact mem_chars.1 (by rw [this]; exact hi)
    exact List.le_sum_of_mem (List.mem_map_of_mem (f := fun c => (f c).length) hi')
  · rw [List.map_map]
    exact decodable_kraft h (fun c hc => List.le_sum_of_mem (List.mem_map_of_mem (f := fun c => (f c).length) hc))
  · rw [flatMap_length]
    have e : (((chars s).map (leaf (times s))).map cost).sum = 0 := by
      rw [List.map_map]
      generalize chars s = l
      induction l with
      | nil => rfl
      | cons a l ih => rw [List.map_cons, List.sum_cons, ih]; rfl
    rw [e, wsum, List.map_map, Nat.zero_add]
    exact Nat.le_of_eq rfl

end Che.Proofs.Lib.Huff
