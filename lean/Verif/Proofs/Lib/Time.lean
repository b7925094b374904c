import Verif.Spec.Lib.Time
import Verif.Proofs.Lib.Opt
import Verif.Proofs.Lib.Text

namespace Che.Lib.Time
open Che.Lib Che.Spec.Opt Che.Spec.Time

theorem isdigit_eq : isdigit = Opt.isdigit := rfl

theorem isdigit_iff (c : UInt8) : isdigit c = true ↔ 48 ≤ c ∧ c ≤ 57 := by
  simp [isdigit]

/-! ## Reading -/

/-- The value of digits after `n`. -/
def val (n : Nat) (ds : Bytes) : Nat := ds.foldl (fun n d => 10 * n + (d.toNat - 48)) n

theorem val_le (n : Nat) (ds : Bytes) : n ≤ val n ds := by
  induction ds generalizing n with
  | nil => exact Nat.le_refl n
  | cons d ds ih =>
    show n ≤ val (10 * n + (d.toNat - 48)) ds
    have := ih (10 * n + (d.toNat - 48))
    omega

theorem readint_spec (s : Bytes) (n : Nat) (hn : n < 2 ^ 31) :
    (val n (s.takeWhile isdigit) < 2 ^ 31 ∧ readint s n = .ok ((val n (s.takeWhile isdigit) : Nat), s.dropWhile isdigit)) ∨
    (2 ^ 31 ≤ val n (s.takeWhile isdigit) ∧ readint s n = .panic "undefined: int overflow") := by
  induction s generalizing n with
  | nil => exact .inl ⟨hn, rfl⟩
  | cons c s ih =>
    rw [readint, List.takeWhile_cons, List.dropWhile_cons]
    by_cases hc : isdigit c = true
    · rw [if_pos hc, if_pos hc, if_pos hc]
      show (val (10 * n + (c.toNat - 48)) _ < _ ∧ _) ∨ (_ ≤ val (10 * n + (c.toNat - 48)) _ ∧ _)
      have h48 : 48 ≤ c.toNat := by
        have := ((isdigit_iff c).mp hc).1
        rw [UInt8.le_iff_toNat_le] at this
        exact this
      have hle := val_le (10 * n + (c.toNat - 48)) (s.takeWhile isdigit)
      unfold int
      by_cases h1 : -2147483648 ≤ (n : Int) * 10 ∧ (n : Int) * 10 ≤ 2147483647
      · rw [if_pos h1]
        simp only [Res.bind]
        by_cases h2 : -2147483648 ≤ (n : Int) * 10 + ((c.toNat : Int) - 48) ∧ (n : Int) * 10 + ((c.toNat : Int) - 48) ≤ 2147483647
        · rw [if_pos h2]
          simp only
          rw [show (n : Int) * 10 + ((c.toNat : Int) - 48) = ((10 * n + (c.toNat - 48) : Nat) : Int) by omega]
          exact ih _ (by omega)
        · rw [if_neg h2]
          exact .inr ⟨by omega, rfl⟩
      · rw [if_neg h1]
        exact .inr ⟨by omega, rfl⟩
    · rw [if_neg hc, if_neg hc, if_neg hc]
      exact .inl ⟨hn, rfl⟩

theorem val_number (ds : Bytes) : val 0 ds = Opt.number ds := rfl

theorem num_iff (s : Bytes) (n : Nat) : Num s n ↔ s.all isdigit = true ∧ val 0 s = n := by
  constructor
  · rintro (⟨rfl, rfl⟩ | h)
    · exact ⟨rfl, rfl⟩
    · exact ((Opt.decimal_iff s n).mp h).2
  · rintro ⟨h, h'⟩
    by_cases h0 : s = []
    · subst h0; exact .inl ⟨rfl, h'.symm⟩
    · exact .inr ((Opt.decimal_iff s n).mpr ⟨h0, h, h'⟩)

theorem takeWhile_num (s : Bytes) : Num (s.takeWhile isdigit) (val 0 (s.takeWhile isdigit)) :=
  (num_iff _ _).mpr ⟨by rw [List.all_eq_true]; exact Url.takeWhile_mem s, rfl⟩

theorem stops_iff (s : Bytes) : Stops s ↔ ∀ x, s.head? = some x → isdigit x = false := by
  constructor
  · intro h x hx
    have := h x hx
    rw [← isdigit_iff] at this
    simpa using this
  · intro h x hx hd
    have := h x hx
    rw [(isdigit_iff x).mpr hd] at this
    cases this

theorem dropWhile_stops (s : Bytes) : Stops (s.dropWhile isdigit) :=
  (stops_iff _).mpr (fun x hx => Url.dropWhile_head s x hx)

theorem split_num {a rest : Bytes} {n : Nat} (h : Num a n) (hs : Stops rest) :
    (a ++ rest).takeWhile isdigit = a ∧ (a ++ rest).dropWhile isdigit = rest :=
  Url.takeWhile_stop (List.all_eq_true.mp ((num_iff a n).mp h).1) ((stops_iff rest).mp hs)

/-- A number is read up to what does not go on with a digit. -/
theorem readint_num {a rest : Bytes} {n : Nat} (h : Num a n) (hs : Stops rest) :
    readint (a ++ rest) 0 = if n < 2 ^ 31 then .ok ((n : Nat), rest) else .panic "undefined: int overflow" := by
  obtain ⟨h1, h2⟩ := split_num h hs
  have hv := ((num_iff a n).mp h).2
  rcases readint_spec (a ++ rest) 0 (by omega) with ⟨g1, g2⟩ | ⟨g1, g2⟩
  · rw [h1, hv] at g1 g2
    rw [h2] at g2
    rw [if_pos g1]; exact g2
  · rw [h1, hv] at g1
    rw [if_neg (by omega)]; exact g2

theorem readint_inv {s rest : Bytes} {k : Int} (h : readint s 0 = .ok (k, rest)) :
    ∃ a n, s = a ++ rest ∧ Num a n ∧ Stops rest ∧ k = (n : Nat) ∧ n < 2 ^ 31 := by
  rcases readint_spec s 0 (by omega) with ⟨g1, g2⟩ | ⟨g1, g2⟩
  · rw [show ((0 : Nat) : Int) = 0 from rfl] at g2
    rw [g2] at h
    cases h
    exact ⟨s.takeWhile isdigit, _, (List.takeWhile_append_dropWhile).symm, takeWhile_num s, dropWhile_stops s, rfl, g1⟩
  · rw [show ((0 : Nat) : Int) = 0 from rfl] at g2
    rw [g2] at h; cases h

theorem readint_cases (s : Bytes) : (∃ k rest, readint s 0 = .ok (k, rest)) ∨
    readint s 0 = .panic "undefined: int overflow" := by
  rcases readint_spec s 0 (by omega) with ⟨g1, g2⟩ | ⟨g1, g2⟩
  · exact .inl ⟨_, _, g2⟩
  · exact .inr g2

theorem stops_cons {c : UInt8} {s : Bytes} (h : isdigit c = false) : Stops (c :: s) := by
  rw [stops_iff]; intro x hx; simp at hx; subst hx; exact h

/-! ## Durations -/

theorem colonInt_some {b rest : Bytes} {n : Nat} (h : Num b n) (hs : Stops rest) :
    colonInt (58 :: (b ++ rest)) = if n < 2 ^ 31 then .ok (some ((n : Nat) : Int), rest) else .panic "undefined: int overflow" := by
  show (readint (b ++ rest) 0).bind _ = _
  rw [readint_num h hs]
  split <;> rfl

theorem colonInt_none {p : Bytes} (h : p.head? ≠ some 58) : colonInt p = .ok (none, p) := by
  unfold colonInt
  split
  · simp at h
  · rfl

theorem colonInt_inv {p q : Bytes} {o : Option Int} (h : colonInt p = .ok (o, q)) :
    (o = none ∧ q = p ∧ p.head? ≠ some 58) ∨
    ∃ b n, p = 58 :: b ++ q ∧ Num b n ∧ Stops q ∧ o = some ((n : Nat) : Int) ∧ n < 2 ^ 31 := by
  unfold colonInt at h
  split at h
  · rename_i rest
    obtain ⟨⟨k, q'⟩, h1, h2⟩ := Res.bind_eq_ok' h
    cases h2
    obtain ⟨a, n, e, hn, hs, hk, hl⟩ := readint_inv h1
    exact .inr ⟨a, n, by rw [e]; rfl, hn, hs, by rw [hk], hl⟩
  · rename_i hne
    cases h
    refine .inl ⟨rfl, rfl, ?_⟩
    intro h
    cases p with
    | nil => cases h
    | cons x p => simp at h; exact hne p (by rw [h])

/-- The fraction of a second in microseconds, as the code computes it. -/
def micros (rest : Bytes) : Nat :=
  match rest with
  | 46 :: r => fraction (fracLoop r 0 1 0).2 (fracLoop r 0 1 0).1
  | _ => 0

theorem parse_inv {s : Bytes} {us : Int} (h : parse_duration s = .ok us) :
    ∃ m sec rest, Clock s m sec rest ∧ m * 60 + sec ≤ 2147 ∧ us = (m * 60 + sec : Nat) * 1000000 + (micros rest : Int) := by
  unfold parse_duration at h
  split at h
  · cases h
  · obtain ⟨⟨n0, p⟩, h1, h⟩ := Res.bind_eq_ok' h
    simp only at h
    split at h
    · cases h
    · rename_i hp
      obtain ⟨⟨o1, q⟩, h2, k1⟩ := Res.bind_eq_ok' h
      simp only at k1
      obtain ⟨⟨o2, r⟩, h3, k2⟩ := Res.bind_eq_ok' k1
      simp only at k2
      clear h k1
      obtain ⟨a, m, rfl, ha, hsa, rfl, hm⟩ := readint_inv h1
      have ha' : Decimal a m := by
        rcases ha with ⟨rfl, -⟩ | ha
        · exact absurd rfl hp
        · exact ha
      rcases colonInt_inv h2 with ⟨rfl, rfl, hne⟩ | ⟨b, sec, rfl, hb, hsb, rfl, hsec⟩
      · cases o2 <;> cases k2
      · rcases colonInt_inv h3 with ⟨rfl, rfl, hne⟩ | ⟨b', sec', _, _, _, rfl, _⟩
        · obtain ⟨x, e1, k3⟩ := Res.bind_eq_ok' k2
          obtain ⟨y, e2, k4⟩ := Res.bind_eq_ok' k3
          obtain ⟨z, e3, h⟩ := Res.bind_eq_ok' k4
          unfold int at e1 e2 e3
          split at e1
          · cases e1
            split at e2
            · cases e2
              split at e3
              · rename_i c1 c2 c3
                cases e3
                refine ⟨m, sec, r, ?_, by omega, ?_⟩
                · have := Clock.mk a b r m sec ha' hb hsb hne
                  simpa using this
                · unfold micros
                  split at h
                  · cases h; simp only; push_cast; omega
                  · rename_i hdot
                    cases h
                    split
                    · exact (hdot _ rfl).elim
                    · push_cast; omega
              · cases e3
            · cases e2
          · cases e1
        · cases k2

theorem parse_clock {s rest : Bytes} {m sec : Nat} (h : Clock s m sec rest) (hr : m * 60 + sec ≤ 2147) :
    parse_duration s = .ok ((m * 60 + sec : Nat) * 1000000 + (micros rest : Int)) := by
  obtain ⟨a, b, rest, m, sec, ha, hb, hs, hne⟩ := h
  have hane := ((Opt.decimal_iff a m).mp ha).1
  unfold parse_duration
  rw [if_neg (by simp [hane])]
  have e0 : a ++ [58] ++ b ++ rest = a ++ (58 :: (b ++ rest)) := by simp
  rw [e0, readint_num (.inr ha) (stops_cons (by decide)), if_pos (by omega)]
  simp only [Res.bind]
  rw [if_neg (by
    intro h
    have := congrArg List.length h
    simp only [List.length_append] at this
    have := List.length_pos_iff.mpr hane
    omega)]
  rw [colonInt_some hb hs, if_pos (by omega)]
  simp only
  rw [colonInt_none hne]
  simp only
  unfold int
  rw [if_pos (by omega)]
  simp only
  rw [if_pos (by omega)]
  simp only
  rw [if_pos (by omega)]
  simp only
  unfold micros
  split
  · simp only; push_cast; rfl
  · push_cast; simp

/-! ## Fractions -/

theorem nearest_bound (n d : Nat) (hd : 0 < d) : 2 * (nearest n d * d) ≤ 2 * n + d ∧ 2 * n ≤ 2 * (nearest n d * d) + d := by
  unfold nearest
  have hr : n % d < d := Nat.mod_lt _ hd
  have e : n = d * (n / d) + n % d := (Nat.div_add_mod n d).symm
  have hc : n / d * d = d * (n / d) := Nat.mul_comm _ _
  have hc1 : (n / d + 1) * d = d * (n / d) + d := by rw [Nat.add_mul, hc]; omega
  simp only
  split
  · rw [hc]; omega
  · split
    · rw [hc1]; omega
    · split
      · rw [hc]; omega
      · rw [hc1]; omega

theorem shift_bound (n d : Nat) (hn : 0 < n) (hl : Nat.log2 n ≤ 52 + Nat.log2 d) : 2 ^ 52 * d ≤ n * 2 ^ shift n d := by
  have h1 : 2 ^ Nat.log2 n ≤ n := Nat.log2_self_le (by omega)
  have h2 : d < 2 ^ (Nat.log2 d + 1) := Nat.lt_log2_self
  obtain ⟨s, hs⟩ : ∃ s, 53 + Nat.log2 d - Nat.log2 n = s + 1 := ⟨52 + Nat.log2 d - Nat.log2 n, by omega⟩
  have h3 : 2 ^ Nat.log2 n * 2 ^ (s + 1) ≤ n * 2 ^ (s + 1) := Nat.mul_le_mul_right _ h1
  rw [← Nat.pow_add, show Nat.log2 n + (s + 1) = 52 + (Nat.log2 d + 1) by omega, Nat.pow_add] at h3
  have h4 : 2 ^ 52 * d ≤ 2 ^ 52 * 2 ^ (Nat.log2 d + 1) := Nat.mul_le_mul_left _ (by omega)
  unfold shift
  simp only [hs]
  split
  · omega
  · rename_i h
    rw [Nat.pow_succ, ← Nat.mul_assoc] at h
    rw [Nat.add_sub_cancel]
    omega

/-- A double is near the number it stands for. -/
theorem double_bound (n d : Nat) (hn : 0 < n) (hd : 0 < d) (hl : Nat.log2 n ≤ 52 + Nat.log2 d) :
    0 < (double n d).2 ∧
    2 ^ 53 * ((double n d).1 * d) ≤ (2 ^ 53 + 1) * (n * (double n d).2) ∧
    (2 ^ 53 - 1) * (n * (double n d).2) ≤ 2 ^ 53 * ((double n d).1 * d) := by
  have hb := shift_bound n d hn hl
  obtain ⟨a, b⟩ := nearest_bound (n * 2 ^ shift n d) d hd
  unfold double
  rw [if_neg (by omega)]
  refine ⟨Nat.two_pow_pos _, ?_, ?_⟩ <;> simp only <;>
    generalize nearest (n * 2 ^ shift n d) d * d = x at * <;> generalize n * 2 ^ shift n d = y at * <;> omega

theorem log2_le_of_lt {n k : Nat} (h : n < 2 ^ (k + 1)) : Nat.log2 n ≤ k := by
  by_cases h0 : n = 0
  · subst h0; simp
  · have := (Nat.log2_lt h0).mpr h; omega

theorem fraction_bound (v f : Nat) (hv : v < f) (hf : f ≤ 10 ^ 7) :
    fraction v f * f ≤ 1000000 * v ∧ 1000000 * v ≤ (fraction v f + 1) * f := by
  by_cases h0 : v = 0
  · subst h0
    have : fraction 0 f = 0 := by simp [fraction, double]
    rw [this]; omega
  · unfold fraction
    obtain ⟨p1, u1, l1⟩ := double_bound v f (by omega) (by omega) (Nat.le_trans (log2_le_of_lt (k := 23) (by omega)) (by omega))
    have hdv : (double v f).2 = 2 ^ shift v f := by unfold double; rw [if_neg h0]
    generalize double v f = q at *
    obtain ⟨m1, t1⟩ := q
    simp only at p1 u1 l1 hdv ⊢
    have hm1 : 0 < m1 := by
      rcases Nat.eq_zero_or_pos m1 with h | h
      · subst h
        have : 0 < v * t1 := Nat.mul_pos (by omega) p1
        omega
      · exact h
    have hm1t : m1 ≤ 2 * t1 := by
      have a1 : v * t1 ≤ f * t1 := Nat.mul_le_mul_right _ (by omega)
      have a2 : 2 ^ 53 * (m1 * f) ≤ (2 ^ 53 + 1) * (f * t1) := Nat.le_trans u1 (Nat.mul_le_mul_left _ a1)
      have a3 : m1 * f ≤ 2 * t1 * f := by
        rw [Nat.mul_assoc, Nat.mul_comm t1 f]
        generalize m1 * f = x at *; generalize f * t1 = y at *; omega
      exact Nat.le_of_mul_le_mul_right a3 (by omega)
    have hlog : Nat.log2 (1000000 * m1) ≤ 52 + Nat.log2 t1 := by
      rw [hdv, Nat.log2_two_pow]
      apply log2_le_of_lt
      have e : 2 ^ (52 + shift v f + 1) = 2 ^ 53 * 2 ^ shift v f := by
        rw [← Nat.pow_add]; congr 1; omega
      rw [e, ← hdv]; omega
    obtain ⟨p2, u2, l2⟩ := double_bound (1000000 * m1) t1 (by omega) p1 hlog
    generalize double (1000000 * m1) t1 = q2 at *
    obtain ⟨m2, t2⟩ := q2
    simp only at p2 u2 l2 ⊢
    have hq1 : m2 / t2 * t2 ≤ m2 := Nat.div_mul_le_self m2 t2
    have hq2 : m2 < (m2 / t2 + 1) * t2 := by
      have := Nat.lt_div_mul_add p2 (a := m2)
      rw [Nat.add_mul]; omega
    generalize m2 / t2 = q at *
    -- Upper bounds, multiplied out.
    have U : 2 ^ 53 * 2 ^ 53 * (q * f) ≤ (2 ^ 53 + 1) * (2 ^ 53 + 1) * (1000000 * v) := by
      have c1 : 2 ^ 53 * ((q * t2) * t1) ≤ (2 ^ 53 + 1) * (1000000 * m1 * t2) :=
        Nat.le_trans (Nat.mul_le_mul_left _ (Nat.mul_le_mul_right _ hq1)) u2
      have c2 : (2 ^ 53 * 2 ^ 53 * (q * f)) * (t2 * t1) ≤ ((2 ^ 53 + 1) * (2 ^ 53 + 1) * (1000000 * v)) * (t2 * t1) :=
        calc (2 ^ 53 * 2 ^ 53 * (q * f)) * (t2 * t1) = (2 ^ 53 * ((q * t2) * t1)) * (2 ^ 53 * f) := by
              simp only [Nat.mul_comm, Nat.mul_left_comm, Nat.mul_assoc]
          _ ≤ ((2 ^ 53 + 1) * (1000000 * m1 * t2)) * (2 ^ 53 * f) := Nat.mul_le_mul_right _ c1
          _ = (2 ^ 53 * (m1 * f)) * ((2 ^ 53 + 1) * (1000000 * t2)) := by
              simp only [Nat.mul_comm, Nat.mul_left_comm, Nat.mul_assoc]
          _ ≤ ((2 ^ 53 + 1) * (v * t1)) * ((2 ^ 53 + 1) * (1000000 * t2)) := Nat.mul_le_mul_right _ u1
          _ = _ := by simp only [Nat.mul_comm, Nat.mul_left_comm, Nat.mul_assoc]
      exact Nat.le_of_mul_le_mul_right c2 (Nat.mul_pos p2 p1)
    have L : (2 ^ 53 - 1) * (2 ^ 53 - 1) * (1000000 * v) ≤ 2 ^ 53 * 2 ^ 53 * ((q + 1) * f) := by
      have c1 : (2 ^ 53 - 1) * (1000000 * m1 * t2) ≤ 2 ^ 53 * (((q + 1) * t2) * t1) :=
        Nat.le_trans l2 (Nat.mul_le_mul_left _ (Nat.mul_le_mul_right _ (by omega)))
      have c2 : ((2 ^ 53 - 1) * (2 ^ 53 - 1) * (1000000 * v)) * (t2 * t1) ≤ (2 ^ 53 * 2 ^ 53 * ((q + 1) * f)) * (t2 * t1) :=
        calc ((2 ^ 53 - 1) * (2 ^ 53 - 1) * (1000000 * v)) * (t2 * t1)
            = ((2 ^ 53 - 1) * (v * t1)) * ((2 ^ 53 - 1) * (1000000 * t2)) := by
              simp only [Nat.mul_comm, Nat.mul_left_comm, Nat.mul_assoc]
          _ ≤ (2 ^ 53 * (m1 * f)) * ((2 ^ 53 - 1) * (1000000 * t2)) := Nat.mul_le_mul_right _ l1
          _ = ((2 ^ 53 - 1) * (1000000 * m1 * t2)) * (2 ^ 53 * f) := by
              simp only [Nat.mul_comm, Nat.mul_left_comm, Nat.mul_assoc]
          _ ≤ (2 ^ 53 * (((q + 1) * t2) * t1)) * (2 ^ 53 * f) := Nat.mul_le_mul_right _ c1
          _ = _ := by simp only [Nat.mul_comm, Nat.mul_left_comm, Nat.mul_assoc]
      exact Nat.le_of_mul_le_mul_right c2 (Nat.mul_pos p2 p1)
    generalize q * f = x at *
    generalize (q + 1) * f = y at *
    constructor <;> omega

theorem fraction_milli1 : ∀ v, v < 10 → fraction v 10 = v * 100000 := by decide +kernel
theorem fraction_milli2 : ∀ v, v < 100 → fraction v 100 = v * 10000 := by decide +kernel
theorem fraction_milli3 : ∀ v, v < 1000 → fraction v 1000 = v * 1000 := by decide +kernel

theorem fracLoop_spec (ds rest : Bytes) (hd : ds.all isdigit = true) (hs : Stops rest) (k n f : Nat) (hk : k ≤ 7) :
    fracLoop (ds ++ rest) k f n = (f * 10 ^ (ds.take (7 - k)).length, val n (ds.take (7 - k))) := by
  induction ds generalizing k n f with
  | nil =>
    simp only [List.nil_append, List.take_nil, List.length_nil, Nat.pow_zero, Nat.mul_one]
    cases rest with
    | nil => rfl
    | cons c rest =>
      have := (stops_iff _).mp hs c rfl
      rw [fracLoop, if_neg (by simp [this])]; rfl
  | cons c ds ih =>
    simp only [List.all_cons, Bool.and_eq_true] at hd
    rw [List.cons_append, fracLoop, if_pos hd.1]
    by_cases h7 : k > 6
    · rw [if_pos h7, ih hd.2 k n f hk]
      rw [show 7 - k = 0 by omega]; simp
    · rw [if_neg h7, ih hd.2 (k + 1) _ _ (by omega)]
      rw [show 7 - k = (7 - (k + 1)) + 1 by omega, List.take_succ_cons]
      simp only [List.length_cons, Nat.pow_succ, Prod.mk.injEq]
      refine ⟨?_, ?_⟩
      · rw [Nat.mul_assoc, Nat.mul_comm 10]
      · show _ = val (10 * n + (c.toNat - 48)) _
        rw [Nat.mul_comm n 10]

theorem val_lt (n : Nat) (ds : Bytes) (hd : ds.all isdigit = true) : val n ds < (n + 1) * 10 ^ ds.length := by
  induction ds generalizing n with
  | nil => simp [val]
  | cons c ds ih =>
    simp only [List.all_cons, Bool.and_eq_true] at hd
    have h := ih (10 * n + (c.toNat - 48)) hd.2
    have h57 : c.toNat ≤ 57 := by
      have := ((isdigit_iff c).mp hd.1).2
      rw [UInt8.le_iff_toNat_le] at this; exact this
    show val (10 * n + (c.toNat - 48)) ds < _
    rw [List.length_cons, Nat.pow_succ, Nat.mul_comm (10 ^ ds.length) 10, ← Nat.mul_assoc]
    refine Nat.lt_of_lt_of_le h (Nat.mul_le_mul_right _ (by omega))

theorem micros_dot (ds rest : Bytes) (hd : ds.all isdigit = true) (hs : Stops rest) :
    micros (46 :: ds ++ rest) = fraction (val 0 (ds.take 7)) (10 ^ (ds.take 7).length) := by
  show fraction (fracLoop (ds ++ rest) 0 1 0).2 (fracLoop (ds ++ rest) 0 1 0).1 = _
  rw [fracLoop_spec ds rest hd hs 0 0 1 (by omega)]
  simp

/-! ## Printing -/

theorem digits_decimal (n : Nat) : Decimal (digits n) n := by
  induction n using Nat.strongRecOn with
  | ind n ih =>
    rw [digits]
    split
    · exact .one n (by omega)
    · have := Decimal.snoc (digits (n / 10)) (n / 10) (n % 10) (ih (n / 10) (by omega)) (Nat.mod_lt _ (by omega))
      rwa [Nat.div_add_mod] at this

theorem digits_ne (n : Nat) : digits n ≠ [] := ((Opt.decimal_iff _ _).mp (digits_decimal n)).1

theorem digits_head (n : Nat) (hn : 0 < n) : (digits n).head? ≠ some 48 := by
  induction n using Nat.strongRecOn with
  | ind n ih =>
    rw [digits]
    split
    · intro h
      simp only [List.head?_cons, Option.some.injEq] at h
      have := congrArg UInt8.toNat h
      rw [(Opt.digit_ofNat (d := n) (by omega)).2] at this
      have e : (48 : UInt8).toNat = 48 := rfl
      omega
    · have := ih (n / 10) (by omega) (by omega)
      have hne := digits_ne (n / 10)
      cases hd : digits (n / 10) with
      | nil => exact absurd hd hne
      | cons c t => rw [hd] at this; simpa using this

theorem val_zeros (k : Nat) (s : Bytes) : val 0 (List.replicate k 48 ++ s) = val 0 s := by
  induction k with
  | zero => simp
  | succ k ih =>
    rw [List.replicate_succ, List.cons_append]
    show val (10 * 0 + ((48 : UInt8).toNat - 48)) _ = _
    exact ih

theorem fmtInt_field (w : Nat) (n : Nat) : Field (max w 1) (fmtInt w (n : Int)) n := by
  have hnn : ¬ ((n : Int) < 0) := by omega
  unfold fmtInt
  rw [if_neg hnn]
  simp only [Int.toNat_natCast]
  obtain ⟨h1, h2, h3⟩ := (Opt.decimal_iff _ _).mp (digits_decimal n)
  have hl : 0 < (digits n).length := List.length_pos_iff.mpr h1
  refine ⟨(Opt.decimal_iff _ _).mpr ⟨by simp [h1], ?_, ?_⟩, by simp; omega, ?_⟩
  · rw [List.all_append, h2, List.all_replicate]
    split
    · rfl
    · simp [Opt.isdigit]
  · have := val_zeros (w - (digits n).length) (digits n)
    rw [val_number, val_number] at this
    rw [this, h3]
  · intro hlt
    have hz : w - (digits n).length = 0 := by simp at hlt; omega
    rw [hz, List.replicate_zero, List.nil_append]
    apply digits_head
    rcases Nat.eq_zero_or_pos n with h0 | h0
    · exfalso
      subst h0
      rw [hz] at hlt
      have : digits 0 = [48] := by rw [digits]; rfl
      rw [this] at hlt; simp at hlt
    · exact h0

/-- A field is written in one way. -/
theorem val_inj : ∀ (a b : Bytes), a.all isdigit = true → b.all isdigit = true → a.length = b.length → val 0 a = val 0 b → a = b := by
  intro a
  induction hl : a.length generalizing a with
  | zero =>
    intro b _ _ hlen _
    rw [List.length_eq_zero_iff.mp hl, List.length_eq_zero_iff.mp hlen.symm]
  | succ k ih =>
    intro b ha hb hlen hv
    have hane : a ≠ [] := by rintro rfl; simp at hl
    have hbne : b ≠ [] := by rintro rfl; simp at hlen
    obtain ⟨x, a', rfl⟩ : ∃ c s', a = s' ++ [c] := ⟨a.getLast hane, a.dropLast, (List.dropLast_concat_getLast hane).symm⟩
    obtain ⟨y, b', rfl⟩ : ∃ c s', b = s' ++ [c] := ⟨b.getLast hbne, b.dropLast, (List.dropLast_concat_getLast hbne).symm⟩
    rw [List.all_append, Bool.and_eq_true] at ha hb
    rw [val_number, val_number, Opt.number_snoc, Opt.number_snoc] at hv
    obtain ⟨d, hd, ed, hd'⟩ := Opt.digit_inv (c := x) (by simpa [isdigit_eq] using ha.2)
    obtain ⟨e, he, ee, he'⟩ := Opt.digit_inv (c := y) (by simpa [isdigit_eq] using hb.2)
    have h1 : d = e := by omega
    have h2 : Opt.number a' = Opt.number b' := by omega
    rw [ih a' (by simpa using hl) b' ha.1 hb.1 (by simp at hlen hl; omega) h2, ed, ee, h1]

theorem lead_val (c : UInt8) (s : Bytes) (h : (c :: s).all isdigit = true) (hc : c ≠ 48) : 10 ^ s.length ≤ val 0 (c :: s) := by
  simp only [List.all_cons, Bool.and_eq_true] at h
  obtain ⟨d, hd, e, hd'⟩ := Opt.digit_inv (c := c) h.1
  have hd0 : 1 ≤ d := by
    rcases Nat.eq_zero_or_pos d with h0 | h0
    · subst h0; exact absurd e hc
    · exact h0
  show 10 ^ s.length ≤ val (10 * 0 + (c.toNat - 48)) s
  rw [hd']
  have gen : ∀ (s : Bytes) (n : Nat), n * 10 ^ s.length ≤ val n s := by
    intro s
    induction s with
    | nil => intro n; simp [val]
    | cons x s ih =>
      intro n
      show _ ≤ val (10 * n + (x.toNat - 48)) s
      refine Nat.le_trans ?_ (ih _)
      rw [List.length_cons, Nat.pow_succ, Nat.mul_comm (10 ^ s.length) 10, ← Nat.mul_assoc]
      exact Nat.mul_le_mul_right _ (by omega)
  have := gen s (10 * 0 + d)
  refine Nat.le_trans ?_ this
  exact Nat.le_mul_of_pos_left _ (by omega)

theorem field_unique {w : Nat} {a b : Bytes} {n : Nat} (ha : Field w a n) (hb : Field w b n) : a = b := by
  obtain ⟨a1, a2, a3⟩ := (Opt.decimal_iff _ _).mp ha.1
  obtain ⟨b1, b2, b3⟩ := (Opt.decimal_iff _ _).mp hb.1
  have key : ∀ (a b : Bytes), Field w a n → Field w b n → ¬ a.length < b.length := by
    intro a b ha hb hlt
    obtain ⟨a1, a2, a3⟩ := (Opt.decimal_iff _ _).mp ha.1
    obtain ⟨b1, b2, b3⟩ := (Opt.decimal_iff _ _).mp hb.1
    have hh := hb.2.2 (by have := ha.2.1; omega)
    cases b with
    | nil => exact b1 rfl
    | cons c s =>
      have h1 := lead_val c s b2 (by simpa using hh)
      have h2 := val_lt 0 a a2
      rw [val_number] at h1 h2
      rw [a3] at h2; rw [b3] at h1
      have h3 : 10 ^ a.length ≤ 10 ^ s.length := Nat.pow_le_pow_right (by omega) (by simp at hlt; omega)
      omega
  have hlen : a.length = b.length := by
    have := key a b ha hb
    have := key b a hb ha
    omega
  exact val_inj a b a2 b2 hlen (by rw [val_number, val_number, a3, b3])

theorem sdur_nat (us : Nat) (h : us < 2 ^ 31 * 3600000000) :
    sdur us = ⟨(us % 1000 : Nat), (us / 1000 % 1000 : Nat), (us / 1000000 % 60 : Nat), (us / 60000000 % 60 : Nat), (us / 3600000000 : Nat)⟩ := by
  unfold sdur
  have e1 : ((us : Int).tmod 1000) = ((us % 1000 : Nat) : Int) := rfl
  have e2 : ((us : Int).tdiv 1000) = ((us / 1000 : Nat) : Int) := rfl
  simp only [e1, e2]
  have e3 : (((us / 1000 : Nat) : Int).tmod 1000) = ((us / 1000 % 1000 : Nat) : Int) := rfl
  have e4 : (((us / 1000 : Nat) : Int).tdiv 1000) = ((us / 1000 / 1000 : Nat) : Int) := rfl
  simp only [e3, e4]
  have e5 : (((us / 1000 / 1000 : Nat) : Int).tmod 60) = ((us / 1000 / 1000 % 60 : Nat) : Int) := rfl
  have e6 : (((us / 1000 / 1000 : Nat) : Int).tdiv 60) = ((us / 1000 / 1000 / 60 : Nat) : Int) := rfl
  simp only [e5, e6]
  have e7 : (((us / 1000 / 1000 / 60 : Nat) : Int).tmod 60) = ((us / 1000 / 1000 / 60 % 60 : Nat) : Int) := rfl
  have e8 : (((us / 1000 / 1000 / 60 : Nat) : Int).tdiv 60) = ((us / 1000 / 1000 / 60 / 60 : Nat) : Int) := rfl
  simp only [e7, e8]
  simp only [Nat.div_div_eq_div_mul]
  unfold toInt
  have : us / 3600000000 < 2 ^ 31 := by
    apply Nat.div_lt_of_lt_mul; omega
  simp only [Sdur.mk.injEq, true_and]
  show (((us / 3600000000 : Nat) : Int) + 2147483648) % 4294967296 - 2147483648 = ((us / 3600000000 : Nat) : Int)
  omega

/-! ## ISO times -/

theorem readMark_num {a rest : Bytes} {n : Nat} (c : UInt8) (h : Num a n) (hc : isdigit c = false) :
    readMark (a ++ c :: rest) c = if n < 2 ^ 31 then .ok ((n : Nat), rest) else .panic "undefined: int overflow" := by
  unfold readMark
  rw [readint_num h (stops_cons hc)]
  split
  · simp [Res.bind]
  · rfl

theorem readMark_inv {q rest : Bytes} {c : UInt8} {k : Int} (h : readMark q c = .ok (k, rest)) :
    ∃ a n, q = a ++ c :: rest ∧ Num a n ∧ k = (n : Nat) ∧ n < 2 ^ 31 := by
  unfold readMark at h
  obtain ⟨⟨n, p⟩, h1, h2⟩ := Res.bind_eq_ok' h
  simp only at h2
  obtain ⟨a, m, e, hn, _, hk, hl⟩ := readint_inv h1
  cases p with
  | nil => cases h2
  | cons d p =>
    simp only at h2
    by_cases hd : d = c
    · rw [if_pos hd] at h2; cases h2
      exact ⟨a, m, by rw [e, hd], hn, hk, hl⟩
    · rw [if_neg hd] at h2; cases h2

/-- What follows the seconds of a time. -/
def Tail (tail : Bytes) (ms zh zm : Nat) : Prop :=
  (∃ rest, tail = 90 :: rest ∧ ms = 0 ∧ zh = 0 ∧ zm = 0) ∨
  (∃ f rest, tail = 46 :: f ++ 90 :: rest ∧ Num f ms ∧ zh = 0 ∧ zm = 0) ∨
  (∃ a b rest, tail = 43 :: a ++ [58] ++ b ++ rest ∧ ms = 0 ∧ Num a zh ∧ Num b zm ∧ Stops rest) ∨
  (∃ f a b rest, tail = 46 :: f ++ 43 :: a ++ [58] ++ b ++ rest ∧ Num f ms ∧ Num a zh ∧ Num b zm ∧ Stops rest)

theorem tail_stops {tail : Bytes} {ms zh zm : Nat} (h : Tail tail ms zh zm) : Stops tail := by
  rcases h with ⟨_, e, _⟩ | ⟨_, _, e, _⟩ | ⟨_, _, _, e, _⟩ | ⟨_, _, _, _, e, _⟩ <;> subst e <;>
    exact stops_cons (by decide)

def readTail (q : Bytes) : Res String (Int × Int × Int) :=
  (readMs q).bind fun (ms, q) => (readZone q).bind fun (zh, zm) => .ok (ms, zh, zm)

theorem readZone_plus {a b rest : Bytes} {zh zm : Nat} (ha : Num a zh) (hb : Num b zm) (hs : Stops rest) (h1 : zh < 2 ^ 31) (h2 : zm < 2 ^ 31) :
    readZone (43 :: a ++ [58] ++ b ++ rest) = .ok ((zh : Int), (zm : Int)) := by
  have e : (43 :: a ++ [58] ++ b ++ rest : Bytes) = 43 :: (a ++ 58 :: (b ++ rest)) := by simp
  rw [e]
  show (readMark _ 58).bind _ = _
  rw [readMark_num 58 ha (by decide), if_pos h1]
  simp only [Res.bind]
  rw [readint_num hb hs, if_pos h2]

theorem readTail_tail {tail : Bytes} {ms zh zm : Nat} (h : Tail tail ms zh zm) (h0 : ms < 2 ^ 31) (h1 : zh < 2 ^ 31) (h2 : zm < 2 ^ 31) :
    readTail tail = .ok ((ms : Int), (zh : Int), (zm : Int)) := by
  rcases h with ⟨rest, e, e1, e2, e3⟩ | ⟨f, rest, e, hf, e2, e3⟩ | ⟨a, b, rest, e, e1, ha, hb, hs⟩ | ⟨f, a, b, rest, e, hf, ha, hb, hs⟩
  · subst e e1 e2 e3; rfl
  · subst e e2 e3
    show (readint (f ++ 90 :: rest) 0).bind _ = _
    rw [readint_num hf (stops_cons (by decide)), if_pos h0]; rfl
  · subst e e1
    unfold readTail
    have : readMs (43 :: a ++ [58] ++ b ++ rest) = .ok (0, 43 :: a ++ [58] ++ b ++ rest) := rfl
    rw [this]
    simp only [Res.bind]
    rw [readZone_plus ha hb hs h1 h2]; rfl
  · subst e
    have e : (46 :: f ++ 43 :: a ++ [58] ++ b ++ rest : Bytes) = 46 :: (f ++ 43 :: (a ++ [58] ++ b ++ rest)) := by simp
    rw [e]
    show (readint _ 0).bind _ = _
    rw [readint_num hf (stops_cons (by decide)), if_pos h0]
    simp only [Res.bind]
    have := readZone_plus ha hb hs h1 h2
    rw [show (43 :: a ++ [58] ++ b ++ rest : Bytes) = 43 :: (a ++ [58] ++ b ++ rest) from rfl] at this
    rw [this]

theorem readZone_inv {q : Bytes} {zh zm : Int} (h : readZone q = .ok (zh, zm)) :
    (∃ rest, q = 90 :: rest ∧ zh = 0 ∧ zm = 0) ∨
    ∃ a b rest x y, q = 43 :: a ++ [58] ++ b ++ rest ∧ Num a x ∧ Num b y ∧ Stops rest ∧ zh = (x : Nat) ∧ zm = (y : Nat) ∧
      x < 2 ^ 31 ∧ y < 2 ^ 31 := by
  unfold readZone at h
  split at h
  · cases h; exact .inl ⟨_, rfl, rfl, rfl⟩
  · obtain ⟨⟨k, p⟩, h1, k1⟩ := Res.bind_eq_ok' h
    simp only at k1
    obtain ⟨⟨l, p'⟩, h2, k2⟩ := Res.bind_eq_ok' k1
    cases k2
    obtain ⟨a, x, ea, ha, hk, hx⟩ := readMark_inv h1
    obtain ⟨b, y, eb, hb, hs, hl, hy⟩ := readint_inv h2
    exact .inr ⟨a, b, p', x, y, by rw [ea, eb]; simp, ha, hb, hs, hk, hl, hx, hy⟩
  · cases h

theorem readTail_inv {q : Bytes} {ms zh zm : Int} (h : readTail q = .ok (ms, zh, zm)) :
    ∃ a b c : Nat, Tail q a b c ∧ ms = a ∧ zh = b ∧ zm = c ∧ a < 2 ^ 31 ∧ b < 2 ^ 31 ∧ c < 2 ^ 31 := by
  unfold readTail at h
  obtain ⟨⟨k, p⟩, h1, k1⟩ := Res.bind_eq_ok' h
  simp only at k1
  obtain ⟨⟨l, p'⟩, h2, k2⟩ := Res.bind_eq_ok' k1
  cases k2
  unfold readMs at h1
  split at h1
  · rename_i rest
    obtain ⟨f, n, ef, hf, _, hk, hn⟩ := readint_inv h1
    rcases readZone_inv h2 with ⟨r, e, e1, e2⟩ | ⟨a, b, r, x, y, e, ha, hb, hs, e1, e2, hx, hy⟩
    · exact ⟨n, 0, 0, .inr (.inl ⟨f, r, by rw [ef, e]; rfl, hf, rfl, rfl⟩), hk, e1, e2, hn, by omega, by omega⟩
    · exact ⟨n, x, y, .inr (.inr (.inr ⟨f, a, b, r, by rw [ef, e]; simp, hf, ha, hb, hs⟩)), hk, e1, e2, hn, hx, hy⟩
  · cases h1
    rcases readZone_inv h2 with ⟨r, e, e1, e2⟩ | ⟨a, b, r, x, y, e, ha, hb, hs, e1, e2, hx, hy⟩
    · exact ⟨0, 0, 0, .inl ⟨r, e, rfl, rfl, rfl⟩, rfl, e1, e2, by omega, by omega, by omega⟩
    · exact ⟨0, x, y, .inr (.inr (.inl ⟨a, b, r, e, rfl, ha, hb, hs⟩)), rfl, e1, e2, by omega, hx, hy⟩

theorem parse_iso_eq (p : Bytes) : parse_iso p =
    (readMark p 45).bind fun (Y, q) =>
    (readMark q 45).bind fun (M, q) =>
      (readMark q 84).bind fun (D, q) =>
        (readMark q 58).bind fun (h, q) =>
          (readMark q 58).bind fun (m, q) =>
            (readint q 0).bind fun (s, q) =>
              (readTail q).bind fun (ms, zh, zm) => .ok { Y, M, D, h, m, s, ms, zh, zm } := by
  unfold parse_iso readTail
  congr 1; funext ⟨Y, q⟩; simp only; congr 1; funext ⟨M, q⟩; simp only; congr 1; funext ⟨D, q⟩; simp only
  congr 1; funext ⟨h, q⟩; simp only; congr 1; funext ⟨m, q⟩; simp only
  congr 1; funext ⟨s, q⟩
  simp only
  cases hm : readMs q with
  | ok v =>
    simp only [Res.bind]
    cases hz : readZone v.2 <;> rfl
  | err e => rfl
  | panic e => rfl
  | diverge => rfl

theorem parse_iso_text {p : Bytes} {v : Iso} (h : IsoText p v) (hr : InRange v) : parse_iso p = .ok v := by
  obtain ⟨Y, M, D, h, m, s, tail, y, mo, d, ho, mi, se, ms, zh, zm, hY, hM, hD, hh, hm, hs, ht⟩ := h
  obtain ⟨r1, r2, r3, r4, r5, r6, r7, r8, r9⟩ := hr
  simp only at r1 r2 r3 r4 r5 r6 r7 r8 r9
  have ht' : Tail tail ms zh zm := ht
  have e : Y ++ [45] ++ M ++ [45] ++ D ++ [84] ++ h ++ [58] ++ m ++ [58] ++ s ++ tail =
      Y ++ 45 :: (M ++ 45 :: (D ++ 84 :: (h ++ 58 :: (m ++ 58 :: (s ++ tail))))) := by simp
  rw [e, parse_iso_eq, readMark_num 45 hY (by decide), if_pos (by omega)]
  simp only [Res.bind]
  rw [readMark_num 45 hM (by decide), if_pos (by omega)]
  simp only [Res.bind]
  rw [readMark_num 84 hD (by decide), if_pos (by omega)]
  simp only [Res.bind]
  rw [readMark_num 58 hh (by decide), if_pos (by omega)]
  simp only [Res.bind]
  rw [readMark_num 58 hm (by decide), if_pos (by omega)]
  simp only [Res.bind]
  rw [readint_num hs (tail_stops ht'), if_pos (by omega)]
  simp only [Res.bind]
  rw [readTail_tail ht' (by omega) (by omega) (by omega)]

theorem parse_iso_inv {p : Bytes} {v : Iso} (hp : parse_iso p = .ok v) : IsoText p v ∧ InRange v := by
  rw [parse_iso_eq] at hp
  obtain ⟨⟨_, q1⟩, a1, k1⟩ := Res.bind_eq_ok' hp
  simp only at k1
  obtain ⟨⟨_, q2⟩, a2, k2⟩ := Res.bind_eq_ok' k1
  simp only at k2
  obtain ⟨⟨_, q3⟩, a3, k3⟩ := Res.bind_eq_ok' k2
  simp only at k3
  obtain ⟨⟨_, q4⟩, a4, k4⟩ := Res.bind_eq_ok' k3
  simp only at k4
  obtain ⟨⟨_, q5⟩, a5, k5⟩ := Res.bind_eq_ok' k4
  simp only at k5
  obtain ⟨⟨_, q6⟩, a6, k6⟩ := Res.bind_eq_ok' k5
  simp only at k6
  obtain ⟨⟨_, _, _⟩, a7, k7⟩ := Res.bind_eq_ok' k6
  simp only at k7
  clear hp k1 k2 k3 k4 k5 k6
  obtain ⟨Y, y, e1, n1, v1, r1⟩ := readMark_inv a1
  obtain ⟨M, mo, e2, n2, v2, r2⟩ := readMark_inv a2
  obtain ⟨D, d, e3, n3, v3, r3⟩ := readMark_inv a3
  obtain ⟨h, ho, e4, n4, v4, r4⟩ := readMark_inv a4
  obtain ⟨m, mi, e5, n5, v5, r5⟩ := readMark_inv a5
  obtain ⟨s, se, e6, n6, _, v6, r6⟩ := readint_inv a6
  obtain ⟨ms, zh, zm, t, v7, v8, v9, r7, r8, r9⟩ := readTail_inv a7
  cases k7
  subst v1 v2 v3 v4 v5 v6 v7 v8 v9
  constructor
  · have := IsoText.mk Y M D h m s q6 y mo d ho mi se ms zh zm n1 n2 n3 n4 n5 n6 t
    rw [e1, e2, e3, e4, e5, e6]
    simpa using this
  · unfold InRange; simp only; omega

theorem field_num' {s : Bytes} {n : Nat} (h : Decimal s n) : Num s n := .inr h

theorem field_num {w : Nat} {s : Bytes} {n : Nat} (h : Field w s n) : Num s n := .inr h.1

theorem isoText_text (v : Iso) (h : 0 ≤ v.Y ∧ 0 ≤ v.M ∧ 0 ≤ v.D ∧ 0 ≤ v.h ∧ 0 ≤ v.m ∧ 0 ≤ v.s ∧ 0 ≤ v.ms) :
    IsoText (isoText v) { v with zh := 0, zm := 0 } := by
  obtain ⟨Y, M, D, h', m, s, ms, zh, zm⟩ := v
  simp only at h
  obtain ⟨h1, h2, h3, h4, h5, h6, h7⟩ := h
  obtain ⟨Y, rfl⟩ := Int.eq_ofNat_of_zero_le h1
  obtain ⟨M, rfl⟩ := Int.eq_ofNat_of_zero_le h2
  obtain ⟨D, rfl⟩ := Int.eq_ofNat_of_zero_le h3
  obtain ⟨h', rfl⟩ := Int.eq_ofNat_of_zero_le h4
  obtain ⟨m, rfl⟩ := Int.eq_ofNat_of_zero_le h5
  obtain ⟨s, rfl⟩ := Int.eq_ofNat_of_zero_le h6
  obtain ⟨ms, rfl⟩ := Int.eq_ofNat_of_zero_le h7
  have := IsoText.mk (fmtInt 0 Y) (fmtInt 2 M) (fmtInt 2 D) (fmtInt 2 h') (fmtInt 2 m) (fmtInt 2 s) (46 :: fmtInt 3 ms ++ [90])
    Y M D h' m s ms 0 0 (field_num (fmtInt_field 0 _)) (field_num (fmtInt_field 2 _)) (field_num (fmtInt_field 2 _))
    (field_num (fmtInt_field 2 _)) (field_num (fmtInt_field 2 _)) (field_num (fmtInt_field 2 _))
    (.inr (.inl ⟨_, [], rfl, field_num (fmtInt_field 3 _), rfl, rfl⟩))
  simpa [isoText] using this

theorem localLoop_spec (n : Nat) : ∀ (h m : Int), m ≤ 60 * n + 60 →
    60 * (localLoop n h m).1 + (localLoop n h m).2 = 60 * h + m ∧ (localLoop n h m).2 ≤ 60 ∧
    (m ≤ 60 → localLoop n h m = (h, m)) ∧ (0 < m → 0 < (localLoop n h m).2) := by
  induction n with
  | zero => intro h m hm; exact ⟨rfl, by simpa [localLoop] using hm, fun _ => rfl, fun h => h⟩
  | succ n ih =>
    intro h m hm
    unfold localLoop
    split
    · obtain ⟨i1, i2, i3, i4⟩ := ih (h + 1) (m - 60) (by push_cast at hm; omega)
      exact ⟨by rw [i1]; omega, i2, fun h => by omega, fun _ => i4 (by omega)⟩
    · exact ⟨rfl, by omega, fun _ => rfl, fun h => h⟩

theorem minutes_nat (us : Nat) (h : us < 2 ^ 31 * 60000000) :
    minutes ⟨(us % 1000 : Nat), (us / 1000 % 1000 : Nat), (us / 1000000 % 60 : Nat), (us / 60000000 % 60 : Nat), (us / 3600000000 : Nat)⟩ =
      .ok ((us / 60000000 : Nat) : Int) := by
  have e : us / 3600000000 = us / 60000000 / 60 := by rw [Nat.div_div_eq_div_mul]
  have hlt : us / 60000000 < 2 ^ 31 := Nat.div_lt_of_lt_mul (by omega)
  unfold minutes int
  simp only
  rw [e]
  generalize us / 60000000 = x at *
  rw [if_pos (by omega)]
  simp only [Res.bind]
  rw [if_pos (by omega)]
  congr 1; omega

theorem clock_nat (us k : Nat) (h : k * 1000 = us / 1000 % 1000 * 1000000) :
    ((us / 60000000 * 60 + us / 1000000 % 60 : Nat) : Int) * 1000000 + (k : Int) = ((us / 1000 * 1000 : Nat) : Int) := by
  omega

theorem clock_no_hours {a b rest r : Bytes} {h m m' s' : Nat} (ha : Decimal a h) (hb : Num b m)
    (hc : Clock (a ++ [58] ++ b ++ [58] ++ rest) m' s' r) : False := by
  generalize ht : a ++ [58] ++ b ++ [58] ++ rest = t at hc
  obtain ⟨a', b', r, m', s', ha', hb', hs', hne'⟩ := hc
  have e1 : a ++ 58 :: (b ++ 58 :: rest) = a' ++ 58 :: (b' ++ r) := by simpa using ht
  have hsplit : ∀ (x y : Bytes), a ++ 58 :: x = a' ++ 58 :: y → x = y := by
    intro x y e
    have h1 := (split_num (rest := 58 :: x) (field_num' ha) (stops_cons (by decide))).2
    have h2 := (split_num (rest := 58 :: y) (field_num' ha') (stops_cons (by decide))).2
    rw [e, h2] at h1
    simpa using h1.symm
  have e2 := hsplit _ _ e1
  have h1 := (split_num (rest := 58 :: rest) hb (stops_cons (by decide))).2
  have h2 := (split_num hb' hs').2
  rw [e2, h2] at h1
  rw [h1] at hne'
  simp at hne'

theorem readMark_total (q : Bytes) (c : UInt8) : (∃ v, readMark q c = .ok v) ∨ ∃ m, readMark q c = .panic m := by
  unfold readMark
  rcases readint_cases q with ⟨k, rest, h⟩ | h
  · rw [h]
    simp only [Res.bind]
    cases rest with
    | nil => exact .inr ⟨_, rfl⟩
    | cons d rest =>
      simp only
      split
      · exact .inl ⟨_, rfl⟩
      · exact .inr ⟨_, rfl⟩
  · rw [h]; exact .inr ⟨_, rfl⟩

theorem readint_total (q : Bytes) : (∃ v, readint q 0 = .ok v) ∨ ∃ m, readint q 0 = .panic m := by
  rcases readint_cases q with ⟨k, rest, h⟩ | h
  · exact .inl ⟨_, h⟩
  · exact .inr ⟨_, h⟩

theorem bind_total {α β : Type} {x : Res String α} {f : α → Res String β} (hx : (∃ v, x = .ok v) ∨ ∃ m, x = .panic m)
    (hf : ∀ v, (∃ w, f v = .ok w) ∨ ∃ m, f v = .panic m) : (∃ w, x.bind f = .ok w) ∨ ∃ m, x.bind f = .panic m := by
  rcases hx with ⟨v, rfl⟩ | ⟨m, rfl⟩
  · exact hf v
  · exact .inr ⟨m, rfl⟩

theorem readZone_total (q : Bytes) : (∃ v, readZone q = .ok v) ∨ ∃ m, readZone q = .panic m := by
  unfold readZone
  split
  · exact .inl ⟨_, rfl⟩
  · exact bind_total (readMark_total _ _) fun _ => bind_total (readint_total _) fun _ => .inl ⟨_, rfl⟩
  · exact .inr ⟨_, rfl⟩

theorem readMs_total (q : Bytes) : (∃ v, readMs q = .ok v) ∨ ∃ m, readMs q = .panic m := by
  unfold readMs
  split
  · exact readint_total _
  · exact .inl ⟨_, rfl⟩

theorem parse_iso_total (p : Bytes) : (∃ v, parse_iso p = .ok v) ∨ ∃ m, parse_iso p = .panic m := by
  unfold parse_iso
  exact bind_total (readMark_total _ _) fun _ => bind_total (readMark_total _ _) fun _ => bind_total (readMark_total _ _) fun _ =>
    bind_total (readMark_total _ _) fun _ => bind_total (readMark_total _ _) fun _ => bind_total (readint_total _) fun _ =>
      bind_total (readMs_total _) fun _ => bind_total (readZone_total _) fun _ => .inl ⟨_, rfl⟩
end Che.Lib.Time
