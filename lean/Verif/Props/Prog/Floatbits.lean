import Verif.Model.Prog.Floatbits
import Verif.Spec.Prog.Floatbits

/-!
C171: the parts of a double that floatbits prints.
-/
namespace Che.Props
open Che.Lib Che.Prog.Floatbits Che.Spec.Floatbits

/-- The number that bits are, the lowest one first. -/
private def bval : Bytes → Nat
  | [] => 0
  | b :: bs => b.toNat + 2 * bval bs

private theorem bval_append : ∀ (a b : Bytes), bval (a ++ b) = bval a + 2 ^ a.length * bval b
  | [], b => by simp [bval]
  | x :: a, b => by
    rw [List.cons_append, bval, bval, bval_append a b, List.length_cons, Nat.pow_succ, Nat.mul_add, Nat.mul_comm (2 ^ a.length) 2, Nat.mul_assoc]; omega

private theorem byte_bits : ∀ b : UInt8, bval (Bits.getbits_lsfirst b) = b.toNat ∧ (Bits.getbits_lsfirst b).length = 8 ∧ ∀ x ∈ Bits.getbits_lsfirst b, x = 0 ∨ x = 1 := by
  have : ∀ n : Fin 256, bval (Bits.getbits_lsfirst (UInt8.ofNat n.val)) = (UInt8.ofNat n.val).toNat ∧ (Bits.getbits_lsfirst (UInt8.ofNat n.val)).length = 8 ∧
    ∀ x ∈ Bits.getbits_lsfirst (UInt8.ofNat n.val), x = 0 ∨ x = 1 := by decide +kernel
  intro b
  have h := this ⟨b.toNat, b.toNat_lt⟩
  simpa using h

private theorem unpack_val : ∀ bs : Bytes, bval (unpack bs) = word bs ∧ (unpack bs).length = 8 * bs.length ∧ ∀ x ∈ unpack bs, x = 0 ∨ x = 1
  | [] => by simp [unpack, bval, word]
  | b :: bs => by
    obtain ⟨h1, h2, h3⟩ := unpack_val bs
    obtain ⟨g1, g2, g3⟩ := byte_bits b
    have e : unpack (b :: bs) = Bits.getbits_lsfirst b ++ unpack bs := rfl
    refine ⟨?_, ?_, ?_⟩
    · rw [e, bval_append, g1, g2, h1, word]
    · rw [e, List.length_append, g2, h2, List.length_cons]; omega
    · intro x hx
      rw [e] at hx
      rcases List.mem_append.mp hx with hx | hx
      · exact g3 x hx
      · exact h3 x hx

private theorem bval_lt : ∀ (l : Bytes), (∀ x ∈ l, x = 0 ∨ x = 1) → bval l < 2 ^ l.length
  | [], _ => by simp [bval]
  | b :: l, h => by
    have := bval_lt l fun x hx => h x (List.mem_cons_of_mem _ hx)
    have hb : b.toNat ≤ 1 := by rcases h b List.mem_cons_self with rfl | rfl <;> decide
    rw [bval, List.length_cons, Nat.pow_succ]; omega

private theorem bval_take (l : Bytes) (h : ∀ x ∈ l, x = 0 ∨ x = 1) (n : Nat) (hn : n ≤ l.length) :
    bval (l.take n) = bval l % 2 ^ n ∧ bval (l.drop n) = bval l / 2 ^ n := by
  have e := bval_append (l.take n) (l.drop n)
  rw [List.take_append_drop, List.length_take, Nat.min_eq_left hn] at e
  have hl := bval_lt (l.take n) fun x hx => h x (List.mem_of_mem_take hx)
  rw [List.length_take, Nat.min_eq_left hn] at hl
  rw [e]
  constructor
  · rw [Nat.add_mul_mod_self_left, Nat.mod_eq_of_lt hl]
  · rw [Nat.add_mul_div_left _ _ (Nat.two_pow_pos n), Nat.div_eq_of_lt hl, Nat.zero_add]

private theorem bval_succ (l : Bytes) (n : Nat) (hn : n < l.length) : bval (l.take (n + 1)) = bval (l.take n) + 2 ^ n * (l.getD n 0).toNat := by
  rw [List.take_succ, bval_append, List.length_take, Nat.min_eq_left (by omega)]
  simp [hn, bval, List.getD]

private theorem sig_eq (l : Bytes) : ∀ (n : Nat) (s : UInt64), n ≤ l.length →
    sigLoop l n s = s * UInt64.ofNat (2 ^ n) + UInt64.ofNat (bval (l.take n))
  | 0, s, _ => by simp [sigLoop, bval]
  | n + 1, s, h => by
    rw [sigLoop, sig_eq l n _ (by omega), bval_succ l n (by omega), Nat.pow_succ, UInt64.ofNat_add, UInt64.ofNat_mul, UInt64.ofNat_mul, UInt64.add_mul, UInt64.mul_assoc,
      UInt64.add_assoc, show UInt64.ofNat 2 = 2 from rfl, UInt64.mul_comm 2, UInt64.mul_comm (UInt64.ofNat (l.getD n 0).toNat),
      UInt64.add_comm (UInt64.ofNat (2 ^ n) * _)]

private theorem exp_eq (l : Bytes) : ∀ (n : Nat) (e : Int) (eb : Bytes), 52 + n ≤ l.length →
    (expLoop l n e eb).1 = e * 2 ^ n + bval ((l.drop 52).take n)
  | 0, e, eb, _ => by simp [expLoop, bval]
  | n + 1, e, eb, h => by
    have hd : (l.drop 52).getD n 0 = l.getD (52 + n) 0 := by simp [List.getD]
    rw [expLoop, exp_eq l n _ _ (by omega), bval_succ _ n (by rw [List.length_drop]; omega), hd, Int.add_mul, Int.pow_succ, Int.mul_assoc, Int.mul_comm 2]
    rw [Int.natCast_add, Int.natCast_mul, Int.natCast_pow, Int.mul_comm ((l.getD (52 + n) 0).toNat : Int)]
    simp only [Int.cast_ofNat_Int]
    omega

private theorem exp_bits (l : Bytes) (hl : 63 ≤ l.length) : (expLoop l 11 0 (List.replicate 11 0)).2 = (l.drop 52).take 11 := by
  have hd : ∀ i, i < 11 → (l.drop 52)[i]? = some (l.getD (52 + i) 0) := by
    intro i hi
    rw [List.getElem?_drop, List.getD, List.getElem?_eq_getElem (by omega)]; rfl
  refine List.ext_getElem? fun i => ?_
  by_cases hi : i < 11
  · rw [List.getElem?_take_of_lt hi, hd i hi]
    simp only [expLoop, List.replicate]
    rcases i with _ | _ | _ | _ | _ | _ | _ | _ | _ | _ | _ | i <;> first | rfl | omega
  · rw [List.getElem?_eq_none (l := (l.drop 52).take 11) (by rw [List.length_take]; omega)]
    exact List.getElem?_eq_none (by simp [expLoop]; omega)

/-- C171: the sign, the exponent and the mantissa are those of the 64 bits of the double. -/
theorem C171_partial (bytes : Bytes) (h : bytes.length = 8) :
    (parse_double bytes).sign.toNat = word bytes / 2 ^ 63 ∧
    (parse_double bytes).exp = ((word bytes / 2 ^ 52 % 2 ^ 11 : Nat) : Int) - 1023 ∧
    (parse_double bytes).sig.toNat = word bytes % 2 ^ 52 := by
  obtain ⟨h1, h2, h3⟩ := unpack_val bytes
  rw [h] at h2
  have hx : ∀ n, ∀ x ∈ (unpack bytes).drop n, x = 0 ∨ x = 1 := fun n x hx => h3 x (List.mem_of_mem_drop hx)
  refine ⟨?_, ?_, ?_⟩
  · have e := (bval_take (unpack bytes) h3 63 (by omega)).2
    rw [h1] at e
    rw [← e]
    have : (unpack bytes).drop 63 = [(unpack bytes).getD 63 0] := by
      rw [List.drop_eq_getElem_cons (by omega), List.drop_of_length_le (by omega), List.getD, List.getElem?_eq_getElem (by omega)]; rfl
    rw [this]; rfl
  · show (expLoop (unpack bytes) 11 0 (List.replicate 11 0)).1 - 1023 = _
    rw [exp_eq _ _ _ _ (by omega), (bval_take _ (hx 52) 11 (by rw [List.length_drop]; omega)).1, (bval_take _ h3 52 (by omega)).2, h1]
    simp
  · show (sigLoop (unpack bytes) 52 0).toNat = _
    rw [sig_eq _ _ _ (by omega), (bval_take _ h3 52 (by omega)).1, h1]
    have : word bytes % 2 ^ 52 < 2 ^ 52 := Nat.mod_lt _ (by decide)
    simp only [UInt64.zero_mul, UInt64.zero_add]
    exact UInt64.toNat_ofNat_of_lt' (Nat.lt_trans this (by decide))

private theorem bval_bit : ∀ (l : Bytes) (_ : ∀ x ∈ l, x = 0 ∨ x = 1) (i : Nat), (l.getD i 0 = 1 ↔ (bval l).testBit i = true)
  | [], _, i => by simp [bval]
  | b :: l, h, 0 => by
    rw [bval, Nat.testBit_zero]
    rcases h b List.mem_cons_self with rfl | rfl
    · simp
    · simp
  | b :: l, h, i + 1 => by
    have := bval_bit l (fun x hx => h x (List.mem_cons_of_mem _ hx)) i
    have hb : b.toNat ≤ 1 := by rcases h b List.mem_cons_self with rfl | rfl <;> decide
    rw [bval, Nat.testBit_succ, show (b.toNat + 2 * bval l) / 2 = bval l by omega, ← this]
    simp [List.getD]

/-- C171: the text of the exponent has a character for each of its eleven bits, the lowest one first. -/
theorem C171_exponent (bytes buf : Bytes) (h : bytes.length = 8) :
    printbits buf (parse_double bytes).exp_bits 11 =
      ((List.range 11).map fun i => if (word bytes).testBit (52 + i) then (49 : UInt8) else 48) ++ buf.drop 11 := by
  obtain ⟨h1, h2, h3⟩ := unpack_val bytes
  have e : (parse_double bytes).exp_bits = ((unpack bytes).drop 52).take 11 := exp_bits (unpack bytes) (by omega)
  unfold printbits
  rw [e]
  congr 1
  refine List.map_congr_left fun i hi => ?_
  have hi := List.mem_range.mp hi
  have hg : (((unpack bytes).drop 52).take 11).getD i 0 = (unpack bytes).getD (52 + i) 0 := by
    simp only [List.getD]
    rw [List.getElem?_take_of_lt hi, List.getElem?_drop]
  have hb := bval_bit _ h3 (52 + i)
  rw [h1] at hb
  rw [hg]
  by_cases ht : (word bytes).testBit (52 + i) = true
  · rw [if_pos (hb.mpr ht), if_pos ht]
  · rw [if_neg (fun x => ht (hb.mp x)), if_neg ht]

/-- C171 is false of the bits of the mantissa: 52 zeros are printed for any double. -/
theorem C171_counterexample_mantissa (bytes buf : Bytes) :
    (printbits buf (parse_double bytes).sig_bits 52).take 52 = List.replicate 52 48 := by
  unfold printbits
  rw [List.take_left' (by simp)]
  show (List.range 52).map (fun i => if (List.replicate 52 (0 : UInt8)).getD i 0 = 1 then (49 : UInt8) else 48) = _
  decide +kernel

/-- 0.25 is 2^-2: its exponent is -2, its mantissa 0; of -1.5 the exponent is 0, the mantissa 2^51. -/
example : (parse_double [0, 0, 0, 0, 0, 0, 208, 63]).exp = -2 ∧ (parse_double [0, 0, 0, 0, 0, 0, 208, 63]).sig = 0 ∧
    (parse_double [0, 0, 0, 0, 0, 0, 248, 191]).sign = 1 ∧ (parse_double [0, 0, 0, 0, 0, 0, 248, 191]).exp = 0 ∧
    (parse_double [0, 0, 0, 0, 0, 0, 248, 191]).sig = 2 ^ 51 := by decide +kernel

end Che.Props
