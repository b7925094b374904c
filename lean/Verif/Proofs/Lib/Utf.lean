import Verif.Model.Lib.Utf
import Verif.Spec.Lib.Utf
import Verif.Proofs.Lib.Bits

/-!
Conversion between runes and UTF-8.
-/
namespace Che.Lib.Utf
open Che.Spec.Utf

theorem cont_byte (b : UInt8) :
    ((b.toNat ^^^ 0x80) &&& 0xC0 = 0 ↔ 128 ≤ b.toNat ∧ b.toNat < 192) ∧
    (128 ≤ b.toNat → b.toNat < 192 → b.toNat ^^^ 0x80 = b.toNat - 128) := by
  revert b
  apply Bits.forall_byte
  decide +kernel

theorem or_shift (a b : Nat) (h : b < 64) : (a <<< 6) ||| b = a * 64 + b := by
  rw [← Nat.shiftLeft_add_eq_or_of_lt (i := 6) h, Nat.shiftLeft_eq]

theorem and7FF (a : Nat) : a &&& 0x7FF = a % 2048 := Nat.and_two_pow_sub_one_eq_mod a 11
theorem andFFFF (a : Nat) : a &&& 0xFFFF = a % 65536 := Nat.and_two_pow_sub_one_eq_mod a 16
theorem and1FFFFF (a : Nat) : a &&& 0x1FFFFF = a % 2097152 := Nat.and_two_pow_sub_one_eq_mod a 21
theorem and3F (a : Nat) : a &&& 0x3F = a % 64 := Nat.and_two_pow_sub_one_eq_mod a 6

theorem rd_lt {s : Bytes} {i : Nat} (h : i < s.length) : rd s i = .ok s[i].toNat := by
  simp [rd, h, List.getD_eq_getElem?_getD]

theorem rd_end (s : Bytes) : rd s s.length = .ok 0 := by simp [rd]

theorem rd_append (p t : Bytes) (k : Nat) : rd (p ++ t) (p.length + k) = rd t k := by
  unfold rd
  simp [List.getD_eq_getElem?_getD, List.getElem?_append_right]

theorem rd_zero_cons (b : UInt8) (t : Bytes) : rd (b :: t) 0 = .ok b.toNat := by simp [rd]

theorem rd_succ_cons (b : UInt8) (t : Bytes) (i : Nat) : rd (b :: t) (i + 1) = rd t i := by
  have := rd_append [b] t i
  rw [show [b].length + i = i + 1 from Nat.add_comm _ _] at this
  exact this

/-- What a read gives: a byte of the string or the terminator. -/
theorem rd_byte (s : Bytes) (i : Nat) (h : i ≤ s.length) : ∃ b : UInt8, rd s i = .ok b.toNat ∧
    (b ≠ 0 → i < s.length ∧ s[i]? = some b) := by
  rcases Nat.lt_or_ge i s.length with h' | h'
  · exact ⟨s[i], rd_lt h', fun _ => ⟨h', by simp [h']⟩⟩
  · have e : i = s.length := Nat.le_antisymm h h'
    subst e
    exact ⟨0, rd_end s, fun h => absurd rfl h⟩

theorem get_rune_append (p t : Bytes) : get_rune (p ++ t) p.length = get_rune t 0 := by
  have h0 : rd (p ++ t) p.length = rd t 0 := rd_append p t 0
  unfold get_rune
  simp only [h0, rd_append, Nat.zero_add]

/-! ## Reading a rune -/

/-- The outcome of `get_rune`: a rune and the bytes it stands for. -/
inductive Decoded (s : Bytes) (i : Nat) : Nat × Nat → Prop
  | one (r : Nat) (h : r < 0x80) (hb : rd s i = .ok r) : Decoded s i (r, 1)
  | bad (h : ∀ b, rd s i = .ok b → 0x80 ≤ b) : Decoded s i (0xFFFD, 1)
  | two (b0 b1 : UInt8) (h0 : s[i]? = some b0) (h1 : s[i + 1]? = some b1)
      (a0 : 192 ≤ b0.toNat) (l0 : b0.toNat < 224) (a1 : 128 ≤ b1.toNat) (l1 : b1.toNat < 192) (r : Nat)
      (hr : r = (b0.toNat - 192) * 64 + (b1.toNat - 128)) (hmin : 0x7F < r) : Decoded s i (r, 2)
  | three (b0 b1 b2 : UInt8) (h0 : s[i]? = some b0) (h1 : s[i + 1]? = some b1) (h2 : s[i + 2]? = some b2)
      (a0 : 224 ≤ b0.toNat) (l0 : b0.toNat < 240) (a1 : 128 ≤ b1.toNat) (l1 : b1.toNat < 192)
      (a2 : 128 ≤ b2.toNat) (l2 : b2.toNat < 192) (r : Nat)
      (hr : r = ((b0.toNat - 224) * 64 + (b1.toNat - 128)) * 64 + (b2.toNat - 128)) (hmin : 0x7FF < r) :
      Decoded s i (r, 3)
  | four (b0 b1 b2 b3 : UInt8) (h0 : s[i]? = some b0) (h1 : s[i + 1]? = some b1) (h2 : s[i + 2]? = some b2)
      (h3 : s[i + 3]? = some b3)
      (a0 : 240 ≤ b0.toNat) (l0 : b0.toNat < 248) (a1 : 128 ≤ b1.toNat) (l1 : b1.toNat < 192)
      (a2 : 128 ≤ b2.toNat) (l2 : b2.toNat < 192) (a3 : 128 ≤ b3.toNat) (l3 : b3.toNat < 192) (r : Nat)
      (hr : r = (((b0.toNat - 240) * 64 + (b1.toNat - 128)) * 64 + (b2.toNat - 128)) * 64 + (b3.toNat - 128))
      (hmin : 0xFFFF < r) (hmax : r ≤ 0x10FFFF) : Decoded s i (r, 4)

theorem ne_zero_of_ge {b : UInt8} (h : 128 ≤ b.toNat) : b ≠ 0 := by
  rintro rfl
  simp at h

/-- Reading a rune at a place in a string always succeeds. -/
theorem get_rune_decoded (s : Bytes) (i : Nat) (h : i ≤ s.length) :
    ∃ r, get_rune s i = .ok r ∧ Decoded s i r := by
  obtain ⟨b0, e0, p0⟩ := rd_byte s i h
  unfold get_rune
  rw [e0]
  simp only [Res.bind]
  split
  · rename_i hb
    exact ⟨_, rfl, .one _ hb e0⟩
  rename_i hb
  have hbad : Decoded s i (0xFFFD, 1) := .bad fun b hb' => by
    rw [e0] at hb'
    cases hb'
    omega
  obtain ⟨i0, g0⟩ := p0 (ne_zero_of_ge (by omega))
  obtain ⟨b1, e1, p1⟩ := rd_byte s (i + 1) i0
  rw [e1]
  simp only
  split
  · exact ⟨_, rfl, hbad⟩
  rename_i hc1
  have hc1 := (cont_byte b1).1.mp (by simpa using hc1)
  have x1 := (cont_byte b1).2 hc1.1 hc1.2
  obtain ⟨i1, g1⟩ := p1 (ne_zero_of_ge hc1.1)
  split
  · split
    · exact ⟨_, rfl, hbad⟩
    · rw [x1, or_shift _ _ (by omega), and7FF]
      split
      · exact ⟨_, rfl, hbad⟩
      · exact ⟨_, rfl, .two b0 b1 g0 g1 (by omega) (by omega) hc1.1 hc1.2 _ (by omega) (by omega)⟩
  obtain ⟨b2, e2, p2⟩ := rd_byte s (i + 2) i1
  rw [e2]
  simp only
  split
  · exact ⟨_, rfl, hbad⟩
  rename_i hc2
  have hc2 := (cont_byte b2).1.mp (by simpa using hc2)
  have x2 := (cont_byte b2).2 hc2.1 hc2.2
  obtain ⟨i2, g2⟩ := p2 (ne_zero_of_ge hc2.1)
  split
  · rw [x1, x2, or_shift _ _ (by omega), or_shift _ _ (by omega), andFFFF]
    split
    · exact ⟨_, rfl, hbad⟩
    · exact ⟨_, rfl, .three b0 b1 b2 g0 g1 g2 (by omega) (by omega) hc1.1 hc1.2 hc2.1 hc2.2 _
        (by omega) (by omega)⟩
  obtain ⟨b3, e3, p3⟩ := rd_byte s (i + 3) i2
  rw [e3]
  simp only
  split
  · exact ⟨_, rfl, hbad⟩
  rename_i hc3
  have hc3 := (cont_byte b3).1.mp (by simpa using hc3)
  have x3 := (cont_byte b3).2 hc3.1 hc3.2
  obtain ⟨_, g3⟩ := p3 (ne_zero_of_ge hc3.1)
  split
  · rw [x1, x2, x3, or_shift _ _ (by omega), or_shift _ _ (by omega), or_shift _ _ (by omega), and1FFFFF]
    split
    · exact ⟨_, rfl, hbad⟩
    · exact ⟨_, rfl, .four b0 b1 b2 b3 g0 g1 g2 g3 (by omega) (by omega) hc1.1 hc1.2 hc2.1 hc2.2
        hc3.1 hc3.2 _ (by omega) (by omega) (by omega)⟩
  · exact ⟨_, rfl, hbad⟩

theorem get_rune_two {s : Bytes} {i : Nat} {b0 b1 : Nat} (e0 : rd s i = .ok (192 + b0))
    (e1 : rd s (i + 1) = .ok (128 + b1)) (l0 : b0 < 32) (l1 : b1 < 64) (h : 0x7F < b0 * 64 + b1) :
    get_rune s i = .ok (b0 * 64 + b1, 2) := by
  have x1 := (cont_byte (UInt8.ofNat (128 + b1)))
  have t1 : (UInt8.ofNat (128 + b1)).toNat = 128 + b1 := by
    rw [UInt8.toNat_ofNat']; omega
  rw [t1] at x1
  have z1 := x1.1.mpr (by omega)
  have y1 := x1.2 (by omega) (by omega)
  unfold get_rune
  simp only [e0, e1, Res.bind, z1]
  rw [y1, or_shift _ _ (by omega), and7FF, if_neg (by omega), if_neg (by simp), if_pos (by omega),
    if_neg (by omega), if_neg (by omega),
    show ((192 + b0) * 64 + (128 + b1 - 128)) % 2048 = b0 * 64 + b1 by omega]

theorem get_rune_three {s : Bytes} {i : Nat} {b0 b1 b2 : Nat} (e0 : rd s i = .ok (224 + b0))
    (e1 : rd s (i + 1) = .ok (128 + b1)) (e2 : rd s (i + 2) = .ok (128 + b2)) (l0 : b0 < 16) (l1 : b1 < 64)
    (l2 : b2 < 64) (h : 0x7FF < (b0 * 64 + b1) * 64 + b2) :
    get_rune s i = .ok ((b0 * 64 + b1) * 64 + b2, 3) := by
  have x1 := (cont_byte (UInt8.ofNat (128 + b1)))
  have t1 : (UInt8.ofNat (128 + b1)).toNat = 128 + b1 := by
    rw [UInt8.toNat_ofNat']; omega
  rw [t1] at x1
  have z1 := x1.1.mpr (by omega)
  have y1 := x1.2 (by omega) (by omega)
  have x2 := (cont_byte (UInt8.ofNat (128 + b2)))
  have t2 : (UInt8.ofNat (128 + b2)).toNat = 128 + b2 := by
    rw [UInt8.toNat_ofNat']; omega
  rw [t2] at x2
  have z2 := x2.1.mpr (by omega)
  have y2 := x2.2 (by omega) (by omega)
  unfold get_rune
  simp only [e0, e1, e2, Res.bind, z1, z2]
  rw [y1, y2, or_shift _ (128 + b1 - 128) (by omega), or_shift _ (128 + b2 - 128) (by omega), andFFFF, if_neg (by omega),
    if_neg (by simp), if_neg (by omega), if_neg (by simp), if_pos (by omega), if_neg (by omega),
    show (((224 + b0) * 64 + (128 + b1 - 128)) * 64 + (128 + b2 - 128)) % 65536 = (b0 * 64 + b1) * 64 + b2 by omega]

theorem get_rune_four {s : Bytes} {i : Nat} {b0 b1 b2 b3 : Nat} (e0 : rd s i = .ok (240 + b0))
    (e1 : rd s (i + 1) = .ok (128 + b1)) (e2 : rd s (i + 2) = .ok (128 + b2))
    (e3 : rd s (i + 3) = .ok (128 + b3)) (l0 : b0 < 8) (l1 : b1 < 64)
    (l2 : b2 < 64) (l3 : b3 < 64) (h : 0xFFFF < ((b0 * 64 + b1) * 64 + b2) * 64 + b3)
    (h' : ((b0 * 64 + b1) * 64 + b2) * 64 + b3 ≤ 0x10FFFF) :
    get_rune s i = .ok (((b0 * 64 + b1) * 64 + b2) * 64 + b3, 4) := by
  have x1 := (cont_byte (UInt8.ofNat (128 + b1)))
  have t1 : (UInt8.ofNat (128 + b1)).toNat = 128 + b1 := by
    rw [UInt8.toNat_ofNat']; omega
  rw [t1] at x1
  have z1 := x1.1.mpr (by omega)
  have y1 := x1.2 (by omega) (by omega)
  have x2 := (cont_byte (UInt8.ofNat (128 + b2)))
  have t2 : (UInt8.ofNat (128 + b2)).toNat = 128 + b2 := by
    rw [UInt8.toNat_ofNat']; omega
  rw [t2] at x2
  have z2 := x2.1.mpr (by omega)
  have y2 := x2.2 (by omega) (by omega)
  have x3 := (cont_byte (UInt8.ofNat (128 + b3)))
  have t3 : (UInt8.ofNat (128 + b3)).toNat = 128 + b3 := by
    rw [UInt8.toNat_ofNat']; omega
  rw [t3] at x3
  have z3 := x3.1.mpr (by omega)
  have y3 := x3.2 (by omega) (by omega)
  unfold get_rune
  simp only [e0, e1, e2, e3, Res.bind, z1, z2, z3]
  rw [y1, y2, y3, or_shift _ (128 + b1 - 128) (by omega), or_shift _ (128 + b2 - 128) (by omega),
    or_shift _ (128 + b3 - 128) (by omega), and1FFFFF, if_neg (by omega),
    if_neg (by simp), if_neg (by omega), if_neg (by simp), if_neg (by omega), if_neg (by simp),
    if_pos (by omega), if_neg (by omega),
    show ((((240 + b0) * 64 + (128 + b1 - 128)) * 64 + (128 + b2 - 128)) * 64 + (128 + b3 - 128)) % 2097152 =
      ((b0 * 64 + b1) * 64 + b2) * 64 + b3 by omega]

/-! ## Characters -/

theorem char_bound (c : Char) : c.val.toNat < 0xD800 ∨ 0xDFFF < c.val.toNat ∧ c.val.toNat < 0x110000 := by
  have := c.valid
  simpa [UInt32.isValidChar, Nat.isValidChar] using this

theorem toNat8 {n : Nat} (h : n < 256) : (UInt8.ofNat n).toNat = n := by
  rw [UInt8.toNat_ofNat']; omega

/-- A character that stands at the start of a string is read as itself. -/
theorem get_rune_encode (c : Char) (rest : Bytes) :
    get_rune (String.utf8EncodeChar c ++ rest) 0 = .ok (c.val.toNat, (String.utf8EncodeChar c).length) := by
  have hv := char_bound c
  unfold String.utf8EncodeChar
  generalize c.val.toNat = v at *
  simp only
  split
  · simp only [List.cons_append, List.nil_append, List.length_cons, List.length_nil]
    unfold get_rune
    rw [rd_zero_cons, toNat8 (by omega)]
    simp only [Res.bind]
    rw [if_pos (by omega)]
  split
  · simp only [List.cons_append, List.nil_append, List.length_cons, List.length_nil]
    rw [get_rune_two (b0 := v / 64 % 32) (b1 := v % 64)]
    · congr 2; omega
    · rw [rd_zero_cons, toNat8 (by omega), Nat.add_comm]
    · rw [rd_succ_cons, rd_zero_cons, toNat8 (by omega), Nat.add_comm]
    all_goals omega
  split
  · simp only [List.cons_append, List.nil_append, List.length_cons, List.length_nil]
    rw [get_rune_three (b0 := v / 4096 % 16) (b1 := v / 64 % 64) (b2 := v % 64)]
    · congr 2; omega
    · rw [rd_zero_cons, toNat8 (by omega), Nat.add_comm]
    · rw [rd_succ_cons, rd_zero_cons, toNat8 (by omega), Nat.add_comm]
    · rw [rd_succ_cons, rd_succ_cons, rd_zero_cons, toNat8 (by omega), Nat.add_comm]
    all_goals omega
  · simp only [List.cons_append, List.nil_append, List.length_cons, List.length_nil]
    rw [get_rune_four (b0 := v / 262144 % 8) (b1 := v / 4096 % 64) (b2 := v / 64 % 64) (b3 := v % 64)]
    · congr 2; omega
    · rw [rd_zero_cons, toNat8 (by omega), Nat.add_comm]
    · rw [rd_succ_cons, rd_zero_cons, toNat8 (by omega), Nat.add_comm]
    · rw [rd_succ_cons, rd_succ_cons, rd_zero_cons, toNat8 (by omega), Nat.add_comm]
    · rw [rd_succ_cons, rd_succ_cons, rd_succ_cons, rd_zero_cons, toNat8 (by omega), Nat.add_comm]
    all_goals omega

theorem or_add (k a b : Nat) (h : b < 2 ^ k) : (2 ^ k * a) ||| b = 2 ^ k * a + b :=
  (Nat.two_pow_add_eq_or_of_lt h a).symm

theorem or80 (b : Nat) (h : b < 64) : 0x80 ||| b = 0x80 + b := or_add 6 2 b h
theorem orC0 (b : Nat) (h : b < 32) : 0xC0 ||| b = 0xC0 + b := or_add 5 6 b h
theorem orE0 (b : Nat) (h : b < 16) : 0xE0 ||| b = 0xE0 + b := or_add 4 14 b h
theorem orF0 (b : Nat) (h : b < 8) : 0xF0 ||| b = 0xF0 + b := or_add 3 30 b h

theorem toInt32_small {r : Nat} (h : r < 2 ^ 31) : toInt32 r = Int.ofNat r := by
  unfold toInt32
  rw [Nat.mod_eq_of_lt (by omega), if_pos h]
  rfl

theorem runetochar_small {r : Nat} (h : r < 2 ^ 31) : runetochar r = runetocharPos r := by
  unfold runetochar
  rw [toInt32_small h]

/-- Runes are written as UTF-8. -/
theorem runetochar_encode (c : Char) : runetochar c.val.toNat = String.utf8EncodeChar c := by
  have hv := char_bound c
  rw [runetochar_small (by omega)]
  unfold String.utf8EncodeChar runetocharPos
  generalize c.val.toNat = v at *
  simp only
  split
  · rfl
  split
  · rw [Nat.shiftRight_eq_div_pow, and3F, or80 _ (by omega), orC0 _ (by omega)]
    simp only [List.cons.injEq, and_true]
    constructor <;> congr 1 <;> omega
  rw [if_neg (show ¬ v > 0x10FFFF by omega)]
  split
  · simp only [Nat.shiftRight_eq_div_pow, and3F]
    rw [or80 _ (by omega), or80 _ (by omega), orE0 _ (by omega)]
    simp only [List.cons.injEq, and_true]
    refine ⟨?_, ?_, ?_⟩ <;> congr 1 <;> omega
  · simp only [Nat.shiftRight_eq_div_pow, and3F]
    rw [or80 _ (by omega), or80 _ (by omega), or80 _ (by omega), orF0 _ (by omega)]
    simp only [List.cons.injEq, and_true]
    refine ⟨?_, ?_, ?_, ?_⟩ <;> congr 1 <;> omega

end Che.Lib.Utf
