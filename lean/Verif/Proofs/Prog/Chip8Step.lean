import Verif.Proofs.Prog.Chip8

namespace Che.Prog.Chip8
open Che.Lib

/-- The emulator is in the state `s` of the reference. -/
structure Shows (c : C8) (s : Spec.Chip8.State) : Prop where
  v : ∀ x : BitVec 4, c.v x.toNat = s.v x
  i : c.i = s.i
  pc : c.pc = s.pc
  dt : c.dt = s.dt
  st : c.st = s.st
  mem : ∀ a, a < 4096 → c.mem a = s.mem a
  sp : c.sp.toNat ≤ 16
  stack : s.stack = ((List.range c.sp.toNat).map c.stack).reverse
  screen : ∀ px py, px < 64 → py < 32 → c.video (py * 64 + px) = if s.screen px py then 1 else 0

theorem Shows.set {c : C8} {s : Spec.Chip8.State} (h : Shows c s) (x : BitVec 4) (b : UInt8) : Shows (c.setV x.toNat b) (s.set x b) := by
  refine ⟨?_, h.i, h.pc, h.dt, h.st, h.mem, h.sp, h.stack, h.screen⟩
  intro y
  show (if y.toNat = x.toNat then b else c.v y.toNat) = if y = x then b else s.v y
  rw [h.v y]
  by_cases e : y = x
  · rw [if_pos e, if_pos (by rw [e])]
  · rw [if_neg e, if_neg (fun h => e (BitVec.eq_of_toNat_eq h))]

theorem Shows.skip {c : C8} {s : Spec.Chip8.State} (h : Shows c s) (b : Bool) (p : Prop) [Decidable p] (hb : b = true ↔ p) : Shows (c.skip b) (s.skip p) := by
  unfold C8.skip Spec.Chip8.State.skip
  by_cases hp : p
  · rw [if_pos (hb.mpr hp), if_pos hp]
    exact ⟨h.v, h.i, by show c.pc + 2 = s.pc + 2; rw [h.pc], h.dt, h.st, h.mem, h.sp, h.stack, h.screen⟩
  · rw [if_neg (fun e => hp (hb.mp e)), if_neg hp]
    exact h

theorem Shows.keys {c : C8} {s : Spec.Chip8.State} (h : Shows c s) (k : Nat → Bool) : Shows { c with keys := k } s :=
  ⟨h.v, h.i, h.pc, h.dt, h.st, h.mem, h.sp, h.stack, h.screen⟩

/-! ### Memory -/

theorem poke_ok {c : C8} {s : Spec.Chip8.State} (h : Shows c s) (a : Nat) (ha : a < 4096) (b : UInt8) :
    ∃ c', poke c a b = .ok c' ∧ c'.i = c.i ∧ c'.v = c.v ∧ Shows c' { s with mem := fun j => if j = a then b else s.mem j } := by
  refine ⟨_, if_pos ha, rfl, rfl, h.v, h.i, h.pc, h.dt, h.st, ?_, h.sp, h.stack, h.screen⟩
  intro j hj
  show (if j = a then b else c.mem j) = if j = a then b else s.mem j
  rw [h.mem j hj]

theorem dump_ok (n : Nat) : ∀ (i : Nat) {c : C8} {s : Spec.Chip8.State}, Shows c s → i + n ≤ 16 → c.i.toNat + i + n ≤ 4096 →
    ∃ c', dump n i c = .ok c' ∧
      Shows c' { s with mem := fun a => if s.i.toNat + i ≤ a ∧ a < s.i.toNat + i + n then s.v (.ofNat 4 (a - s.i.toNat)) else s.mem a } := by
  induction n with
  | zero =>
    intro i c s h _ _
    refine ⟨c, rfl, ?_⟩
    refine ⟨h.v, h.i, h.pc, h.dt, h.st, ?_, h.sp, h.stack, h.screen⟩
    intro a ha
    show _ = if s.i.toNat + i ≤ a ∧ a < s.i.toNat + i + 0 then s.v (.ofNat 4 (a - s.i.toNat)) else s.mem a
    rw [if_neg (by omega)]
    exact h.mem a ha
  | succ n ih =>
    intro i c s h h1 h2
    obtain ⟨c1, e1, e2, e3, h3⟩ := poke_ok h (c.i.toNat + i) (by omega) (c.v i)
    obtain ⟨c2, e4, h4⟩ := ih (i + 1) h3 (by omega) (by rw [e2]; omega)
    refine ⟨c2, ?_, ?_⟩
    · show (poke c (c.i.toNat + i) (c.v i)).bind _ = _
      rw [e1]; exact e4
    · refine ⟨h4.v, h4.i, h4.pc, h4.dt, h4.st, ?_, h4.sp, h4.stack, h4.screen⟩
      intro a ha
      rw [h4.mem a ha]
      have hv := h.v (BitVec.ofNat 4 i)
      rw [BitVec.toNat_ofNat, Nat.mod_eq_of_lt (by omega)] at hv
      rw [h.i, hv]
      show (if s.i.toNat + (i + 1) ≤ a ∧ a < s.i.toNat + (i + 1) + n then s.v (.ofNat 4 (a - s.i.toNat)) else if a = s.i.toNat + i then _ else s.mem a) = if s.i.toNat + i ≤ a ∧ a < s.i.toNat + i + (n + 1) then s.v (.ofNat 4 (a - s.i.toNat)) else s.mem a
      by_cases c1 : a = s.i.toNat + i
      · rw [if_neg (by omega), if_pos c1, if_pos (by omega), c1, Nat.add_sub_cancel_left]
      · by_cases c2 : s.i.toNat + (i + 1) ≤ a ∧ a < s.i.toNat + (i + 1) + n
        · rw [if_pos c2, if_pos (by omega)]
        · rw [if_neg c2, if_neg c1, if_neg (by omega)]

theorem fill_ok (n : Nat) : ∀ (i : Nat) {c : C8} {s : Spec.Chip8.State}, Shows c s → i + n ≤ 16 → c.i.toNat + i + n ≤ 4096 →
    ∃ c', fill n i c = .ok c' ∧
      Shows c' { s with v := fun y => if i ≤ y.toNat ∧ y.toNat < i + n then s.mem (s.i.toNat + y.toNat) else s.v y } := by
  induction n with
  | zero =>
    intro i c s h _ _
    refine ⟨c, rfl, ?_⟩
    refine ⟨?_, h.i, h.pc, h.dt, h.st, h.mem, h.sp, h.stack, h.screen⟩
    intro y
    show _ = if i ≤ y.toNat ∧ y.toNat < i + 0 then s.mem (s.i.toNat + y.toNat) else s.v y
    rw [if_neg (by omega)]
    exact h.v y
  | succ n ih =>
    intro i c s h h1 h2
    have hs := h.set (BitVec.ofNat 4 i) (c.mem (c.i.toNat + i))
    rw [BitVec.toNat_ofNat, Nat.mod_eq_of_lt (by omega)] at hs
    obtain ⟨c2, e4, h4⟩ := ih (i + 1) hs (by omega) (by show c.i.toNat + (i + 1) + n ≤ 4096; omega)
    refine ⟨c2, ?_, ?_⟩
    · show (peek c (c.i.toNat + i)).bind _ = _
      rw [peek, if_pos (by omega)]; exact e4
    · refine ⟨?_, h4.i, h4.pc, h4.dt, h4.st, h4.mem, h4.sp, h4.stack, h4.screen⟩
      intro y
      rw [h4.v y, h.mem _ (by omega), h.i]
      show (if i + 1 ≤ y.toNat ∧ y.toNat < i + 1 + n then s.mem (s.i.toNat + y.toNat) else if y = .ofNat 4 i then _ else s.v y) =
        if i ≤ y.toNat ∧ y.toNat < i + (n + 1) then s.mem (s.i.toNat + y.toNat) else s.v y
      have hy : y = .ofNat 4 i ↔ y.toNat = i := by
        rw [← BitVec.toNat_inj, BitVec.toNat_ofNat, Nat.mod_eq_of_lt (by omega)]
      by_cases c1 : y.toNat = i
      · rw [if_neg (by omega), if_pos (hy.mpr c1), if_pos (by omega), c1]
      · by_cases c2 : i + 1 ≤ y.toNat ∧ y.toNat < i + 1 + n
        · rw [if_pos c2, if_pos (by omega)]
        · rw [if_neg c2, if_neg (fun e => c1 (hy.mp e)), if_neg (by omega)]

/-! ### Drawing -/

theorem bits_eq (b : UInt8) : Bits.getbits_msfirst b = (List.range 8).map fun k => if b.toNat.testBit (7 - k) then 1 else 0 := by
  have h : ∀ b : BitVec 8, Bits.getbits_msfirst ⟨b⟩ = (List.range 8).map fun k => if b.toNat.testBit (7 - k) then 1 else 0 := by decide +kernel
  exact h b.toBitVec

/-- A row of pixels. -/
theorem xor_bits_ok (bits : Bytes) : ∀ (c : C8) (x y : Nat) (col : Bool), y * 64 + x + bits.length ≤ 2048 →
    ∃ c' col', xor_bits bits c x y col = .ok (col', c') ∧
      c' = { c with video := fun j => if y * 64 + x ≤ j ∧ j < y * 64 + x + bits.length then c.video j ^^^ bits.getD (j - (y * 64 + x)) 0 else c.video j } ∧
      (col' = true ↔ col = true ∨ ∃ k < bits.length, c.video (y * 64 + x + k) ≠ 0 ∧ c.video (y * 64 + x + k) ^^^ bits.getD k 0 = 0) := by
  induction bits with
  | nil =>
    intro c x y col _
    refine ⟨c, col, rfl, ?_, by simp⟩
    cases c
    simp only [C8.mk.injEq, true_and, and_true]
    funext j
    rw [if_neg (by simp only [List.length_nil]; omega)]
  | cons b bits ih =>
    intro c x y col h
    simp only [List.length_cons] at h
    obtain ⟨c', col', e1, e2, e3⟩ := ih { c with video := fun j => if j = y * 64 + x then c.video (y * 64 + x) ^^^ b else c.video j } (x + 1) y
      (decide (c.video (y * 64 + x) ≠ 0 ∧ c.video (y * 64 + x) ^^^ b = 0) || col) (by omega)
    refine ⟨c', col', ?_, ?_, ?_⟩
    · show (xor_pixel c x y b).bind _ = _
      unfold xor_pixel
      rw [if_pos (by omega)]
      exact e1
    · rw [e2]
      simp only [C8.mk.injEq, true_and, and_true]
      funext j
      simp only [List.length_cons]
      by_cases c1 : j = y * 64 + x
      · rw [if_neg (by omega), if_pos c1, if_pos (by omega), c1, Nat.sub_self]; rfl
      · by_cases c2 : y * 64 + (x + 1) ≤ j ∧ j < y * 64 + (x + 1) + bits.length
        · rw [if_pos c2, if_neg c1, if_pos (by omega), show j - (y * 64 + x) = j - (y * 64 + (x + 1)) + 1 by omega, List.getD_cons_succ]
        · rw [if_neg c2, if_neg c1, if_neg (by omega)]
    · rw [e3]
      simp only [Bool.or_eq_true, decide_eq_true_eq, List.length_cons]
      constructor
      · rintro ((h | h) | ⟨k, hk, h⟩)
        · exact .inr ⟨0, by omega, h⟩
        · exact .inl h
        · refine .inr ⟨k + 1, by omega, ?_⟩
          rw [if_neg (by omega), show y * 64 + (x + 1) + k = y * 64 + x + (k + 1) by omega] at h
          rw [List.getD_cons_succ]; exact h
      · rintro (h | ⟨k, hk, h⟩)
        · exact .inl (.inr h)
        · cases k with
          | zero => exact .inl (.inl h)
          | succ k =>
            refine .inr ⟨k, by omega, ?_⟩
            rw [if_neg (by omega), show y * 64 + (x + 1) + k = y * 64 + x + (k + 1) by omega]
            rw [List.getD_cons_succ] at h; exact h

theorem bit_at (b : UInt8) (k : Nat) (hk : k < 8) : (Bits.getbits_msfirst b).getD k 0 = if b.toNat.testBit (7 - k) then 1 else 0 := by
  rw [bits_eq, List.getD_eq_getElem?_getD, List.getElem?_map, List.getElem?_range hk]
  rfl

/-- Whether the row `i` of a sprite has the pixel. -/
def rowHit (b : UInt8) (x y px py : Nat) : Bool := decide (x ≤ px ∧ px < x + 8 ∧ py = y) && b.toNat.testBit (7 - (px - x))

/-- A row of a sprite that fits. -/
theorem sprite_ok {c : C8} {s : Spec.Chip8.State} (h : Shows c s) (b : UInt8) (x y : Nat) (hx : x + 8 ≤ 64) (hy : y < 32) :
    ∃ c' col, xor_sprite c x y b = .ok (col, c') ∧ c'.i = c.i ∧ c'.v = c.v ∧
      Shows c' { s with screen := fun px py => s.screen px py ^^ rowHit b x y px py } ∧
      (col = true ↔ ∃ px < 64, ∃ py < 32, s.screen px py = true ∧ rowHit b x y px py = true) := by
  have hl : (Bits.getbits_msfirst b).length = 8 := by rw [bits_eq]; rfl
  obtain ⟨c', col, e1, e2, e3⟩ := xor_bits_ok (Bits.getbits_msfirst b) c x y false (by rw [hl]; omega)
  rw [hl] at e2 e3
  refine ⟨c', col, e1, by rw [e2], by rw [e2], ?_, ?_⟩
  · rw [e2]
    refine ⟨h.v, h.i, h.pc, h.dt, h.st, h.mem, h.sp, h.stack, ?_⟩
    intro px py h1 h2
    show (if y * 64 + x ≤ py * 64 + px ∧ py * 64 + px < y * 64 + x + 8 then _ else _) = if (s.screen px py ^^ rowHit b x y px py) = true then (1 : UInt8) else 0
    rw [h.screen px py h1 h2]
    by_cases c1 : x ≤ px ∧ px < x + 8 ∧ py = y
    · obtain ⟨c2, c3, rfl⟩ := c1
      rw [if_pos (by omega), show py * 64 + px - (py * 64 + x) = px - x by omega, bit_at b _ (by omega)]
      unfold rowHit
      rw [decide_eq_true (show x ≤ px ∧ px < x + 8 ∧ py = py from ⟨c2, c3, rfl⟩)]
      cases s.screen px py <;> cases b.toNat.testBit (7 - (px - x)) <;> rfl
    · rw [if_neg (by omega)]
      unfold rowHit
      rw [decide_eq_false c1]
      simp
  · rw [e3]
    constructor
    · rintro (h | ⟨k, hk, h1, h2⟩)
      · cases h
      · rw [show y * 64 + x + k = y * 64 + (x + k) by omega, h.screen _ _ (by omega) hy] at h1 h2
        rw [bit_at b k hk] at h2
        refine ⟨x + k, by omega, y, hy, ?_⟩
        unfold rowHit
        rw [decide_eq_true (show x ≤ x + k ∧ x + k < x + 8 ∧ y = y by omega), show x + k - x = k by omega]
        revert h1 h2
        cases s.screen (x + k) y <;> cases b.toNat.testBit (7 - k) <;> simp
    · rintro ⟨px, h1, py, h2, h3, h4⟩
      unfold rowHit at h4
      rw [Bool.and_eq_true, decide_eq_true_eq] at h4
      obtain ⟨⟨h5, h6, rfl⟩, h7⟩ := h4
      refine .inr ⟨px - x, by omega, ?_⟩
      rw [show py * 64 + x + (px - x) = py * 64 + px by omega, h.screen _ _ h1 h2, h3, bit_at b _ (by omega), h7]
      decide

theorem covers_succ (mem : Nat → UInt8) (i n x y px py : Nat) (hx : x + 8 ≤ 64) (hy : y + n + 1 ≤ 32) (h1 : px < 64) (h2 : py < 32) :
    Spec.Chip8.covers mem i (n + 1) x y px py = (Spec.Chip8.covers mem i n x y px py ^^ rowHit (mem (i + n)) x (y + n) px py) ∧
    (rowHit (mem (i + n)) x (y + n) px py = true → Spec.Chip8.covers mem i n x y px py = false) := by
  unfold Spec.Chip8.covers rowHit
  simp only
  rw [Nat.mod_eq_of_lt (show x < 64 by omega), Nat.mod_eq_of_lt (show y < 32 by omega)]
  by_cases c1 : x ≤ px ∧ px < x + 8
  · rw [show (px + 64 - x) % 64 = px - x by omega]
    by_cases c2 : y ≤ py
    · rw [show (py + 32 - y) % 32 = py - y by omega]
      by_cases c3 : py = y + n
      · rw [show py - y = n by omega, decide_eq_true (show x ≤ px ∧ px < x + 8 ∧ py = y + n by omega), decide_eq_true (show px - x < 8 by omega)]
        simp
      · rw [decide_eq_false (show ¬ (x ≤ px ∧ px < x + 8 ∧ py = y + n) by omega)]
        rw [show decide (py - y < n + 1) = decide (py - y < n) by rw [decide_eq_decide]; omega]
        simp
    · rw [decide_eq_false (show ¬ (x ≤ px ∧ px < x + 8 ∧ py = y + n) by omega), decide_eq_false (show ¬ (py + 32 - y) % 32 < n + 1 by omega),
        decide_eq_false (show ¬ (py + 32 - y) % 32 < n by omega)]
      simp
  · rw [decide_eq_false (show ¬ (x ≤ px ∧ px < x + 8 ∧ py = y + n) by omega), decide_eq_false (show ¬ (px + 64 - x) % 64 < 8 by omega)]
    simp

theorem rows_ok (r : Instr) (s : Spec.Chip8.State) (x y N : Nat) (hx : x + 8 ≤ 64) (hy : y + N ≤ 32) (hi : s.i.toNat + N ≤ 4096) :
    ∀ (n i : Nat) (c : C8) (col : Bool), i + n = N → (c.v r.x).toNat = x → (c.v r.y).toNat = y →
      Shows c { s with screen := fun px py => s.screen px py ^^ Spec.Chip8.covers s.mem s.i.toNat i x y px py } →
      (col = true ↔ ∃ px < 64, ∃ py < 32, s.screen px py = true ∧ Spec.Chip8.covers s.mem s.i.toNat i x y px py = true) →
      ∃ c' col', draw_rows r n i c col = .ok (col', c') ∧
        Shows c' { s with screen := fun px py => s.screen px py ^^ Spec.Chip8.covers s.mem s.i.toNat N x y px py } ∧
        (col' = true ↔ ∃ px < 64, ∃ py < 32, s.screen px py = true ∧ Spec.Chip8.covers s.mem s.i.toNat N x y px py = true) := by
  intro n
  induction n with
  | zero =>
    intro i c col e _ _ h hc
    rw [← e]
    exact ⟨c, col, rfl, h, hc⟩
  | succ n ih =>
    intro i c col e hvx hvy h hc
    have hci : c.i = s.i := h.i
    have hm : c.mem (c.i.toNat + i) = s.mem (s.i.toNat + i) := by rw [hci]; exact h.mem _ (by omega)
    obtain ⟨c1, col1, e1, e2, e3, h1, hc1⟩ := sprite_ok h (s.mem (s.i.toNat + i)) x (y + i) hx (by omega)
    have hcov := fun px py p q => covers_succ s.mem s.i.toNat i x y px py hx (by omega) p q
    obtain ⟨c2, col2, e4, h2, hc2⟩ := ih (i + 1) c1 (col1 || col) (by omega) (by rw [e3]; exact hvx) (by rw [e3]; exact hvy)
      (by
        refine ⟨h1.v, h1.i, h1.pc, h1.dt, h1.st, h1.mem, h1.sp, h1.stack, ?_⟩
        intro px py p q
        rw [h1.screen px py p q]
        show (if (s.screen px py ^^ _ ^^ _) = true then (1 : UInt8) else 0) = if (s.screen px py ^^ _) = true then 1 else 0
        rw [(hcov px py p q).1, Bool.xor_assoc])
      (by
        rw [Bool.or_eq_true, hc1, hc]
        constructor
        · rintro (⟨px, p, py, q, u, w⟩ | ⟨px, p, py, q, u, w⟩)
          · refine ⟨px, p, py, q, ?_, ?_⟩
            · have hf := (hcov px py p q).2 w
              have u' : (s.screen px py ^^ Spec.Chip8.covers s.mem s.i.toNat i x y px py) = true := u
              rw [hf, Bool.xor_false] at u'
              exact u'
            · rw [(hcov px py p q).1, (hcov px py p q).2 w, w]; rfl
          · refine ⟨px, p, py, q, u, ?_⟩
            rw [(hcov px py p q).1, w]
            cases hr : rowHit (s.mem (s.i.toNat + i)) x (y + i) px py with
            | false => rfl
            | true => rw [(hcov px py p q).2 hr] at w; cases w
        · rintro ⟨px, p, py, q, u, w⟩
          rw [(hcov px py p q).1] at w
          cases hr : rowHit (s.mem (s.i.toNat + i)) x (y + i) px py with
          | false => rw [hr, Bool.xor_false] at w; exact .inr ⟨px, p, py, q, u, w⟩
          | true =>
            refine .inl ⟨px, p, py, q, ?_, hr⟩
            show (s.screen px py ^^ Spec.Chip8.covers s.mem s.i.toNat i x y px py) = true
            rw [(hcov px py p q).2 hr, u]; rfl)
    refine ⟨c2, col2, ?_, h2, hc2⟩
    show (peek c (c.i.toNat + i)).bind _ = _
    rw [peek, if_pos (by rw [hci]; omega), hm]
    show (xor_sprite c (c.v r.x).toNat ((c.v r.y).toNat + i) (s.mem (s.i.toNat + i))).bind _ = _
    rw [hvx, hvy, e1]
    exact e4

/-! ### One instruction -/

/-- The instructions that the emulator executes as the reference says, in a state. -/
def Right (s : Spec.Chip8.State) : Spec.Chip8.Instr → Prop
  | .sub _ _ => False
  | .subn x y => s.v x ≤ s.v y ∨ x = Spec.Chip8.VF
  | .shr x _ => x ≠ Spec.Chip8.VF
  | .shl x _ => x ≠ Spec.Chip8.VF
  | .drw x y n => (s.v x).toNat + 8 ≤ 64 ∧ (s.v y).toNat + n.toNat ≤ 32
  | _ => True

private theorem setF (c : C8) (b : UInt8) : c.setV 15 b = c.setV (Spec.Chip8.VF).toNat b := rfl

private theorem nat_ne {x y : BitVec 4} (h : x ≠ y) : x.toNat ≠ y.toNat := fun e => h (BitVec.eq_of_toNat_eq e)

private theorem setV_comm (c : C8) (x y : Nat) (a b : UInt8) (h : x ≠ y) : (c.setV x a).setV y b = (c.setV y b).setV x a := by
  unfold C8.setV
  simp only [C8.mk.injEq, true_and, and_true]
  funext j
  by_cases h1 : j = y
  · rw [if_pos h1, if_neg (by omega), if_pos h1]
  · rw [if_neg h1, if_neg h1]

private theorem setV_setV (c : C8) (x : Nat) (a b : UInt8) : (c.setV x a).setV x b = c.setV x b := by
  unfold C8.setV
  simp only [C8.mk.injEq, true_and, and_true]
  funext j
  by_cases h1 : j = x
  · rw [if_pos h1, if_pos h1]
  · rw [if_neg h1, if_neg h1, if_neg h1]

private theorem ofNat_bv (k : BitVec 8) : UInt8.ofNat k.toNat = ⟨k⟩ := by
  apply UInt8.toNat_inj.mp
  rw [UInt8.toNat_ofNat']
  exact Nat.mod_eq_of_lt k.isLt

private theorem kk_iff (b : UInt8) (k : BitVec 8) : b.toNat = k.toNat ↔ b = ⟨k⟩ := by
  rw [← UInt8.toNat_inj]; rfl

theorem step_ok (i : Spec.Chip8.Instr) {c : C8} {s s' : Spec.Chip8.State} (rand : UInt8) (h : Shows c s) (he : Spec.Chip8.exec s c.keys rand i = some s')
    (hr : Right s i) : ∃ c', step c (instrOf i) rand = .ok c' ∧ Shows c' s' := by
  cases i <;> simp only [Spec.Chip8.exec, Option.some.injEq] at he
  case cls =>
    subst he
    refine ⟨_, rfl, h.v, h.i, h.pc, h.dt, h.st, h.mem, h.sp, h.stack, ?_⟩
    intro px py p q
    show (if py * 64 + px < 2048 then (0 : UInt8) else _) = _
    rw [if_pos (by omega)]; rfl
  case ret =>
    cases hs : s.stack with
    | nil => rw [hs] at he; cases he
    | cons a rest =>
      rw [hs] at he
      simp only [Option.some.injEq] at he
      subst he
      have hk := h.stack
      have hsp := h.sp
      rw [hs] at hk
      obtain ⟨n, hn⟩ : ∃ n, c.sp.toNat = n + 1 := by
        cases e : c.sp.toNat with
        | zero => rw [e] at hk; cases hk
        | succ n => exact ⟨n, rfl⟩
      rw [hn, List.range_succ, List.map_append, List.reverse_append] at hk
      injection hk with hk1 hk2
      have hm : (c.sp - 1).toNat = n := by
        rw [UInt8.toNat_sub]
        show (2 ^ 8 - 1 + c.sp.toNat) % 2 ^ 8 = n
        omega
      refine ⟨{ c with sp := c.sp - 1, pc := c.stack (c.sp - 1).toNat, stack := fun j => if j = (c.sp - 1).toNat then 0 else c.stack j }, ?_, ?_⟩
      · show (if (c.sp - 1).toNat < 16 then _ else _) = _
        rw [if_pos (by omega)]
      · refine ⟨h.v, h.i, ?_, h.dt, h.st, h.mem, ?_, ?_, h.screen⟩
        · show c.stack (c.sp - 1).toNat = a
          rw [hm, hk1]
        · show (c.sp - 1).toNat ≤ 16
          omega
        · show rest = ((List.range (c.sp - 1).toNat).map fun j => if j = (c.sp - 1).toNat then 0 else c.stack j).reverse
          rw [hm, hk2]
          show (List.map c.stack (List.range n)).reverse = _
          congr 1
          apply List.map_congr_left
          intro j hj
          rw [List.mem_range] at hj
          rw [if_neg (by omega)]
  case jp a =>
    subst he
    exact ⟨_, rfl, h.v, h.i, rfl, h.dt, h.st, h.mem, h.sp, h.stack, h.screen⟩
  case call a =>
    have hlen : s.stack.length = c.sp.toNat := by rw [h.stack]; simp
    by_cases hl : s.stack.length < 16
    · rw [if_pos hl] at he
      injection he with he
      subst he
      have hsp : (c.sp + 1).toNat = c.sp.toNat + 1 := by
        rw [UInt8.toNat_add]
        show (c.sp.toNat + 1) % 256 = _
        omega
      refine ⟨{ c with stack := fun j => if j = c.sp.toNat then c.pc else c.stack j, sp := c.sp + 1, pc := .ofNat a.toNat }, ?_, ?_⟩
      · show (if c.sp.toNat < 16 then _ else _) = _
        rw [if_pos (by omega)]
        rfl
      · refine ⟨h.v, h.i, rfl, h.dt, h.st, h.mem, ?_, ?_, h.screen⟩
        · show (c.sp + 1).toNat ≤ 16
          omega
        · show s.pc :: s.stack = ((List.range (c.sp + 1).toNat).map fun j => if j = c.sp.toNat then c.pc else c.stack j).reverse
          rw [hsp, List.range_succ, List.map_append, List.reverse_append]
          simp only [List.map_cons, List.map_nil, List.reverse_cons, List.reverse_nil, List.nil_append, List.cons_append]
          rw [if_pos trivial, h.pc, h.stack]
          congr 2
          apply List.map_congr_left
          intro j hj
          rw [List.mem_range] at hj
          rw [if_neg (by omega)]
    · rw [if_neg hl] at he; cases he
  case se x k =>
    subst he
    refine ⟨_, rfl, h.skip _ _ ?_⟩
    show decide ((c.v x.toNat).toNat = k.toNat) = true ↔ _
    rw [decide_eq_true_eq, h.v, kk_iff]
  case sne x k =>
    subst he
    refine ⟨_, rfl, h.skip _ _ ?_⟩
    show decide ((c.v x.toNat).toNat ≠ k.toNat) = true ↔ _
    rw [decide_eq_true_eq, h.v, Ne, kk_iff]
  case seV x y =>
    subst he
    refine ⟨_, rfl, h.skip _ _ ?_⟩
    show decide (c.v x.toNat = c.v y.toNat) = true ↔ _
    rw [decide_eq_true_eq, h.v, h.v]
  case sneV x y =>
    subst he
    refine ⟨_, rfl, h.skip _ _ ?_⟩
    show decide (c.v x.toNat ≠ c.v y.toNat) = true ↔ _
    rw [decide_eq_true_eq, h.v, h.v]
  case ld x k =>
    subst he
    refine ⟨_, rfl, ?_⟩
    show Shows (c.setV x.toNat (.ofNat k.toNat)) _
    rw [ofNat_bv]
    exact h.set x _
  case add x k =>
    subst he
    refine ⟨_, rfl, ?_⟩
    show Shows (c.setV x.toNat (c.v x.toNat + .ofNat k.toNat)) _
    rw [ofNat_bv, h.v]
    exact h.set x _
  case ldV x y =>
    subst he
    refine ⟨_, rfl, ?_⟩
    show Shows (c.setV x.toNat (c.v y.toNat)) _
    rw [h.v]
    exact h.set x _
  case or x y =>
    subst he
    refine ⟨_, rfl, ?_⟩
    show Shows (c.setV x.toNat (c.v x.toNat ||| c.v y.toNat)) _
    rw [h.v, h.v]
    exact h.set x _
  case and x y =>
    subst he
    refine ⟨_, rfl, ?_⟩
    show Shows (c.setV x.toNat (c.v x.toNat &&& c.v y.toNat)) _
    rw [h.v, h.v]
    exact h.set x _
  case xor x y =>
    subst he
    refine ⟨_, rfl, ?_⟩
    show Shows (c.setV x.toNat (c.v x.toNat ^^^ c.v y.toNat)) _
    rw [h.v, h.v]
    exact h.set x _
  case addV x y =>
    subst he
    refine ⟨_, rfl, ?_⟩
    show Shows ((c.setV x.toNat (.ofNat (((c.v x.toNat).toNat + (c.v y.toNat).toNat) &&& 0xFF))).setV 15
      (if (c.v x.toNat).toNat + (c.v y.toNat).toNat > 255 then 1 else 0)) _
    rw [h.v, h.v, setF]
    have e : UInt8.ofNat (((s.v x).toNat + (s.v y).toNat) &&& 0xFF) = s.v x + s.v y := by
      apply UInt8.toNat_inj.mp
      rw [UInt8.toNat_ofNat', UInt8.toNat_add, Nat.and_two_pow_sub_one_eq_mod _ 8]
      omega
    rw [e]
    have f : (if (s.v x).toNat + (s.v y).toNat > 255 then (1 : UInt8) else 0) = Spec.Chip8.flag ((s.v x).toNat + (s.v y).toNat ≥ 256) := by
      unfold Spec.Chip8.flag
      by_cases hc : (s.v x).toNat + (s.v y).toNat > 255
      · rw [if_pos hc, if_pos (by omega)]
      · rw [if_neg hc, if_neg (by omega)]
    rw [f]
    exact (h.set x _).set _ _
  case sub x y => exact absurd hr id
  case shr x y =>
    subst he
    refine ⟨_, rfl, ?_⟩
    show Shows ((c.setV 15 (c.v x.toNat &&& 1)).setV x.toNat ((if x.toNat = 15 then _ else c.v x.toNat) >>> 1)) _
    have hx : x.toNat ≠ 15 := nat_ne hr
    rw [if_neg hx, h.v, setV_comm _ _ _ _ _ (fun e => hx e.symm), setF]
    have e1 : s.v x >>> 1 = .ofNat ((s.v x).toNat / 2) := by
      apply UInt8.toNat_inj.mp
      have := (s.v x).toNat_lt
      rw [UInt8.toNat_shiftRight, UInt8.toNat_ofNat']
      show (s.v x).toNat >>> 1 = _
      rw [Nat.shiftRight_eq_div_pow]
      omega
    have e2 : s.v x &&& 1 = Spec.Chip8.flag ((s.v x).toNat % 2 = 1) := by
      apply UInt8.toNat_inj.mp
      rw [UInt8.toNat_and]
      show (s.v x).toNat &&& (2 ^ 1 - 1) = _
      rw [Nat.and_two_pow_sub_one_eq_mod]
      unfold Spec.Chip8.flag
      by_cases hc : (s.v x).toNat % 2 = 1
      · rw [if_pos hc]; exact hc
      · rw [if_neg hc]; show _ = 0; omega
    rw [e1, e2]
    exact (h.set x _).set _ _
  case subn x y =>
    subst he
    show ∃ c', (if c.v y.toNat < c.v x.toNat then Res.ok ((c.setV x.toNat (255 + c.v y.toNat - c.v x.toNat)).setV 15 0)
      else Res.ok ((c.setV x.toNat (c.v y.toNat - c.v x.toNat)).setV 15 1)) = Res.ok c' ∧ _
    rw [h.v, h.v]
    by_cases hc : s.v y < s.v x
    · rw [if_pos hc]
      refine ⟨_, rfl, ?_⟩
      have hn : ¬ s.v x ≤ s.v y := by rw [UInt8.not_le]; exact hc
      rcases hr with hr | hr
      · exact absurd hr hn
      · subst hr
        rw [setF, setV_setV]
        have := h.set Spec.Chip8.VF 0
        have hfl : Spec.Chip8.flag (s.v Spec.Chip8.VF ≤ s.v y) = 0 := if_neg hn
        rw [hfl, ← setV_setV c _ (s.v y - s.v Spec.Chip8.VF)]
        exact (h.set _ _).set _ _
    · rw [if_neg hc]
      refine ⟨_, rfl, ?_⟩
      have hfl : Spec.Chip8.flag (s.v x ≤ s.v y) = 1 := if_pos (by rw [← UInt8.not_lt]; exact hc)
      rw [hfl, setF]
      exact (h.set _ _).set _ _
  case shl x y =>
    subst he
    refine ⟨_, rfl, ?_⟩
    show Shows ((c.setV 15 (if (c.v x.toNat).toNat <<< 1 > 255 then 1 else 0)).setV x.toNat (.ofNat ((c.v x.toNat).toNat <<< 1 &&& 0xFF))) _
    have hx : x.toNat ≠ 15 := nat_ne hr
    rw [h.v, setV_comm _ _ _ _ _ (fun e => hx e.symm), setF, Nat.shiftLeft_eq]
    have e1 : UInt8.ofNat ((s.v x).toNat * 2 ^ 1 &&& 0xFF) = .ofNat ((s.v x).toNat * 2) := by
      apply UInt8.toNat_inj.mp
      rw [UInt8.toNat_ofNat', UInt8.toNat_ofNat', Nat.and_two_pow_sub_one_eq_mod _ 8]
      omega
    have e2 : (if (s.v x).toNat * 2 ^ 1 > 255 then (1 : UInt8) else 0) = Spec.Chip8.flag ((s.v x).toNat ≥ 128) := by
      unfold Spec.Chip8.flag
      by_cases hc : (s.v x).toNat ≥ 128
      · rw [if_pos (by omega), if_pos hc]
      · rw [if_neg (by omega), if_neg hc]
    rw [e1, e2]
    exact (h.set x _).set _ _
  case ldI a =>
    subst he
    exact ⟨_, rfl, h.v, rfl, h.pc, h.dt, h.st, h.mem, h.sp, h.stack, h.screen⟩
  case jpV0 a =>
    subst he
    refine ⟨_, rfl, h.v, h.i, ?_, h.dt, h.st, h.mem, h.sp, h.stack, h.screen⟩
    show UInt16.ofNat ((c.v (0 : BitVec 4).toNat).toNat + a.toNat) = .ofNat (a.toNat + (s.v 0).toNat)
    rw [h.v, Nat.add_comm]
  case rnd x k =>
    subst he
    refine ⟨_, rfl, ?_⟩
    show Shows (c.setV x.toNat (rand &&& .ofNat k.toNat)) _
    rw [ofNat_bv]
    exact h.set x _
  case drw x y n =>
    by_cases hl : s.i.toNat + n.toNat ≤ 4096
    · rw [if_pos hl] at he
      injection he with he
      subst he
      obtain ⟨c', col, e1, h1, hc⟩ := rows_ok (instrOf (.drw x y n)) s (s.v x).toNat (s.v y).toNat n.toNat hr.1 hr.2 hl n.toNat 0 c false (by omega)
        (by rw [← h.v]; rfl) (by rw [← h.v]; rfl)
        ⟨h.v, h.i, h.pc, h.dt, h.st, h.mem, h.sp, h.stack, by
          intro px py p q
          rw [h.screen px py p q]
          simp [Spec.Chip8.covers]⟩
        (by simp [Spec.Chip8.covers])
      refine ⟨c'.setV 15 (if col then 1 else 0), ?_, ?_⟩
      · show (draw_rows (instrOf (.drw x y n)) n.toNat 0 c false).bind _ = _
        rw [e1]
        rfl
      · rw [setF]
        have key : ∀ (P : Prop) (inst : Decidable P), (col = true ↔ P) → (if col then (1 : UInt8) else 0) = @Spec.Chip8.flag P inst := by
          intro P inst hp
          unfold Spec.Chip8.flag
          by_cases e : col = true
          · rw [if_pos e, if_pos (hp.mp e)]
          · rw [if_neg e, if_neg (fun w => e (hp.mpr w))]
        rw [← key _ _ hc]
        exact h1.set _ _
    · rw [if_neg hl] at he; cases he
  case skp x =>
    by_cases hl : (s.v x).toNat < 16
    · rw [if_pos hl] at he
      injection he with he
      subst he
      refine ⟨{ c.skip (c.keys (s.v x).toNat) with keys := fun _ => false }, ?_, Shows.keys (h.skip _ _ Iff.rfl) _⟩
      show (if (c.v x.toNat).toNat < 16 then Res.ok { c.skip (c.keys (c.v x.toNat).toNat) with keys := fun _ => false } else _) = _
      rw [h.v, if_pos hl]
    · rw [if_neg hl] at he; cases he
  case sknp x =>
    by_cases hl : (s.v x).toNat < 16
    · rw [if_pos hl] at he
      injection he with he
      subst he
      refine ⟨c.skip (!c.keys (s.v x).toNat), ?_, h.skip _ _ (by cases c.keys (s.v x).toNat <;> decide)⟩
      show (if (c.v x.toNat).toNat < 16 then Res.ok (c.skip (!c.keys (c.v x.toNat).toNat)) else _) = _
      rw [h.v, if_pos hl]
    · rw [if_neg hl] at he; cases he
  case ldVDt x =>
    subst he
    refine ⟨_, rfl, ?_⟩
    show Shows (c.setV x.toNat c.dt) _
    rw [h.dt]
    exact h.set x _
  case ldK x => cases he
  case ldDt x =>
    subst he
    exact ⟨_, rfl, h.v, h.i, h.pc, h.v x, h.st, h.mem, h.sp, h.stack, h.screen⟩
  case ldSt x =>
    subst he
    exact ⟨_, rfl, h.v, h.i, h.pc, h.dt, h.v x, h.mem, h.sp, h.stack, h.screen⟩
  case addI x =>
    subst he
    refine ⟨_, rfl, h.v, ?_, h.pc, h.dt, h.st, h.mem, h.sp, h.stack, h.screen⟩
    show c.i + (c.v x.toNat).toUInt16 = s.i + .ofNat (s.v x).toNat
    rw [h.v, h.i]
    congr 1
    apply UInt16.toNat_inj.mp
    rw [UInt16.toNat_ofNat', UInt8.toNat_toUInt16]
    have := (s.v x).toNat_lt
    omega
  case ldF x =>
    by_cases hl : (s.v x).toNat < 16
    · rw [if_pos hl] at he
      injection he with he
      subst he
      refine ⟨{ c with i := .ofNat (5 * (s.v x).toNat) }, ?_, h.v, rfl, h.pc, h.dt, h.st, h.mem, h.sp, h.stack, h.screen⟩
      show (if (c.v x.toNat).toNat > 15 then _ else Res.ok { c with i := .ofNat ((c.v x.toNat).toNat * 5) }) = _
      rw [h.v, if_neg (by omega), Nat.mul_comm]
    · rw [if_neg hl] at he; cases he
  case ldB x =>
    by_cases hl : s.i.toNat + 3 ≤ 4096
    · rw [if_pos hl] at he
      injection he with he
      subst he
      obtain ⟨c1, e1, i1, v1, h1⟩ := poke_ok h c.i.toNat (by rw [h.i]; omega) (s.v x / 10 / 10)
      obtain ⟨c2, e2, i2, v2, h2⟩ := poke_ok h1 (c1.i.toNat + 1) (by rw [i1, h.i]; omega) (s.v x / 10 % 10)
      obtain ⟨c3, e3, i3, v3, h3⟩ := poke_ok h2 (c2.i.toNat + 2) (by rw [i2, i1, h.i]; omega) (s.v x % 10)
      refine ⟨c3, ?_, h3.v, h3.i, h3.pc, h3.dt, h3.st, ?_, h3.sp, h3.stack, h3.screen⟩
      · show (poke c c.i.toNat (c.v x.toNat / 10 / 10)).bind (fun c1 => (poke c1 (c1.i.toNat + 1) (c.v x.toNat / 10 % 10)).bind fun c2 =>
          poke c2 (c2.i.toNat + 2) (c.v x.toNat % 10)) = _
        rw [h.v, e1]
        show (poke c1 (c1.i.toNat + 1) (s.v x / 10 % 10)).bind _ = _
        rw [e2]
        exact e3
      · intro a ha
        rw [h3.mem a ha, i2, i1, h.i]
        show (if a = s.i.toNat + 2 then s.v x % 10 else if a = s.i.toNat + 1 then s.v x / 10 % 10 else if a = s.i.toNat then s.v x / 10 / 10 else s.mem a) =
          if a = s.i.toNat then UInt8.ofNat ((s.v x).toNat / 100)
          else if a = s.i.toNat + 1 then .ofNat ((s.v x).toNat / 10 % 10)
          else if a = s.i.toNat + 2 then .ofNat ((s.v x).toNat % 10)
          else s.mem a
        have hb := (s.v x).toNat_lt
        have f1 : s.v x / 10 / 10 = .ofNat ((s.v x).toNat / 100) := by
          apply UInt8.toNat_inj.mp
          rw [UInt8.toNat_div, UInt8.toNat_div, UInt8.toNat_ofNat']
          show (s.v x).toNat / 10 / 10 = _
          omega
        have f2 : s.v x / 10 % 10 = .ofNat ((s.v x).toNat / 10 % 10) := by
          apply UInt8.toNat_inj.mp
          rw [UInt8.toNat_mod, UInt8.toNat_div, UInt8.toNat_ofNat']
          show (s.v x).toNat / 10 % 10 = _
          omega
        have f3 : s.v x % 10 = .ofNat ((s.v x).toNat % 10) := by
          apply UInt8.toNat_inj.mp
          rw [UInt8.toNat_mod, UInt8.toNat_ofNat']
          show (s.v x).toNat % 10 = _
          omega
        rw [f1, f2, f3]
        by_cases c1 : a = s.i.toNat
        · rw [if_neg (by omega), if_neg (by omega), if_pos c1, if_pos c1]
        · rw [if_neg c1, if_neg c1]
          by_cases c2 : a = s.i.toNat + 1
          · rw [if_neg (by omega), if_pos c2, if_pos c2]
          · rw [if_neg c2, if_neg c2]
    · rw [if_neg hl] at he; cases he
  case save x =>
    by_cases hl : s.i.toNat + x.toNat < 4096
    · rw [if_pos hl] at he
      injection he with he
      subst he
      have hx := x.isLt
      obtain ⟨c', e, h'⟩ := dump_ok (x.toNat + 1) 0 h (by omega) (by rw [h.i]; omega)
      refine ⟨c', e, h'.v, h'.i, h'.pc, h'.dt, h'.st, ?_, h'.sp, h'.stack, h'.screen⟩
      intro a ha
      rw [h'.mem a ha]
      show (if s.i.toNat + 0 ≤ a ∧ a < s.i.toNat + 0 + (x.toNat + 1) then _ else _) = if s.i.toNat ≤ a ∧ a ≤ s.i.toNat + x.toNat then _ else _
      by_cases c1 : s.i.toNat ≤ a ∧ a ≤ s.i.toNat + x.toNat
      · rw [if_pos c1, if_pos (by omega)]
      · rw [if_neg c1, if_neg (by omega)]
    · rw [if_neg hl] at he; cases he
  case load x =>
    by_cases hl : s.i.toNat + x.toNat < 4096
    · rw [if_pos hl] at he
      injection he with he
      subst he
      have hx := x.isLt
      obtain ⟨c', e, h'⟩ := fill_ok (x.toNat + 1) 0 h (by omega) (by rw [h.i]; omega)
      refine ⟨c', e, ?_, h'.i, h'.pc, h'.dt, h'.st, h'.mem, h'.sp, h'.stack, h'.screen⟩
      intro y
      rw [h'.v y]
      show (if 0 ≤ y.toNat ∧ y.toNat < 0 + (x.toNat + 1) then _ else _) = if y ≤ x then _ else _
      have hy : y ≤ x ↔ y.toNat ≤ x.toNat := BitVec.le_def
      by_cases c1 : y ≤ x
      · rw [if_pos c1, if_pos (by rw [hy] at c1; omega)]
      · rw [if_neg c1, if_neg (by rw [hy] at c1; omega)]
    · rw [if_neg hl] at he; cases he
end Che.Prog.Chip8
