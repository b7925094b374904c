import Verif.Model.Lib.Bits
import Verif.Spec.Lib.Bits
import Verif.Proofs.Lib.IO

namespace Che.Lib.Bits
open Che.Spec.Lib

theorem forall_byte {P : UInt8 → Prop} (h : ∀ n : Fin 256, P (UInt8.ofNat n.val)) (b : UInt8) : P b := by
  have := h ⟨b.toNat, b.toNat_lt⟩
  simpa using this

theorem bitsOf_length (r : Bool) (b : UInt8) : (bitsOf r b).length = 8 := by
  cases r <;> rfl

theorem msb_length (b : UInt8) : (msbFirst b).length = 8 := rfl

theorem reversebyte_bits (b : UInt8) : lsbFirst (reversebyte b) = msbFirst b := by
  revert b
  apply forall_byte
  decide +kernel

theorem set_bit (b : UInt8) (p : Nat) (hp : p < 8) :
    msbFirst (b ||| UInt8.ofNat (bitvals.getD p 0)) = (msbFirst b).set p true := by
  have h : ∀ n : Fin 256, ∀ p : Fin 8,
      msbFirst (UInt8.ofNat n.val ||| UInt8.ofNat (bitvals.getD p.val 0)) = (msbFirst (UInt8.ofNat n.val)).set p.val true := by
    decide +kernel
  have := h ⟨b.toNat, b.toNat_lt⟩ ⟨p, hp⟩
  simpa using this

/-- Everything written so far. -/
def written (w : BitWriter) : List Bool := bitString w.reverse w.out.out ++ (msbFirst w.buf).take w.pos

/-- The state of a writer that has met no error. -/
structure Good (w : BitWriter) : Prop where
  err : w.err = false
  pos : w.pos < 8
  rest : (msbFirst w.buf).drop w.pos = List.replicate (8 - w.pos) false

theorem good_new (out : Writer) (r : Bool) : Good (newwriter out r) := by
  refine ⟨rfl, by simp [newwriter], ?_⟩
  simp only [newwriter]
  decide +kernel

theorem written_new (out : Writer) (r : Bool) : written (newwriter out r) = bitString r out.out := by
  simp [written, newwriter]

theorem bitString_append (r : Bool) (a b : List UInt8) : bitString r (a ++ b) = bitString r a ++ bitString r b := by
  simp [bitString]

theorem bitString_one (r : Bool) (b : UInt8) : bitString r [b] = bitsOf r b := by
  simp [bitString]

theorem flush_spec (w : BitWriter) :
    let val := if w.reverse then reversebyte w.buf else w.buf
    (flush w).reverse = w.reverse ∧ (flush w).out.kind = w.out.kind ∧
    (((flush w).err = true ∧ (w.out.write [val]).2 ≠ 1) ∨
      ((flush w).err = w.err ∧ (flush w).pos = 0 ∧ (flush w).buf = 0 ∧ (flush w).out.out = w.out.out ++ [val])) := by
  simp only
  generalize hv : (if w.reverse = true then reversebyte w.buf else w.buf) = val
  have hs := w.out.write_spec [val]
  have ha := w.out.write_all [val]
  unfold flush
  simp only [hv]
  generalize w.out.write [val] = x at hs ha
  obtain ⟨o, r⟩ := x
  simp only at hs ha ⊢
  by_cases h1 : r = 1
  · simp only [h1, ne_eq, not_true_eq_false, ↓reduceIte]
    exact ⟨trivial, hs.1, Or.inr ⟨trivial, trivial, trivial, ha (by simp [h1])⟩⟩
  · simp only [ne_eq, h1, not_false_eq_true, ↓reduceIte]
    exact ⟨trivial, hs.1, Or.inl ⟨trivial, trivial⟩⟩

theorem flush_bits (w : BitWriter) :
    bitsOf w.reverse (if w.reverse then reversebyte w.buf else w.buf) = msbFirst w.buf := by
  cases h : w.reverse
  · simp [bitsOf]
  · simp [bitsOf, reversebyte_bits]

/-- Writing one bit. -/
theorem write1_spec (w : BitWriter) (b : UInt8) (hg : Good w) :
    (write1 w b).1.reverse = w.reverse ∧ (write1 w b).1.out.kind = w.out.kind ∧
    (((write1 w b).2 = false ∧ (write1 w b).1.err = true ∧ w.out.kind ≠ .file none) ∨
      ((write1 w b).2 = true ∧ Good (write1 w b).1 ∧
        written (write1 w b).1 = written w ++ [decide (b ≠ 0)])) := by
  obtain ⟨herr, hpos, hrest⟩ := hg
  -- the byte with the bit in it
  obtain ⟨buf', hbuf⟩ : ∃ x, x = (if b ≠ 0 then w.buf ||| UInt8.ofNat (bitvals.getD w.pos 0) else w.buf) := ⟨_, rfl⟩
  have hbits : msbFirst buf' = (msbFirst w.buf).set w.pos (decide (b ≠ 0)) := by
    rw [hbuf]
    by_cases hb : b = 0
    · simp only [hb, ne_eq, not_true_eq_false, ↓reduceIte, decide_false]
      have hget : (msbFirst w.buf)[w.pos]'(by rw [msb_length]; exact hpos) = false := by
        have h0 : ((msbFirst w.buf).drop w.pos)[0]? = some false := by
          rw [hrest]
          obtain ⟨k, hk⟩ : ∃ k, 8 - w.pos = k + 1 := ⟨7 - w.pos, by omega⟩
          rw [hk]; rfl
        rw [List.getElem?_drop, Nat.add_zero, List.getElem?_eq_getElem (by rw [msb_length]; exact hpos)] at h0
        exact Option.some.inj h0
      rw [← hget, List.set_getElem_self]
    · simp only [ne_eq, hb, not_false_eq_true, ↓reduceIte, decide_true]
      exact set_bit _ _ hpos
  have htake : (msbFirst buf').take (w.pos + 1) = (msbFirst w.buf).take w.pos ++ [decide (b ≠ 0)] := by
    rw [hbits, List.take_succ_eq_append_getElem (by rw [List.length_set, msb_length]; exact hpos)]
    congr 1
    · rw [List.take_set_of_le (Nat.le_refl _)]
    · rw [List.getElem_set_self]
  have hdrop : (msbFirst buf').drop (w.pos + 1) = List.replicate (8 - (w.pos + 1)) false := by
    rw [hbits, List.drop_set_of_lt (by omega)]
    have := congrArg List.tail hrest
    rw [List.tail_drop] at this
    rw [this]
    obtain ⟨k, hk⟩ : ∃ k, 8 - w.pos = k + 1 := ⟨7 - w.pos, by omega⟩
    have hk' : 8 - (w.pos + 1) = k := by omega
    rw [hk, hk']; rfl
  have hw : (if b ≠ 0 then { w with buf := w.buf ||| UInt8.ofNat (bitvals.getD w.pos 0) } else w)
      = { w with buf := buf' } := by
    rw [hbuf]; by_cases hb : b = 0 <;> simp [hb]
  have hstep : write1 w b = if w.pos + 1 = 8 then
        if (flush { w with buf := buf', pos := w.pos + 1 }).err = true
          then (flush { w with buf := buf', pos := w.pos + 1 }, false)
          else (flush { w with buf := buf', pos := w.pos + 1 }, true)
      else ({ w with buf := buf', pos := w.pos + 1 }, true) := by
    unfold write1
    rw [if_neg (by rw [herr]; simp)]
    simp only
    rw [hw]
  rw [hstep]
  by_cases h8 : w.pos + 1 = 8
  · rw [if_pos h8, h8]
    obtain ⟨f1, f2, f3⟩ := flush_spec { w with buf := buf', pos := 8 }
    have fb := flush_bits { w with buf := buf', pos := 8 }
    simp only at f1 f2 f3 fb
    have hfull : msbFirst buf' = (msbFirst w.buf).take w.pos ++ [decide (b ≠ 0)] := by
      rw [← htake, h8]
      exact (List.take_of_length_le (by rw [msb_length]; exact Nat.le_refl _)).symm
    rcases f3 with ⟨f3, f4⟩ | ⟨f3, f4, f5, f6⟩
    · rw [if_pos f3]
      refine ⟨f1, f2, Or.inl ⟨rfl, f3, fun hk => f4 ?_⟩⟩
      exact (Writer.write_file w.out _ hk).2
    · have f3' : (flush { w with buf := buf', pos := 8 }).err = false := f3.trans herr
      rw [if_neg (by rw [f3']; simp)]
      refine ⟨f1, f2, Or.inr ⟨rfl, ⟨f3', by rw [f4]; decide, ?_⟩, ?_⟩⟩
      · simp only [f4, f5]; decide +kernel
      · unfold written
        simp only [f1, f4, f6]
        rw [bitString_append, bitString_one, fb, hfull]
        simp
  · rw [if_neg h8]
    refine ⟨rfl, rfl, Or.inr ⟨rfl, ⟨herr, by simp only; omega, hdrop⟩, ?_⟩⟩
    unfold written
    simp only [htake]
    simp

theorem write_spec (w : BitWriter) (bits : Bytes) (hg : Good w) :
    (write w bits).1.reverse = w.reverse ∧ (write w bits).1.out.kind = w.out.kind ∧
    (((write w bits).2 = false ∧ (write w bits).1.err = true ∧ w.out.kind ≠ .file none) ∨
      ((write w bits).2 = true ∧ Good (write w bits).1 ∧
        written (write w bits).1 = written w ++ bits.map fun b => decide (b ≠ 0))) := by
  induction bits generalizing w with
  | nil => exact ⟨rfl, rfl, Or.inr ⟨rfl, hg, by simp [write]⟩⟩
  | cons b rest ih =>
    obtain ⟨h1, h2, h3⟩ := write1_spec w b hg
    unfold write
    simp only
    rcases h3 with ⟨h3, h4, h5⟩ | ⟨h3, h4, h5⟩
    · rw [h3]
      exact ⟨h1, h2, Or.inl ⟨rfl, h4, h5⟩⟩
    · rw [h3]
      obtain ⟨i1, i2, i3⟩ := ih _ h4
      refine ⟨i1.trans h1, i2.trans h2, ?_⟩
      rcases i3 with ⟨i3, i4, i5⟩ | ⟨i3, i4, i5⟩
      · exact Or.inl ⟨i3, i4, by rw [h2] at i5; exact i5⟩
      · exact Or.inr ⟨i3, i4, by simp only [Bool.not_true, Bool.false_eq_true, ↓reduceIte]; rw [i5, h5]; simp⟩

/-- Closing the writer pads the last byte with zeros. -/
theorem close_spec (w : BitWriter) (hg : Good w) :
    ((closewriter w).2 = false ∧ w.out.kind ≠ .file none) ∨
    ((closewriter w).2 = true ∧ ∃ k, k < 8 ∧
      bitString w.reverse (closewriter w).1.out = written w ++ List.replicate k false) := by
  obtain ⟨herr, hpos, hrest⟩ := hg
  unfold closewriter
  by_cases h0 : w.pos > 0
  · simp only [h0, decide_true, herr, Bool.not_false, Bool.and_self, ↓reduceIte]
    obtain ⟨f1, f2, f3⟩ := flush_spec w
    have fb := flush_bits w
    rcases f3 with ⟨f3, f4⟩ | ⟨f3, f4, f5, f6⟩
    · exact Or.inl ⟨by simp [f3], fun hk => f4 (Writer.write_file w.out _ hk).2⟩
    · refine Or.inr ⟨by simp [f3, herr], 8 - w.pos, by omega, ?_⟩
      rw [f6, bitString_append, bitString_one, fb, ← hrest, written, List.append_assoc, List.take_append_drop]
  · have : w.pos = 0 := by omega
    simp only [this, Nat.lt_irrefl, gt_iff_lt, decide_false, Bool.false_and, Bool.false_eq_true, ↓reduceIte, herr, Bool.not_false]
    exact Or.inr ⟨trivial, 0, by omega, by simp [written, this]⟩

theorem close_err (w : BitWriter) (h : w.err = true) : (closewriter w).2 = false := by
  simp [closewriter, h]

/-! ### Reading -/

/-- The bits still to come. -/
def leftBits (s : BitReader) : List Bool :=
  (bitsOf s.reverse s.byte).drop (8 - s.rem) ++ bitString s.reverse s.input.src.rest

theorem take_bit (r : Bool) (b : UInt8) (k : Nat) (hk : k < 8) :
    (decide ((if r then b.toNat &&& bitvals.getD k 0 else b.toNat &&& bitvals.getD (7 - k) 0) > 0)) =
      (bitsOf r b)[7 - k]'(by rw [bitsOf_length]; omega) := by
  have h : ∀ r : Bool, ∀ n : Fin 256, ∀ k : Fin 8,
      some (decide ((if r then (UInt8.ofNat n.val).toNat &&& bitvals.getD k.val 0
          else (UInt8.ofNat n.val).toNat &&& bitvals.getD (7 - k.val) 0) > 0)) =
        (bitsOf r (UInt8.ofNat n.val))[7 - k.val]? := by
    decide +kernel
  have h1 := h r ⟨b.toNat, b.toNat_lt⟩ ⟨k, hk⟩
  simp only [UInt8.ofNat_toNat] at h1
  rw [List.getElem?_eq_getElem (by rw [bitsOf_length]; omega)] at h1
  exact Option.some.inj h1

theorem takeBit_spec (s : BitReader) (h0 : 0 < s.rem) (h8 : s.rem ≤ 8) :
    ∃ b : Bool, leftBits s = b :: leftBits (takeBit s).1 ∧ (takeBit s).2 = (if b then 1 else 0) ∧
      (takeBit s).1.reverse = s.reverse ∧ (takeBit s).1.input = s.input ∧ (takeBit s).1.rem = s.rem - 1 := by
  have hb := take_bit s.reverse s.byte (s.rem - 1) (by omega)
  refine ⟨(bitsOf s.reverse s.byte)[7 - (s.rem - 1)]'(by rw [bitsOf_length]; omega), ?_, ?_, rfl, rfl, rfl⟩
  · unfold leftBits
    simp only [takeBit]
    rw [← List.cons_append]
    congr 1
    have e1 : 8 - s.rem = 7 - (s.rem - 1) := by omega
    have e2 : 8 - (s.rem - 1) = 7 - (s.rem - 1) + 1 := by omega
    rw [e1, e2]
    exact List.drop_eq_getElem_cons (by rw [bitsOf_length]; omega)
  · rw [← hb]
    simp only [takeBit]
    by_cases hx : (if s.reverse = true then s.byte.toNat &&& bitvals.getD (s.rem - 1) 0
        else s.byte.toNat &&& bitvals.getD (7 - (s.rem - 1)) 0) > 0
    · simp only [hx, ↓reduceIte, decide_true]; rfl
    · simp only [hx, ↓reduceIte, decide_false, Bool.false_eq_true]
      have : (if s.reverse = true then s.byte.toNat &&& bitvals.getD (s.rem - 1) 0
        else s.byte.toNat &&& bitvals.getD (7 - (s.rem - 1)) 0) = 0 := by omega
      rw [this]; rfl

theorem read1_load (s : BitReader) (h0 : s.rem = 0) (src : Source) (r : Int) (got : Bytes)
    (h : s.input.src.read 1 = (src, r, got)) :
    (r < 0 → (read1 s).2 = -1) ∧
    (0 ≤ r → ∃ p, read1 s = takeBit ⟨⟨src, p⟩, got.getD 0 s.byte, 8, s.reverse⟩) := by
  constructor
  · intro hr
    simp [read1, h0, Reader.read, h, hr]
  · intro hr
    refine ⟨if r > 0 then s.input.pos + r.toNat else s.input.pos, ?_⟩
    have : ¬ r < 0 := by omega
    simp [read1, h0, Reader.read, h, this]

/-- Reading one bit of a source that delivers what it has. -/
theorem read1_spec (s : BitReader) (h8 : s.rem ≤ 8) (hf : s.input.src.full = true) :
    (∃ b : Bool, leftBits s = b :: leftBits (read1 s).1 ∧ (read1 s).2 = (if b then 1 else 0) ∧
      (read1 s).1.reverse = s.reverse ∧ (read1 s).1.input.src.full = true ∧ (read1 s).1.rem ≤ 8) ∨
    (leftBits s = [] ∧ ∀ r, s.input.src = .file r → (read1 s).2 = -1) := by
  by_cases h0 : s.rem = 0
  · obtain ⟨r1, r2, r3, r4⟩ := Source.read_full s.input.src 1 hf (by omega)
    obtain ⟨l1, l2⟩ := read1_load s h0 (s.input.src.read 1).1 (s.input.src.read 1).2.1 (s.input.src.read 1).2.2 rfl
    cases hrest : s.input.src.rest with
    | nil =>
      right
      refine ⟨by simp [leftBits, h0, hrest, bitString, List.drop_of_length_le, bitsOf_length], fun l hl => ?_⟩
      rcases r4 with ⟨r4, _⟩ | ⟨_, r4⟩
      · exfalso
        rw [hl] at hrest r4
        simp only [Source.rest] at hrest
        rw [hrest] at r4
        exact r4 rfl
      · exact l1 (by rw [r4]; decide)
    | cons b rest =>
      left
      rw [hrest] at r1 r2 r4
      have hr : (s.input.src.read 1).2.1 = 1 := by
        rcases r4 with ⟨_, r4⟩ | ⟨r4, _⟩
        · simpa using r4
        · rw [r4] at hrest; simp [Source.rest] at hrest
      simp only [List.take_succ_cons, List.take_zero, List.drop_succ_cons, List.drop_zero] at r1 r2
      obtain ⟨p, hp⟩ := l2 (by rw [hr]; decide)
      rw [hp]
      obtain ⟨b', e1, e2, e3, e4, e5⟩ := takeBit_spec
        ⟨⟨(s.input.src.read 1).1, p⟩, (s.input.src.read 1).2.2.getD 0 s.byte, 8, s.reverse⟩ (by simp) (by simp)
      refine ⟨b', ?_, e2, e3, ?_, ?_⟩
      · rw [← e1]
        simp only [leftBits, h0, r1, r2, hrest]
        simp [bitString, List.drop_of_length_le, bitsOf_length]
      · rw [e4]; exact r3
      · rw [e5]; simp
  · left
    have e : read1 s = takeBit s := by simp [read1, h0]
    rw [e]
    obtain ⟨b, e1, e2, e3, e4, e5⟩ := takeBit_spec s (by omega) h8
    exact ⟨b, e1, e2, e3, by rw [e4]; exact hf, by rw [e5]; omega⟩

theorem read1_file (s : BitReader) (r : Bytes) (hs : s.input.src = .file r) :
    ∃ r', (read1 s).1.input.src = .file r' := by
  by_cases h0 : s.rem = 0
  · simp only [read1, h0, ↓reduceIte, Reader.read, hs, Source.read]
    split
    · exact ⟨_, rfl⟩
    · exact ⟨_, rfl⟩
  · exact ⟨r, by simp [read1, h0, takeBit, hs]⟩

end Che.Lib.Bits
