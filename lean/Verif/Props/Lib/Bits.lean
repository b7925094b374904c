import Verif.Proofs.Lib.Bits
import Mathlib.Tactic.Ring

/-!
C49: bit streams.
-/
namespace Che.Props
open Che.Lib Che.Lib.Bits Che.Spec.Lib

/-- C49: unpacking a byte gives its bits, in the named order. -/
theorem C49_unpack (b : UInt8) :
    getbits_lsfirst b = (lsbFirst b).map (fun x => if x then 1 else 0) ∧
    getbits_msfirst b = (msbFirst b).map (fun x => if x then 1 else 0) := by
  revert b
  apply forall_byte
  decide +kernel

/-- C49: if closing the writer reports success, the destination has received exactly
the bits written, in the chosen order within each byte, and fewer than eight zeros
to fill the last byte. -/
theorem C49_write (out : Writer) (lsb : Bool) (bits : Bytes)
    (h : (closewriter (write (newwriter out lsb) bits).1).2 = true) :
    ∃ k, k < 8 ∧ bitString lsb (closewriter (write (newwriter out lsb) bits).1).1.out =
      bitString lsb out.out ++ bits.map (fun b => decide (b ≠ 0)) ++ List.replicate k false := by
  obtain ⟨h1, h2, h3⟩ := write_spec (newwriter out lsb) bits (good_new out lsb)
  rcases h3 with ⟨_, h4, _⟩ | ⟨h3, h4, h5⟩
  · rw [close_err _ h4] at h; simp at h
  · rcases close_spec _ h4 with ⟨c, _⟩ | ⟨_, k, hk, hc⟩
    · rw [c] at h; simp at h
    · refine ⟨k, hk, ?_⟩
      rw [h1] at hc
      rw [h5, written_new] at hc
      exact hc

/-- C49: writing to a file that does not get full succeeds. -/
theorem C49_no_error (out : Writer) (lsb : Bool) (bits : Bytes) (hk : out.kind = .file none) :
    (closewriter (write (newwriter out lsb) bits).1).2 = true := by
  obtain ⟨h1, h2, h3⟩ := write_spec (newwriter out lsb) bits (good_new out lsb)
  rcases h3 with ⟨_, _, h5⟩ | ⟨h3, h4, h5⟩
  · exact absurd hk h5
  · rcases close_spec _ h4 with ⟨_, c⟩ | ⟨c, _⟩
    · exact absurd (h2.trans hk) c
    · exact c

/-- The results of `n` reads in a row. -/
def bitReads : Nat → BitReader → List Int
  | 0, _ => []
  | n + 1, s => (read1 s).2 :: bitReads n (read1 s).1

theorem reads_spec (n : Nat) (s : BitReader) (h8 : s.rem ≤ 8) (hf : s.input.src.full = true)
    (hn : n ≤ (leftBits s).length) :
    bitReads n s = ((leftBits s).take n).map (fun b => if b then 1 else 0) := by
  induction n generalizing s with
  | zero => simp [bitReads]
  | succ n ih =>
    rcases read1_spec s h8 hf with ⟨b, e1, e2, e3, e4, e5⟩ | ⟨e1, _⟩
    · rw [e1] at hn
      simp only [List.length_cons] at hn
      rw [bitReads, ih _ e5 e4 (by omega), e2, e1]
      simp
    · rw [e1] at hn; simp at hn

theorem leftBits_nil (s : BitReader) (h8 : s.rem ≤ 8) (h : leftBits s = []) :
    s.rem = 0 ∧ s.input.src.rest = [] := by
  unfold leftBits at h
  obtain ⟨h1, h2⟩ := List.append_eq_nil_iff.1 h
  constructor
  · have := congrArg List.length h1
    simp [bitsOf_length] at this
    omega
  · cases hr : s.input.src.rest with
    | nil => rfl
    | cons b rest =>
      rw [hr] at h2
      have := congrArg List.length h2
      simp [bitString, bitsOf_length] at this

theorem reads_end (n : Nat) (s : BitReader) (h0 : s.rem = 0) (hs : s.input.src = .file []) :
    bitReads n s = List.replicate n (-1) := by
  induction n generalizing s with
  | zero => rfl
  | succ n ih =>
    have e : read1 s = ({ s with input := { src := .file [], pos := s.input.pos } }, -1) := by
      simp [read1, h0, Reader.read, hs, Source.read, fileRead]
    rw [bitReads, e]
    exact congrArg _ (ih { s with input := { src := .file [], pos := s.input.pos } } h0 rfl)

theorem reads_file (n : Nat) (s : BitReader) (r : Bytes) (h8 : s.rem ≤ 8) (hs : s.input.src = .file r) :
    bitReads n s = ((leftBits s).take n).map (fun b => if b then 1 else 0) ++
      List.replicate (n - (leftBits s).length) (-1) := by
  induction n generalizing s r with
  | zero => simp [bitReads]
  | succ n ih =>
    rcases read1_spec s h8 (by rw [hs]; rfl) with ⟨b, e1, e2, e3, e4, e5⟩ | ⟨e1, _⟩
    · obtain ⟨r', hr'⟩ := read1_file s r hs
      rw [bitReads, ih _ _ e5 hr', e2, e1]
      simp
    · obtain ⟨h0, hr⟩ := leftBits_nil s h8 e1
      rw [hs] at hr
      simp only [Source.rest] at hr
      rw [hr] at hs
      rw [reads_end _ _ h0 hs, e1]
      simp

/-- C49: reading a file gives its bits one after another, in the chosen order within
each byte. -/
theorem C49_read (data : Bytes) (lsb : Bool) (n : Nat) (hn : n ≤ (bitString lsb data).length) :
    bitReads n (newreader (Reader.ofFile data) lsb) =
      ((bitString lsb data).take n).map (fun b => if b then 1 else 0) ∧
    bitReads n (newreader (Reader.ofBuffer data) lsb) =
      ((bitString lsb data).take n).map (fun b => if b then 1 else 0) := by
  have e : ∀ src : Source, src.rest = data →
      leftBits (newreader ⟨src, 0⟩ lsb) = bitString lsb data := by
    intro src hs
    simp [leftBits, newreader, hs, List.drop_of_length_le, bitsOf_length]
  have e1 := e (.file data) rfl
  have e2 := e (.mem data) rfl
  constructor
  · rw [← e1] at hn ⊢
    exact reads_spec n _ (by simp [newreader]) rfl hn
  · rw [← e2] at hn ⊢
    exact reads_spec n _ (by simp [newreader]) rfl hn

/-- C49: after the last bit of a file every read gives -1, and never before. -/
theorem C49_end (data : Bytes) (lsb : Bool) (n : Nat) :
    bitReads n (newreader (Reader.ofFile data) lsb) =
      ((bitString lsb data).take n).map (fun b => if b then 1 else 0) ++
        List.replicate (n - (bitString lsb data).length) (-1) := by
  have e : leftBits (newreader (Reader.ofFile data) lsb) = bitString lsb data := by
    simp [leftBits, newreader, Reader.ofFile, Source.rest, List.drop_of_length_le, bitsOf_length]
  rw [reads_file n _ data (by simp [newreader]) rfl, e]

/-- C49: what was written can be read back bit by bit. -/
theorem C49_round_trip (bits : Bytes) (lsb : Bool) :
    bitReads bits.length (newreader (Reader.ofFile
        (closewriter (write (newwriter Writer.toFile lsb) bits).1).1.out) lsb) =
      bits.map (fun b => if b ≠ 0 then 1 else 0) := by
  obtain ⟨k, _, hk⟩ := C49_write Writer.toFile lsb bits (C49_no_error _ _ _ rfl)
  have e : bitString lsb Writer.toFile.out = [] := rfl
  rw [e, List.nil_append] at hk
  rw [(C49_read _ lsb bits.length (by rw [hk]; simp)).1, hk]
  rw [List.take_append_of_le_length (by simp), List.take_of_length_le (by simp), List.map_map]
  apply List.map_congr_left
  intro b _
  by_cases hb : b = 0 <;> simp [hb]

theorem readnLoop_spec (n : Nat) (s : BitReader) (r : Nat) (h8 : s.rem ≤ 8) (hf : s.input.src.full = true)
    (hn : n ≤ (leftBits s).length) :
    (readnLoop n s r).2 = (r * 2 ^ n + bitsValue ((leftBits s).take n) : Nat) ∧
    leftBits (readnLoop n s r).1 = (leftBits s).drop n := by
  induction n generalizing s r with
  | zero => simp [readnLoop, bitsValue]
  | succ n ih =>
    rcases read1_spec s h8 hf with ⟨b, e1, e2, e3, e4, e5⟩ | ⟨e1, _⟩
    · rw [e1] at hn
      simp only [List.length_cons] at hn
      have hc : ¬ (read1 s).2 < 0 := by rw [e2]; cases b <;> decide
      have hs : readnLoop (n + 1) s r = readnLoop n (read1 s).1 ((r * 2 + (if b then 1 else 0) : Nat) : Int) := by
        rw [readnLoop]
        simp only [if_neg hc]
        rw [e2]
        congr 1
        cases b <;> simp
      obtain ⟨i1, i2⟩ := ih _ (r * 2 + (if b then 1 else 0)) e5 e4 (by omega)
      rw [hs, i2, e1]
      refine ⟨?_, by simp⟩
      rw [i1]
      congr 1
      simp only [List.take_succ_cons, bitsValue, List.length_take]
      have : min n (leftBits (read1 s).1).length = n := by omega
      rw [this, Nat.pow_succ]
      cases b <;> simp <;> ring_nf
    · rw [e1] at hn; simp at hn

/-- C49: `readn` gives the number with the next `n` bits, the first one most
significant, and moves past them. -/
theorem C49_readn (s : BitReader) (n : Nat) (h8 : s.rem ≤ 8) (hf : s.input.src.full = true)
    (hn : n ≤ (leftBits s).length) :
    (readn s n).2 = (bitsValue ((leftBits s).take n) : Nat) ∧
    leftBits (readn s n).1 = (leftBits s).drop n := by
  have := readnLoop_spec n s 0 h8 hf hn
  simpa [readn] using this

/-- C49 is false for a reader of memory: it reports the end as zero bytes, which the
bit reader takes for success, and the last byte is read again and again. -/
theorem C49_counterexample_memory :
    bitReads 12 (newreader (Reader.ofBuffer [0xF0]) false) = [1, 1, 1, 1, 0, 0, 0, 0, 1, 1, 1, 1] := by
  decide +kernel

example : (closewriter (write (newwriter Writer.toFile false) [1, 0, 1, 1, 0, 0, 0, 0, 1]).1).1.out = [0xB0, 0x80] := by
  decide +kernel
example : (closewriter (write (newwriter Writer.toFile true) [1, 0, 1, 1, 0, 0, 0, 0, 1]).1).1.out = [0x0D, 1] := by
  decide +kernel
example : (closewriter (write (newwriter (Writer.toBuffer 1) true) [1, 0, 1, 1, 0, 0, 0, 0, 1]).1).2 = false := by
  decide +kernel
example : (readn (newreader (Reader.ofFile [0xB0]) false) 3).2 = 5 := by decide +kernel
example : bitReads 10 (newreader (Reader.ofFile [0xB0]) false) = [1, 0, 1, 1, 0, 0, 0, 0, -1, -1] := by decide +kernel

end Che.Props
