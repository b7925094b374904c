import Verif.Proofs.Lib.Sha1
import Verif.Props.Lib.Enc

/-!
C59: SHA-1.
-/
namespace Che.Props
open Che.Lib Che.Lib.Sha1 Che.Spec.Lib

theorem digest_spec (msg : Bytes) (h : Digest) (hs : h.sum = (pushAll started (msg ++ padding msg.length)).sum) :
    SHA1.bits (as_bytes h) = SHA1.sha1 (SHA1.bits msg) := by
  have h64 := padded_length msg.length
  have hc : Clean started := ⟨rfl, rfl, rfl⟩
  have hst := stream_spec (msg ++ padding msg.length) started hc (by rw [List.length_append]; exact h64)
  have hH0 : started.sum.map UInt32.toBitVec = SHA1.H0 := rfl
  have hlen : (SHA1.bits (msg ++ padding msg.length)).length / 512 = (msg ++ padding msg.length).length / 64 := by
    rw [bits_length]; omega
  have h5 : h.sum.length = 5 := by
    have := congrArg List.length hst
    rw [List.length_map, ← hs] at this
    rw [this]
    have hcase : ∀ (b : List Bool) (n : Nat), (SHA1.hash b SHA1.H0 n).length = 5 := by
      intro b n
      cases n with
      | zero => rfl
      | succ n => rfl
    rw [hH0]
    exact hcase _ _
  rw [as_bytes_spec h h5, hs, hst, SHA1.sha1, pad_spec, hlen, hH0]

/-- C59, what holds of it: adding all bytes of a non-empty message and ending gives the
SHA-1 digest.  The message may have any length below 2^61 whose low 32 bits are
below 2^31 - 72. -/
theorem C59_sha1_partial (msg : Bytes) (hne : msg ≠ []) (hlen : msg.length < 2 ^ 61)
    (hint : msg.length % 2 ^ 32 + 72 < 2 ^ 31) :
    ∃ d, digest msg = .ok d ∧ d.length = 20 ∧ SHA1.bits d = SHA1.sha1 (SHA1.bits msg) := by
  obtain ⟨h, h1, h2⟩ := finish_spec msg started rfl hlen hint
  refine ⟨as_bytes h, ?_, rfl, digest_spec msg h h2⟩
  rw [digest, adds_first msg hne, h1]
  rfl

/-- C59 is false of the empty message: the sum is never initialised. -/
theorem C59_counterexample_empty : ∃ d, digest [] = .ok d ∧ SHA1.bits d ≠ SHA1.sha1 (SHA1.bits []) := by
  have h2 := digest_spec [] (pushAll started ([] ++ padding 0)) rfl
  rw [← h2]
  have : ∃ d, digest [] = .ok d ∧ SHA1.bits d ≠ SHA1.bits (as_bytes (pushAll started ([] ++ padding 0))) := by
    have : digest [] = .ok [0x0f, 0xfd, 0x8d, 0x43, 0xb4, 0xe3, 0x3c, 0x7c, 0x53, 0x46, 0x1b, 0xd1, 0x0f, 0x27, 0xa5, 0x46,
        0x10, 0x50, 0xd9, 0x0d] := by decide +kernel
    exact ⟨_, this, by decide +kernel⟩
  exact this

/-- C59 is false of messages of 2 GiB and more: for a length with the low 32 bits at
least 2^31, a block of zeros too many is added (unless no zeros are due at all), and
just below that the arithmetic overflows. -/
theorem C59_counterexample_length (len : Nat) :
    (2 ^ 31 ≤ len % 2 ^ 32 → len % 2 ^ 32 + 9 < 2 ^ 32 → (len + 9) % 64 ≠ 0 → zeros (8 * len) = .ok (SHA1.zeroCount (8 * len) / 8 + 64)) ∧
    (2 ^ 31 ≤ len % 2 ^ 32 + 9 → len % 2 ^ 32 < 2 ^ 31 → ∃ msg, zeros (8 * len) = .panic msg) := by
  have hd : 8 * len / 8 = len := by omega
  refine ⟨?_, ?_⟩
  · intro h1 h2 h3
    have hi : toInt len = ((len % 2 ^ 32 : Nat) : Int) - 2 ^ 32 := by
      unfold toInt
      rw [if_neg (by omega)]
    unfold zeros
    simp only [hd, hi]
    rw [if_neg (by unfold INT_MAX; omega)]
    obtain ⟨m, hm⟩ : ∃ m : Nat, 9 + (((len % 2 ^ 32 : Nat) : Int) - 2 ^ 32) = -(m : Int) :=
      ⟨(2 ^ 32 - 9 - len % 2 ^ 32), by omega⟩
    rw [hm, Int.neg_tdiv, Int.neg_tmod, Int.tdiv_eq_ediv_of_nonneg (by omega), Int.tmod_eq_emod_of_nonneg (by omega)]
    unfold SHA1.zeroCount INT_MAX
    split
    · split
      · omega
      · congr 1; omega
    · omega
  · intro h1 h2
    have hi : toInt len = (len % 2 ^ 32 : Nat) := by
      unfold toInt
      rw [if_pos (by omega)]
    unfold zeros
    simp only [hd, hi]
    rw [if_pos (by unfold INT_MAX; omega)]
    exact ⟨_, rfl⟩

/-- C59: after the end nothing can be added, and the end cannot be repeated. -/
theorem C59_finished (h h' : Digest) (r : Bool) (hf : finish h = .ok (h', r)) :
    h'.finished = true ∧ (∀ b, add h' b = (h', false)) ∧ finish h' = .ok (h', false) := by
  have hfin : h'.finished = true := by
    unfold finish at hf
    by_cases hb : h.finished = true
    · rw [if_pos hb] at hf
      injection hf with hf
      injection hf with h1 h2
      rw [← h1]; exact hb
    · rw [if_neg hb] at hf
      cases hz : zeros (push_byte { h with finished := true } 128).length.toNat with
      | ok z =>
        simp only [bind, Res.bind, hz] at hf
        injection hf with hf
        injection hf with h1 h2
        rw [← h1]
        have hfold : ∀ (is : List Nat) (g : Nat → UInt8) (x : Digest), x.finished = true →
            (is.foldl (fun h' i => push_byte h' (g i)) x).finished = true := by
          intro is g
          induction is with
          | nil => intro x hx; exact hx
          | cons i is ih => intro x hx; exact ih _ ((push_byte_same x (g i)).2.1.trans hx)
        apply hfold
        rw [zeroLoop_spec]
        exact (pushAll_same _ _).2.1.trans (push_byte_same _ _).2.1
      | err e => simp only [bind, Res.bind, hz] at hf; cases hf
      | panic m => simp only [bind, Res.bind, hz] at hf; cases hf
      | diverge => simp only [bind, Res.bind, hz] at hf; cases hf
  exact ⟨hfin, fun b => by simp [add, hfin], by simp [finish, hfin]⟩

/-- C59: the formatted digest is the hexadecimal form of its bytes. -/
theorem C59_format (h : Digest) (bufsize : Nat) (hb : 40 ≤ bufsize) :
    ∃ t, Sha1.format h bufsize = some t ∧ t.length = 40 ∧ unhex t = some (as_bytes h) := by
  have hu : ∀ bs : Bytes, (bs.flatMap Hex.writebyte).length = 2 * bs.length ∧ unhex (bs.flatMap Hex.writebyte) = some bs := by
    intro bs
    induction bs with
    | nil => exact ⟨rfl, rfl⟩
    | cons b bs ih =>
      refine ⟨?_, ?_⟩
      · rw [List.flatMap_cons, List.length_append, ih.1, List.length_cons]
        have : (Hex.writebyte b).length = 2 := rfl
        omega
      · rw [List.flatMap_cons]
        have : Hex.writebyte b ++ bs.flatMap Hex.writebyte =
            (Hex.HEX.getD (b.toNat / 16) 0) :: (Hex.HEX.getD (b.toNat % 16) 0) :: bs.flatMap Hex.writebyte := rfl
        rw [this]
        simp only [unhex, hex_byte, ih.2]
  refine ⟨(as_bytes h).flatMap Hex.writebyte, by rw [Sha1.format, if_neg (by omega)], ?_, (hu _).2⟩
  rw [(hu _).1]
  rfl

/-- The example of FIPS 180-4: "abc". -/
example : digest [97, 98, 99] = .ok [0xa9, 0x99, 0x3e, 0x36, 0x47, 0x06, 0x81, 0x6a, 0xba, 0x3e, 0x25, 0x71, 0x78, 0x50,
    0xc2, 0x6c, 0x9c, 0xd0, 0xd8, 0x9d] := by decide +kernel

end Che.Props
