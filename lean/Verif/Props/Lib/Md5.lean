import Verif.Proofs.Lib.Md5
import Verif.Props.Lib.Mem
import Verif.Props.Lib.Enc

/-!
C60: MD5.
-/
namespace Che.Props
open Che.Lib Che.Lib.Md5 Che.Spec.Lib

/-- The table of the code holds the sines the specification asks for. -/
theorem C60_table (i : Nat) (hi : i < 64) : (Md5.T.getD i 0).toNat = ⌊4294967296 * |Real.sin (i + 1 : Nat)|⌋₊ % 2 ^ 32 := by
  have := congrArg BitVec.toNat (T_spec i hi)
  rw [MD5.T, BitVec.toNat_ofNat, UInt32.toNat_toBitVec] at this
  exact this

/-- C60, what the code does: the digest is the MD5 of the message up to its first byte
0xFF (all of it, if there is none).  The length must be below 2^61 with its low 32
bits below 2^31 - 72. -/
theorem C60_exact (junk : Nat → UInt8) (msg : Bytes) (hL : (msg.takeWhile (· ≠ 0xFF)).length < 2 ^ 61)
    (hint : (msg.takeWhile (· ≠ 0xFF)).length % 2 ^ 32 + 72 < 2 ^ 31) (fuel : Nat) (hf : msg.length + 80 ≤ 64 * fuel) :
    ∃ d, md5_buf junk fuel msg = .ok d ∧ digestBytes d = MD5.md5 (msg.takeWhile (· ≠ 0xFF)) := by
  have hw : MemFiles.Is (Mem.memwrite junk Mem.memopen msg).1 ((MemFile.mk [] 0).write msg) :=
    MemFiles.write_is junk Mem.memopen ⟨[], 0⟩ msg ⟨rfl, rfl, rfl, Nat.le_refl _, Nat.le_refl _⟩
  have hc := hw.contents
  have hcont : ((MemFile.mk [] 0).write msg).contents = msg := by simp [MemFile.write]
  rw [hcont] at hc
  have hrem : remaining (Mem.rewind (Mem.memwrite junk Mem.memopen msg).1) = msg := by
    unfold remaining Mem.rewind
    simpa using hc
  have hdl : (Mem.rewind (Mem.memwrite junk Mem.memopen msg).1).datalen ≤ (Mem.rewind (Mem.memwrite junk Mem.memopen msg).1).data.length := by
    have h1 := hw.datalen
    have h2 := hw.size
    simp only [Mem.rewind]
    omega
  generalize hz : Mem.rewind (Mem.memwrite junk Mem.memopen msg).1 = z at *
  have hbuf : md5_buf junk fuel msg = md5 fuel z := by
    rw [← hz]
    unfold md5_buf
    simp only
    rw [if_pos (show (Mem.memwrite junk Mem.memopen msg).2 = msg.length from rfl)]
  have hmlen : (msg.takeWhile (· ≠ 0xFF)).length ≤ msg.length := (List.takeWhile_prefix _).length_le
  generalize hm : msg.takeWhile (· ≠ 0xFF) = m at *
  have hpad : MD5.pad m = m ++ tail m.length := by
    unfold MD5.pad tail; simp
  have hplen : (MD5.pad m).length % 64 = 0 ∧ (MD5.pad m).length ≤ m.length + 72 := by
    simp only [MD5.pad, List.length_append, List.length_replicate, List.length_map, List.length_range, List.length_singleton, SHA1.zeroCount]
    omega
  have hp : Pending m.length { stream := z, length := 0, more_data := true, zeros := 0, lenbuf := List.replicate 8 0, lenpos := 0, more := true } (MD5.pad m) := by
    left
    refine ⟨rfl, rfl, hdl, ?_, ?_, ?_⟩
    · simp only; rw [hrem, hm]
    · simp only; rw [hrem, hm, Nat.sub_self]; rfl
    · simp only; rw [hrem, hm, hpad]
  have hl := loop_spec m.length hL hint ((MD5.pad m).length / 64) _ (MD5.pad m) md5_init (by omega) hp fuel (by omega)
  refine ⟨_, by rw [hbuf, md5, hl], ?_⟩
  have hh := hash_spec (MD5.pad m) ((MD5.pad m).length / 64) (by omega)
  have h4 : (blocksFold (MD5.pad m) md5_init ((MD5.pad m).length / 64)).length = 4 := by
    cases (MD5.pad m).length / 64 with
    | zero => rfl
    | succ n => rfl
  rw [digestBytes_spec _ h4, hh]
  rfl

/-- C60, what holds of it: messages without the byte 0xFF are hashed right. -/
theorem C60_md5_partial (junk : Nat → UInt8) (msg : Bytes) (hff : 0xFF ∉ msg) (hL : msg.length + 72 < 2 ^ 31) (fuel : Nat)
    (hf : msg.length + 80 ≤ 64 * fuel) : ∃ d, md5_buf junk fuel msg = .ok d ∧ digestBytes d = MD5.md5 msg := by
  have h : msg.takeWhile (· ≠ 0xFF) = msg := by
    clear hL hf
    induction msg with
    | nil => rfl
    | cons c cs ih =>
      have hc : c ≠ 0xFF := fun e => hff (e ▸ List.mem_cons_self)
      rw [List.takeWhile_cons_of_pos (by simpa using hc), ih (fun h => hff (List.mem_cons_of_mem _ h))]
  have := C60_exact junk msg (by rw [h]; omega) (by rw [h]; omega) fuel hf
  rwa [h] at this

/-- MD5 of short messages can be computed by the code's own block function. -/
theorem md5_short (msg : Bytes) (h : msg.length < 56) : MD5.md5 msg = digestBytes (md5_feed md5_init (wordsLE (MD5.pad msg))) := by
  have hlen : (MD5.pad msg).length = 64 := by
    simp only [MD5.pad, List.length_append, List.length_replicate, List.length_map, List.length_range, List.length_singleton, SHA1.zeroCount]
    omega
  have hh := hash_spec (MD5.pad msg) 1 (by omega)
  have hb : blocksFold (MD5.pad msg) md5_init 1 = md5_feed md5_init (wordsLE (MD5.pad msg)) := by
    simp only [blocksFold]
    rw [Nat.mul_zero, List.drop_zero, List.take_of_length_le (by omega)]
  rw [hb] at hh
  rw [digestBytes_spec _ rfl, hh, MD5.md5, hlen]

/-- C60 is false of messages with a byte 0xFF: it is taken for the end, so that the
one-byte message 0xFF has the digest of the empty message. -/
theorem C60_counterexample (junk : Nat → UInt8) :
    ∃ d, md5_buf junk 2 [0xFF] = .ok d ∧ digestBytes d = MD5.md5 [] ∧ MD5.md5 [] ≠ MD5.md5 [0xFF] := by
  obtain ⟨d, h1, h2⟩ := C60_exact junk [0xFF] (by decide) (by decide) 2 (by decide)
  refine ⟨d, h1, h2, ?_⟩
  rw [md5_short [] (by decide), md5_short [0xFF] (by decide)]
  decide +kernel

/-- C60: the printed digest is the hexadecimal form of its bytes. -/
theorem C60_sprint (d : List UInt32) : (md5_sprint d).length = 32 ∧ unhex (md5_sprint d) = some (digestBytes d) := by
  have hx : md5_sprint d = (digestBytes d).flatMap Hex.writebyte := by
    unfold md5_sprint digestBytes hex2
    simp only [List.flatMap_assoc, List.flatMap_map]
  have hu : ∀ bs : Bytes, (bs.flatMap Hex.writebyte).length = 2 * bs.length ∧ unhex (bs.flatMap Hex.writebyte) = some bs := by
    intro bs
    induction bs with
    | nil => exact ⟨rfl, rfl⟩
    | cons b bs ih =>
      refine ⟨?_, ?_⟩
      · rw [List.flatMap_cons, List.length_append, ih.1, List.length_cons]
        have : (Hex.writebyte b).length = 2 := rfl
        omega
      · rw [List.flatMap_cons]
        have : Hex.writebyte b ++ bs.flatMap Hex.writebyte =
            (Hex.HEX.getD (b.toNat / 16) 0) :: (Hex.HEX.getD (b.toNat % 16) 0) :: bs.flatMap Hex.writebyte := rfl
        rw [this]
        simp only [unhex, hex_byte, ih.2]
  rw [hx]
  exact ⟨by rw [(hu _).1]; rfl, (hu _).2⟩

/-- C60: digests are equal for `md5_eq` if and only if they are. -/
theorem C60_eq (a b : List UInt32) (ha : a.length = 4) (hb : b.length = 4) : md5_eq a b = true ↔ a = b := by
  match a, ha, b, hb with
  | [a0, a1, a2, a3], _, [b0, b1, b2, b3], _ =>
    have hr : List.range 4 = [0, 1, 2, 3] := rfl
    simp [md5_eq, hr]

/-- An example of RFC 1321: "abc". -/
example : MD5.md5 [97, 98, 99] = [0x90, 0x01, 0x50, 0x98, 0x3c, 0xd2, 0x4f, 0xb0, 0xd6, 0x96, 0x3f, 0x7d, 0x28, 0xe1, 0x7f, 0x72] := by
  rw [md5_short _ (by decide)]
  decide +kernel

end Che.Props
