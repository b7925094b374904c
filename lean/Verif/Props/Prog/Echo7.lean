import Verif.Model.Prog.Echo7

/-!
C170: what echo7 sends back.
-/
namespace Che.Props
open Che.Lib Che.Prog.Echo7

private theorem echo_buf (data buf : Bytes) : (data ++ buf.drop data.length).take data.length = data := by simp

private theorem echo_read {w : World} {i k : Nat} (h : w.reads i = some k) (input : Bytes) :
    Che.Prog.Echo7.read w i 256 input = (((input.take (min k 256)).length : Int), input.take (min k 256), input.drop (input.take (min k 256)).length) := by
  unfold Che.Prog.Echo7.read; rw [h]

private theorem echo_rest (input : Bytes) (n : Nat) : input.take n ++ input.drop (input.take n).length = input := by
  rw [List.length_take]
  by_cases h : n ≤ input.length
  · rw [Nat.min_eq_left h, List.take_append_drop]
  · rw [Nat.min_eq_right (by omega), List.take_of_length_le (by omega), List.drop_length, List.append_nil]

private theorem echo_prefix (w : World) (k : Nat) : ∀ (i : Nat) (buf input : Bytes), (Che.Prog.Echo7.loop w k i buf input).1 <+: input := by
  induction k with
  | zero => intro i buf input; exact List.nil_prefix
  | succ k ih =>
    intro i buf input
    unfold Che.Prog.Echo7.loop
    cases hr : w.reads i with
    | none => simp [Che.Prog.Echo7.read, hr]
    | some n =>
      simp only [echo_read hr]
      by_cases hb : buf.length < (input.take (min n 256)).length
      · rw [if_pos hb]; exact List.nil_prefix
      rw [if_neg hb, if_neg (by omega)]
      split
      · exact List.nil_prefix
      · rw [Int.toNat_natCast, echo_buf]
        have hp : (Che.Prog.Echo7.write w i (input.take (min n 256))).2 <+: input := by
          unfold Che.Prog.Echo7.write
          split
          · exact List.nil_prefix
          · exact (List.take_prefix _ _).trans (List.take_prefix _ _)
        split
        · exact hp
        · next hw =>
          have e : (Che.Prog.Echo7.write w i (input.take (min n 256))).2 = input.take (min n 256) := by
            unfold Che.Prog.Echo7.write at hw ⊢
            split at hw
            · simp only at hw; omega
            · next k' _ =>
              simp only at hw ⊢
              refine List.take_of_length_le ?_
              rw [List.length_take (i := k')] at hw
              omega
          simp only [e]
          have h2 := ih (i + 1) (input.take (min n 256) ++ buf.drop (input.take (min n 256)).length) (input.drop (input.take (min n 256)).length)
          have h3 := (List.prefix_append_right_inj (input.take (min n 256))).mpr h2
          rwa [echo_rest] at h3

/-- C170: whatever happens, what is sent back is what was received, up to some point. -/
theorem C170_prefix (w : World) (input : Bytes) : (process_client w input).1 <+: input := echo_prefix w _ _ _ _

private theorem echo_fits (buf input : Bytes) (n : Nat) (hb : buf.length = 256) : ¬ buf.length < (input.take (min n 256)).length ∧
    (input.take (min n 256) ++ buf.drop (input.take (min n 256)).length).length = 256 := by
  have : (input.take (min n 256)).length ≤ 256 := by rw [List.length_take]; omega
  refine ⟨by omega, ?_⟩
  rw [List.length_append, List.length_drop]; omega

private theorem echo_all (w : World) (hr : ∀ i, ∃ n, w.reads i = some n ∧ 0 < n) (hw : ∀ i, ∃ n, w.writes i = some n ∧ 256 ≤ n) (k : Nat) :
    ∀ (i : Nat) (buf input : Bytes), buf.length = 256 → input.length < k → Che.Prog.Echo7.loop w k i buf input = (input, .eof) := by
  induction k with
  | zero => intro i buf input _ h; omega
  | succ k ih =>
    intro i buf input hb h
    obtain ⟨n, h1, h2⟩ := hr i
    obtain ⟨m, g1, g2⟩ := hw i
    unfold Che.Prog.Echo7.loop
    simp only [echo_read h1]
    obtain ⟨hb1, hb2⟩ := echo_fits buf input n hb
    rw [if_neg hb1, if_neg (by omega)]
    by_cases he : input = []
    · subst he; simp
    · have hl : 0 < input.length := List.length_pos_iff.mpr he
      have hl' : (input.take (min n 256)).length = min (min n 256) input.length := List.length_take
      rw [if_neg (by omega), Int.toNat_natCast, echo_buf]
      have e : Che.Prog.Echo7.write w i (input.take (min n 256)) = (((input.take (min n 256)).length : Int), input.take (min n 256)) := by
        unfold Che.Prog.Echo7.write
        rw [g1]
        simp only
        rw [List.take_of_length_le (show (input.take (min n 256)).length ≤ m by omega)]
      simp only [e]
      rw [if_neg (by omega), ih (i + 1) _ (input.drop (input.take (min n 256)).length) hb2 (by rw [List.length_drop]; omega)]
      simp only [echo_rest]

/-- C170: if reads and writes succeed and writes are complete, all that a client sends is sent back, however it is split by the reads. -/
theorem C170_partial (w : World) (hr : ∀ i, ∃ n, w.reads i = some n ∧ 0 < n) (hw : ∀ i, ∃ n, w.writes i = some n ∧ 256 ≤ n) (input : Bytes) :
    process_client w input = (input, .eof) :=
  echo_all w hr hw _ 0 _ input List.length_replicate (by omega)

/-- C170: the loop ends, and no read goes past the end of the buffer. -/
theorem C170_ends (w : World) (input : Bytes) : (process_client w input).2 ≠ .running ∧ (process_client w input).2 ≠ .undefined := by
  have : ∀ (k i : Nat) (buf input : Bytes), buf.length = 256 → input.length < k →
      (Che.Prog.Echo7.loop w k i buf input).2 ≠ .running ∧ (Che.Prog.Echo7.loop w k i buf input).2 ≠ .undefined := by
    intro k
    induction k with
    | zero => intro i buf input _ h; omega
    | succ k ih =>
      intro i buf input hb h
      unfold Che.Prog.Echo7.loop
      cases hr : w.reads i with
      | none => simp [Che.Prog.Echo7.read, hr]
      | some n =>
        simp only [echo_read hr]
        obtain ⟨hb1, hb2⟩ := echo_fits buf input n hb
        rw [if_neg hb1, if_neg (by omega)]
        split
        · simp
        · next h0 =>
          split
          · simp
          · exact ih _ _ _ hb2 (by
              have : (input.take (min n 256)).length ≤ input.length := List.length_take_le' _ _
              rw [List.length_drop]; omega)
  exact this _ _ _ _ List.length_replicate (by omega)

/-- C170: only a client all of whose bytes were sent back, or whose read gave nothing, is left without a message. -/
theorem C170_silent (w : World) (hr : ∀ i n, w.reads i = some n → 0 < n) (input : Bytes) (h : (process_client w input).2 = .eof) :
    (process_client w input).1 = input := by
  have : ∀ (k i : Nat) (buf input : Bytes), (Che.Prog.Echo7.loop w k i buf input).2 = .eof → (Che.Prog.Echo7.loop w k i buf input).1 = input := by
    intro k
    induction k with
    | zero => intro i buf input h; simp [Che.Prog.Echo7.loop] at h
    | succ k ih =>
      intro i buf input
      unfold Che.Prog.Echo7.loop
      cases hn : w.reads i with
      | none => simp [Che.Prog.Echo7.read, hn]
      | some n =>
        have hp := hr i n hn
        simp only [echo_read hn]
        by_cases hb : buf.length < (input.take (min n 256)).length
        · rw [if_pos hb]; intro h; cases h
        rw [if_neg hb, if_neg (by omega)]
        split
        · next h0 =>
          intro _
          have h1 : min (min n 256) input.length = 0 := by rw [List.length_take] at h0; omega
          exact (List.length_eq_zero_iff.mp (by omega)).symm
        · rw [Int.toNat_natCast, echo_buf]
          split
          · intro h; cases h
          · next hw =>
            have e : (Che.Prog.Echo7.write w i (input.take (min n 256))).2 = input.take (min n 256) := by
              unfold Che.Prog.Echo7.write at hw ⊢
              split at hw
              · simp only at hw; omega
              · next k' _ =>
                simp only at hw ⊢
                refine List.take_of_length_le ?_
                rw [List.length_take (i := k')] at hw
                omega
            simp only [e]
            intro h
            rw [ih _ _ _ h, echo_rest]
  exact this _ _ _ _ h

/-- C170 is false of writes that send a part: the rest is not sent, and the connection is closed. -/
theorem C170_counterexample_short :
    process_client { reads := fun _ => some 256, writes := fun _ => some 3 } (cstr "hello") = (cstr "hel", .writeError) := by decide +kernel

example : process_client { reads := fun i => some (i + 1), writes := fun _ => some 256 } (cstr "hello") = (cstr "hello", .eof) := by decide +kernel

end Che.Props
