import Mathlib.Data.List.Defs
import Verif.Proofs.Lib.Wav

namespace Che.Props
open Che.Lib Che.Lib.Wav Che.Spec.Wav

/-! ## C120: sound files are read -/

/-- The values that a program gets of a frame: each sample as a part of the greatest one; a single channel is on both sides. -/
def C120_Frame (bytes : Nat) (f : List Int) (p : D × D) : Prop :=
  ∃ x y, (f = [x, y] ∨ f = [x] ∧ y = x) ∧ Rounded p.1.neg p.1.num p.1.den x (256 ^ bytes / 2 - 1) ∧ Rounded p.2.neg p.2.num p.2.den y (256 ^ bytes / 2 - 1)

theorem C120_sides {b : Nat} {f : List Int} (hb : b = 2 ∨ b = 3) (hl : f.length = 1 ∨ f.length = 2) (hx : ∀ x ∈ f, -(256 ^ b / 2 : Nat) ≤ x ∧ x < (256 ^ b / 2 : Nat)) :
    C120_Frame b f (sides (256 ^ b / 2 - 1) f) := by
  have key : ∀ x ∈ f, Rounded (quotient x (256 ^ b / 2 - 1)).neg (quotient x (256 ^ b / 2 - 1)).num (quotient x (256 ^ b / 2 - 1)).den x (256 ^ b / 2 - 1) := by
    intro x h
    have := hx x h
    rcases hb with rfl | rfl <;> exact quotient_rounded (by decide) (by omega)
  rcases hl with hl | hl
  · obtain ⟨x, rfl⟩ := List.length_eq_one_iff.1 hl
    exact ⟨x, x, .inr ⟨rfl, rfl⟩, key x (by simp), key x (by simp)⟩
  · match f, hl, key with
    | [x, y], _, key => exact ⟨x, y, .inl rfl, key x (by simp), key y (by simp)⟩

/-- C120: what is read, exactly. -/
theorem C120_exact {file : Bytes} {s : Sound} {es : Option (List (Bytes × Bytes))} (h : File file s es) (hs : ∀ l, es = some l → ∀ e ∈ l, e.2.length < 1000) (junk : Bytes) {n m : Nat}
    (hn : count es < n) (hm : s.frames.length < m) : s.Ok ∧ ∃ r, open_reader junk n file = .ok r ∧ r.wav.channels.toNat = s.channels ∧ r.wav.frequency.toNat = s.frequency ∧
      r.wav.bits_per_sample.toNat = 8 * s.bytes ∧ readLoop junk m r = .ok (s.frames.map (sides (256 ^ s.bytes / 2 - 1))) := by
  cases h with
  | mk s size info pad rest es hok hz hi hp =>
    have hd : s.data.length = s.frames.length * s.channels * s.bytes := by
      unfold Sound.data
      have := hok.frames
      generalize s.frames = fs at this
      induction fs with
      | nil => simp
      | cons f fs ih =>
        rw [List.map_cons, List.flatten_cons, List.length_append, flat_length, ih (fun g hg => this g (by simp [hg])), this f (by simp), List.length_cons, Nat.mul_assoc, Nat.mul_assoc,
          Nat.add_mul]
        omega
    have hsz := hok.size
    have hsh : Short es := by
      cases es with
      | none => exact trivial
      | some l => exact hs l rfl
    obtain ⟨r, e1, e2, e3, e4, e5⟩ := open_has junk (n := n) (d := s.data.length) (rest := s.data ++ rest) hok.channels hok.frequency hok.bytes hz hi hsh (by omega) hp (by omega)
    refine ⟨hok, r, by rw [← e1]; simp only [List.append_assoc], ?_, ?_, ?_, ?_⟩
    · rw [e2]; rcases hok.channels with h | h <;> rw [h] <;> rfl
    · rw [e2]
      show (UInt32.ofNat s.frequency).toNat = _
      rw [UInt32.toNat_ofNat']; exact Nat.mod_eq_of_lt hok.frequency
    · rw [e2]; rcases hok.bytes with h | h <;> rw [h] <;> rfl
    · exact readLoop_at junk hok.channels hok.bytes s.frames (k := 0) (n := s.data.length) (s := rest) ⟨by rw [e2], by rw [e2], e3, e4, e5⟩ hok.frames hok.samples (by omega) (by omega) hm

/-- C120: a file is opened with its channels, frequency and bits, and the usual loop gives all its frames in their order. -/
theorem C120_read_partial {file : Bytes} {s : Sound} {es : Option (List (Bytes × Bytes))} (h : File file s es) (hs : ∀ l, es = some l → ∀ e ∈ l, e.2.length < 1000) (junk : Bytes) :
    ∃ N fs, (∀ n m, N ≤ n → s.frames.length < m → ∃ r, open_reader junk n file = .ok r ∧ r.wav.channels.toNat = s.channels ∧ r.wav.frequency.toNat = s.frequency ∧
      r.wav.bits_per_sample.toNat = 8 * s.bytes ∧ readLoop junk m r = .ok fs) ∧ List.Forall₂ (C120_Frame s.bytes) s.frames fs := by
  refine ⟨count es + 1, s.frames.map (sides (256 ^ s.bytes / 2 - 1)), fun n m hn hm => (C120_exact h hs junk (by omega) hm).2, ?_⟩
  obtain ⟨hok, _⟩ := C120_exact h hs junk (n := count es + 1) (m := s.frames.length + 1) (by omega) (by omega)
  have h1 := hok.frames
  have h2 := hok.samples
  generalize s.frames = fs at h1 h2
  induction fs with
  | nil => exact .nil
  | cons f fs ih =>
    refine .cons (C120_sides hok.bytes ?_ (h2 f (by simp))) (ih (fun g hg => h1 g (by simp [hg])) (fun g hg => h2 g (by simp [hg])))
    rw [h1 f (by simp)]; exact hok.channels

/-- A head of a file. -/
def C120_head (c b : Nat) : Bytes := cstr "RIFF" ++ [1, 2, 3, 4] ++ cstr "WAVE" ++ cstr "fmt " ++ le 4 16 ++ format c 48000 b

/-- What is read of a file. -/
def C120_all (junk file : Bytes) : Res String (List (D × D)) := (open_reader junk 10 file).bind fun r => readLoop junk 10 r

example : C120_all [] (C120_head 2 2 ++ (cstr "LIST" ++ le 4 14 ++ cstr "INFO" ++ (cstr "INAM" ++ le 4 1 ++ [65, 0])) ++ cstr "data" ++ le 4 8 ++ [0xFF, 0x7F, 0, 0, 0x01, 0x80, 0, 0]) =
    .ok [(⟨false, 2 ^ 52, 2 ^ 52⟩, ⟨false, 0, 1⟩), (⟨true, 2 ^ 52, 2 ^ 52⟩, ⟨false, 0, 1⟩)] := by decide +kernel

/-- C120 is false: a file that ends within its samples is read without an error: as silence, and samples of three bytes as whatever is in the memory. -/
theorem C120_counterexample_truncated :
    C120_all [] (C120_head 1 2 ++ cstr "data" ++ le 4 4 ++ [0xFF, 0x7F]) = .ok [(⟨false, 2 ^ 52, 2 ^ 52⟩, ⟨false, 2 ^ 52, 2 ^ 52⟩), (⟨false, 0, 1⟩, ⟨false, 0, 1⟩)] ∧
    C120_all [0, 0, 0, 0] (C120_head 1 3 ++ cstr "data" ++ le 4 3) = .ok [(⟨false, 0, 1⟩, ⟨false, 0, 1⟩)] ∧
    C120_all [0xFF, 0xFF, 0x7F, 0] (C120_head 1 3 ++ cstr "data" ++ le 4 3) = .ok [(⟨false, 2 ^ 52, 2 ^ 52⟩, ⟨false, 2 ^ 52, 2 ^ 52⟩)] := by decide +kernel

/-- C120 is false: a value of 1000 bytes is written past the end of its array. -/
theorem C120_counterexample_long : ∃ file s es, File file s es ∧ ∀ junk n, open_reader junk (n + 1) file = .panic "undefined: write past the end of tmp" := by
  have hb : body [(cstr "INAM", List.replicate 1000 65)] = cstr "INAM" ++ (le 4 1000 ++ List.replicate 1000 65) := by
    rw [body_cons, show body [] = [] from rfl, List.append_nil]
    unfold entry
    simp only [List.length_replicate]
    rw [if_pos (by decide), List.append_nil, List.append_assoc]
  have hlen : (body [(cstr "INAM", List.replicate 1000 65)]).length = 1008 := by
    rw [hb, List.length_append, List.length_append, List.length_replicate, le_length]; rfl
  refine ⟨_, ⟨1, 48000, 2, []⟩, _, .mk _ [0, 0, 0, 0] _ [] [] (some [(cstr "INAM", List.replicate 1000 65)]) ⟨by simp, by simp, by simp, by simp, by simp, by simp⟩ rfl
    (.some _ (by intro e he; rw [List.mem_singleton] at he; rw [he]; decide +kernel) (by omega)) .none, fun junk n => ?_⟩
  simp only [List.append_assoc, hlen, Nat.reduceAdd]
  generalize cstr "data" ++ (le 4 (Sound.data ⟨1, 48000, 2, []⟩).length ++ (Sound.data ⟨1, 48000, 2, []⟩ ++ [])) = tail
  simp only [List.nil_append]
  have h0 := has_file (cstr "RIFF" ++ ([0, 0, 0, 0] ++ (cstr "WAVE" ++ (cstr "fmt " ++ (le 4 16 ++ (format 1 48000 2 ++ (cstr "LIST" ++ (le 4 1012 ++ (cstr "INFO" ++ (body [(cstr "INAM", List.replicate 1000 65)] ++ tail))))))))))
  unfold open_reader
  generalize Reader.ofFile _ = r0 at h0 ⊢
  obtain ⟨r1, e1, h1⟩ := expect_has h0 tag_riff
  have h2 : Has (Endian.read4le junk r1).1 _ := (read_has' h1 (n := 4) rfl).2
  obtain ⟨r3, e3, h3⟩ := expect_has h2 tag_wave
  obtain ⟨r4, e4, h4⟩ := expect_has h3 tag_fmt
  obtain ⟨a5, h5⟩ := read4_has junk h4 (by decide)
  obtain ⟨a6, h6⟩ := readInto_has (buf := List.replicate 16 0) h5 (format_length 1 48000 2)
  obtain ⟨a7, h7⟩ := readInto_has (buf := [0, 0, 0, 0, 0]) h6 tag_list.length
  obtain ⟨a8, h8⟩ := read4_has junk h7 (by decide)
  obtain ⟨r9, e9, h9⟩ := expect_has h8 tag_info
  rw [hb] at h9
  simp only [List.append_assoc] at h9
  have h10 := (read_has' h9 (n := 4) (by decide +kernel)).2
  obtain ⟨a11, h11⟩ := read4_has junk h10 (by decide)
  have hdrop : List.drop 16 (List.replicate 16 (0 : UInt8)) = [] := rfl
  have h16 : UInt32.ofNat 16 = 16 := rfl
  rw [hdrop, List.append_nil] at a6
  rw [e1]; simp only [Res.bind]
  rw [e3]; simp only
  rw [e4]; simp only [a5, h16, ne_eq, not_true_eq_false, if_false, a6]
  rw [read_fmt_format junk (.inl rfl) (by decide) (.inl rfl), supported_ok (.inl rfl) (.inl rfl)]
  simp only [a7]
  unfold optInfo
  rw [take5 tag_list.length, if_pos rfl]
  unfold readinfo
  simp only [a8, e9, Res.bind]
  rw [infoLoop, if_neg (by decide)]
  unfold infoRound
  simp only [a11]
  rw [if_pos (by decide)]
  rfl

/-- C120 is false of other WAV files: an extended description of the samples, samples of one byte, and unknown blocks end the program. -/
theorem C120_counterexample_refused :
    C120_all [] (cstr "RIFF" ++ [1, 2, 3, 4] ++ cstr "WAVE" ++ cstr "fmt " ++ le 4 18 ++ format 1 48000 2 ++ [0, 0] ++ cstr "data" ++ le 4 2 ++ [0, 0]) = .panic "expected 16 bytes fmt chunk" ∧
    C120_all [] (C120_head 1 1 ++ cstr "data" ++ le 4 1 ++ [0]) = .panic "expected 16 or 24 bits per sample" ∧
    C120_all [] (C120_head 1 2 ++ cstr "fact" ++ le 4 4 ++ [1, 0, 0, 0] ++ cstr "data" ++ le 4 2 ++ [0, 0]) = .panic "expected \"data\" chunk" := by decide +kernel

/-! ## C121: sound files are written -/

/-- The bytes written of frames. -/
def C121_written (ss : List (D × D)) : Bytes := (writeAll open_writer ss).out

/-- C121: what is written is the head of a file with two channels of two bytes and 44100 frames in a second, and then a sample for each value; the sample of a value between -1 and 1 is the
part of the greatest sample, towards zero (but for the rounding of doubles). -/
theorem C121_written_partial (ss : List (D × D)) : ∃ gs : List (Int × Int),
    C121_written ss = cstr "RIFF" ++ [255, 255, 255, 255] ++ cstr "WAVE" ++ cstr "fmt " ++ le 4 16 ++ format 2 44100 2 ++ cstr "data" ++ [255, 255, 255, 255] ++
      (gs.map fun g => sle 2 g.1 ++ sle 2 g.2).flatten ∧
    List.Forall₂ (fun s g => ∀ x y, (x, y) ∈ [(s.1, g.1), (s.2, g.2)] → 0 < x.den → x.num ≤ x.den →
      y.natAbs ≤ 32767 ∧ (y < 0 → x.neg = true) ∧ (0 < y → x.neg = false) ∧
      2 ^ 53 * (y.natAbs * x.den) ≤ (2 ^ 53 + 1) * (x.num * 32767) ∧ (2 ^ 53 - 1) * (x.num * 32767) < 2 ^ 53 * ((y.natAbs + 1) * x.den)) ss gs := by
  have hw : ∀ x : D, le 2 (word x).toNat = sle 2 (scaled x 32767) := by
    intro x
    unfold word sle
    simp only [show 2 ^ 15 - 1 = 32767 from rfl]
    rw [UInt16.toNat_ofNat']
    congr 1
    split <;> omega
  refine ⟨ss.map fun s => (scaled s.1 32767, scaled s.2 32767), ?_, ?_⟩
  · unfold C121_written
    rw [(wrote_all ss open_writer_out).2, List.map_map]
    have : (le 4 (2 ^ 32 - 1)) = [255, 255, 255, 255] := by decide +kernel
    unfold head
    rw [this]
    congr 2
    apply List.map_congr_left
    intro s _
    simp only [hw, Function.comp]
  · induction ss with
    | nil => exact .nil
    | cons s ss ih =>
      refine .cons ?_ ih
      intro x y hm hd hn
      simp only [List.mem_cons, Prod.mk.injEq, List.not_mem_nil, or_false] at hm
      rcases hm with ⟨rfl, rfl⟩ | ⟨rfl, rfl⟩ <;> exact scaled_near hd hn

/-- C121: what is read of a file with two channels of two bytes is written as the same samples. -/
theorem C121_same {file : Bytes} {s : Sound} {es : Option (List (Bytes × Bytes))} (h : File file s es) (hs : ∀ l, es = some l → ∀ e ∈ l, e.2.length < 1000) (h2 : s.channels = 2)
    (hb : s.bytes = 2) (junk : Bytes) : ∃ N fs, (∀ n m, N ≤ n → s.frames.length < m → ∃ r, open_reader junk n file = .ok r ∧ readLoop junk m r = .ok fs) ∧
      C121_written fs = cstr "RIFF" ++ [255, 255, 255, 255] ++ cstr "WAVE" ++ cstr "fmt " ++ le 4 16 ++ format 2 44100 2 ++ cstr "data" ++ [255, 255, 255, 255] ++ s.data := by
  refine ⟨count es + 1, s.frames.map (sides (256 ^ s.bytes / 2 - 1)), fun n m hn hm => ?_, ?_⟩
  · obtain ⟨_, r, e1, _, _, _, e2⟩ := C120_exact h hs junk (n := n) (m := m) (by omega) hm
    exact ⟨r, e1, e2⟩
  · obtain ⟨hok, _⟩ := C120_exact h hs junk (n := count es + 1) (m := s.frames.length + 1) (by omega) (by omega)
    have h1 := hok.frames
    have h3 := hok.samples
    unfold C121_written Sound.data
    rw [h2] at h1
    rw [hb] at h3 ⊢
    rw [(wrote_all _ open_writer_out).2, List.map_map]
    have : (le 4 (2 ^ 32 - 1)) = [255, 255, 255, 255] := by decide +kernel
    unfold head
    rw [this]
    congr 2
    apply List.map_congr_left
    intro f hf
    have hl := h1 f hf
    have hx := h3 f hf
    match f, hl, hx with
    | [x, y], _, hx =>
      have hx1 := hx x (by simp)
      have hx2 := hx y (by simp)
      simp only [Function.comp, sides, List.map_cons, List.map_nil, List.flatten_cons, List.flatten_nil, List.append_nil, Nat.reducePow, Nat.reduceDiv, Nat.reduceSub, sle]
      rw [word_quotient (by omega), word_quotient (by omega)]
      rfl

/-- C121 is false: what is written can not be read by the library; the loop over the frames of a written file never ends. -/
theorem C121_counterexample_read (ss : List (D × D)) (junk : Bytes) (n m : Nat) : ∃ r, open_reader junk (n + 1) (C121_written ss) = .ok r ∧ readLoop junk m r = .diverge := by
  unfold C121_written
  rw [(wrote_all ss open_writer_out).2]
  unfold head
  generalize (List.map _ ss).flatten = rest
  obtain ⟨r, e1, e2, e3, e4, _⟩ := open_has junk (n := n + 1) (c := 2) (f := 44100) (b := 2) (d := 2 ^ 32 - 1) (es := none) (size := le 4 (2 ^ 32 - 1)) (info := []) (pad := []) (rest := rest)
    (.inr rfl) (by decide) (.inl rfl) (by decide +kernel) .none trivial (by simp [count]) .none (by decide)
  refine ⟨r, by rw [← e1]; simp only [List.append_assoc, List.nil_append], diverge_of junk m (by rw [e2]; rfl) (by rw [e2]; rfl) (by rw [e4]; rfl) (by rw [e3]; rfl)⟩

/-- C121 is false: a value of 1.5 is not written as the greatest sample but as a negative one. -/
theorem C121_counterexample_loud : (word ⟨false, 3, 2⟩).toNat = 49150 ∧ sle 2 (-16386) = le 2 49150 := by decide +kernel

end Che.Props
