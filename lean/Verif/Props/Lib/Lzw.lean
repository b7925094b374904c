import Verif.Proofs.Lib.LzwDecode

/-!
C50: LZW compression loses nothing.  C51: the codes of LZW.
-/
namespace Che.Props
open Che.Lib Che.Lib.Bits Che.Lib.Lzw Che.Spec.Lib

theorem lzw_width_start (n : Nat) (h : ∀ k, n + 1 ≠ 2 ^ k) : codewidth (n + 2) = codewidth (n + 3) := by
  rcases codewidth_succ (n + 2) (by omega) with ⟨a, _⟩ | ⟨_, b⟩
  · exact a.symm
  · exact absurd b (h _)

theorem lzw_left_new (bytes : Bytes) (r : Bool) :
    leftBits (newreader (Reader.ofFile bytes) r) = bitString r bytes := by
  simp [leftBits, newreader, Reader.ofFile, Source.rest, List.drop_of_length_le, bitsOf_length]

/-- What the compressor wrote, as bits: the codes of a run over the data, the end
code, and zeros to fill the last byte. -/
theorem lzw_compressed (n : Nat) (hn : n ≤ 256) (src : Source) (fuel : Nat) (hf : src.full = true)
    (hsym : ∀ c ∈ src.rest, c.toNat < n) (hne : src.rest ≠ []) (hfuel : src.rest.length ≤ fuel) :
    ∃ w cs F k, compress fuel ⟨src, 0⟩ n Writer.toFile = .ok w ∧ Trace n (D0 n) src.rest cs F ∧ DictOk n F ∧ k < 8 ∧
      bitString true w.out = traceBits cs ++ codeBits (codewidth F.length) (n + 1) ++ List.replicate k false := by
  obtain ⟨enc', cs, F, h1, h2, h3, h4⟩ := compressLoop_spec n hn fuel
    { dict := newdict n, bw := newwriter Writer.toFile true } (D0 n) { buf := [], reader := ⟨src, 0⟩ }
    ⟨isDict_new n, good_new _ _, rfl, rfl⟩ (dictOk_new n hn) hf (by simp) (by simpa [Peeker.data] using hne)
    (by simpa [Peeker.data] using hsym) (by simpa [Peeker.data] using hfuel)
  have hdata : ({ buf := [], reader := ⟨src, 0⟩ } : Peeker).data = src.rest := by simp [Peeker.data]
  rw [hdata] at h2
  obtain ⟨e1, e2⟩ := emit_spec n enc' F h3 (n + 1) (by omega)
  have hw0 : written (newwriter Writer.toFile true) = [] := by rw [written_new]; rfl
  rw [hw0, List.nil_append] at h4
  rcases close_spec _ e1.good with ⟨_, c⟩ | ⟨_, k, hk, hc⟩
  · exact absurd e1.file c
  · refine ⟨(closewriter (compEmit enc' (UInt16.ofNat (n + 1))).bw).1, cs, F, k, ?_, h2, ?_, hk, ?_⟩
    · unfold compress
      rw [h1]
      simp only [bind, Res.bind]
      rw [h3.dict.fin]
    · exact h2.dictOk hn (dictOk_new n hn)
    · rw [e1.rev] at hc
      rw [hc, e2, h4]

/-- Decoding bits of that form, when the end code is complete. -/
theorem lzw_decoded (n : Nat) (hn : n ≤ 256) (hpow : ∀ k, n + 1 ≠ 2 ^ k) (data bytes : Bytes) (cs : List (Nat × Nat)) (F : List Word)
    (tail : List Bool) (fuel : Nat) (ht : Trace n (D0 n) data cs F) (hfuel : data.length < fuel)
    (hb : bitString true bytes = traceBits cs ++ tail) :
    (∀ t, tail = codeBits (codewidth (F.length + 1)) (n + 1) ++ t →
      ∃ w, decodeinto fuel (newdecoder (Reader.ofFile bytes) n) Writer.toFile = .ok w ∧ w.out = data) ∧
    (tail.length < codewidth (F.length + 1) →
      decodeinto fuel (newdecoder (Reader.ofFile bytes) n) Writer.toFile = .panic "read failed") := by
  have hrd : RdOk (newdecoder (Reader.ofFile bytes) n).br := ⟨by simp [newdecoder, newreader], rfl⟩
  have hleft : leftBits (newdecoder (Reader.ofFile bytes) n).br = traceBits cs ++ tail := by
    rw [← hb]; exact lzw_left_new bytes true
  have hstart : Start n (newdecoder (Reader.ofFile bytes) n) (D0 n) data (traceBits cs ++ tail) :=
    Or.inl ⟨.first rfl (lzw_width_start n hpow) (isDict_new n), hleft⟩
  obtain ⟨k, dec', out', b1, b2, b3, b4, b5, b6, b7, b8⟩ := decode_trace n hn ht _ Writer.toFile tail (dictOk_new n hn) hrd
    hstart rfl
  obtain ⟨f, hf⟩ : ∃ f, fuel = f + 1 + k := ⟨fuel - 1 - k, by omega⟩
  constructor
  · intro t htl
    refine ⟨out', ?_, by rw [b3]; rfl⟩
    rw [hf, b2]
    exact decode_end n hn dec' F t out' f b4 b5 b7 (by rw [b6, htl])
  · intro hlen
    rw [hf, b2]
    exact decode_short n dec' F out' f b4 b7 (b8 bytes rfl) (by rw [b6]; exact hlen)

/-- The same without data: only the end code. -/
theorem lzw_compressed_nil (n : Nat) (hn : n ≤ 256) (src : Source) (fuel : Nat) (hf : src.full = true)
    (hnil : src.rest = []) (hfuel : 0 < fuel) :
    ∃ w k, compress fuel ⟨src, 0⟩ n Writer.toFile = .ok w ∧ k < 8 ∧
      bitString true w.out = codeBits (codewidth (n + 2)) (n + 1) ++ List.replicate k false := by
  obtain ⟨f, rfl⟩ : ∃ f, fuel = f + 1 := ⟨fuel - 1, by omega⟩
  have he : EncOk n { dict := newdict n, bw := newwriter Writer.toFile true } (D0 n) :=
    ⟨isDict_new n, good_new _ _, rfl, rfl⟩
  obtain ⟨e1, e2⟩ := emit_spec n _ (D0 n) he (n + 1) (by omega)
  have hw0 : written (newwriter Writer.toFile true) = [] := by rw [written_new]; rfl
  rcases close_spec _ e1.good with ⟨_, c⟩ | ⟨_, k, hk, hc⟩
  · exact absurd e1.file c
  · refine ⟨(closewriter (compEmit { dict := newdict n, bw := newwriter Writer.toFile true } (UInt16.ofNat (n + 1))).bw).1, k, ?_, hk, ?_⟩
    · obtain ⟨p1, _, _⟩ := peek_spec { buf := [], reader := ⟨src, 0⟩ } hf (by simp)
      have hz : (peek { buf := [], reader := ⟨src, 0⟩ } 4096).buf.length = 0 := by
        rw [p1]; simp [Peeker.data, hnil]
      unfold compress compressLoop
      simp only [hz, ↓reduceIte, bind, Res.bind]
      rfl
    · rw [e1.rev] at hc
      rw [hc, e2, hw0, D0_length, List.nil_append]

/-- The end code as the decoder reads it: complete if the width has not grown or if
there is a bit to spare. -/
theorem lzw_end_code (s n k : Nat) (hs : n + 1 < s) :
    (∃ t, codeBits (codewidth s) (n + 1) ++ List.replicate k false = codeBits (codewidth (s + 1)) (n + 1) ++ t) ∨
    (k = 0 ∧ (codeBits (codewidth s) (n + 1) ++ List.replicate k false).length < codewidth (s + 1)) := by
  rcases codewidth_succ s (by omega) with ⟨h, _⟩ | ⟨h, _⟩
  · exact Or.inl ⟨List.replicate k false, by rw [h]⟩
  · cases k with
    | zero => exact Or.inr ⟨rfl, by rw [h]; simp [codeBits_length]⟩
    | succ k =>
      refine Or.inl ⟨List.replicate k false, ?_⟩
      rw [h, codeBits_succ _ _ (code_fits _ _ hs), List.replicate_succ]
      simp

theorem bitString_zeros (bytes : Bytes) (z : Nat) :
    bitString true (bytes ++ List.replicate z 0) = bitString true bytes ++ List.replicate (8 * z) false := by
  rw [bitString_append]
  congr 1
  induction z with
  | zero => rfl
  | succ z ih =>
    have : List.replicate (z + 1) (0 : UInt8) = [0] ++ List.replicate z 0 := rfl
    rw [this, bitString_append, ih]
    have e : bitString true [(0 : UInt8)] = List.replicate 8 false := by decide +kernel
    rw [e, List.replicate_append_replicate]
    congr 1; omega

/-- Compressing and decompressing with `z` zero bytes appended. -/
theorem lzw_round_trip (n : Nat) (hn : n ≤ 256) (hpow : ∀ k, n + 1 ≠ 2 ^ k) (src : Source) (hf : src.full = true)
    (hsym : ∀ c ∈ src.rest, c.toNat < n) (fuel fuel' z : Nat) (hfuel : src.rest.length < fuel)
    (hfuel' : src.rest.length < fuel') :
    ∃ w, compress fuel ⟨src, 0⟩ n Writer.toFile = .ok w ∧
      ((∃ w', decodeinto fuel' (newdecoder (Reader.ofFile (w.out ++ List.replicate z 0)) n) Writer.toFile = .ok w' ∧
          w'.out = src.rest) ∨
        (z = 0 ∧ decodeinto fuel' (newdecoder (Reader.ofFile (w.out ++ List.replicate z 0)) n) Writer.toFile =
          .panic "read failed")) := by
  by_cases hnil : src.rest = []
  · obtain ⟨w, k, h1, _, h3⟩ := lzw_compressed_nil n hn src fuel hf hnil (by omega)
    refine ⟨w, h1, Or.inl ⟨Writer.toFile, ?_, by rw [hnil]; rfl⟩⟩
    obtain ⟨f, rfl⟩ : ∃ f, fuel' = f + 1 := ⟨fuel' - 1, by omega⟩
    refine decode_end n hn _ (D0 n) (List.replicate (k + 8 * z) false) _ f (isDict_new n) (dictOk_new n hn)
      ⟨by simp [newdecoder, newreader], rfl⟩ ?_
    rw [D0_length, ← lzw_width_start n hpow]
    refine (lzw_left_new _ true).trans ?_
    rw [bitString_zeros, h3, List.append_assoc, List.replicate_append_replicate]
  · obtain ⟨w, cs, F, k, h1, h2, h3, _, h5⟩ := lzw_compressed n hn src fuel hf hsym hnil (by omega)
    refine ⟨w, h1, ?_⟩
    have hlen := h3.length
    have hbits : bitString true (w.out ++ List.replicate z 0) =
        traceBits cs ++ (codeBits (codewidth F.length) (n + 1) ++ List.replicate (k + 8 * z) false) := by
      rw [bitString_zeros, h5]
      simp only [List.append_assoc, List.replicate_append_replicate]
    obtain ⟨d1, d2⟩ := lzw_decoded n hn hpow src.rest _ cs F _ fuel' h2 hfuel' hbits
    rcases lzw_end_code F.length n (k + 8 * z) (by omega) with ⟨t, ht⟩ | ⟨hk, ht⟩
    · exact Or.inl (d1 t ht)
    · exact Or.inr ⟨by omega, d2 ht⟩

/-- C50, what holds of it: compressing any data and decompressing the result followed
by one zero byte gives the data back, for every alphabet whose size is not one less
than a power of two (so for the alphabets of 2^k symbols of GIF, k ≥ 1).  Without the
zero byte it is false: `C50_counterexample_end`. -/
theorem C50_lossless_partial (n : Nat) (hn : n ≤ 256) (hpow : ∀ k, n + 1 ≠ 2 ^ k) (src : Source) (hf : src.full = true)
    (hsym : ∀ c ∈ src.rest, c.toNat < n) (fuel fuel' : Nat) (hfuel : src.rest.length < fuel)
    (hfuel' : src.rest.length < fuel') :
    ∃ w w', compress fuel ⟨src, 0⟩ n Writer.toFile = .ok w ∧
      decodeinto fuel' (newdecoder (Reader.ofFile (w.out ++ [0])) n) Writer.toFile = .ok w' ∧ w'.out = src.rest := by
  obtain ⟨w, h1, h2 | h2⟩ := lzw_round_trip n hn hpow src hf hsym fuel fuel' 1 hfuel hfuel'
  · obtain ⟨w', h3, h4⟩ := h2
    exact ⟨w, w', h1, h3, h4⟩
  · exact absurd h2.1 (by omega)

/-- C50, never wrong data: decompressing exactly what the compressor wrote gives the
data back or stops with "read failed". -/
theorem C50_right_or_panic_partial (n : Nat) (hn : n ≤ 256) (hpow : ∀ k, n + 1 ≠ 2 ^ k) (src : Source) (hf : src.full = true)
    (hsym : ∀ c ∈ src.rest, c.toNat < n) (fuel fuel' : Nat) (hfuel : src.rest.length < fuel)
    (hfuel' : src.rest.length < fuel') :
    ∃ w, compress fuel ⟨src, 0⟩ n Writer.toFile = .ok w ∧
      ((∃ w', decodeinto fuel' (newdecoder (Reader.ofFile w.out) n) Writer.toFile = .ok w' ∧ w'.out = src.rest) ∨
        decodeinto fuel' (newdecoder (Reader.ofFile w.out) n) Writer.toFile = .panic "read failed") := by
  obtain ⟨w, h1, h2⟩ := lzw_round_trip n hn hpow src hf hsym fuel fuel' 0 hfuel hfuel'
  refine ⟨w, h1, ?_⟩
  simp only [List.replicate_zero, List.append_nil] at h2
  rcases h2 with h2 | ⟨_, h2⟩
  · exact Or.inl h2
  · exact Or.inr h2

/-- The result of compressing and then decompressing a file. -/
def lzwThrough (n : Nat) (r : Reader) : Res Unit Bytes := do
  let w ← compress 100 r n Writer.toFile
  let w' ← decodeinto 100 (newdecoder (Reader.ofFile w.out) n) Writer.toFile
  .ok w'.out

/-- C50 is false as it stands: the decoder reads the end code with one bit more than
the compressor wrote it with when the dictionary has reached a power of two plus one,
and that bit may not be there. -/
theorem C50_counterexample_end : lzwThrough 5 (Reader.ofFile [0, 1, 2]) = .panic "read failed" := by decide +kernel

/-- C50 is false for an alphabet of 2^k - 1 symbols: the first code is already read
with the wrong width. -/
theorem C50_counterexample_alphabet : lzwThrough 3 (Reader.ofFile [0]) = .panic "read failed" := by decide +kernel

/-- C50 is false for input that arrives in pieces: when the dictionary word matches
the whole piece the compressor takes it for the end of the input. -/
theorem C50_counterexample_pieces : lzwThrough 4 ⟨.fd [[0], [1, 2, 3]], 0⟩ = .ok [0] := by decide +kernel

/-! ### C51 -/

theorem words_new (n : Nat) : (D0 n).map Word.word = lzwStart n := by
  simp [D0, newdict, lzwStart, Function.comp_def]

theorem lzw_longest {n : Nat} {D : List Word} (hD : DictOk n D) {data w : Bytes} {mi : Nat}
    (h1 : D[mi]? = some (entry w)) (h2 : w.length ≤ 255) (h3 : Longest D data w) (h4 : w <+: data) :
    LongestWord (D.map Word.word) data w ∧ (D.map Word.word)[mi]? = some w := by
  have hmi : (D.map Word.word)[mi]? = some w := by
    rw [List.getElem?_map, h1]; rfl
  refine ⟨⟨List.mem_of_getElem? hmi, h4, h2, ?_⟩, hmi⟩
  intro v hv hpre hv255
  obtain ⟨e, he, hev⟩ := List.mem_map.1 hv
  obtain ⟨v', hv', _⟩ := hD.words e he
  have : v' = v := by rw [hv'] at hev; exact hev
  subst this
  exact h3 v' (by rw [← hv']; exact he) hpre hv255

theorem lzw_codes {n : Nat} (hn : n ≤ 256) {D : List Word} {data : Bytes} {cs : List (Nat × Nat)} {F : List Word}
    (h : Trace n D data cs F) (hD : DictOk n D) : LzwCodes n (D.map Word.word) data cs F.length := by
  induction h with
  | @last D w mi h1 h2 h3 h4 =>
    obtain ⟨a, b⟩ := lzw_longest hD h1 h3 h4 (List.prefix_refl w)
    have := LzwCodes.last (n := n) a h2 b
    simpa using this
  | @more D w mi c rest cs F hlt h1 h2 h3 h4 _ ih =>
    obtain ⟨a, b⟩ := lzw_longest hD h1 h3 h4 (List.prefix_append _ _)
    have hr := ih (hD.add hlt _ (by simp; omega))
    rw [List.map_append] at hr
    have := LzwCodes.more (n := n) a h2 b (by simpa using hlt) hr
    simpa using this
  | @reset D w mi c rest cs F hmax h1 h2 h3 h4 _ ih =>
    obtain ⟨a, b⟩ := lzw_longest hD h1 h3 h4 (List.prefix_append _ _)
    have hr := ih ((dictOk_new n hn).add (by rw [D0_length]; omega) _ (by simp; omega))
    rw [List.map_append, words_new] at hr
    have := LzwCodes.reset (n := n) a h2 b (by simpa using hmax) hr
    simpa using this

theorem codeBits_low (w c : Nat) : codeBits w c = lowBits w c := by
  induction w generalizing c with
  | zero => rfl
  | succ w ih =>
    rw [codeBits, ih, lowBits, lowBits, List.range_succ_eq_map]
    simp [Function.comp_def, Nat.testBit_succ, Nat.testBit_zero]

/-- C51: the width of the codes is the one of the specification. -/
theorem C51_codewidth (s : Nat) : CodeWidth s (codewidth s) := by
  obtain ⟨a, b, c⟩ := codewidth_spec s
  refine ⟨a, b, ?_⟩
  intro v hv1 hv
  rcases c with c | c
  · omega
  · rcases Nat.lt_or_ge v (codewidth s) with hlt | hge
    · exfalso
      have := Nat.pow_le_pow_right (n := 2) (by omega) (show v - 1 ≤ codewidth s - 2 by omega)
      omega
    · exact hge

/-- C51: every code of the dictionary fits the width. -/
theorem C51_fits (s c : Nat) (h : c < s) : c < 2 ^ codewidth s := code_fits s c h

/-- C51: the comment of `codewidth` says that no smaller width fits all codes; that
is so only when the largest code is a power of two (or there are at most two codes),
otherwise one bit less would do. -/
theorem C51_counterexample_smallest : codewidth 4 = 3 ∧ ∀ c, c < 4 → c < 2 ^ 2 := by
  refine ⟨by decide +kernel, fun c h => by omega⟩

theorem codes_as_bits (cs : List (Nat × Nat)) : CodesAsBits cs (traceBits cs) := by
  induction cs with
  | nil => exact .nil
  | cons x cs ih =>
    have := CodesAsBits.cons (c := x.1) (C51_codewidth x.2) ih
    rw [← codeBits_low] at this
    simpa [traceBits] using this

/-- C51: the output is the codes of greedy LZW parsing, the end code, and fewer than
eight zero bits. -/
theorem C51_greedy (n : Nat) (hn : n ≤ 256) (src : Source) (hf : src.full = true)
    (hsym : ∀ c ∈ src.rest, c.toNat < n) (hne : src.rest ≠ []) (fuel : Nat) (hfuel : src.rest.length ≤ fuel) :
    ∃ w cs f bits k, compress fuel ⟨src, 0⟩ n Writer.toFile = .ok w ∧ LzwCodes n (lzwStart n) src.rest cs f ∧
      CodesAsBits (cs ++ [(n + 1, f)]) bits ∧ k < 8 ∧ bitString true w.out = bits ++ List.replicate k false := by
  obtain ⟨w, cs, F, k, h1, h2, h3, h4, h5⟩ := lzw_compressed n hn src fuel hf hsym hne hfuel
  refine ⟨w, cs, F.length, traceBits (cs ++ [(n + 1, F.length)]), k, h1, ?_, codes_as_bits _, h4, ?_⟩
  · have := lzw_codes hn h2 (dictOk_new n hn)
    rwa [words_new] at this
  · rw [h5]
    simp [traceBits]

example : (match compress 100 (Reader.ofFile [0, 1, 0, 1, 0, 1]) 4 Writer.toFile with
    | .ok w => w.out | _ => []) = [0x10, 0x66, 0x05] := by decide +kernel
example : lzwThrough 4 (Reader.ofFile [0, 1, 0, 1, 0, 1, 2, 3, 3, 3, 3]) = .ok [0, 1, 0, 1, 0, 1, 2, 3, 3, 3, 3] := by
  decide +kernel

end Che.Props
