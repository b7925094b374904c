import Verif.Proofs.Lib.LzwTrace

namespace Che.Lib.Lzw
open Che.Lib.Bits Che.Spec.Lib

/-- The reader of the decoder. -/
def KeepsFile (r r' : BitReader) : Prop := ∀ b, r.input.src = .file b → ∃ b', r'.input.src = .file b'

theorem KeepsFile.trans {a b c : BitReader} (h : KeepsFile a b) (h' : KeepsFile b c) : KeepsFile a c := by
  intro x hx
  obtain ⟨y, hy⟩ := h x hx
  exact h' y hy

/-- The decoder is one entry behind the compressor. -/
inductive Rel (n : Nat) (dec : Dec) : List Word → Bytes → Prop
  | first {data} : dec.prev = [] → codewidth (n + 2) = codewidth (n + 3) → IsDict n dec.dict (D0 n) →
      Rel n dec (D0 n) data
  | later {D c rest} : dec.prev ≠ [] → dec.prev.length ≤ 255 → IsDict n dec.dict D → DictOk n D → D.length < 4096 →
      Rel n dec (D ++ [entry (dec.prev ++ [c])]) (c :: rest)

theorem ofNat16_inj {a b : Nat} (ha : a < 65536) (hb : b < 65536) (h : UInt16.ofNat a = UInt16.ofNat b) : a = b := by
  have := congrArg UInt16.toNat h
  simp at this
  omega

/-- Reading a code that is not the reset code. -/
theorem readCode_plain (n k : Nat) (hn : n ≤ 256) (dec : Dec) (code : UInt16) (D : List Word) (mi : Nat) (tail : List Bool)
    (hd : IsDict n dec.dict D) (hr : RdOk dec.br)
    (hl : leftBits dec.br = codeBits (codewidth (D.length + 1)) mi ++ tail)
    (hm : mi < 2 ^ codewidth (D.length + 1)) (h16 : mi < 65536) (hne : mi ≠ n) :
    ∃ r', readCode (k + 1) dec code = .ok ({ dec with br := r' }, UInt16.ofNat mi) ∧ leftBits r' = tail ∧ RdOk r' ∧
      KeepsFile dec.br r' := by
  obtain ⟨r', h1, h2, h3, h4⟩ := readbits_spec _ dec.br mi tail hr hl hm
  refine ⟨r', ?_, h2, h3, h4⟩
  rw [readCode]
  have hs : dec.dict.size = D.length := by rw [Dict.size, hd.entries]
  rw [hs, h1]
  simp only [bind, Res.bind]
  rw [if_neg]
  rw [hd.reset]
  intro h
  exact hne (ofNat16_inj h16 (by omega) h)

/-- Reading the reset code. -/
theorem readCode_reset (n k : Nat) (dec : Dec) (code : UInt16) (D : List Word) (tail : List Bool)
    (hd : IsDict n dec.dict D) (hr : RdOk dec.br)
    (hl : leftBits dec.br = codeBits (codewidth (D.length + 1)) n ++ tail)
    (hm : n < 2 ^ codewidth (D.length + 1)) :
    ∃ r', readCode (k + 1) dec code =
        readCode k { dict := resetdict dec.dict, br := r', prev := dec.prev } (UInt16.ofNat n) ∧
      leftBits r' = tail ∧ RdOk r' ∧ KeepsFile dec.br r' := by
  obtain ⟨r', h1, h2, h3, h4⟩ := readbits_spec _ dec.br n tail hr hl hm
  refine ⟨r', ?_, h2, h3, h4⟩
  rw [readCode]
  have hs : dec.dict.size = D.length := by rw [Dict.size, hd.entries]
  rw [hs, h1]
  simp only [bind, Res.bind]
  rw [if_pos hd.reset.symm]

/-- The word for a code, and the decoder's dictionary catching up. -/
theorem decode_word (n : Nat) (hn : n ≤ 256) (dec dec1 : Dec) (D : List Word) (data : Bytes) (mi : Nat) (w more : Bytes)
    (hread : readCode 2 dec 0 = .ok (dec1, UInt16.ofNat mi)) (hrel : Rel n dec1 D data) (hD : DictOk n D)
    (hmi : D[mi]? = some (entry w)) (hw : w ≠ []) (hw255 : w.length ≤ 255) (hdata : data = w ++ more) :
    ∃ dec2, decode dec = .ok (dec2, w) ∧ IsDict n dec2.dict D ∧ dec2.prev = w ∧ dec2.br = dec1.br := by
  have hlt : mi < D.length := (List.getElem?_eq_some_iff.1 hmi).1
  have h16 : mi < 65536 := by have := hD.size; omega
  have hmiN : (UInt16.ofNat mi).toNat = mi := by simp; omega
  obtain ⟨hns1, hns2⟩ := not_special hD mi w hw hmi
  have hend : ¬ UInt16.ofNat mi = dec1.dict.endcode := by
    have hfin : dec1.dict.endcode = UInt16.ofNat (n + 1) := by
      cases hrel with
      | first _ _ h => exact h.fin
      | later _ _ h _ _ => exact h.fin
    rw [hfin]
    intro h
    exact hns2 (ofNat16_inj h16 (by omega) h)
  have hwt : w.take (entry w).len.toNat = w := by
    rw [entry_len w hw255, List.take_length]
  unfold decode
  rw [hread]
  simp only [bind, Res.bind, hmiN]
  cases hrel with
  | first hp hcw hd =>
    have hsz : dec1.dict.size = (D0 n).length := by rw [Dict.size, hd.entries]
    rw [if_neg (by rw [hsz]; omega), if_neg hend]
    have hcur : currentWord dec1 (UInt16.ofNat mi) = .ok w := by
      unfold currentWord
      rw [hmiN, if_neg (by rw [hsz]; omega), hd.entries, List.getD_eq_getElem?_getD, hmi]
      exact congrArg _ hwt
    rw [hcur]
    have hlearn : learn dec1 w = .ok dec1 := by
      unfold learn
      rw [if_neg (by rw [hp]; simp)]
    simp only [hlearn]
    exact ⟨_, rfl, hd, rfl, rfl⟩
  | @later Dd c rest hp hp255 hd hDd hDd4096 =>
    have hsz : dec1.dict.size = Dd.length := by rw [Dict.size, hd.entries]
    have hlen : (Dd ++ [entry (dec1.prev ++ [c])]).length = Dd.length + 1 := by simp
    rw [if_neg (by rw [hsz]; omega), if_neg hend]
    -- the first symbol of the word
    obtain ⟨w0, w', rfl⟩ : ∃ a b, w = a :: b := by
      cases w with
      | nil => exact absurd rfl hw
      | cons a b => exact ⟨a, b, rfl⟩
    have hc : w0 = c := by
      simp only [List.cons_append] at hdata
      exact (List.cons.inj hdata).1.symm
    have hcur : currentWord dec1 (UInt16.ofNat mi) = .ok (w0 :: w') := by
      unfold currentWord
      rw [hmiN]
      by_cases hlast : mi = Dd.length
      · rw [if_pos (by rw [hsz]; exact hlast), if_neg (by simpa using hp)]
        rw [hlast] at hmi
        simp only [List.getElem?_concat_length, Option.some.injEq] at hmi
        have hww : dec1.prev ++ [c] = w0 :: w' := congrArg Word.word hmi
        rw [← hww]
        congr 2
        obtain ⟨p0, p', hpp⟩ : ∃ a b, dec1.prev = a :: b := by
          cases hx : dec1.prev with
          | nil => exact absurd hx hp
          | cons a b => exact ⟨a, b, rfl⟩
        rw [hpp] at hww ⊢
        simp only [List.cons_append] at hww
        have := (List.cons.inj hww).1
        simp [this, hc]
      · have hmi' : mi < Dd.length := by omega
        rw [if_neg (by rw [hsz]; exact hlast)]
        rw [List.getElem?_append_left hmi'] at hmi
        rw [hd.entries, List.getD_eq_getElem?_getD, hmi]
        exact congrArg _ hwt
    rw [hcur]
    obtain ⟨d', a1, a2⟩ := isDict_add hd hDd4096 (dec1.prev ++ [c])
    have hlearn : learn dec1 (w0 :: w') = .ok { dec1 with dict := d' } := by
      unfold learn
      have hp0 : dec1.prev.length > 0 := List.length_pos_iff.2 hp
      rw [if_pos hp0, if_neg (by rw [hsz, MAX_DICT_LENGTH]; omega)]
      simp only [List.getD_cons_zero, hc, a1, bind, Res.bind]
    simp only [hlearn]
    exact ⟨_, rfl, a2, rfl, rfl⟩

/-- The decoder at the start of a trace: either it reads the next code at once or a
reset code first. -/
def Start (n : Nat) (dec : Dec) (D : List Word) (data : Bytes) (bits : List Bool) : Prop :=
  (Rel n dec D data ∧ leftBits dec.br = bits) ∨
  (∃ E, IsDict n dec.dict E ∧ DictOk n E ∧ E.length = 4096 ∧ Rel n { dec with dict := resetdict dec.dict } D data ∧
    leftBits dec.br = codeBits (codewidth 4096) n ++ bits)

theorem width_4097 : codewidth 4097 = codewidth 4096 := by
  rcases codewidth_succ 4096 (by omega) with ⟨h, _⟩ | ⟨_, h⟩
  · exact h
  · exfalso
    have hw := codewidth_unique 4096 13 (by omega) (by decide) (by decide)
    rw [hw] at h
    exact absurd h (by decide)

theorem width_rel {n : Nat} {dec : Dec} {D : List Word} {data : Bytes} (h : Rel n dec D data) :
    ∃ E, IsDict n dec.dict E ∧ codewidth (E.length + 1) = codewidth D.length ∧ E.length ≤ D.length := by
  cases h with
  | first _ hc hd => exact ⟨D0 n, hd, by rw [D0_length]; exact hc.symm, Nat.le_refl _⟩
  | @later E _ _ _ _ hd _ _ => exact ⟨E, hd, by simp, by simp⟩

/-- One call of `decode` at the start of a trace. -/
theorem decode_start (n : Nat) (hn : n ≤ 256) (dec : Dec) (D : List Word) (data more w : Bytes) (mi : Nat) (bits : List Bool)
    (hD : DictOk n D) (hr : RdOk dec.br) (hs : Start n dec D data (codeBits (codewidth D.length) mi ++ bits))
    (hmi : D[mi]? = some (entry w)) (hw : w ≠ []) (hw255 : w.length ≤ 255) (hdata : data = w ++ more) :
    ∃ dec2, decode dec = .ok (dec2, w) ∧ IsDict n dec2.dict D ∧ dec2.prev = w ∧ leftBits dec2.br = bits ∧
      RdOk dec2.br ∧ KeepsFile dec.br dec2.br := by
  have hlt : mi < D.length := (List.getElem?_eq_some_iff.1 hmi).1
  have h16 : mi < 65536 := by have := hD.size; omega
  obtain ⟨hns1, _⟩ := not_special hD mi w hw hmi
  rcases hs with ⟨hrel, hl⟩ | ⟨E, hE1, hE2, hE3, hrel, hl⟩
  · obtain ⟨E, hE, hcw, _⟩ := width_rel hrel
    obtain ⟨r', a1, a2, a3, a4⟩ := readCode_plain n 1 hn dec 0 E mi bits hE hr
      (by rw [hcw]; exact hl) (by rw [hcw]; exact code_fits _ _ hlt) h16 hns1
    obtain ⟨dec2, b1, b2, b3, b4⟩ := decode_word n hn dec _ D data mi w more a1 (by
      cases hrel with
      | first x y z => exact .first x y z
      | later x y z u v => exact .later (dec := { dec with br := r' }) x y z u v) hD hmi hw hw255 hdata
    refine ⟨dec2, b1, b2, b3, ?_, ?_, ?_⟩
    · rw [b4]; exact a2
    · rw [b4]; exact a3
    · rw [b4]; exact a4
  · obtain ⟨r1, c1, c2, c3, c4⟩ := readCode_reset n 1 dec 0 E _ hE1 hr
      (by rw [hE3, width_4097]; exact hl) (by
        refine code_fits _ _ ?_
        rw [hE3]; omega)
    obtain ⟨E', hE', hcw, _⟩ := width_rel hrel
    obtain ⟨r', a1, a2, a3, a4⟩ := readCode_plain n 0 hn { dict := resetdict dec.dict, br := r1, prev := dec.prev } (UInt16.ofNat n)
      E' mi bits hE' c3
      (by rw [hcw]; exact c2) (by rw [hcw]; exact code_fits _ _ hlt) h16 hns1
    rw [← c1] at a1
    obtain ⟨dec2, b1, b2, b3, b4⟩ := decode_word n hn dec _ D data mi w more a1 (by
      cases hrel with
      | first x y z => exact .first x y z
      | later x y z u v => exact .later (dec := { dict := resetdict dec.dict, br := r', prev := dec.prev }) x y z u v) hD hmi hw hw255 hdata
    refine ⟨dec2, b1, b2, b3, ?_, ?_, ?_⟩
    · rw [b4]; exact a2
    · rw [b4]; exact a3
    · rw [b4]; exact c4.trans a4

theorem decodeinto_step (fuel : Nat) (dec dec2 : Dec) (out : Writer) (w : Bytes) (hw : w ≠ [])
    (hk : out.kind = .file none) (h : decode dec = .ok (dec2, w)) :
    decodeinto (fuel + 1) dec out = decodeinto fuel dec2 (out.write w).1 := by
  rw [decodeinto, h]
  simp only [bind, Res.bind]
  rw [if_neg (by simpa using hw)]
  have := (Writer.write_file out w hk).2
  simp only [this]
  rw [if_neg (by simp)]

/-- Decoding the codes of a trace gives the data. -/
theorem decode_trace (n : Nat) (hn : n ≤ 256) {D : List Word} {data : Bytes} {cs : List (Nat × Nat)} {F : List Word}
    (h : Trace n D data cs F) :
    ∀ (dec : Dec) (out : Writer) (tail : List Bool), DictOk n D → RdOk dec.br →
      Start n dec D data (traceBits cs ++ tail) → out.kind = .file none →
      ∃ k dec' out', k ≤ data.length ∧ (∀ fuel, decodeinto (fuel + k) dec out = decodeinto fuel dec' out') ∧
        out'.out = out.out ++ data ∧ IsDict n dec'.dict F ∧ DictOk n F ∧ leftBits dec'.br = tail ∧ RdOk dec'.br ∧
        KeepsFile dec.br dec'.br := by
  induction h with
  | @last D w mi hmi hw hw255 _ =>
    intro dec out tail hD hr hs hk
    have hs' : Start n dec D w (codeBits (codewidth D.length) mi ++ tail) := by simpa [traceBits] using hs
    obtain ⟨dec2, a1, a2, a3, a4, a5, a6⟩ := decode_start n hn dec D w [] w mi tail hD hr hs' hmi hw hw255 (by simp)
    refine ⟨1, dec2, (out.write w).1, ?_, fun fuel => decodeinto_step fuel dec dec2 out w hw hk a1,
      (Writer.write_file out w hk).1, a2, hD, a4, a5, a6⟩
    have := List.length_pos_iff.2 hw; omega
  | @more D w mi c rest cs F hlt hmi hw hw255 _ _ ih =>
    intro dec out tail hD hr hs hk
    have hs' : Start n dec D (w ++ c :: rest) (codeBits (codewidth D.length) mi ++ (traceBits cs ++ tail)) := by
      simpa [traceBits] using hs
    obtain ⟨dec2, a1, a2, a3, a4, a5, a6⟩ := decode_start n hn dec D _ (c :: rest) w mi _ hD hr hs' hmi hw hw255 rfl
    have hD' : DictOk n (D ++ [entry (w ++ [c])]) := hD.add hlt _ (by simp; omega)
    obtain ⟨k, dec', out', b1, b2, b3, b4, b5, b6, b7, b8⟩ := ih dec2 (out.write w).1 tail hD' a5
      (Or.inl ⟨by rw [← a3]; exact .later (by rw [a3]; exact hw) (by rw [a3]; exact hw255) a2 hD hlt, a4⟩)
      hk
    refine ⟨k + 1, dec', out', ?_, fun fuel => ?_, ?_, b4, b5, b6, b7, a6.trans b8⟩
    · have := List.length_pos_iff.2 hw
      simp only [List.length_append, List.length_cons] at b1 ⊢; omega
    · rw [← Nat.add_assoc, decodeinto_step (fuel + k) dec dec2 out w hw hk a1, b2]
    · rw [b3, (Writer.write_file out w hk).1]; simp
  | @reset D w mi c rest cs F hmax hmi hw hw255 _ _ ih =>
    intro dec out tail hD hr hs hk
    have hs' : Start n dec D (w ++ c :: rest)
        (codeBits (codewidth D.length) mi ++ (codeBits (codewidth 4096) n ++ (traceBits cs ++ tail))) := by
      rw [← hmax]
      simpa [traceBits] using hs
    obtain ⟨dec2, a1, a2, a3, a4, a5, a6⟩ := decode_start n hn dec D _ (c :: rest) w mi _ hD hr hs' hmi hw hw255 rfl
    have hD0 := dictOk_new n hn
    have hlt0 : (D0 n).length < 4096 := by rw [D0_length]; omega
    have hD' : DictOk n (D0 n ++ [entry (w ++ [c])]) := hD0.add hlt0 _ (by simp; omega)
    have hrel : Rel n { dec2 with dict := resetdict dec2.dict } (D0 n ++ [entry (w ++ [c])]) (c :: rest) := by
      rw [← a3]
      exact .later (dec := { dec2 with dict := resetdict dec2.dict }) (by rw [a3]; exact hw) (by rw [a3]; exact hw255)
        (isDict_reset a2 hD) hD0 hlt0
    obtain ⟨k, dec', out', b1, b2, b3, b4, b5, b6, b7, b8⟩ := ih dec2 (out.write w).1 tail hD' a5
      (Or.inr ⟨D, a2, hD, hmax, hrel, a4⟩) hk
    refine ⟨k + 1, dec', out', ?_, fun fuel => ?_, ?_, b4, b5, b6, b7, a6.trans b8⟩
    · have := List.length_pos_iff.2 hw
      simp only [List.length_append, List.length_cons] at b1 ⊢; omega
    · rw [← Nat.add_assoc, decodeinto_step (fuel + k) dec dec2 out w hw hk a1, b2]
    · rw [b3, (Writer.write_file out w hk).1]; simp

/-- The end code is read when there are enough bits for it. -/
theorem decode_end (n : Nat) (hn : n ≤ 256) (dec : Dec) (F : List Word) (tail : List Bool) (out : Writer) (fuel : Nat)
    (hd : IsDict n dec.dict F) (hF : DictOk n F) (hr : RdOk dec.br)
    (hl : leftBits dec.br = codeBits (codewidth (F.length + 1)) (n + 1) ++ tail) :
    decodeinto (fuel + 1) dec out = .ok out := by
  have hlen := hF.length
  obtain ⟨r', h1, _⟩ := readCode_plain n 1 hn dec 0 F (n + 1) tail hd hr hl
    (code_fits _ _ (by omega)) (by omega) (by omega)
  have hN : (UInt16.ofNat (n + 1)).toNat = n + 1 := by simp; omega
  rw [decodeinto, decode, h1]
  simp only [bind, Res.bind, hN]
  rw [if_neg (by rw [Dict.size, hd.entries]; omega), if_pos hd.fin.symm]
  rfl

/-- Otherwise the decoder of a file stops with a panic. -/
theorem decode_short (n : Nat) (dec : Dec) (F : List Word) (out : Writer) (fuel : Nat)
    (hd : IsDict n dec.dict F) (hr : RdOk dec.br) (hf : ∃ b, dec.br.input.src = .file b)
    (hl : (leftBits dec.br).length < codewidth (F.length + 1)) :
    decodeinto (fuel + 1) dec out = .panic "read failed" := by
  have h1 : readCode 2 dec 0 = .panic "read failed" := by
    rw [readCode, Dict.size, hd.entries, readbits, readbits_short _ _ _ _ hr hf hl]
    rfl
  rw [decodeinto, decode, h1]
  rfl

end Che.Lib.Lzw
