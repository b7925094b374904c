import Verif.Model.Lib.Lzw
import Verif.Proofs.Lib.Bits

namespace Che.Lib.Lzw
open Che.Lib.Bits Che.Spec.Lib

/-! ### Code widths -/

theorem codewidthLoop_spec (k width largest : Nat) (h1 : 1 ≤ width) (hk : largest ≤ k + 2 ^ (width - 1)) :
    let r := codewidthLoop k width (2 ^ (width - 1)) largest
    width ≤ r ∧ largest ≤ 2 ^ (r - 1) ∧ (r = width ∨ 2 ^ (r - 2) < largest) := by
  induction k generalizing width with
  | zero => exact ⟨Nat.le_refl _, by simp only [codewidthLoop]; omega, Or.inl rfl⟩
  | succ k ih =>
    simp only
    unfold codewidthLoop
    by_cases h : 2 ^ (width - 1) < largest
    · rw [if_pos h]
      have e : 2 ^ (width - 1) * 2 = 2 ^ (width + 1 - 1) := by
        rw [← Nat.pow_succ]; congr 1; omega
      rw [e]
      have hp : 0 < 2 ^ (width - 1) := Nat.pow_pos (by omega)
      obtain ⟨a, b, c⟩ := ih (width + 1) (by omega) (by rw [← e]; omega)
      refine ⟨by omega, b, Or.inr ?_⟩
      rcases c with c | c
      · rw [c]; simpa using h
      · exact c
    · rw [if_neg h]
      exact ⟨Nat.le_refl _, by omega, Or.inl rfl⟩

/-- The width `w` fits the largest code with a bit to spare, and `w - 1` would not. -/
theorem codewidth_spec (s : Nat) :
    1 ≤ codewidth s ∧ s - 1 ≤ 2 ^ (codewidth s - 1) ∧
      (codewidth s = 1 ∨ 2 ^ (codewidth s - 2) < s - 1) :=
  codewidthLoop_spec (s - 1) 1 (s - 1) (Nat.le_refl _) (by simp)

theorem codewidth_unique (s w : Nat) (h1 : 1 ≤ w) (h2 : s - 1 ≤ 2 ^ (w - 1))
    (h3 : w = 1 ∨ 2 ^ (w - 2) < s - 1) : codewidth s = w := by
  obtain ⟨a, b, c⟩ := codewidth_spec s
  rcases Nat.lt_trichotomy (codewidth s) w with h | h | h
  · exfalso
    rcases h3 with h3 | h3
    · omega
    · have := Nat.pow_le_pow_right (n := 2) (by omega) (show codewidth s - 1 ≤ w - 2 by omega)
      omega
  · exact h
  · exfalso
    rcases c with c | c
    · omega
    · have := Nat.pow_le_pow_right (n := 2) (by omega) (show w - 1 ≤ codewidth s - 2 by omega)
      omega

theorem code_fits (s c : Nat) (h : c < s) : c < 2 ^ codewidth s := by
  obtain ⟨a, b, _⟩ := codewidth_spec s
  have : 2 ^ codewidth s = 2 * 2 ^ (codewidth s - 1) := by
    rw [← Nat.pow_succ']; congr 1; omega
  have : 0 < 2 ^ (codewidth s - 1) := Nat.pow_pos (by omega)
  omega

/-- The width grows by one exactly when the size less one is a power of two. -/
theorem codewidth_succ (s : Nat) (h : 2 ≤ s) :
    (codewidth (s + 1) = codewidth s ∧ s - 1 ≠ 2 ^ (codewidth s - 1)) ∨
    (codewidth (s + 1) = codewidth s + 1 ∧ s - 1 = 2 ^ (codewidth s - 1)) := by
  obtain ⟨a, b, c⟩ := codewidth_spec s
  by_cases he : s - 1 = 2 ^ (codewidth s - 1)
  · right
    refine ⟨codewidth_unique _ _ (by omega) ?_ (Or.inr ?_), he⟩
    · have : 2 ^ (codewidth s + 1 - 1) = 2 * 2 ^ (codewidth s - 1) := by
        rw [← Nat.pow_succ']; congr 1; omega
      have : 0 < 2 ^ (codewidth s - 1) := Nat.pow_pos (by omega)
      omega
    · have : codewidth s + 1 - 2 = codewidth s - 1 := by omega
      rw [this, ← he]; omega
  · left
    refine ⟨codewidth_unique _ _ a (by omega) ?_, he⟩
    rcases c with c | c
    · exact Or.inl c
    · exact Or.inr (by omega)

/-! ### Numbers as bits -/

/-- The `n` low bits of a number, least significant first. -/
def codeBits : Nat → Nat → List Bool
  | 0, _ => []
  | n + 1, c => decide (c % 2 = 1) :: codeBits n (c / 2)

theorem codeBits_length (n c : Nat) : (codeBits n c).length = n := by
  induction n generalizing c with
  | zero => rfl
  | succ n ih => simp [codeBits, ih]

theorem codeBits_succ (n c : Nat) (h : c < 2 ^ n) : codeBits (n + 1) c = codeBits n c ++ [false] := by
  induction n generalizing c with
  | zero =>
    have : c = 0 := by simpa using h
    subst this; rfl
  | succ n ih =>
    rw [codeBits, ih (c / 2) (by rw [Nat.pow_succ] at h; omega)]
    rfl

theorem bit_ne_zero (c : UInt16) : decide ((c % 2).toUInt8 ≠ 0) = decide (c.toNat % 2 = 1) := by
  have h : (c % 2).toUInt8.toNat = c.toNat % 2 := by
    simp; omega
  have : ((c % 2).toUInt8 ≠ 0) ↔ c.toNat % 2 = 1 := by
    rw [Ne, ← UInt8.toNat_inj, h]
    simp
  exact decide_eq_decide.2 this

/-- Writing a code to a file. -/
theorem writebits_spec (w : BitWriter) (code : UInt16) (n : Nat) (hg : Good w) (hk : w.out.kind = .file none) :
    Good (writebits w code n) ∧ (writebits w code n).out.kind = .file none ∧
    (writebits w code n).reverse = w.reverse ∧
    written (writebits w code n) = written w ++ codeBits n code.toNat := by
  induction n generalizing w code with
  | zero => exact ⟨hg, hk, rfl, by simp [writebits, codeBits]⟩
  | succ n ih =>
    obtain ⟨h1, h2, h3⟩ := write1_spec w (code % 2).toUInt8 hg
    rcases h3 with ⟨_, _, h3⟩ | ⟨_, h3, h4⟩
    · exact absurd hk h3
    · obtain ⟨i1, i2, i3, i4⟩ := ih (write1 w (code % 2).toUInt8).1 (code / 2) h3 (h2.trans hk)
      refine ⟨i1, i2, i3.trans h1, ?_⟩
      rw [writebits, i4, h4, bit_ne_zero, codeBits]
      simp

/-- The readers the decoder is used with. -/
structure RdOk (r : BitReader) : Prop where
  rem : r.rem ≤ 8
  full : r.input.src.full = true

theorem step_val (val amp : UInt16) (c : Nat) :
    val + amp * UInt16.ofNat (c % 2) + amp * 2 * UInt16.ofNat (c / 2) = val + amp * UInt16.ofNat c := by
  have : UInt16.ofNat c = UInt16.ofNat (c % 2) + 2 * UInt16.ofNat (c / 2) := by
    apply UInt16.toNat_inj.1
    simp
    omega
  rw [this, UInt16.mul_add, UInt16.mul_assoc, UInt16.add_assoc]

theorem readbitsLoop_spec (n : Nat) (r : BitReader) (val amp : UInt16) (c : Nat) (rest : List Bool)
    (hr : RdOk r) (hl : leftBits r = codeBits n c ++ rest) (hc : c < 2 ^ n) :
    ∃ r', readbitsLoop n r val amp = .ok (r', val + amp * UInt16.ofNat c) ∧ leftBits r' = rest ∧
      RdOk r' ∧ (∀ b, r.input.src = .file b → ∃ b', r'.input.src = .file b') := by
  induction n generalizing r val amp c with
  | zero =>
    have : c = 0 := by simpa using hc
    subst this
    exact ⟨r, by simp [readbitsLoop], by simpa [codeBits] using hl, hr, fun b hb => ⟨b, hb⟩⟩
  | succ n ih =>
    rw [codeBits, List.cons_append] at hl
    rcases read1_spec r hr.rem hr.full with ⟨b, e1, e2, e3, e4, e5⟩ | ⟨e1, _⟩
    · rw [e1] at hl
      obtain ⟨hb, hl⟩ := List.cons.inj hl
      obtain ⟨r', i1, i2, i3, i4⟩ := ih (read1 r).1 (val + amp * UInt16.ofNat (c % 2)) (amp * 2) (c / 2)
        ⟨e5, e4⟩ hl (by rw [Nat.pow_succ] at hc; omega)
      refine ⟨r', ?_, i2, i3, fun b hb => ?_⟩
      rotate_left
      · obtain ⟨b', hb'⟩ := read1_file r b hb
        exact i4 b' hb'
      rw [step_val] at i1
      rw [← i1, readbitsLoop]
      have hval : (read1 r).2 = ((c % 2 : Nat) : Int) := by
        rw [e2, hb]
        have : c % 2 = 0 ∨ c % 2 = 1 := by omega
        rcases this with h | h <;> simp [h]
      simp only [hval]
      rw [if_neg (by omega)]
      rfl
    · rw [e1] at hl; simp at hl

theorem readbits_spec (n : Nat) (r : BitReader) (c : Nat) (rest : List Bool)
    (hr : RdOk r) (hl : leftBits r = codeBits n c ++ rest) (hc : c < 2 ^ n) :
    ∃ r', readbits r n = .ok (r', UInt16.ofNat c) ∧ leftBits r' = rest ∧ RdOk r' ∧
      (∀ b, r.input.src = .file b → ∃ b', r'.input.src = .file b') := by
  have := readbitsLoop_spec n r 0 1 c rest hr hl hc
  simpa [readbits] using this

/-- Not enough bits in a file. -/
theorem readbits_short (n : Nat) (r : BitReader) (val amp : UInt16) (hr : RdOk r)
    (hf : ∃ b, r.input.src = .file b) (hl : (leftBits r).length < n) :
    readbitsLoop n r val amp = .panic "read failed" := by
  induction n generalizing r val amp with
  | zero => omega
  | succ n ih =>
    obtain ⟨b0, hb0⟩ := hf
    rw [readbitsLoop]
    rcases read1_spec r hr.rem hr.full with ⟨b, e1, e2, e3, e4, e5⟩ | ⟨e1, e2⟩
    · rw [e1] at hl
      simp only [List.length_cons] at hl
      have hc : ¬ (read1 r).2 < 0 := by rw [e2]; cases b <;> decide
      simp only [if_neg hc]
      exact ih _ _ _ ⟨e5, e4⟩ (read1_file r b0 hb0) (by omega)
    · simp only [e2 b0 hb0]
      rfl

/-! ### The dictionary -/

/-- A dictionary entry for a string. -/
def entry (w : Bytes) : Word := { len := UInt8.ofNat w.length, word := w }

theorem entry_len (w : Bytes) (h : w.length ≤ 255) : (entry w).len.toNat = w.length := by
  simp [entry]; omega

/-- The entries a dictionary for `n` symbols starts with. -/
def D0 (n : Nat) : List Word := (newdict n).entries

theorem D0_length (n : Nat) : (D0 n).length = n + 2 := by simp [D0, newdict]

theorem D0_single (n i : Nat) (h : i < n) : (D0 n)[i]? = some (entry [UInt8.ofNat i]) := by
  rw [D0, newdict, List.getElem?_append_left (by simpa using h)]
  simp [h, entry]

theorem D0_special (n i : Nat) (h : i = n ∨ i = n + 1) : (D0 n)[i]? = some (entry []) := by
  rcases h with rfl | rfl <;> simp [D0, newdict, entry]

/-- What holds of the dictionary all the time. -/
structure DictOk (n : Nat) (D : List Word) : Prop where
  start : D.take (n + 2) = D0 n
  size : D.length ≤ 4096
  words : ∀ e ∈ D, ∃ w, e = entry w ∧ w.length ≤ 256

theorem DictOk.length {n : Nat} {D : List Word} (h : DictOk n D) : n + 2 ≤ D.length := by
  have := congrArg List.length h.start
  rw [D0_length] at this
  simp at this; omega

theorem DictOk.low {n : Nat} {D : List Word} (h : DictOk n D) (i : Nat) (hi : i < n + 2) : D[i]? = (D0 n)[i]? := by
  rw [← h.start, List.getElem?_take]; simp [hi]

theorem dictOk_new (n : Nat) (h : n ≤ 256) : DictOk n (D0 n) := by
  refine ⟨List.take_of_length_le (Nat.le_of_eq (D0_length n)), by rw [D0_length]; omega, ?_⟩
  intro e he
  simp only [D0, newdict, List.mem_append, List.mem_map, List.mem_range, List.mem_cons, List.not_mem_nil, or_false, or_self] at he
  rcases he with ⟨i, _, rfl⟩ | rfl
  · exact ⟨[UInt8.ofNat i], by simp [entry], by simp⟩
  · exact ⟨[], by simp [entry], by simp⟩

theorem DictOk.add {n : Nat} {D : List Word} (h : DictOk n D) (hs : D.length < 4096) (w : Bytes)
    (hw : w.length ≤ 256) : DictOk n (D ++ [entry w]) := by
  refine ⟨?_, by simp; omega, ?_⟩
  · rw [List.take_append_of_le_length h.length]; exact h.start
  · intro e he
    rcases List.mem_append.1 he with he | he
    · exact h.words e he
    · rw [List.mem_singleton] at he
      exact ⟨w, he, hw⟩

/-- A match with an entry of positive length is a match with its whole string. -/
theorem entry_match (w : Bytes) (hw : w.length ≤ 256) (hl : 0 < (entry w).len.toNat) :
    w.length ≤ 255 ∧ w ≠ [] ∧ (entry w).len.toNat = w.length := by
  have hw255 : w.length ≤ 255 := by
    rcases Nat.lt_or_ge w.length 256 with h | h
    · omega
    · have : w.length = 256 := by omega
      simp [entry, this] at hl
  have := entry_len w hw255
  refine ⟨hw255, ?_, this⟩
  intro h
  rw [this, h] at hl
  simp at hl

theorem not_special {n : Nat} {D : List Word} (h : DictOk n D) (mi : Nat) (w : Bytes) (hw : w ≠ [])
    (he : D[mi]? = some (entry w)) : mi ≠ n ∧ mi ≠ n + 1 := by
  have key : ∀ i, (i = n ∨ i = n + 1) → mi ≠ i := by
    intro i hi hmi
    subst hmi
    have h1 : D[mi]? = some (entry []) := by rw [h.low mi (by omega), D0_special n mi hi]
    rw [h1] at he
    have := congrArg (fun e : Option Word => e.map (·.word)) he
    simp [entry] at this
    exact hw this
  exact ⟨key n (Or.inl rfl), key (n + 1) (Or.inr rfl)⟩

/-! ### Matching -/

/-- An entry that the input starts with. -/
def Fits (input : Bytes) (e : Word) : Prop :=
  e.len.toNat ≤ input.length ∧ e.word.take e.len.toNat = input.take e.len.toNat

/-- The best match so far. -/
def BestSoFar (input : Bytes) (D : List Word) (mi mlen : Nat) (ok : Bool) : Prop :=
  (∀ e ∈ D, Fits input e → e.len.toNat ≤ mlen) ∧
  (ok = true → 0 < mlen ∧ ∃ e, D[mi]? = some e ∧ e.len.toNat = mlen ∧ Fits input e) ∧
  (ok = false → mlen = 0)

theorem matchLoop_spec (input : Bytes) (rest done : List Word) (mi mlen : Nat) (ok : Bool)
    (h : BestSoFar input done mi mlen ok) :
    ∃ mlen', BestSoFar input (done ++ rest) (matchLoop input rest done.length mi mlen ok).1 mlen'
      (matchLoop input rest done.length mi mlen ok).2 := by
  induction rest generalizing done mi mlen ok with
  | nil => exact ⟨mlen, by simpa [matchLoop] using h⟩
  | cons e rest ih =>
    obtain ⟨h1, h2, h3⟩ := h
    have ih' := ih (done ++ [e])
    simp only [List.length_append, List.length_cons, List.length_nil, List.append_assoc, List.cons_append, List.nil_append] at ih'
    have old : ∀ x, ok = true → done[mi]? = some x → (done ++ [e])[mi]? = some x := by
      intro x _ hx
      rw [List.getElem?_append_left (by exact (List.getElem?_eq_some_iff.1 hx).1)]; exact hx
    unfold matchLoop
    by_cases hskip : e.len.toNat ≤ mlen ∨ e.len.toNat > input.length
    · rw [if_pos hskip]
      refine ih' mi mlen ok ⟨?_, ?_, h3⟩
      · intro x hx hf
        rcases List.mem_append.1 hx with hx | hx
        · exact h1 x hx hf
        · rw [List.mem_singleton] at hx
          subst hx
          rcases hskip with hs | hs
          · exact hs
          · have := hf.1; omega
      · intro hok
        obtain ⟨a, x, b, c⟩ := h2 hok
        exact ⟨a, x, old x hok b, c⟩
    · rw [if_neg hskip]
      by_cases hm : e.word.take e.len.toNat = input.take e.len.toNat
      · rw [if_pos hm]
        refine ih' done.length e.len.toNat true ⟨?_, ?_, ?_⟩
        · intro x hx hf
          rcases List.mem_append.1 hx with hx | hx
          · have := h1 x hx hf; omega
          · rw [List.mem_singleton] at hx
            subst hx; omega
        · intro _
          refine ⟨by omega, e, by simp, rfl, by omega, hm⟩
        · intro hc; cases hc
      · rw [if_neg hm]
        refine ih' mi mlen ok ⟨?_, ?_, h3⟩
        · intro x hx hf
          rcases List.mem_append.1 hx with hx | hx
          · exact h1 x hx hf
          · rw [List.mem_singleton] at hx
            subst hx
            exact absurd hf.2 hm
        · intro hok
          obtain ⟨a, x, b, c⟩ := h2 hok
          exact ⟨a, x, old x hok b, c⟩

/-- Some symbol of the alphabet always matches, and the longest match is found. -/
theorem match_spec (n : Nat) (enc : Enc) (hd : DictOk n enc.dict.entries) (c : UInt8) (input : Bytes)
    (hc : c.toNat < n) :
    ∃ mi w, «match» enc (c :: input) = .ok mi ∧ enc.dict.entries[mi]? = some (entry w) ∧ w ≠ [] ∧
      w.length ≤ 255 ∧ w <+: c :: input ∧
      ∀ e ∈ enc.dict.entries, Fits (c :: input) e → e.len.toNat ≤ w.length := by
  have hstart : BestSoFar (c :: input) [] 0 0 false := ⟨by simp, by simp, by simp⟩
  obtain ⟨ml, h1, h2, h3⟩ := matchLoop_spec (c :: input) enc.dict.entries [] 0 0 false hstart
  simp only [List.nil_append, List.length_nil] at h1 h2 h3
  have hok : (matchLoop (c :: input) enc.dict.entries 0 0 0 false).2 = true := by
    cases hok : (matchLoop (c :: input) enc.dict.entries 0 0 0 false).2 with
    | true => rfl
    | false =>
      have hml := h3 hok
      have he : enc.dict.entries[c.toNat]? = some (entry [c]) := by
        rw [hd.low _ (by omega), D0_single n _ hc]; simp
      have := h1 (entry [c]) (List.mem_of_getElem? he) ⟨by simp [entry], by simp [entry]⟩
      simp [entry] at this
      omega
  obtain ⟨hpos, e, he, hl, hf⟩ := h2 hok
  obtain ⟨w, rfl, hw⟩ := hd.words e (List.mem_of_getElem? he)
  obtain ⟨w1, w2, w3⟩ := entry_match w hw (by omega)
  refine ⟨_, w, ?_, he, w2, w1, ?_, fun e he hfe => ?_⟩
  · unfold «match»
    simp only [hok]
    rfl
  · have := hf.2
    rw [w3] at this
    have e1 : (entry w).word.take w.length = w := by simp [entry]
    rw [e1] at this
    rw [this]
    exact List.take_prefix _ _
  · rw [← w3, hl]; exact h1 e he hfe

end Che.Lib.Lzw
