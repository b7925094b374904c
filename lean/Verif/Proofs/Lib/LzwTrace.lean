import Verif.Proofs.Lib.Lzw
import Verif.Spec.Lib.Lzw

namespace Che.Lib.Lzw
open Che.Lib.Bits Che.Spec.Lib

/-- No word of the dictionary that the data starts with is longer than `w`. -/
def Longest (D : List Word) (data w : Bytes) : Prop :=
  ∀ v, entry v ∈ D → v <+: data → v.length ≤ 255 → v.length ≤ w.length

/-- The codes, with the sizes of the dictionary, that the compressor emits for the data when it has
the dictionary `D`, and the size of the dictionary at the end. -/
inductive Trace (n : Nat) : List Word → Bytes → List (Nat × Nat) → List Word → Prop
  | last {D w mi} : D[mi]? = some (entry w) → w ≠ [] → w.length ≤ 255 → Longest D w w →
      Trace n D w [(mi, D.length)] D
  | more {D w mi c rest cs F} : D.length < 4096 → D[mi]? = some (entry w) → w ≠ [] → w.length ≤ 255 →
      Longest D (w ++ c :: rest) w → Trace n (D ++ [entry (w ++ [c])]) (c :: rest) cs F →
      Trace n D (w ++ c :: rest) ((mi, D.length) :: cs) F
  | reset {D w mi c rest cs F} : D.length = 4096 → D[mi]? = some (entry w) → w ≠ [] → w.length ≤ 255 →
      Longest D (w ++ c :: rest) w → Trace n (D0 n ++ [entry (w ++ [c])]) (c :: rest) cs F →
      Trace n D (w ++ c :: rest) ((mi, D.length) :: (n, D.length) :: cs) F

/-- The bits of a sequence of codes. -/
def traceBits (cs : List (Nat × Nat)) : List Bool := cs.flatMap fun x => codeBits (codewidth x.2) x.1

/-! ### The compressor emits a trace -/

/-- Data not yet consumed. -/
def Peeker.data (p : Peeker) : Bytes := p.buf ++ p.reader.src.rest

theorem peek_spec (p : Peeker) (hf : p.reader.src.full = true) (hb : p.buf.length ≤ 4096) :
    (peek p 4096).buf = p.data.take 4096 ∧ (peek p 4096).data = p.data ∧
    (peek p 4096).reader.src.full = true := by
  unfold peek
  by_cases h : p.buf.length < 4096
  · rw [if_pos h]
    obtain ⟨r1, r2, r3, r4⟩ := Reader.read_full p.reader (4096 - p.buf.length) hf (by omega)
    have htake : p.data.take 4096 = p.buf ++ p.reader.src.rest.take (4096 - p.buf.length) := by
      rw [Peeker.data, List.take_append]
      rw [List.take_of_length_le (by omega)]
    generalize p.reader.read (4096 - p.buf.length) = x at r1 r2 r3 r4
    obtain ⟨rd, q, got⟩ := x
    simp only at r1 r2 r3 r4 ⊢
    rcases r4 with ⟨_, r4⟩ | ⟨hs, r4⟩
    · have hq : q ≠ -1 := by omega
      rw [if_pos hq]
      refine ⟨by simp only; rw [htake, r1], ?_, r3⟩
      simp only [Peeker.data]
      rw [r1, r2, List.append_assoc, List.take_append_drop]
    · rw [if_neg (by rw [r4]; simp)]
      have e : p.reader.src.rest = [] := by rw [hs]; rfl
      refine ⟨?_, ?_, r3⟩
      · simp only; rw [htake, e]; simp
      · simp only [Peeker.data]
        rw [r2, e]; simp
  · rw [if_neg h]
    have h' : p.buf.length = 4096 := by omega
    refine ⟨?_, rfl, hf⟩
    rw [Peeker.data, ← h', List.take_left']
    rfl

/-- The dictionary of the compressor and of the decompressor. -/
structure IsDict (n : Nat) (d : Dict) (D : List Word) : Prop where
  init : d.initSize = n + 2
  entries : d.entries = D
  reset : d.resetcode = UInt16.ofNat n
  fin : d.endcode = UInt16.ofNat (n + 1)

theorem isDict_new (n : Nat) : IsDict n (newdict n) (D0 n) := ⟨rfl, rfl, rfl, rfl⟩

theorem isDict_reset {n : Nat} {d : Dict} {D : List Word} (h : IsDict n d D) (hd : DictOk n D) :
    IsDict n (resetdict d) (D0 n) := by
  refine ⟨h.init, ?_, h.reset, h.fin⟩
  simp only [resetdict]
  rw [h.entries, h.init]
  exact hd.start

theorem isDict_add {n : Nat} {d : Dict} {D : List Word} (h : IsDict n d D) (hs : D.length < 4096) (w : Bytes) :
    ∃ d', addentry d w = .ok d' ∧ IsDict n d' (D ++ [entry w]) := by
  refine ⟨{ d with entries := d.entries ++ [{ len := UInt8.ofNat w.length, word := w }] }, ?_, ?_⟩
  · unfold addentry
    rw [if_neg]
    rw [Dict.size, h.entries, MAX_DICT_LENGTH]
    omega
  · exact ⟨h.init, by simp only; rw [h.entries]; rfl, h.reset, h.fin⟩

/-- The state of the compressor. -/
structure EncOk (n : Nat) (enc : Enc) (D : List Word) : Prop where
  dict : IsDict n enc.dict D
  good : Good enc.bw
  file : enc.bw.out.kind = .file none
  rev : enc.bw.reverse = true

theorem emit_spec (n : Nat) (enc : Enc) (D : List Word) (he : EncOk n enc D) (c : Nat) (hc : c < 65536) :
    EncOk n (compEmit enc (UInt16.ofNat c)) D ∧
    written (compEmit enc (UInt16.ofNat c)).bw = written enc.bw ++ codeBits (codewidth D.length) c := by
  obtain ⟨h1, h2, h3, h4⟩ := writebits_spec enc.bw (UInt16.ofNat c) (codewidth enc.dict.size) he.good he.file
  have hs : enc.dict.size = D.length := by rw [Dict.size, he.dict.entries]
  refine ⟨⟨he.dict, h1, h2, h3.trans he.rev⟩, ?_⟩
  simp only [compEmit]
  rw [h4, hs]
  congr 2
  simp; omega

theorem compressLoop_spec (n : Nat) (hn : n ≤ 256) (fuel : Nat) (enc : Enc) (D : List Word) (p : Peeker)
    (he : EncOk n enc D) (hd : DictOk n D) (hf : p.reader.src.full = true) (hb : p.buf.length ≤ 4096)
    (hdata : p.data ≠ []) (hsym : ∀ c ∈ p.data, c.toNat < n) (hfuel : p.data.length ≤ fuel) :
    ∃ enc' cs F, compressLoop fuel enc p = .ok enc' ∧ Trace n D p.data cs F ∧ EncOk n enc' F ∧
      written enc'.bw = written enc.bw ++ traceBits cs := by
  induction fuel generalizing enc D p with
  | zero =>
    have : p.data.length = 0 := by omega
    exact absurd (List.length_eq_zero_iff.1 this) hdata
  | succ fuel ih =>
    obtain ⟨k1, k2, k3⟩ := peek_spec p hf hb
    unfold compressLoop
    simp only
    generalize hp' : peek p 4096 = p' at k1 k2 k3
    rw [← k2] at hdata hsym hfuel k1 ⊢
    -- the data starts with some symbol
    obtain ⟨c0, data', hcd⟩ : ∃ c r, p'.data = c :: r := by
      cases hx : p'.data with
      | nil => exact absurd hx hdata
      | cons c r => exact ⟨c, r, rfl⟩
    have hbuf : p'.buf = c0 :: data'.take 4095 := by rw [k1, hcd]; rfl
    have hc0 : c0.toNat < n := hsym c0 (by rw [hcd]; exact List.mem_cons_self)
    obtain ⟨mi, w, m1, m2, m3, m4, m5, m6⟩ := match_spec n enc (by rw [he.dict.entries]; exact hd) c0 (data'.take 4095) hc0
    rw [he.dict.entries] at m2 m6
    rw [← hbuf] at m1 m5
    rw [if_neg (by rw [hbuf]; simp)]
    have hmi : mi < D.length := (List.getElem?_eq_some_iff.1 m2).1
    have hmi16 : mi < 65536 := by have := hd.size; omega
    have hlen : (enc.dict.entries.getD mi ⟨0, []⟩).len.toNat = w.length := by
      rw [he.dict.entries, List.getD_eq_getElem?_getD, m2]
      exact entry_len w m4
    obtain ⟨e1, e2⟩ := emit_spec n enc D he mi hmi16
    rw [m1]
    have m7 : Longest D p'.data w := by
      intro v hv hpre hv255
      have := m6 (entry v) hv (by
        unfold Fits
        rw [entry_len v hv255, ← hbuf, k1]
        have hle := hpre.length_le
        refine ⟨by rw [List.length_take]; omega, ?_⟩
        rw [List.take_take, Nat.min_eq_left (by omega)]
        rw [show (entry v).word = v from rfl, List.take_length]
        exact List.prefix_iff_eq_take.1 hpre)
      rwa [entry_len v hv255] at this
    simp only [bind, Res.bind, hlen]
    by_cases hq : w.length = p'.buf.length
    · -- the whole input has been matched
      rw [if_pos hq]
      have hwb : w = p'.buf := by
        obtain ⟨t, ht⟩ := m5
        have := congrArg List.length ht
        simp only [List.length_append] at this
        have ht0 : t = [] := List.length_eq_zero_iff.1 (by omega)
        rw [← ht, ht0, List.append_nil]
      have hall : p'.buf = p'.data := by
        rw [k1]
        refine List.take_of_length_le ?_
        have := congrArg List.length k1
        rw [List.length_take] at this
        omega
      refine ⟨_, [(mi, D.length)], D, rfl, ?_, e1, ?_⟩
      · rw [← hall, ← hwb]
        exact .last m2 m3 m4 (by rw [← hall, ← hwb] at m7; exact m7)
      · rw [e2]; simp [traceBits]
    · rw [if_neg hq]
      -- there is more: the next symbol
      obtain ⟨t, ht⟩ := m5
      obtain ⟨c, t', htt⟩ : ∃ c t', t = c :: t' := by
        cases t with
        | nil => exact absurd (by rw [← ht]; simp) hq
        | cons c t' => exact ⟨c, t', rfl⟩
      subst htt
      have hsplit : p'.data = w ++ c :: (t' ++ p'.reader.src.rest) := by
        rw [Peeker.data, ← ht]; simp
      have htake : p'.buf.take (w.length + 1) = w ++ [c] := by
        rw [← ht, List.take_append]
        simp [List.take_of_length_le]
      have hshift : shift p' w.length = .ok { p' with buf := c :: t' } := by
        unfold shift
        rw [if_neg]
        · rw [← ht]; simp
        · rw [← ht]
          have : w.length ≠ 0 := fun h => m3 (List.length_eq_zero_iff.1 h)
          simp; exact m3
      have hw1 : (w ++ [c]).length ≤ 256 := by simp; omega
      -- the rest of the run
      have hrest : ∀ (encR : Enc) (DR : List Word), EncOk n encR (DR ++ [entry (w ++ [c])]) →
          DictOk n (DR ++ [entry (w ++ [c])]) →
          ∃ enc' cs F, compressLoop fuel encR { p' with buf := c :: t' } = .ok enc' ∧
            Trace n (DR ++ [entry (w ++ [c])]) (c :: (t' ++ p'.reader.src.rest)) cs F ∧ EncOk n enc' F ∧
            written enc'.bw = written encR.bw ++ traceBits cs := by
        intro encR DR hR hDR
        have hdat : ({ p' with buf := c :: t' } : Peeker).data = c :: (t' ++ p'.reader.src.rest) := by
          simp [Peeker.data]
        have := ih encR (DR ++ [entry (w ++ [c])]) { p' with buf := c :: t' } hR hDR k3 (by
            have h1 := congrArg List.length ht
            have h2 : p'.buf.length ≤ 4096 := by rw [k1]; simp; omega
            simp at h1 ⊢; omega) (by rw [hdat]; simp) (by
            intro x hx
            rw [hdat] at hx
            exact hsym x (by rw [hsplit]; exact List.mem_append_right _ hx)) (by
            rw [hdat]
            have h1 := congrArg List.length hsplit
            have : w.length ≠ 0 := fun h => m3 (List.length_eq_zero_iff.1 h)
            rw [List.length_append] at h1
            omega)
        rw [hdat] at this
        exact this
      rw [hsplit] at m7
      rw [hsplit, htake]
      by_cases hmax : D.length = 4096
      · -- the dictionary is full: reset
        have hsz : (compEmit enc (UInt16.ofNat mi)).dict.size = MAX_DICT_LENGTH := by
          rw [Dict.size, e1.dict.entries, hmax]; rfl
        rw [if_pos hsz]
        obtain ⟨f1, f2⟩ := emit_spec n _ D e1 n (by omega)
        rw [e1.dict.reset]
        have hreset := isDict_reset f1.dict hd
        have hlt : (resetdict (compEmit (compEmit enc (UInt16.ofNat mi)) (UInt16.ofNat n)).dict).size < MAX_DICT_LENGTH := by
          rw [Dict.size, hreset.entries, D0_length, MAX_DICT_LENGTH]; omega
        simp only [if_pos hlt]
        obtain ⟨d', a1, a2⟩ := isDict_add hreset (by rw [D0_length]; omega) (w ++ [c])
        rw [a1]
        simp only [hshift]
        obtain ⟨enc', cs, F, c1, c2, c3, c4⟩ := hrest _ (D0 n)
          (show EncOk n { dict := d', bw := (compEmit (compEmit enc (UInt16.ofNat mi)) (UInt16.ofNat n)).bw } _ from
            ⟨a2, f1.good, f1.file, f1.rev⟩)
          ((dictOk_new n hn).add (by rw [D0_length]; omega) _ hw1)
        refine ⟨enc', _, F, c1, .reset hmax m2 m3 m4 m7 c2, c3, ?_⟩
        rw [c4, f2, e2]
        simp [traceBits]
      · have hlt' : D.length < 4096 := by have := hd.size; omega
        have hsz : ¬ (compEmit enc (UInt16.ofNat mi)).dict.size = MAX_DICT_LENGTH := by
          rw [Dict.size, e1.dict.entries, MAX_DICT_LENGTH]; exact hmax
        rw [if_neg hsz]
        have hlt : (compEmit enc (UInt16.ofNat mi)).dict.size < MAX_DICT_LENGTH := by
          rw [Dict.size, e1.dict.entries, MAX_DICT_LENGTH]; exact hlt'
        simp only [if_pos hlt]
        obtain ⟨d', a1, a2⟩ := isDict_add e1.dict hlt' (w ++ [c])
        rw [a1]
        simp only [hshift]
        obtain ⟨enc', cs, F, c1, c2, c3, c4⟩ := hrest _ D
          (show EncOk n { dict := d', bw := (compEmit enc (UInt16.ofNat mi)).bw } _ from
            ⟨a2, e1.good, e1.file, e1.rev⟩)
          (hd.add hlt' _ hw1)
        refine ⟨enc', _, F, c1, .more hlt' m2 m3 m4 m7 c2, c3, ?_⟩
        rw [c4, e2]
        simp [traceBits]

theorem Trace.dictOk {n : Nat} (hn : n ≤ 256) {D : List Word} {data : Bytes} {cs : List (Nat × Nat)} {F : List Word}
    (h : Trace n D data cs F) (hD : DictOk n D) : DictOk n F := by
  induction h with
  | last _ _ _ _ => exact hD
  | more hlt _ _ h255 _ _ ih => exact ih (hD.add hlt _ (by simp; omega))
  | reset _ _ _ h255 _ _ ih =>
    exact ih ((dictOk_new n hn).add (by rw [D0_length]; omega) _ (by simp; omega))

end Che.Lib.Lzw
