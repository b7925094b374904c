import Verif.Model.Lib.Enc
import Verif.Spec.Lib.Enc
import Verif.Proofs.Lib.IO

/-!
C46-C48: the encodings of the library.
-/
namespace Che.Props
open Che.Lib Che.Spec.Lib

/-! ### Hexadecimal -/

theorem hex_byte (b : UInt8) :
    hexPair (Hex.HEX.getD (b.toNat / 16) 0) (Hex.HEX.getD (b.toNat % 16) 0) = some b := by
  have h : ∀ n : Fin 256, hexPair (Hex.HEX.getD (n.val / 16) 0) (Hex.HEX.getD (n.val % 16) 0)
      = some (UInt8.ofNat n.val) := by decide +kernel
  have := h ⟨b.toNat, b.toNat_lt⟩
  simpa using this

theorem hex_loop (w : Writer) (len : Nat) (data : Bytes) :
    let res := Hex.writeLoop w len data
    res.1.kind = w.kind ∧
    (0 ≤ res.2 → ∃ k t, k ≤ data.length ∧ res.2 = len + k ∧ res.1.out = w.out ++ t ∧
      t.length = 2 * k ∧ unhex t = some (data.take k) ∧
      (k < data.length → ∃ l, w.kind = .file (some l) ∧ l ≤ res.1.out.length)) ∧
    (w.kind = .file none → res.2 = len + data.length) := by
  induction data generalizing w len with
  | nil => exact ⟨rfl, fun _ => ⟨0, [], by simp [Hex.writeLoop, unhex]⟩, fun _ => by simp [Hex.writeLoop]⟩
  | cons b rest ih =>
    simp only
    unfold Hex.writeLoop
    simp only
    have hsp := w.write_spec [Hex.HEX.getD (b.toNat / 16) 0, Hex.HEX.getD (b.toNat % 16) 0]
    have hfile := w.write_file [Hex.HEX.getD (b.toNat / 16) 0, Hex.HEX.getD (b.toNat % 16) 0]
    generalize hx : w.write [Hex.HEX.getD (b.toNat / 16) 0, Hex.HEX.getD (b.toNat % 16) 0] = x at hsp hfile
    obtain ⟨w', r⟩ := x
    simp only at hsp hfile
    obtain ⟨hk, n, hn, ho, hr⟩ := hsp
    simp only [List.length_cons, List.length_nil] at hn
    by_cases h1 : r < 0
    · refine ⟨by simp [h1, hk], fun h => by simp [h1] at h; omega, fun h => ?_⟩
      have := (hfile h).2
      simp at this; omega
    · by_cases h2 : r = 0
      · refine ⟨by simp [h2, hk], fun _ => ?_, fun h => ?_⟩
        · refine ⟨0, [], by simp, by simp [h2], ?_, rfl, by simp [unhex], fun _ => ?_⟩
          · have : n = 0 := by omega
            simp [h2, ho, this]
          · -- only a full file gives zero
            have hn0 : n = 0 := by omega
            simp only [h2, Int.lt_irrefl, ↓reduceIte]
            have hx2 : (w.kind.write w.out [Hex.HEX.getD (b.toNat / 16) 0, Hex.HEX.getD (b.toNat % 16) 0]).2 = 0 := by
              have := congrArg Prod.snd hx
              simp only [Writer.write] at this
              rw [this, h2]
            rw [ho, hn0]
            cases hkind : w.kind with
            | file limit =>
              cases limit with
              | none => have := (hfile hkind).2; simp at this; omega
              | some l =>
                refine ⟨l, rfl, ?_⟩
                rw [hkind] at hx2
                simp [WKind.write, fileWrite] at hx2
                simp; omega
            | mem size =>
              rw [hkind] at hx2
              simp only [WKind.write, memWrite] at hx2
              by_cases hs : w.out.length ≥ size
              · simp [hs] at hx2
              · rw [if_neg hs, memWriteLoop_eq _ _ _ _ (by omega)] at hx2
                simp at hx2; omega
        · have := (hfile h).2
          simp at this; omega
      · by_cases h3 : r = 1
        · refine ⟨by simp [h3, hk], fun h => by simp [h3] at h, fun h => ?_⟩
          have := (hfile h).2
          simp at this; omega
        · have hr2 : r = 2 := by omega
          have hn2 : n = 2 := by omega
          simp only [h1, h2, h3, hr2, ↓reduceIte]
          have ih' := ih w' (len + 1)
          simp only [Int.natCast_add, Int.natCast_one] at ih'
          obtain ⟨i1, i2, i3⟩ := ih'
          refine ⟨by simp [i1, hk], fun h => ?_, fun h => ?_⟩
          · have h' : 0 ≤ (Hex.writeLoop w' (↑len + 1) rest).2 := by simpa using h
            obtain ⟨k, t, hkl, hres, hout, htl, hun, hlim⟩ := i2 h'
            refine ⟨k + 1, Hex.HEX.getD (b.toNat / 16) 0 :: Hex.HEX.getD (b.toNat % 16) 0 :: t, by simp; omega, ?_, ?_, ?_, ?_, ?_⟩
            · simp [hres]; omega
            · simp [hout, ho, hn2]
            · simp [htl]; omega
            · simp only [unhex, hex_byte, hun, List.take_succ_cons]
            · intro hlt
              simp only [List.length_cons] at hlt
              obtain ⟨l, hl⟩ := hlim (by omega)
              exact ⟨l, by simpa [hk] using hl⟩
          · have := i3 (by rw [hk]; exact h)
            simp [this]; omega

/-- C46: whatever `hex.write` reports as written can be read back: `n` bytes of the
data, two digits for each.  It stops early without an error only when a file is
full. -/
theorem C46_count (w : Writer) (data : Bytes) (h : 0 ≤ (Hex.write w data).2) :
    ∃ n t, (Hex.write w data).2 = (n : Nat) ∧ n ≤ data.length ∧
      (Hex.write w data).1.out = w.out ++ t ∧ t.length = 2 * n ∧ unhex t = some (data.take n) ∧
      (n < data.length → ∃ l, w.kind = .file (some l) ∧ l ≤ (Hex.write w data).1.out.length) := by
  obtain ⟨_, h2, _⟩ := hex_loop w 0 data
  obtain ⟨k, t, a, b, c, d, e, f⟩ := h2 h
  exact ⟨k, t, by simpa [Hex.write] using b, a, c, d, e, f⟩

/-- C46: all the data can be read back from what is written to a file. -/
theorem C46_round_trip (w : Writer) (data : Bytes) (hk : w.kind = .file none) :
    (Hex.write w data).2 = data.length ∧
    ∃ t, (Hex.write w data).1.out = w.out ++ t ∧ unhex t = some data := by
  obtain ⟨_, h2, h3⟩ := hex_loop w 0 data
  have h3 := h3 hk
  have hres : (Hex.write w data).2 = data.length := by simpa [Hex.write] using h3
  obtain ⟨n, t, a, b, c, d, e, f⟩ := C46_count w data (by rw [hres]; omega)
  have : n = data.length := by omega
  exact ⟨hres, t, c, by rw [e, this, List.take_length]⟩

example : (Hex.write Writer.toFile [0, 171, 255]).1.out = cstr "00abff" := by decide +kernel
/-- A buffer with room for a byte and a half: an error. -/
example : (Hex.write (Writer.toBuffer 3) [1, 2]).2 = -1 := by decide +kernel
example : ((Hex.write { kind := .file (some 4), out := [], nwritten := 0 } [1, 2, 3]).2,
    (Hex.write { kind := .file (some 4), out := [], nwritten := 0 } [1, 2, 3]).1.out) = (2, cstr "0102") := by
  decide +kernel

/-! ### Percent-encoding -/

theorem url_byte (c : UInt8) :
    hexPair (UrlEncode.HEX.getD ((c.toNat >>> 4) &&& 0x0F) 0) (UrlEncode.HEX.getD (c.toNat &&& 0x0F) 0)
      = some c ∧
    alnum (UrlEncode.HEX.getD ((c.toNat >>> 4) &&& 0x0F) 0) ∧
    alnum (UrlEncode.HEX.getD (c.toNat &&& 0x0F) 0) := by
  have h : ∀ n : Fin 256,
      hexPair (UrlEncode.HEX.getD ((n.val >>> 4) &&& 0x0F) 0) (UrlEncode.HEX.getD (n.val &&& 0x0F) 0)
        = some (UInt8.ofNat n.val) ∧
      alnum (UrlEncode.HEX.getD ((n.val >>> 4) &&& 0x0F) 0) ∧
      alnum (UrlEncode.HEX.getD (n.val &&& 0x0F) 0) := by unfold alnum; decide +kernel
  have := h ⟨c.toNat, c.toNat_lt⟩
  simpa using this

theorem url_plain (c : UInt8) (h : (UrlEncode.isalpha c || UrlEncode.isdigit c) = true) : alnum c ∧ c ≠ 37 := by
  simp only [UrlEncode.isalpha, UrlEncode.isdigit, Bool.or_eq_true, Bool.and_eq_true, decide_eq_true_eq] at h
  have hl : ∀ a b : UInt8, a ≤ b ↔ a.toNat ≤ b.toNat := fun a b => UInt8.le_iff_toNat_le
  simp only [hl] at h
  simp at h
  refine ⟨by unfold alnum; omega, ?_⟩
  intro hc
  subst hc
  simp at h

theorem unpercent_plain (c : UInt8) (t : List UInt8) (h : c ≠ 37) :
    unpercent (c :: t) = (unpercent t).map (c :: ·) := by
  rw [unpercent.eq_def]
  simp [h]

theorem url_loop (w : Writer) (len : Nat) (data : Bytes) :
    let res := UrlEncode.writeLoop w len data
    res.1.kind = w.kind ∧
    (res.2 = -1 ∨ ∃ t, res.1.out = w.out ++ t ∧ res.2 = len + t.length ∧ unpercent t = some data ∧
      ∀ c ∈ t, alnum c ∨ c = 37) ∧
    (w.kind = .file none → res.2 ≠ -1) := by
  induction data generalizing w len with
  | nil =>
    refine ⟨rfl, Or.inr ⟨[], by simp [UrlEncode.writeLoop, unpercent]⟩, fun _ => ?_⟩
    simp [UrlEncode.writeLoop]
  | cons c rest ih =>
    simp only
    unfold UrlEncode.writeLoop
    by_cases hc : (UrlEncode.isalpha c || UrlEncode.isdigit c) = true
    · rw [if_pos hc]
      simp only
      have hsp := w.write_spec [c]
      have hfile := w.write_file [c]
      have hall := w.write_all [c]
      generalize w.write [c] = x at hsp hfile hall
      obtain ⟨w', r⟩ := x
      simp only [List.length_cons, List.length_nil, Nat.zero_add, Int.natCast_one] at hsp hfile hall
      by_cases h1 : r = 1
      · simp only [h1, ne_eq, not_true_eq_false, ↓reduceIte]
        obtain ⟨i1, i2, i3⟩ := ih w' (len + 1)
        simp only [Int.natCast_add, Int.natCast_one] at i1 i2 i3
        refine ⟨by rw [i1, hsp.1], ?_, fun h => i3 (by rw [hsp.1]; exact h)⟩
        rcases i2 with i2 | ⟨t, a, b, d, e⟩
        · exact Or.inl i2
        · refine Or.inr ⟨c :: t, by rw [a, hall h1]; simp, by rw [b]; simp; omega, ?_, ?_⟩
          · rw [unpercent_plain _ _ (url_plain c hc).2, d]; rfl
          · intro x hx
            rcases List.mem_cons.1 hx with rfl | hx
            · exact Or.inl (url_plain _ hc).1
            · exact e x hx
      · simp only [ne_eq, h1, not_false_eq_true, ↓reduceIte]
        exact ⟨hsp.1, Or.inl trivial, fun h => absurd (hfile h).2 h1⟩
    · rw [if_neg hc]
      simp only
      generalize htmp : [37, UrlEncode.HEX.getD ((c.toNat >>> 4) &&& 0x0F) 0, UrlEncode.HEX.getD (c.toNat &&& 0x0F) 0] = tmp
      have hlen : tmp.length = 3 := by rw [← htmp]; rfl
      have hsp := w.write_spec tmp
      have hfile := w.write_file tmp
      have hall := w.write_all tmp
      generalize w.write tmp = x at hsp hfile hall
      obtain ⟨w', r⟩ := x
      simp only [hlen] at hsp hfile hall
      by_cases h1 : r = 3
      · simp only [h1, ne_eq, not_true_eq_false, ↓reduceIte]
        obtain ⟨i1, i2, i3⟩ := ih w' (len + 3)
        simp only [Int.natCast_add] at i1 i2 i3
        refine ⟨by rw [← hsp.1]; exact i1, ?_, fun h => i3 (by rw [hsp.1]; exact h)⟩
        rcases i2 with i2 | ⟨t, a, b, d, e⟩
        · exact Or.inl i2
        · refine Or.inr ⟨tmp ++ t, ?_, ?_, ?_, ?_⟩
          · exact a.trans (by rw [hall h1]; simp)
          · exact b.trans (by simp [hlen]; omega)
          · rw [← htmp]
            simp only [List.cons_append, List.nil_append]
            rw [unpercent, if_pos rfl]
            simp only [(url_byte c).1, d]
          · intro x hx
            rw [← htmp] at hx
            simp only [List.cons_append, List.nil_append, List.mem_cons] at hx
            rcases hx with rfl | rfl | rfl | hx
            · exact Or.inr rfl
            · exact Or.inl (url_byte c).2.1
            · exact Or.inl (url_byte c).2.2
            · exact e x hx
      · simp only [ne_eq, h1, not_false_eq_true, ↓reduceIte]
        exact ⟨hsp.1, Or.inl trivial, fun h => absurd (hfile h).2 (by simpa using h1)⟩

/-- C47: unless `urlencode.write` reports an error, percent-decoding what it wrote
gives the data back, all characters written are letters, digits and `%`, and the
result is their number. -/
theorem C47_round_trip (w : Writer) (data : Bytes) :
    (UrlEncode.write w data).2 = -1 ∨
    ∃ t, (UrlEncode.write w data).1.out = w.out ++ t ∧ (UrlEncode.write w data).2 = t.length ∧
      unpercent t = some data ∧ ∀ c ∈ t, alnum c ∨ c = 37 := by
  have := (url_loop w 0 data).2.1
  simpa [UrlEncode.write] using this

/-- C47: writing to a file that does not get full is not an error. -/
theorem C47_no_error (w : Writer) (data : Bytes) (hk : w.kind = .file none) :
    (UrlEncode.write w data).2 ≠ -1 :=
  (url_loop w 0 data).2.2 hk

example : (UrlEncode.write Writer.toFile (cstr "a b/é")).1.out = cstr "a%20b%2F%E9" := by decide +kernel
example : unpercent (cstr "a%20b") = some (cstr "a b") := by decide +kernel
example : (UrlEncode.write (Writer.toBuffer 2) (cstr "a b")).2 = -1 := by decide +kernel

/-! ### Byte order -/

theorem toNat_digits (v : UInt32) :
    let d0 := ((v % 256).toUInt8).toNat
    let d1 := ((v / 256 % 256).toUInt8).toNat
    let d2 := ((v / 256 / 256 % 256).toUInt8).toNat
    let d3 := ((v / 256 / 256 / 256 % 256).toUInt8).toNat
    d0 + 256 * (d1 + 256 * (d2 + 256 * d3)) = v.toNat ∧ d0 + 256 * d1 = v.toNat % 65536 := by
  have := v.toNat_lt
  simp
  omega

/-- C48: `write4be` writes four bytes whose value, most significant first, is `v`. -/
theorem C48_write4be (w : Writer) (v : UInt32) :
    ∃ bs, bigEndian bs = v.toNat ∧ bs.length = 4 ∧ Endian.write4be w v = w.write bs := by
  refine ⟨_, ?_, ?_, rfl⟩
  · have := (toNat_digits v).1
    simp only [bigEndian, List.length_cons, List.length_nil] at this ⊢
    omega
  · rfl

/-- C48: `write4le` writes four bytes whose value, least significant first, is `v`. -/
theorem C48_write4le (w : Writer) (v : UInt32) :
    ∃ bs, littleEndian bs = v.toNat ∧ bs.length = 4 ∧ Endian.write4le w v = w.write bs := by
  refine ⟨_, ?_, ?_, rfl⟩
  · have := (toNat_digits v).1
    simp only [littleEndian] at this ⊢
    omega
  · rfl

/-- C48: `write2le` writes the low sixteen bits. -/
theorem C48_write2le (w : Writer) (v : UInt32) :
    ∃ bs, littleEndian bs = v.toNat % 2 ^ 16 ∧ bs.length = 2 ∧ Endian.write2le w v = w.write bs := by
  refine ⟨_, ?_, ?_, rfl⟩
  · have := (toNat_digits v).2
    simp only [littleEndian] at this ⊢
    omega
  · rfl

/-- The next `n` bytes of a reader of a file or of memory. -/
def Next (rd : Reader) (bs : Bytes) : Prop :=
  rd.src.full = true ∧ ∃ rest, rd.src.rest = bs ++ rest

theorem next_read (rd : Reader) (bs : Bytes) (h : Next rd bs) (hb : 0 < bs.length) :
    (rd.read bs.length).2.1 = bs.length ∧ (rd.read bs.length).2.2 = bs := by
  obtain ⟨hf, rest, hr⟩ := h
  obtain ⟨h1, _, _, h4⟩ := Source.read_full rd.src bs.length hf hb
  have htake : rd.src.rest.take bs.length = bs := by rw [hr]; simp
  refine ⟨?_, by simpa [Reader.read, htake] using h1⟩
  rcases h4 with ⟨_, h4⟩ | ⟨h4, _⟩
  · rw [htake] at h4; simpa [Reader.read] using h4
  · rw [h4] at hr
    have := congrArg List.length hr
    simp [Source.rest] at this; omega

theorem four (bs : Bytes) (h : bs.length = 4) : ∃ a b c d, bs = [a, b, c, d] := by
  match bs, h with
  | [a, b, c, d], _ => exact ⟨a, b, c, d, rfl⟩

/-- C48: reading four bytes gives their value. -/
theorem C48_read4be (junk bs : Bytes) (rd : Reader) (hn : Next rd bs) (hb : bs.length = 4) :
    (Endian.read4be junk rd).2.1 = 4 ∧ (Endian.read4be junk rd).2.2.toNat = bigEndian bs := by
  obtain ⟨h1, h2⟩ := next_read rd bs hn (by omega)
  rw [hb] at h1 h2
  obtain ⟨a, b, c, d, rfl⟩ := four bs hb
  simp only [Endian.read4be, h1, h2]
  refine ⟨rfl, ?_⟩
  have := a.toNat_lt; have := b.toNat_lt; have := c.toNat_lt; have := d.toNat_lt
  simp [Endian.fill, bigEndian]
  omega

/-- C48: reading four bytes gives their value. -/
theorem C48_read4le (junk bs : Bytes) (rd : Reader) (hn : Next rd bs) (hb : bs.length = 4) :
    (Endian.read4le junk rd).2.1 = 4 ∧ (Endian.read4le junk rd).2.2.toNat = littleEndian bs := by
  obtain ⟨h1, h2⟩ := next_read rd bs hn (by omega)
  rw [hb] at h1 h2
  obtain ⟨a, b, c, d, rfl⟩ := four bs hb
  simp only [Endian.read4le, h1, h2]
  refine ⟨rfl, ?_⟩
  have := a.toNat_lt; have := b.toNat_lt; have := c.toNat_lt; have := d.toNat_lt
  simp [Endian.fill, littleEndian]
  omega

/-- C48: reading three bytes gives their value. -/
theorem C48_read3le (junk bs : Bytes) (rd : Reader) (hn : Next rd bs) (hb : bs.length = 3) :
    (Endian.read3le junk rd).2.1 = 3 ∧ (Endian.read3le junk rd).2.2.toNat = littleEndian bs := by
  obtain ⟨h1, h2⟩ := next_read rd bs hn (by omega)
  rw [hb] at h1 h2
  match bs, hb with
  | [a, b, c], _ =>
    simp only [Endian.read3le, h1, h2]
    refine ⟨rfl, ?_⟩
    have := a.toNat_lt; have := b.toNat_lt; have := c.toNat_lt
    simp [Endian.fill, littleEndian]
    omega

/-- C48: reading two bytes gives their value. -/
theorem C48_read2 (v : UInt16) (bs : Bytes) (rd : Reader) (hn : Next rd bs) (hb : bs.length = 2) :
    (Endian.read2le rd v).2.1 = 2 ∧ (Endian.read2le rd v).2.2.toNat = littleEndian bs ∧
    (Endian.read2be rd v).2.1 = true ∧ (Endian.read2be rd v).2.2.toNat = bigEndian bs := by
  obtain ⟨h1, h2⟩ := next_read rd bs hn (by omega)
  rw [hb] at h1 h2
  match bs, hb with
  | [a, b], _ =>
    have := a.toNat_lt; have := b.toNat_lt
    simp [Endian.read2le, Endian.read2be, h1, h2, littleEndian, bigEndian]
    omega

/-- C48: what `write4be` put into a file, `read4be` gives back; the same for the
other order. -/
theorem C48_round_trip (v : UInt32) (junk : Bytes) :
    (Endian.read4be junk (Reader.ofFile (Endian.write4be Writer.toFile v).1.out)).2 = (4, v) ∧
    (Endian.read4le junk (Reader.ofFile (Endian.write4le Writer.toFile v).1.out)).2 = (4, v) := by
  obtain ⟨bs, hv, hl, hw⟩ := C48_write4be Writer.toFile v
  obtain ⟨cs, hv', hl', hw'⟩ := C48_write4le Writer.toFile v
  have e := (Writer.write_file Writer.toFile bs rfl).1
  have e' := (Writer.write_file Writer.toFile cs rfl).1
  rw [hw, hw', e, e']
  obtain ⟨a, b⟩ := C48_read4be junk bs (Reader.ofFile bs) ⟨rfl, [], by simp [Source.rest, Reader.ofFile]⟩ hl
  obtain ⟨a', b'⟩ := C48_read4le junk cs (Reader.ofFile cs) ⟨rfl, [], by simp [Source.rest, Reader.ofFile]⟩ hl'
  refine ⟨Prod.ext a ?_, Prod.ext a' ?_⟩
  · exact UInt32.toNat_inj.1 (b.trans hv)
  · exact UInt32.toNat_inj.1 (b'.trans hv')

/-- C48, what is missing: at the end of the data the readers of three and four bytes
still store a value, made of bytes that were never read. -/
theorem C48_counterexample_short :
    (Endian.read4be [9, 9, 9, 9] (Reader.ofFile [1])).2 ≠ (Endian.read4be [7, 7, 7, 7] (Reader.ofFile [1])).2 := by
  decide +kernel

/-- C48: the two-byte readers leave the value alone when there are not two bytes. -/
theorem C48_short (v : UInt16) (rd : Reader) (hf : rd.src.full = true) (hs : rd.src.rest.length < 2) :
    (Endian.read2le rd v).2 = (-1, v) ∧ (Endian.read2be rd v).2 = (false, v) := by
  obtain ⟨_, _, _, h4⟩ := Source.read_full rd.src 2 hf (by omega)
  have : (rd.read 2).2.1 ≠ 2 := by
    simp only [Reader.read]
    rcases h4 with ⟨_, h4⟩ | ⟨_, h4⟩
    · rw [h4]; simp; omega
    · rw [h4]; simp
  simp [Endian.read2le, Endian.read2be, this]

example : (Endian.write4be Writer.toFile 0x01020304).1.out = [1, 2, 3, 4] := by decide +kernel
example : (Endian.read3le [] (Reader.ofBuffer [1, 2, 3, 4])).2 = (3, 0x030201) := by decide +kernel

end Che.Props
