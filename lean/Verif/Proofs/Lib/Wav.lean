import Verif.Model.Lib.Wav
import Verif.Spec.Lib.Wav
import Verif.Props.Lib.Enc
import Verif.Proofs.Lib.Time

namespace Che.Lib.Wav
open Che.Lib Che.Spec.Wav Che.Spec.Lib

/-- A reader that has bytes left. -/
def Has (rd : Reader) (s : Bytes) : Prop := rd.src.full = true ∧ rd.src.rest = s

theorem has_file (s : Bytes) : Has (Reader.ofFile s) s := ⟨rfl, rfl⟩
theorem has_mem (s : Bytes) : Has (Reader.ofBuffer s) s := ⟨rfl, rfl⟩

theorem read_has {rd : Reader} {a s : Bytes} (h : Has rd (a ++ s)) : (rd.read a.length).2.2 = a ∧ Has (rd.read a.length).1 s := by
  rcases Nat.eq_zero_or_pos a.length with h0 | h0
  · have : a = [] := List.eq_nil_of_length_eq_zero h0
    subst this
    obtain ⟨h1, h2⟩ := h
    rw [List.nil_append] at h2
    unfold Has Reader.read
    cases hs : rd.src with
    | file r => rw [hs] at h2; simp only [Source.rest] at h2; subst h2; simp [Source.read, fileRead, Source.full, Source.rest]
    | mem r =>
      rw [hs] at h2; simp only [Source.rest] at h2; subst h2
      cases r <;> simp [Source.read, memRead, memReadLoop, Source.full, Source.rest]
    | fd c => rw [hs] at h1; simp [Source.full] at h1
  · obtain ⟨h1, h2, h3, _⟩ := Reader.read_full rd a.length h.1 h0
    rw [h.2] at h1 h2
    exact ⟨by rw [h1, List.take_left], h3, by rw [h2, List.drop_left]⟩

theorem read_has' {rd : Reader} {a s : Bytes} {n : Nat} (h : Has rd (a ++ s)) (hn : a.length = n) : (rd.read n).2.2 = a ∧ Has (rd.read n).1 s := by
  subst hn; exact read_has h

/-! ## Numbers -/

theorem le_length : ∀ (n v : Nat), (le n v).length = n
  | 0, _ => rfl
  | n + 1, v => by simp [le, le_length n]

theorem littleEndian_le : ∀ (n v : Nat), littleEndian (le n v) = v % 256 ^ n
  | 0, v => by simp [le, littleEndian, Nat.mod_one]
  | n + 1, v => by
    rw [le, littleEndian, littleEndian_le n]
    have h1 : (UInt8.ofNat (v % 256)).toNat = v % 256 := by simp
    rw [h1, Nat.pow_succ', Nat.mod_mul]

theorem next_of {rd : Reader} {a s : Bytes} (h : Has rd (a ++ s)) : Props.Next rd a := ⟨h.1, s, h.2⟩

theorem read4_has {rd : Reader} {v : Nat} {s : Bytes} (junk : Bytes) (h : Has rd (le 4 v ++ s)) (hv : v < 2 ^ 32) :
    (Endian.read4le junk rd).2.2 = UInt32.ofNat v ∧ Has (Endian.read4le junk rd).1 s := by
  have h1 := (Props.C48_read4le junk (le 4 v) rd (next_of h) (le_length 4 v)).2
  refine ⟨?_, (read_has' h (le_length 4 v)).2⟩
  apply UInt32.toNat_inj.1
  rw [h1, littleEndian_le, UInt32.toNat_ofNat']

theorem read3_has {rd : Reader} {v : Nat} {s : Bytes} (junk : Bytes) (h : Has rd (le 3 v ++ s)) (hv : v < 2 ^ 24) :
    (Endian.read3le junk rd).2.2.toNat = v ∧ Has (Endian.read3le junk rd).1 s := by
  have h1 := (Props.C48_read3le junk (le 3 v) rd (next_of h) (le_length 3 v)).2
  refine ⟨?_, (read_has' h (le_length 3 v)).2⟩
  rw [h1, littleEndian_le]; exact Nat.mod_eq_of_lt hv

theorem read2_has {rd : Reader} {v : Nat} {s : Bytes} (x : UInt16) (h : Has rd (le 2 v ++ s)) (hv : v < 2 ^ 16) :
    (Endian.read2le rd x).2.2 = UInt16.ofNat v ∧ Has (Endian.read2le rd x).1 s := by
  have h1 := (Props.C48_read2 x (le 2 v) rd (next_of h) (le_length 2 v)).2.1
  have h2 := read_has' h (le_length 2 v)
  refine ⟨?_, ?_⟩
  · apply UInt16.toNat_inj.1
    rw [h1, littleEndian_le, UInt16.toNat_ofNat']
  · have : (Endian.read2le rd x).1 = (rd.read 2).1 := by
      unfold Endian.read2le; simp only; split <;> rfl
    rw [this]; exact h2.2

/-! ## Tags -/

theorem str_eq {t : Bytes} (h : (0 : UInt8) ∉ t) (z : Bytes) : str (t ++ 0 :: z) = t := by
  induction t with
  | nil => simp [str]
  | cons c t ih =>
    simp only [List.mem_cons, not_or] at h
    have := ih h.2
    unfold str at this ⊢
    rw [List.cons_append, List.takeWhile_cons, if_pos (by simpa using fun e => h.1 e.symm), this]

theorem readInto_has {rd : Reader} {a s buf : Bytes} {n : Nat} (h : Has rd (a ++ s)) (hn : a.length = n) :
    (readInto rd buf n).2 = a ++ buf.drop n ∧ Has (readInto rd buf n).1 s := by
  obtain ⟨h1, h2⟩ := read_has' h hn
  refine ⟨?_, h2⟩
  unfold readInto into
  rw [h1, hn]

/-- The bytes of a tag. -/
structure Tag (t : Bytes) : Prop where
  length : t.length = 4
  zero : (0 : UInt8) ∉ t

theorem expect_has {rd : Reader} {t s : Bytes} (h : Has rd (t ++ s)) (ht : Tag t) : ∃ rd', expect_tag rd t = .ok rd' ∧ Has rd' s := by
  obtain ⟨h1, h2⟩ := readInto_has (buf := [0, 0, 0, 0, 0]) h ht.length
  refine ⟨_, ?_, h2⟩
  unfold expect_tag
  simp only [h1]
  rw [show List.drop 4 [0, 0, 0, 0, 0] = (0 : UInt8) :: [] from rfl, str_eq ht.zero, if_neg (by simp)]

theorem tag_riff : Tag (cstr "RIFF") := ⟨by decide +kernel, by decide +kernel⟩
theorem tag_wave : Tag (cstr "WAVE") := ⟨by decide +kernel, by decide +kernel⟩
theorem tag_fmt : Tag (cstr "fmt ") := ⟨by decide +kernel, by decide +kernel⟩
theorem tag_list : Tag (cstr "LIST") := ⟨by decide +kernel, by decide +kernel⟩
theorem tag_info : Tag (cstr "INFO") := ⟨by decide +kernel, by decide +kernel⟩
theorem tag_pad : Tag (cstr "PAD ") := ⟨by decide +kernel, by decide +kernel⟩
theorem tag_data : Tag (cstr "data") := ⟨by decide +kernel, by decide +kernel⟩

/-! ## The description of the samples -/

theorem format_length (c f b : Nat) : (format c f b).length = 16 := by simp [format, le_length]

theorem read_fmt_format {c f b : Nat} (junk : Bytes) (hc : c = 1 ∨ c = 2) (hf : f < 2 ^ 32) (hb : b = 2 ∨ b = 3) :
    read_fmt junk (format c f b) = { format := 1, channels := UInt16.ofNat c, frequency := UInt32.ofNat f, bits_per_sample := UInt16.ofNat (8 * b) } := by
  unfold read_fmt format
  simp only [List.append_assoc]
  have h0 := has_mem (le 2 1 ++ (le 2 c ++ (le 4 f ++ (le 4 (f * c * b % 2 ^ 32) ++ (le 2 (c * b) ++ le 2 (8 * b))))))
  generalize Reader.ofBuffer (le 2 1 ++ (le 2 c ++ (le 4 f ++ (le 4 (f * c * b % 2 ^ 32) ++ (le 2 (c * b) ++ le 2 (8 * b)))))) = r0 at h0
  obtain ⟨a1, h1⟩ := read2_has 0 h0 (by omega)
  obtain ⟨a2, h2⟩ := read2_has 0 h1 (by omega)
  obtain ⟨a3, h3⟩ := read4_has junk h2 hf
  obtain ⟨a4, h4⟩ := read4_has junk h3 (Nat.mod_lt _ (by decide))
  obtain ⟨a5, h5⟩ := read2_has 0 h4 (by rcases hc with rfl | rfl <;> rcases hb with rfl | rfl <;> decide)
  obtain ⟨a6, _⟩ := read2_has (s := []) 0 (by simpa using h5) (by rcases hb with rfl | rfl <;> decide)
  simp only [a1, a2, a3, a6]
  rfl

/-! ## The optional blocks -/

theorem entry_length (e : Bytes × Bytes) (h : e.1.length = 4) : (entry e).length = 8 + e.2.length + e.2.length % 2 := by
  unfold entry
  simp only [List.length_append, h, le_length]
  split
  · simp; omega
  · simp; omega

theorem infoRound_has {rd : Reader} {e : Bytes × Bytes} {s : Bytes} (junk : Bytes) (listlen : UInt32) (h : Has rd (entry e ++ s)) (h4 : e.1.length = 4) (hl : e.2.length < 1000) :
    ∃ rd', infoRound junk rd listlen = .ok (rd', listlen - UInt32.ofNat (entry e).length) ∧ Has rd' s := by
  unfold entry at h
  simp only [List.append_assoc] at h
  obtain ⟨_, h1⟩ := read_has' h h4
  obtain ⟨a2, h2⟩ := read4_has junk h1 (by omega)
  have hlen : (UInt32.ofNat e.2.length).toNat = e.2.length := by rw [UInt32.toNat_ofNat']; exact Nat.mod_eq_of_lt (by omega)
  obtain ⟨_, h3⟩ := read_has' h2 rfl
  unfold infoRound
  simp only [a2, hlen]
  rw [if_neg (by omega), entry_length e h4]
  have hl3 : listlen - 4 - 4 - UInt32.ofNat e.2.length = listlen - UInt32.ofNat (8 + e.2.length) := by
    apply UInt32.toNat_inj.1
    simp [UInt32.toNat_sub, UInt32.toNat_ofNat']
    omega
  by_cases ho : e.2.length % 2 = 0
  · rw [if_neg (by omega), ho, hl3, Nat.add_zero]
    rw [if_pos ho] at h3
    exact ⟨_, rfl, by simpa using h3⟩
  · rw [if_pos ho]
    rw [if_neg ho] at h3
    obtain ⟨_, h5⟩ := read_has' h3 (n := 1) rfl
    refine ⟨_, ?_, h5⟩
    have : e.2.length % 2 = 1 := by omega
    rw [this, hl3]
    congr 2
    apply UInt32.toNat_inj.1
    simp [UInt32.toNat_sub, UInt32.toNat_ofNat']
    omega

theorem body_cons (e : Bytes × Bytes) (es : List (Bytes × Bytes)) : body (e :: es) = entry e ++ body es := by simp [body]

theorem infoLoop_has (junk : Bytes) : ∀ (es : List (Bytes × Bytes)) {rd : Reader} {s : Bytes} {n : Nat}, Has rd (body es ++ s) → (∀ e ∈ es, e.1.length = 4 ∧ e.2.length < 1000) →
    (body es).length < 2 ^ 32 → es.length < n → ∃ rd', infoLoop junk n rd (UInt32.ofNat (body es).length) = .ok rd' ∧ Has rd' s
  | [], rd, s, n, h, _, _, hn => by
    obtain ⟨n, rfl⟩ : ∃ k, n = k + 1 := ⟨n - 1, by omega⟩
    exact ⟨rd, by simp [infoLoop, body], by simpa [body] using h⟩
  | e :: es, rd, s, n, h, he, hl, hn => by
    obtain ⟨n, rfl⟩ : ∃ k, n = k + 1 := ⟨n - 1, by omega⟩
    obtain ⟨h4, hlt⟩ := he e (by simp)
    rw [body_cons, List.append_assoc] at h
    rw [body_cons, List.length_append] at hl
    have hel := entry_length e h4
    obtain ⟨rd1, e1, h1⟩ := infoRound_has junk (UInt32.ofNat (body (e :: es)).length) h h4 hlt
    obtain ⟨rd2, e2, h2⟩ := infoLoop_has junk es (n := n) h1 (fun x hx => he x (by simp [hx])) (by omega) (by simp at hn; omega)
    refine ⟨rd2, ?_, h2⟩
    rw [infoLoop, if_neg, e1]
    · simp only [Res.bind]
      rw [← e2]
      congr 1
      apply UInt32.toNat_inj.1
      rw [body_cons, List.length_append]
      simp [UInt32.toNat_sub, UInt32.toNat_ofNat']
      omega
    · intro h0
      have := congrArg UInt32.toNat h0
      rw [body_cons, List.length_append] at this
      simp [UInt32.toNat_ofNat'] at this
      omega

theorem readinfo_has {rd : Reader} {es : List (Bytes × Bytes)} {s : Bytes} {n : Nat} (junk : Bytes) (h : Has rd (le 4 (4 + (body es).length) ++ (cstr "INFO" ++ (body es ++ s))))
    (he : ∀ e ∈ es, e.1.length = 4 ∧ e.2.length < 1000) (hl : (body es).length + 4 < 2 ^ 32) (hn : es.length < n) : ∃ rd', readinfo junk n rd = .ok rd' ∧ Has rd' s := by
  obtain ⟨a1, h1⟩ := read4_has junk h (by omega)
  obtain ⟨rd2, e2, h2⟩ := expect_has h1 tag_info
  obtain ⟨rd3, e3, h3⟩ := infoLoop_has junk es h2 he (by omega) hn
  refine ⟨rd3, ?_, h3⟩
  unfold readinfo
  simp only [a1, e2, Res.bind]
  rw [← e3]
  congr 1
  apply UInt32.toNat_inj.1
  simp [UInt32.toNat_sub, UInt32.toNat_ofNat']
  omega

theorem padLoop_has : ∀ (k : Nat) {rd : Reader} {p s : Bytes}, Has rd (p ++ s) → p.length ≤ k → Has (padLoop k rd p.length) s
  | 0, rd, p, s, h, hk => by
    have : p = [] := List.eq_nil_of_length_eq_zero (by omega)
    subst this
    simpa [padLoop] using h
  | k + 1, rd, p, s, h, hk => by
    rw [padLoop]
    split
    · rename_i h0
      have : p = [] := List.eq_nil_of_length_eq_zero h0
      subst this; simpa using h
    · rename_i h0
      have hlen : (p.take (min p.length 4096)).length = min p.length 4096 := by simp
      have e1 : p ++ s = p.take (min p.length 4096) ++ (p.drop (min p.length 4096) ++ s) := by
        rw [← List.append_assoc, List.take_append_drop]
      rw [e1] at h
      obtain ⟨_, h1⟩ := read_has' h hlen
      have := padLoop_has k h1 (by simp; omega)
      rwa [List.length_drop] at this

theorem drop5 {t : Bytes} (h : t.length = 4) : (t ++ [0]).drop 4 = ([0] : Bytes) := by
  rw [← h, List.drop_left]

theorem take5 {t : Bytes} (h : t.length = 4) (z : Bytes) : (t ++ z).take 4 = t := by
  rw [← h, List.take_left]

/-- The values of the block of named values have room. -/
def Short : Option (List (Bytes × Bytes)) → Prop
  | none => True
  | some es => ∀ e ∈ es, e.2.length < 1000

def count : Option (List (Bytes × Bytes)) → Nat
  | none => 0
  | some es => es.length

/-- The tag after the block of named values. -/
theorem optInfo_has {rd : Reader} {es : Option (List (Bytes × Bytes))} {info t s : Bytes} {n : Nat} (junk : Bytes) (hi : Info es info) (hs : Short es)
    (h : Has rd (info ++ (t ++ s))) (ht : Tag t) (hne : t ≠ cstr "LIST") (hn : count es < n) :
    ∃ rd', optInfo junk n (readInto rd [0, 0, 0, 0, 0] 4).1 (readInto rd [0, 0, 0, 0, 0] 4).2 = .ok (rd', t ++ [0]) ∧ Has rd' s := by
  cases hi with
  | none =>
    obtain ⟨a1, h1⟩ := readInto_has (buf := [0, 0, 0, 0, 0]) (by simpa using h) ht.length
    refine ⟨_, ?_, h1⟩
    unfold optInfo
    rw [a1, take5 ht.length, if_neg hne]
    rfl
  | some es h4 hlen =>
    simp only [List.append_assoc] at h
    obtain ⟨a1, h1⟩ := readInto_has (buf := [0, 0, 0, 0, 0]) h tag_list.length
    obtain ⟨rd2, e2, h2⟩ := readinfo_has junk h1 (fun e he => ⟨h4 e he, hs e he⟩) hlen hn
    obtain ⟨a3, h3⟩ := readInto_has (buf := cstr "LIST" ++ [0]) h2 ht.length
    refine ⟨_, ?_, h3⟩
    unfold optInfo
    rw [a1, take5 tag_list.length, if_pos rfl, e2]
    simp only [Res.bind]
    rw [drop5 tag_list.length] at a3
    have : List.drop 4 [0, 0, 0, 0, 0] = ([0] : Bytes) := rfl
    rw [this, ← a3]

theorem optPad_has {rd : Reader} {pad t s : Bytes} (junk : Bytes) (hp : Pad pad) (h : Has rd s) (t0 s0 : Bytes) (ht0 : Tag t0) (e0 : t0 ++ s = pad ++ (t ++ s0)) (ht : Tag t) (hne : t ≠ cstr "PAD ") :
    (optPad junk rd (t0 ++ [0])).2 = t ++ [0] ∧ Has (optPad junk rd (t0 ++ [0])).1 s0 := by
  cases hp with
  | none =>
    rw [List.nil_append] at e0
    obtain ⟨rfl, rfl⟩ := List.append_inj e0 (by rw [ht0.length, ht.length])
    unfold optPad
    rw [str_eq ht0.zero, if_neg hne]
    exact ⟨rfl, h⟩
  | some p hp =>
    rw [List.append_assoc, List.append_assoc] at e0
    obtain ⟨rfl, rfl⟩ := List.append_inj e0 (by rw [ht0.length, tag_pad.length])
    obtain ⟨a1, h1⟩ := read4_has junk h hp
    have hlen : (UInt32.ofNat p.length).toNat = p.length := by rw [UInt32.toNat_ofNat']; exact Nat.mod_eq_of_lt (by omega)
    have h2 := padLoop_has p.length h1 (Nat.le_refl _)
    obtain ⟨a3, h3⟩ := readInto_has (buf := cstr "PAD " ++ [0]) h2 ht.length
    unfold optPad
    rw [str_eq tag_pad.zero, if_pos rfl]
    simp only [a1, hlen]
    rw [drop5 tag_pad.length] at a3
    exact ⟨a3, h3⟩

/-! ## The file -/

theorem supported_ok {c f b : Nat} (hc : c = 1 ∨ c = 2) (hb : b = 2 ∨ b = 3) :
    supported { format := 1, channels := UInt16.ofNat c, frequency := UInt32.ofNat f, bits_per_sample := UInt16.ofNat (8 * b) } = .ok () := by
  rcases hc with rfl | rfl <;> rcases hb with rfl | rfl <;> rfl

theorem tag_split {pad : Bytes} (hp : Pad pad) (s : Bytes) : ∃ t0 s1, Tag t0 ∧ t0 ≠ cstr "LIST" ∧ pad ++ (cstr "data" ++ s) = t0 ++ s1 := by
  cases hp with
  | none => exact ⟨cstr "data", s, tag_data, by decide +kernel, rfl⟩
  | some p _ => exact ⟨cstr "PAD ", le 4 p.length ++ p ++ (cstr "data" ++ s), tag_pad, by decide +kernel, by simp [List.append_assoc]⟩

theorem open_has (junk : Bytes) {c f b d n : Nat} {es : Option (List (Bytes × Bytes))} {size info pad rest : Bytes} (hc : c = 1 ∨ c = 2) (hf : f < 2 ^ 32) (hb : b = 2 ∨ b = 3)
    (hz : size.length = 4) (hi : Info es info) (hs : Short es) (hn : count es < n) (hp : Pad pad) (hd : d < 2 ^ 32) :
    ∃ r : R, open_reader junk n (cstr "RIFF" ++ size ++ cstr "WAVE" ++ cstr "fmt " ++ le 4 16 ++ format c f b ++ info ++ pad ++ cstr "data" ++ le 4 d ++ rest) = .ok r ∧
      r.wav = { format := 1, channels := UInt16.ofNat c, frequency := UInt32.ofNat f, bits_per_sample := UInt16.ofNat (8 * b) } ∧ r.done = 0 ∧ r.datalen = UInt32.ofNat d ∧
      Has r.reader rest := by
  simp only [List.append_assoc]
  have h0 := has_file (cstr "RIFF" ++ (size ++ (cstr "WAVE" ++ (cstr "fmt " ++ (le 4 16 ++ (format c f b ++ (info ++ (pad ++ (cstr "data" ++ (le 4 d ++ rest))))))))))
  unfold open_reader
  generalize Reader.ofFile _ = r0 at h0 ⊢
  obtain ⟨r1, e1, h1⟩ := expect_has h0 tag_riff
  have h2 : Has (Endian.read4le junk r1).1 _ := (read_has' h1 hz).2
  obtain ⟨r3, e3, h3⟩ := expect_has h2 tag_wave
  obtain ⟨r4, e4, h4⟩ := expect_has h3 tag_fmt
  obtain ⟨a5, h5⟩ := read4_has junk h4 (by decide)
  obtain ⟨a6, h6⟩ := readInto_has (buf := List.replicate 16 0) h5 (format_length c f b)
  obtain ⟨t0, s1, ht0, hne, e7⟩ := tag_split hp (le 4 d ++ rest)
  rw [e7] at h6
  obtain ⟨r7, e8, h8⟩ := optInfo_has junk hi hs h6 ht0 hne hn
  obtain ⟨a9, h9⟩ := optPad_has junk hp h8 t0 (le 4 d ++ rest) ht0 e7.symm tag_data (by decide +kernel)
  obtain ⟨a10, h10⟩ := read4_has junk h9 hd
  have hdrop : List.drop 16 (List.replicate 16 (0 : UInt8)) = [] := rfl
  have h16 : UInt32.ofNat 16 = 16 := rfl
  rw [hdrop, List.append_nil] at a6
  rw [e1]; simp only [Res.bind]
  rw [e3]; simp only
  rw [e4]; simp only [a5, h16, ne_eq, not_true_eq_false, if_false, a6]
  rw [read_fmt_format junk hc hf hb, supported_ok hc hb]
  simp only
  rw [e8]
  simp only [a9]
  rw [str_eq tag_data.zero, if_neg (by simp)]
  exact ⟨_, rfl, rfl, rfl, a10, h10⟩

/-! ## Samples -/

theorem sle_length (n : Nat) (s : Int) : (sle n s).length = n := le_length _ _

/-- A reader in the samples. -/
structure At (r : R) (c b : Nat) (k n : Nat) (s : Bytes) : Prop where
  channels : r.wav.channels = UInt16.ofNat c
  bits : r.wav.bits_per_sample = UInt16.ofNat (8 * b)
  done : r.done = UInt32.ofNat k
  datalen : r.datalen = UInt32.ofNat n
  has : Has r.reader s

theorem read_sample0_at {r : R} {c b k n : Nat} {x : Int} {s : Bytes} (junk : Bytes) (hb : b = 2 ∨ b = 3) (h : At r c b k n (sle b x ++ s))
    (hx : -(256 ^ b / 2 : Nat) ≤ x ∧ x < (256 ^ b / 2 : Nat)) : ∃ r', read_sample0 junk r = .ok (r', x) ∧ At r' c b (k + b) n s := by
  obtain ⟨h1, h2, h3, h4, h5⟩ := h
  unfold sle at h5
  unfold read_sample0
  have hd : ∀ m : Nat, UInt32.ofNat k + UInt32.ofNat m = UInt32.ofNat (k + m) := fun m => by
    apply UInt32.toNat_inj.1
    simp [UInt32.toNat_add, UInt32.toNat_ofNat']
  rcases hb with rfl | rfl
  · obtain ⟨a1, g1⟩ := read2_has 0 h5 (by omega)
    have hv : ((UInt16.ofNat (x % ((256 : Nat) ^ 2 : Nat)).toNat).toNat : Int) = x % 65536 := by
      rw [UInt16.toNat_ofNat']; omega
    rw [h2]
    simp only [show UInt16.ofNat (8 * 2) = 16 from rfl, if_true, a1, hv]
    rw [show (if x % 65536 ≥ 32768 then x % 65536 - 65536 else x % 65536) = x by split <;> omega]
    refine ⟨_, rfl, ?_⟩
    · refine ⟨h1, h2, ?_, h4, g1⟩
      show r.done + _ = _
      rw [h3, ← hd]; rfl
  · obtain ⟨a1, g1⟩ := read3_has junk h5 (by omega)
    have hv : (((Endian.read3le junk r.reader).2.2.toNat : Nat) : Int) = x % 16777216 := by
      rw [a1]; omega
    rw [h2]
    simp only [show UInt16.ofNat (8 * 3) = 24 from rfl, hv]
    rw [if_neg (by decide), if_pos trivial, show (if x % 16777216 ≥ 8388608 then x % 16777216 - 2 * 8388608 else x % 16777216) = x by split <;> omega]
    refine ⟨_, rfl, ?_⟩
    · refine ⟨h1, h2, ?_, h4, g1⟩
      show r.done + _ = _
      rw [h3, ← hd]; rfl

/-- The doubles of a frame: a single channel is heard on both sides. -/
def sides (scale : Nat) : List Int → D × D
  | [x] => (quotient x scale, quotient x scale)
  | [x, y] => (quotient x scale, quotient y scale)
  | _ => (quotient 0 scale, quotient 0 scale)

theorem scaleOf_eq {b : Nat} (hb : b = 2 ∨ b = 3) : scaleOf (UInt16.ofNat (8 * b)) = 256 ^ b / 2 - 1 := by rcases hb with rfl | rfl <;> rfl

theorem read_samplef_at {r : R} {c b k n : Nat} {f : List Int} {s : Bytes} (junk : Bytes) (hc : c = 1 ∨ c = 2) (hb : b = 2 ∨ b = 3) (h : At r c b k n ((f.map (sle b)).flatten ++ s))
    (hl : f.length = c) (hx : ∀ x ∈ f, -(256 ^ b / 2 : Nat) ≤ x ∧ x < (256 ^ b / 2 : Nat)) :
    ∃ r', read_samplef junk r = .ok (r', sides (256 ^ b / 2 - 1) f) ∧ At r' c b (k + c * b) n s := by
  unfold read_samplef
  rw [h.channels, h.bits, scaleOf_eq hb]
  rcases hc with rfl | rfl
  · obtain ⟨x, rfl⟩ := List.length_eq_one_iff.1 hl
    simp only [List.map_cons, List.map_nil, List.flatten_cons, List.flatten_nil, List.append_nil] at h
    obtain ⟨r1, e1, h1⟩ := read_sample0_at junk hb h (hx x (by simp))
    rw [if_pos (by decide), e1]
    exact ⟨r1, rfl, by simpa using h1⟩
  · obtain ⟨x, y, rfl⟩ : ∃ x y, f = [x, y] := by
      match f, hl with
      | [x, y], _ => exact ⟨x, y, rfl⟩
    simp only [List.map_cons, List.map_nil, List.flatten_cons, List.flatten_nil, List.append_nil, List.append_assoc] at h
    obtain ⟨r1, e1, h1⟩ := read_sample0_at junk hb h (hx x (by simp))
    obtain ⟨r2, e2, h2⟩ := read_sample0_at junk hb h1 (hx y (by simp))
    rw [if_neg (by decide), if_pos (by decide), e1]
    simp only [Res.bind]
    rw [e2]
    exact ⟨r2, rfl, by rw [show k + 2 * b = k + b + b by omega]; exact h2⟩

theorem flat_length {b : Nat} (f : List Int) : ((f.map (sle b)).flatten).length = f.length * b := by
  induction f with
  | nil => simp
  | cons x f ih => rw [List.map_cons, List.flatten_cons, List.length_append, sle_length, ih, List.length_cons, Nat.add_mul]; omega

theorem readLoop_at {c b n : Nat} (junk : Bytes) (hc : c = 1 ∨ c = 2) (hb : b = 2 ∨ b = 3) : ∀ (fs : List (List Int)) {r : R} {k m : Nat} {s : Bytes},
    At r c b k n ((fs.map fun f => (f.map (sle b)).flatten).flatten ++ s) → (∀ f ∈ fs, f.length = c) → (∀ f ∈ fs, ∀ x ∈ f, -(256 ^ b / 2 : Nat) ≤ x ∧ x < (256 ^ b / 2 : Nat)) →
    k + fs.length * c * b = n → n < 2 ^ 32 → fs.length < m → readLoop junk m r = .ok (fs.map (sides (256 ^ b / 2 - 1)))
  | [], r, k, m, s, h, _, _, hk, hn, hm => by
    obtain ⟨m, rfl⟩ : ∃ j, m = j + 1 := ⟨m - 1, by omega⟩
    rw [readLoop, if_pos]
    · rfl
    · unfold more
      rw [h.done, h.datalen]
      simp at hk
      subst hk
      simp
  | f :: fs, r, k, m, s, h, hl, hx, hk, hn, hm => by
    obtain ⟨m, rfl⟩ : ∃ j, m = j + 1 := ⟨m - 1, by omega⟩
    rw [List.map_cons, List.flatten_cons, List.append_assoc] at h
    have hcb : 0 < c * b := by rcases hc with rfl | rfl <;> rcases hb with rfl | rfl <;> decide
    have hk' : k + c * b + fs.length * c * b = n := by
      rw [List.length_cons, Nat.mul_assoc, Nat.add_mul, ← Nat.mul_assoc] at hk; omega
    obtain ⟨r1, e1, h1⟩ := read_samplef_at junk hc hb h (hl f (by simp)) (hx f (by simp))
    have ih := readLoop_at junk hc hb fs (m := m) h1 (fun g hg => hl g (by simp [hg])) (fun g hg => hx g (by simp [hg])) hk' hn (by simp at hm; omega)
    rw [readLoop, if_neg, e1]
    · simp only [Res.bind]
      rw [ih]; rfl
    · unfold more
      rw [h.done, h.datalen]
      have a1 : (UInt32.ofNat k).toNat = k := by rw [UInt32.toNat_ofNat']; exact Nat.mod_eq_of_lt (by omega)
      have a2 : (UInt32.ofNat n).toNat = n := by rw [UInt32.toNat_ofNat']; exact Nat.mod_eq_of_lt (by omega)
      simp only [UInt32.lt_iff_toNat_lt, a1, a2]
      simp
      omega

/-! ## Doubles -/

theorem shift_upper (n d : Nat) (hn : 0 < n) (hd : 0 < d) (hl : Nat.log2 n ≤ 52 + Nat.log2 d) : n * 2 ^ Time.shift n d < 2 ^ 53 * d := by
  have h1 : 2 ^ Nat.log2 d ≤ d := Nat.log2_self_le (by omega)
  have h2 : n < 2 ^ (Nat.log2 n + 1) := Nat.lt_log2_self
  unfold Time.shift
  simp only
  split
  · assumption
  · have h3 : n * 2 ^ (53 + Nat.log2 d - Nat.log2 n - 1) < 2 ^ (Nat.log2 n + 1) * 2 ^ (53 + Nat.log2 d - Nat.log2 n - 1) := Nat.mul_lt_mul_of_pos_right h2 (Nat.two_pow_pos _)
    rw [← Nat.pow_add, show Nat.log2 n + 1 + (53 + Nat.log2 d - Nat.log2 n - 1) = 53 + Nat.log2 d by omega, Nat.pow_add] at h3
    exact Nat.lt_of_lt_of_le h3 (Nat.mul_le_mul_left _ h1)

theorem quotient_rounded {s : Int} {scale : Nat} (h0 : 0 < scale) (hs : s.natAbs ≤ 2 * scale) : Rounded (quotient s scale).neg (quotient s scale).num (quotient s scale).den s scale := by
  refine ⟨by simp [quotient], ?_⟩
  split
  · rename_i h; subst h
    simp [quotient, Time.double]
  · rename_i hne
    have hn : 0 < s.natAbs := by omega
    have hl : Nat.log2 s.natAbs ≤ 52 + Nat.log2 scale := by
      have : s.natAbs < 2 ^ (Nat.log2 scale + 2 + 1) := by
        have := @Nat.lt_log2_self scale
        rw [Nat.pow_succ, Nat.pow_succ] at *; omega
      have := Time.log2_le_of_lt this
      omega
    have hb := Time.shift_bound _ scale hn hl
    have hu := shift_upper _ scale hn h0 hl
    obtain ⟨a, b⟩ := Time.nearest_bound (s.natAbs * 2 ^ Time.shift s.natAbs scale) scale h0
    unfold quotient Time.double
    rw [if_neg (by omega)]
    simp only
    generalize Time.nearest (s.natAbs * 2 ^ Time.shift s.natAbs scale) scale = q at *
    refine ⟨_, rfl, ?_, ?_, a, b⟩
    · apply Nat.le_of_not_lt
      intro hq
      have : (q + 1) * scale ≤ 2 ^ 52 * scale := Nat.mul_le_mul_right _ hq
      rw [Nat.add_mul] at this
      omega
    · apply Nat.le_of_not_lt
      intro hq
      have : (2 ^ 53 + 1) * scale ≤ q * scale := Nat.mul_le_mul_right _ hq
      rw [Nat.add_mul] at this
      omega

/-- What is written for a sample, but for its sign. -/
def again (n : Nat) : Nat := (Time.double ((Time.double n 32767).1 * 32767) (Time.double n 32767).2).1 / (Time.double ((Time.double n 32767).1 * 32767) (Time.double n 32767).2).2

theorem again_step {n a k t : Nat} (h0 : n ≠ 0) (h1 : Time.shift n 32767 = k) (h2 : ∀ q, 2 * (q * 32767) ≤ 2 * (n * 2 ^ k) + 32767 → 2 * (n * 2 ^ k) ≤ 2 * (q * 32767) + 32767 →
    q ≠ 0 ∧ Time.shift (q * 32767) (2 ^ k) = t ∧ Time.nearest (q * 32767 * 2 ^ t) (2 ^ k) = n * 2 ^ t) : again n = n := by
  unfold again Time.double
  rw [if_neg h0]
  simp only [h1]
  obtain ⟨b1, b2⟩ := Time.nearest_bound (n * 2 ^ k) 32767 (by decide)
  obtain ⟨q0, q1, q2⟩ := h2 _ b1 b2
  rw [if_neg (by omega)]
  simp only [q1, q2]
  exact Nat.mul_div_cancel _ (Nat.two_pow_pos _)

theorem again_one {n a : Nat} (h1 : 2 ^ a < n) (h2 : n < 2 ^ (a + 1)) (h3 : n < 32767) : again n = n := by
  have ha : a < 15 := by
    apply Nat.lt_of_not_le
    intro h
    have := Nat.pow_le_pow_right (n := 2) (by decide) h
    omega
  have hn : n ≠ 0 := by omega
  apply again_step (a := a) (k := 67 - a) (t := 52 - a) hn
  · have hl : Nat.log2 n = a := (Nat.log2_eq_iff hn).2 ⟨by omega, h2⟩
    have hS : Nat.log2 32767 = 14 := by decide +kernel
    unfold Time.shift
    simp only [hl, hS]
    have : a = 0 ∨ a = 1 ∨ a = 2 ∨ a = 3 ∨ a = 4 ∨ a = 5 ∨ a = 6 ∨ a = 7 ∨ a = 8 ∨ a = 9 ∨ a = 10 ∨ a = 11 ∨ a = 12 ∨ a = 13 ∨ a = 14 := by omega
    rcases this with rfl | rfl | rfl | rfl | rfl | rfl | rfl | rfl | rfl | rfl | rfl | rfl | rfl | rfl | rfl <;> (rw [if_pos (by simp only [Nat.reducePow, Nat.reduceAdd, Nat.reduceSub] at *; omega)])
  · intro q b1 b2
    have : a = 0 ∨ a = 1 ∨ a = 2 ∨ a = 3 ∨ a = 4 ∨ a = 5 ∨ a = 6 ∨ a = 7 ∨ a = 8 ∨ a = 9 ∨ a = 10 ∨ a = 11 ∨ a = 12 ∨ a = 13 ∨ a = 14 := by omega
    have hq : q ≠ 0 := by
      rcases this with rfl | rfl | rfl | rfl | rfl | rfl | rfl | rfl | rfl | rfl | rfl | rfl | rfl | rfl | rfl <;> (simp only [Nat.reducePow, Nat.reduceAdd, Nat.reduceSub] at *; omega)
    have hl : Nat.log2 (q * 32767) = 67 := by
      rw [Nat.log2_eq_iff (by omega)]
      rcases this with rfl | rfl | rfl | rfl | rfl | rfl | rfl | rfl | rfl | rfl | rfl | rfl | rfl | rfl | rfl <;> (simp only [Nat.reducePow, Nat.reduceAdd, Nat.reduceSub] at *; omega)
    have hl' := (Nat.log2_eq_iff (by omega)).1 hl
    refine ⟨hq, ?_, ?_⟩
    · unfold Time.shift
      simp only [hl, Nat.log2_two_pow]
      rcases this with rfl | rfl | rfl | rfl | rfl | rfl | rfl | rfl | rfl | rfl | rfl | rfl | rfl | rfl | rfl <;> (rw [if_neg (by simp only [Nat.reducePow, Nat.reduceAdd, Nat.reduceSub] at *; omega)])
    · have hb := Time.nearest_bound (q * 32767 * 2 ^ (52 - a)) (2 ^ (67 - a)) (Nat.two_pow_pos _)
      generalize Time.nearest (q * 32767 * 2 ^ (52 - a)) (2 ^ (67 - a)) = z at *
      rcases this with rfl | rfl | rfl | rfl | rfl | rfl | rfl | rfl | rfl | rfl | rfl | rfl | rfl | rfl | rfl <;> (simp only [Nat.reducePow, Nat.reduceAdd, Nat.reduceSub] at *; omega)

theorem again_eq {n : Nat} (h : n ≤ 32768) : again n = n := by
  by_cases h0 : n = 0
  · subst h0; decide +kernel
  by_cases h1 : n = 32767
  · subst h1; decide +kernel
  by_cases h2 : n = 32768
  · subst h2; decide +kernel
  have ha : 2 ^ Nat.log2 n ≤ n := Nat.log2_self_le h0
  have hb : n < 2 ^ (Nat.log2 n + 1) := Nat.lt_log2_self
  rcases Nat.lt_or_eq_of_le ha with h3 | h3
  · exact again_one h3 hb (by omega)
  · have hl : Nat.log2 n < 15 := by
      apply Nat.lt_of_not_le
      intro h
      have := Nat.pow_le_pow_right (n := 2) (by decide) h
      omega
    have key : ∀ i < 15, again (2 ^ i) = 2 ^ i := by decide +kernel
    have := key _ hl
    rwa [h3] at this

theorem word_quotient {s : Int} (h : -32768 ≤ s ∧ s < 32768) : (word (quotient s 32767)).toNat = (s % 65536).toNat := by
  have ha : again s.natAbs = s.natAbs := again_eq (by omega)
  unfold again at ha
  unfold word scaled quotient
  simp only [show 2 ^ 15 - 1 = 32767 from rfl]
  rw [ha]
  rw [UInt16.toNat_ofNat']
  by_cases hs : s < 0
  · simp only [hs, decide_true, if_true]
    split <;> omega
  · simp only [hs, decide_false, Bool.false_eq_true, if_false]
    split <;> omega

/-! ## What is written -/

theorem le_unique : ∀ (bs : Bytes), bs = le bs.length (littleEndian bs)
  | [] => rfl
  | b :: bs => by
    rw [List.length_cons, le, littleEndian]
    have hb : b.toNat < 256 := UInt8.toNat_lt b
    congr 1
    · apply UInt8.toNat_inj.1
      rw [UInt8.toNat_ofNat']; omega
    · rw [show (b.toNat + 256 * littleEndian bs) / 256 = littleEndian bs by omega]
      exact le_unique bs

/-- A writer of a file with bytes written. -/
def Wrote (w : Writer) (s : Bytes) : Prop := w.kind = .file none ∧ w.out = s

theorem write_kind (w : Writer) (a : Bytes) : (w.write a).1.kind = w.kind := by
  unfold Writer.write; simp only

theorem wrote_write {w : Writer} {s : Bytes} (h : Wrote w s) (a : Bytes) : Wrote (w.write a).1 (s ++ a) :=
  ⟨(write_kind w a).trans h.1, by rw [(Writer.write_file w a h.1).1, h.2]⟩

theorem wrote_2 {w : Writer} {s : Bytes} (h : Wrote w s) (v : UInt32) : Wrote (Endian.write2le w v).1 (s ++ le 2 (v.toNat % 2 ^ 16)) := by
  obtain ⟨bs, h1, h2, h3⟩ := Props.C48_write2le w v
  rw [h3, ← h1, ← h2, ← le_unique]
  exact wrote_write h bs

theorem wrote_4 {w : Writer} {s : Bytes} (h : Wrote w s) (v : UInt32) : Wrote (Endian.write4le w v).1 (s ++ le 4 v.toNat) := by
  obtain ⟨bs, h1, h2, h3⟩ := Props.C48_write4le w v
  rw [h3, ← h1, ← h2, ← le_unique]
  exact wrote_write h bs

/-- The head of written files: the lengths are not known. -/
def head : Bytes := cstr "RIFF" ++ le 4 (2 ^ 32 - 1) ++ cstr "WAVE" ++ cstr "fmt " ++ le 4 16 ++ format 2 44100 2 ++ cstr "data" ++ le 4 (2 ^ 32 - 1)

theorem open_writer_out : Wrote open_writer head := by
  refine ⟨rfl, ?_⟩
  decide +kernel

theorem wrote_sample {w : Writer} {s : Bytes} (h : Wrote w s) (x y : D) : Wrote (write_sample w x y) (s ++ (le 2 (word x).toNat ++ le 2 (word y).toNat)) := by
  have h1 := wrote_2 (wrote_2 h (word x).toUInt32) (word y).toUInt32
  have e : ∀ z : UInt16, z.toUInt32.toNat % 2 ^ 16 = z.toNat := fun z => by
    have := z.toNat_lt
    simp
  rw [e, e, List.append_assoc] at h1
  exact h1

theorem wrote_all {w : Writer} {s : Bytes} (ss : List (D × D)) (h : Wrote w s) :
    Wrote (writeAll w ss) (s ++ (ss.map fun p => le 2 (word p.1).toNat ++ le 2 (word p.2).toNat).flatten) := by
  induction ss generalizing w s with
  | nil => simpa [writeAll] using h
  | cons p ss ih =>
    have := ih (wrote_sample h p.1 p.2)
    rw [List.map_cons, List.flatten_cons, ← List.append_assoc]
    exact this

theorem scaled_near {x : D} (hd : 0 < x.den) (h1 : x.num ≤ x.den) : ((scaled x 32767).natAbs ≤ 32767) ∧ (scaled x 32767 < 0 → x.neg = true) ∧ (0 < scaled x 32767 → x.neg = false) ∧
    2 ^ 53 * ((scaled x 32767).natAbs * x.den) ≤ (2 ^ 53 + 1) * (x.num * 32767) ∧ (2 ^ 53 - 1) * (x.num * 32767) < 2 ^ 53 * (((scaled x 32767).natAbs + 1) * x.den) := by
  have habs : (scaled x 32767).natAbs = (Time.double (x.num * 32767) x.den).1 / (Time.double (x.num * 32767) x.den).2 := by
    unfold scaled; simp only
    generalize (Time.double (x.num * 32767) x.den).1 / (Time.double (x.num * 32767) x.den).2 = z
    split <;> omega
  have key : ∀ z, (Time.double (x.num * 32767) x.den).1 / (Time.double (x.num * 32767) x.den).2 = z → z ≤ 32767 ∧
      2 ^ 53 * (z * x.den) ≤ (2 ^ 53 + 1) * (x.num * 32767) ∧ (2 ^ 53 - 1) * (x.num * 32767) < 2 ^ 53 * ((z + 1) * x.den) := by
    intro z hz
    by_cases h0 : x.num = 0
    · rw [h0] at hz ⊢
      have : z = 0 := by rw [← hz]; simp [Time.double]
      subst this
      simp; omega
    · have hl : Nat.log2 (x.num * 32767) ≤ 52 + Nat.log2 x.den := by
        have h2 : x.num * 32767 < 2 ^ (Nat.log2 x.den + 15 + 1) := by
          have h3 := @Nat.lt_log2_self x.den
          have : x.num * 32767 ≤ x.den * 32767 := Nat.mul_le_mul_right _ h1
          rw [show Nat.log2 x.den + 15 + 1 = Nat.log2 x.den + 1 + 15 by omega, Nat.pow_add]; omega
        have := Time.log2_le_of_lt h2
        omega
      obtain ⟨p0, p1, p2⟩ := Time.double_bound (x.num * 32767) x.den (by omega) hd hl
      generalize Time.double (x.num * 32767) x.den = y at *
      obtain ⟨m, t⟩ := y
      simp only at p0 p1 p2 hz
      have hz1 : z * t ≤ m := by rw [← hz]; exact Nat.div_mul_le_self m t
      have hz2 : m < (z + 1) * t := by rw [← hz, Nat.mul_comm]; exact Nat.lt_mul_div_succ m p0
      have q1 : 2 ^ 53 * (z * x.den) ≤ (2 ^ 53 + 1) * (x.num * 32767) := by
        apply Nat.le_of_mul_le_mul_right _ p0
        have : z * t * x.den ≤ m * x.den := Nat.mul_le_mul_right _ hz1
        have e1 : 2 ^ 53 * (z * x.den) * t = 2 ^ 53 * (z * t * x.den) := by
          rw [Nat.mul_assoc, Nat.mul_right_comm z x.den t]
        have e2 : (2 ^ 53 + 1) * (x.num * 32767) * t = (2 ^ 53 + 1) * (x.num * 32767 * t) := Nat.mul_assoc _ _ _
        rw [e1, e2]; omega
      have q2 : (2 ^ 53 - 1) * (x.num * 32767) < 2 ^ 53 * ((z + 1) * x.den) := by
        apply Nat.lt_of_mul_lt_mul_right (a := t)
        have : m * x.den < (z + 1) * t * x.den := Nat.mul_lt_mul_of_pos_right hz2 hd
        have e1 : 2 ^ 53 * ((z + 1) * x.den) * t = 2 ^ 53 * ((z + 1) * t * x.den) := by
          rw [Nat.mul_assoc, Nat.mul_right_comm (z + 1) x.den t]
        have e2 : (2 ^ 53 - 1) * (x.num * 32767) * t = (2 ^ 53 - 1) * (x.num * 32767 * t) := Nat.mul_assoc _ _ _
        rw [e1, e2]; omega
      refine ⟨?_, q1, q2⟩
      apply Nat.le_of_not_lt
      intro hlt
      have : 32768 * x.den ≤ z * x.den := Nat.mul_le_mul_right _ hlt
      omega
  obtain ⟨k1, k2, k3⟩ := key _ rfl
  rw [← habs] at k1 k2 k3
  refine ⟨k1, ?_, ?_, k2, k3⟩
  · unfold scaled; simp only
    generalize (Time.double (x.num * 32767) x.den).1 / (Time.double (x.num * 32767) x.den).2 = z
    split
    · intro _; assumption
    · intro h; omega
  · unfold scaled; simp only
    generalize (Time.double (x.num * 32767) x.den).1 / (Time.double (x.num * 32767) x.den).2 = z
    split
    · intro h; omega
    · rename_i hh; intro _; simpa using hh

/-! ## Reading what is written -/

theorem diverge_of {r : R} (junk : Bytes) : ∀ m, r.wav.channels = 2 → r.wav.bits_per_sample = 16 → r.datalen = 0xFFFFFFFF → r.done.toNat % 4 = 0 → readLoop junk m r = .diverge
  | 0, _, _, _, _ => rfl
  | m + 1, h1, h2, h3, h4 => by
    have hm : more r = true := by
      unfold more
      rw [h3]
      have := r.done.toNat_lt
      simp only [UInt32.lt_iff_toNat_lt, decide_eq_true_eq]
      have : (0xFFFFFFFF : UInt32).toNat = 4294967295 := rfl
      omega
    have e0 : ∀ q : R, q.wav.bits_per_sample = 16 → ∃ rd x, read_sample0 junk q = .ok ({ q with reader := rd, done := q.done + 2 }, x) := by
      intro q hq
      unfold read_sample0
      rw [hq]
      exact ⟨_, _, rfl⟩
    obtain ⟨rd, x, e1⟩ := e0 r h2
    obtain ⟨rd', x', e2⟩ := e0 { r with reader := rd, done := r.done + 2 } h2
    rw [readLoop, if_neg (by simp [hm])]
    unfold read_samplef
    rw [h1]
    simp only [show ((2 : UInt16) = 1) = False by decide, if_false, if_true, e1, Res.bind]
    simp only [e2]
    have := diverge_of (r := { r with reader := rd', done := r.done + 2 + 2 }) junk m h1 h2 h3 (by
      simp only [UInt32.toNat_add]
      have : (2 : UInt32).toNat = 2 := rfl
      omega)
    rw [this]
end Che.Lib.Wav
