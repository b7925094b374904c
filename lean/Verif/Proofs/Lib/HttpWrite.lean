import Verif.Proofs.Lib.Http
import Verif.Props.Lib.Enc
import Verif.Props.Lib.Strings

namespace Che.Lib.Http
open Che.Lib Che.Lib.Tok Che.Spec.Lib Che.Spec.Http Che.Props Che.Lib.StrBuilder

/-! ## Percent-encoding into a buffer -/

theorem memLoop (size : Nat) (data : Bytes) : ∀ (out : Bytes) (r : Int), out.length ≤ size →
    (memWriteLoop size out r data).1 = out ++ data.take (size - out.length) ∧
    (memWriteLoop size out r data).2 = r + (data.take (size - out.length)).length := by
  induction data with
  | nil => intro out r _; simp [memWriteLoop]
  | cons b data ih =>
    intro out r hl
    rw [memWriteLoop]
    by_cases h : out.length ≥ size
    · rw [if_pos h]
      have : size - out.length = 0 := by omega
      simp [this]
    · rw [if_neg h]
      obtain ⟨h1, h2⟩ := ih (out ++ [b]) (r + 1) (by simp; omega)
      have e : size - out.length = (size - (out ++ [b]).length) + 1 := by simp; omega
      rw [h1, h2, e]
      simp
      omega

theorem mem_write (size : Nat) (w : Writer) (hk : w.kind = .mem size) (hl : w.out.length ≤ size) (data : Bytes) (hd : data ≠ []) :
    (w.write data).1.kind = .mem size ∧
    (w.out.length + data.length ≤ size → (w.write data).1.out = w.out ++ data ∧ (w.write data).2 = data.length) ∧
    (size < w.out.length + data.length → (w.write data).1.out.length = size ∧ (w.write data).2 ≠ data.length) := by
  unfold Writer.write
  rw [hk]
  simp only [WKind.write, memWrite]
  have hpos : 0 < data.length := List.length_pos_iff.2 hd
  by_cases h : w.out.length ≥ size
  · rw [if_pos h]
    exact ⟨trivial, by omega, fun _ => ⟨Nat.le_antisymm hl h, by show (-1 : Int) ≠ _; omega⟩⟩
  · rw [if_neg h]
    obtain ⟨h1, h2⟩ := memLoop size data w.out 0 hl
    refine ⟨trivial, ?_, ?_⟩
    · intro hle
      rw [List.take_of_length_le (by omega)] at h1 h2
      exact ⟨h1, by rw [h2]; omega⟩
    · intro hlt
      rw [h1, h2]
      simp only [List.length_append, List.length_take]
      omega

theorem percent_eq (c : UInt8) :
    percent c = if UrlEncode.isalpha c || UrlEncode.isdigit c then [c] else [37, UrlEncode.HEX.getD ((c.toNat >>> 4) &&& 0x0F) 0, UrlEncode.HEX.getD (c.toNat &&& 0x0F) 0] := by
  have h : ∀ n : Fin 256, (if UrlEncode.isalpha (UInt8.ofNat n.val) || UrlEncode.isdigit (UInt8.ofNat n.val) then [UInt8.ofNat n.val]
      else [37, UrlEncode.HEX.getD ((n.val >>> 4) &&& 0x0F) 0, UrlEncode.HEX.getD (n.val &&& 0x0F) 0]) = percent (UInt8.ofNat n.val) := by decide +kernel
  have := h ⟨c.toNat, c.toNat_lt⟩
  simpa using this.symm

theorem percent_ne (c : UInt8) : percent c ≠ [] := by
  rw [percent_eq]; split <;> simp

theorem url_mem (size : Nat) (data : Bytes) : ∀ (w : Writer) (len : Int), w.kind = .mem size → w.out.length ≤ size →
    (w.out.length + (data.flatMap percent).length ≤ size → (UrlEncode.writeLoop w len data).1.out = w.out ++ data.flatMap percent) ∧
    (size < w.out.length + (data.flatMap percent).length → (UrlEncode.writeLoop w len data).1.out.length = size) := by
  induction data with
  | nil => intro w len _ hl; simp [UrlEncode.writeLoop]; omega
  | cons c data ih =>
    intro w len hk hl
    obtain ⟨a1, a2, a3⟩ := mem_write size w hk hl (percent c) (percent_ne c)
    have step : ∃ len', UrlEncode.writeLoop w len (c :: data) =
        if (w.write (percent c)).2 ≠ (percent c).length then ((w.write (percent c)).1, -1) else UrlEncode.writeLoop (w.write (percent c)).1 len' data := by
      conv => enter [1, len', 1]; unfold UrlEncode.writeLoop
      rw [percent_eq]
      by_cases hc : (UrlEncode.isalpha c || UrlEncode.isdigit c) = true
      · refine ⟨len + 1, ?_⟩
        simp only [if_pos hc]
        rfl
      · refine ⟨len + 3, ?_⟩
        simp only [if_neg hc]
        rfl
    obtain ⟨len', step⟩ := step
    rw [step]
    simp only [List.flatMap_cons, List.length_append]
    by_cases hle : w.out.length + (percent c).length ≤ size
    · obtain ⟨b1, b2⟩ := a2 hle
      rw [if_neg (by rw [b2]; simp)]
      obtain ⟨i1, i2⟩ := ih (w.write (percent c)).1 len' a1 (by rw [b1]; simp; omega)
      rw [b1] at i1 i2
      simp only [List.length_append] at i1 i2
      refine ⟨fun h => by rw [i1 (by omega)]; simp, fun h => i2 (by omega)⟩
    · obtain ⟨b1, b2⟩ := a3 (by omega)
      rw [if_pos b2]
      exact ⟨fun h => by omega, fun _ => b1⟩

theorem encoded_eq (v : Bytes) : encoded v = if (v.flatMap percent).length < 1000 then .ok (v.flatMap percent) else .panic "undefined: read outside of an array" := by
  obtain ⟨h1, h2⟩ := url_mem 1000 v (Writer.toBuffer 1000) 0 rfl (by simp [Writer.toBuffer])
  have e0 : (Writer.toBuffer 1000).out = [] := rfl
  rw [e0] at h1 h2
  simp only [List.length_nil, Nat.zero_add, List.nil_append] at h1 h2
  unfold encoded UrlEncode.write
  simp only
  by_cases h : (v.flatMap percent).length ≤ 1000
  · rw [h1 h]
  · rw [if_neg (by rw [h2 (by omega)]; omega), if_neg (by omega)]

/-! ## Building the text -/

/-- A builder holds a text. -/
def HasText (s : Str) (t : Bytes) : Prop := Holds t.length s t

theorem adds_text {s : Str} {t : Bytes} (h : HasText s t) (x : Bytes) (hl : t.length + x.length < 2 ^ 61) : HasText (adds s x).1 (t ++ x) := by
  unfold HasText
  rw [List.length_append]
  exact (adds_holds x _ s t h hl).2

def sepOf (first : Bool) : Bytes := if first then [63] else [38]

/-- The parameters as they are written. -/
def ptext : Bool → List (Bytes × Bytes) → Bytes
  | _, [] => []
  | first, (n, v) :: rest => sepOf first ++ (n ++ [61] ++ v.flatMap percent) ++ ptext false rest

theorem ptext_false (ps : List (Bytes × Bytes)) (p : Bytes × Bytes) :
    (p.1 ++ [61] ++ p.2.flatMap percent) ++ ptext false ps = [38].intercalate ((p :: ps).map fun p => p.1 ++ [61] ++ p.2.flatMap percent) := by
  induction ps generalizing p with
  | nil => simp [ptext, List.intercalate]
  | cons q ps ih =>
    obtain ⟨n, v⟩ := q
    have := ih (n, v)
    simp only [List.map_cons] at this ⊢
    rw [List.intercalate_cons_cons, ← this, ptext]
    simp [sepOf]

theorem ptext_query (ps : List (Bytes × Bytes)) : ptext true ps = query ps := by
  cases ps with
  | nil => rfl
  | cons p ps =>
    obtain ⟨n, v⟩ := p
    rw [ptext, List.append_assoc]
    have := ptext_false ps (n, v)
    simp only at this
    rw [this]
    rfl

theorem params_written (ps : List (Bytes × Bytes)) : ∀ (first : Bool) (s : Str) (t : Bytes), HasText s t → (∀ p ∈ ps, (p.2.flatMap percent).length < 1000) →
    t.length + (ptext first ps).length < 2 ^ 61 → ∃ s', writeParams first s ps = .ok s' ∧ HasText s' (t ++ ptext first ps) := by
  induction ps with
  | nil => intro first s t h _ _; exact ⟨s, rfl, by simpa [ptext] using h⟩
  | cons p ps ih =>
    intro first s t h hp hl
    obtain ⟨n, v⟩ := p
    have hv := hp (n, v) (by simp)
    simp only [ptext, List.length_append] at hl
    have esep : (if first then cstr "?" else cstr "&") = sepOf first := by cases first <;> rfl
    have h1 := adds_text h (sepOf first) (by omega)
    have h2 := adds_text h1 n (by simp only [List.length_append]; omega)
    have h3 := adds_text h2 [61] (by simp only [List.length_append]; simp at hl ⊢; omega)
    have h4 := adds_text h3 (v.flatMap percent) (by simp only [List.length_append]; simp at hl ⊢; omega)
    obtain ⟨s', i1, i2⟩ := ih false _ _ h4 (fun q hq => hp q (by simp [hq])) (by simp only [List.length_append]; simp at hl ⊢; omega)
    refine ⟨s', ?_, ?_⟩
    · unfold writeParams
      simp only [esep]
      rw [encoded_eq, if_pos hv, ok_bind]
      exact i1
    · have e : t ++ ptext first ((n, v) :: ps) = t ++ sepOf first ++ n ++ [61] ++ v.flatMap percent ++ ptext false ps := by simp [ptext]
      rw [e]; exact i2

theorem params_undefined (ps : List (Bytes × Bytes)) : ∀ (first : Bool) (s : Str), (∃ p ∈ ps, 1000 ≤ (p.2.flatMap percent).length) →
    writeParams first s ps = .panic "undefined: read outside of an array" := by
  induction ps with
  | nil => intro first s h; obtain ⟨p, hp, _⟩ := h; cases hp
  | cons p ps ih =>
    intro first s h
    obtain ⟨n, v⟩ := p
    unfold writeParams
    simp only
    rw [encoded_eq]
    by_cases hv : (v.flatMap percent).length < 1000
    · rw [if_pos hv, ok_bind]
      apply ih
      obtain ⟨q, hq, hl⟩ := h
      rcases List.mem_cons.mp hq with rfl | hq
      · simp only at hl; omega
      · exact ⟨q, hq, hl⟩
    · rw [if_neg hv]; rfl

theorem headers_written (hs : List (Bytes × Bytes)) : ∀ (s : Str) (t : Bytes), HasText s t → t.length + (lines hs).length < 2 ^ 61 →
    HasText (writeHeaders s hs) (t ++ lines hs) := by
  induction hs with
  | nil => intro s t h _; simpa [writeHeaders, lines] using h
  | cons p hs ih =>
    intro s t h hl
    obtain ⟨n, v⟩ := p
    rw [lines_cons] at hl ⊢
    simp only [List.length_append] at hl
    have h1 := adds_text h n (by omega)
    have h2 := adds_text h1 [58, 32] (by simp only [List.length_append]; simp at hl ⊢; omega)
    have h3 := adds_text h2 v (by simp only [List.length_append]; simp at hl ⊢; omega)
    have h4 := adds_text h3 [13, 10] (by simp only [List.length_append]; simp at hl ⊢; omega)
    have h5 := ih _ _ h4 (by simp only [List.length_append]; simp at hl ⊢; omega)
    have e : t ++ (n ++ [58, 32] ++ v ++ [13, 10] ++ lines hs) = t ++ n ++ [58, 32] ++ v ++ [13, 10] ++ lines hs := by simp
    simp only
    rw [e]
    exact h5

theorem raw_text {s : Str} {t : Bytes} (h : HasText s t) (h0 : 0 ∉ t) : raw s = t := by
  rw [raw, h.data, List.takeWhile_append_of_pos]
  · have : List.takeWhile (fun x : UInt8 => decide (x ≠ 0)) (List.replicate (s.max - s.len) 0) = [] := by
      cases s.max - s.len with
      | zero => rfl
      | succ n => rw [List.replicate_succ]; rfl
    rw [this, List.append_nil]
  · intro c hc
    have : c ≠ 0 := fun e => h0 (e ▸ hc)
    simpa using this

/-- The text that is written: the address is cut. -/
def cut (r : Request) : Bytes :=
  (r.method ++ [32] ++ r.uri).take 999 ++ query r.params ++ [32] ++ r.version ++ [13, 10] ++ lines r.headers ++ [13, 10]

theorem request_written (w : Writer) (r : Request) (hv : ∀ p ∈ r.params, (p.2.flatMap percent).length < 1000) (h0 : 0 ∉ cut r) (hl : (cut r).length < 2 ^ 61) :
    write_request w r = .ok ((w.write (cut r)).1, if (w.write (cut r)).2 ≠ (cut r).length then -1 else (w.write (cut r)).2) := by
  have hl' := hl
  simp only [cut, List.length_append] at hl'
  have hn : HasText StrBuilder.new [] := ⟨rfl, rfl, Or.inr ⟨rfl, rfl⟩, rfl, Or.inl rfl, by decide⟩
  have h1 : HasText (addf StrBuilder.new (r.method ++ [32] ++ r.uri)).1 ((r.method ++ [32] ++ r.uri).take 999) := by
    have := adds_text hn ((r.method ++ [32] ++ r.uri).take 999) (by simp at hl' ⊢; omega)
    exact this
  obtain ⟨s2, h2, h3⟩ := params_written r.params true _ _ h1 hv (by rw [ptext_query]; omega)
  rw [ptext_query] at h3
  have h4 := adds_text h3 [32] (by simp only [List.length_append]; simp at hl' ⊢; omega)
  have h5 := adds_text h4 r.version (by simp only [List.length_append]; simp at hl' ⊢; omega)
  have h6 := adds_text h5 [13, 10] (by simp only [List.length_append]; simp at hl' ⊢; omega)
  have h7 := headers_written r.headers _ _ h6 (by simp only [List.length_append]; simp at hl' ⊢; omega)
  have h8 := adds_text h7 [13, 10] (by simp only [List.length_append]; simp at hl' ⊢; omega)
  unfold write_request
  simp only
  rw [h2, ok_bind]
  have e := raw_text (show HasText _ (cut r) from h8) h0
  rw [e]
  by_cases hne : (w.write (cut r)).2 ≠ (cut r).length
  · rw [if_pos hne, if_pos hne]
  · rw [if_neg hne, if_neg hne]
end Che.Lib.Http
