import Verif.Proofs.Lib.Utf

/-!
Functions on UTF-8 strings, for strings that are the encoding of some characters.
-/
namespace Che.Lib.Utf
open Che.Spec.Utf

theorem encode_cons (c : Char) (l : List Char) : encode (c :: l) = String.utf8EncodeChar c ++ encode l := rfl

theorem encode_append (a b : List Char) : encode (a ++ b) = encode a ++ encode b := by
  simp [encode]

/-- The first byte of a character says how long it is, and the others continue it. -/
theorem encodeChar_shape (c : Char) : ∃ b t, String.utf8EncodeChar c = b :: t ∧
    (∀ x ∈ t, 128 ≤ x.toNat ∧ x.toNat < 192) ∧
    ((t = [] ∧ b.toNat = c.val.toNat ∧ c.val.toNat < 128) ∨
     (128 ≤ c.val.toNat ∧ t.length = 1 ∧ 192 ≤ b.toNat ∧ b.toNat < 224) ∨
     (128 ≤ c.val.toNat ∧ t.length = 2 ∧ 224 ≤ b.toNat ∧ b.toNat < 240) ∨
     (128 ≤ c.val.toNat ∧ t.length = 3 ∧ 240 ≤ b.toNat)) := by
  have hv := char_bound c
  unfold String.utf8EncodeChar
  generalize c.val.toNat = v at *
  simp only
  split
  · exact ⟨_, _, rfl, by simp, .inl ⟨rfl, toNat8 (by omega), by omega⟩⟩
  split
  · refine ⟨_, _, rfl, ?_, .inr (.inl ⟨by omega, rfl, ?_⟩)⟩
    · intro x hx
      rw [List.mem_singleton] at hx
      rw [hx, toNat8 (by omega)]
      omega
    · rw [toNat8 (by omega)]
      omega
  split
  · refine ⟨_, _, rfl, ?_, .inr (.inr (.inl ⟨by omega, rfl, ?_⟩))⟩
    · intro x hx
      simp only [List.mem_cons, List.not_mem_nil, or_false] at hx
      rcases hx with hx | hx <;> (rw [hx, toNat8 (by omega)]; omega)
    · rw [toNat8 (by omega)]
      omega
  · refine ⟨_, _, rfl, ?_, .inr (.inr (.inr ⟨by omega, rfl, ?_⟩))⟩
    · intro x hx
      simp only [List.mem_cons, List.not_mem_nil, or_false] at hx
      rcases hx with hx | hx | hx <;> (rw [hx, toNat8 (by omega)]; omega)
    · rw [toNat8 (by omega)]
      omega

/-- What the loops read at the start of a character. -/
theorem rd_char (p t : Bytes) (c : Char) : ∃ b, rd (p ++ (String.utf8EncodeChar c ++ t)) p.length = .ok b ∧
    ((b = c.val.toNat ∧ b < 128 ∧ (String.utf8EncodeChar c).length = 1) ∨
     (128 ≤ c.val.toNat ∧ 192 ≤ b ∧ b < 224 ∧ (String.utf8EncodeChar c).length = 2) ∨
     (128 ≤ c.val.toNat ∧ 224 ≤ b ∧ b < 240 ∧ (String.utf8EncodeChar c).length = 3) ∨
     (128 ≤ c.val.toNat ∧ 240 ≤ b ∧ (String.utf8EncodeChar c).length = 4)) := by
  obtain ⟨b, u, e, _, h⟩ := encodeChar_shape c
  refine ⟨b.toNat, ?_, ?_⟩
  · rw [show p.length = p.length + 0 from rfl, rd_append, e]
    exact rd_zero_cons _ _
  · rw [e]
    simp only [List.length_cons]
    rcases h with ⟨h1, h2, h3⟩ | h | h | h
    · subst h1
      exact .inl ⟨h2, by omega, rfl⟩
    all_goals omega

theorem rd_stop (p : Bytes) : rd p p.length = .ok 0 := rd_end p

theorem get_rune_char (p t : Bytes) (c : Char) :
    get_rune (p ++ (String.utf8EncodeChar c ++ t)) p.length =
      .ok (c.val.toNat, (String.utf8EncodeChar c).length) := by
  rw [get_rune_append, get_rune_encode]

theorem val_ne_zero {c : Char} (h : c ≠ '\x00') : c.val.toNat ≠ 0 := by
  intro h0
  apply h
  apply Char.ext
  apply UInt32.toNat_inj.mp
  rw [h0]
  rfl

theorem val_inj {c d : Char} (h : c.val.toNat = d.val.toNat) : c = d :=
  Char.ext (UInt32.toNat_inj.mp h)

/-! ## Counting -/

theorem runecountLoop_eq (l : List Char) : ∀ (p : Bytes) (fuel n : Nat), (∀ c ∈ l, c ≠ '\x00') →
    l.length < fuel → runecountLoop (p ++ encode l) fuel p.length n = .ok (n + l.length) := by
  induction l with
  | nil =>
    intro p fuel n _ hf
    obtain ⟨fuel, rfl⟩ : ∃ k, fuel = k + 1 := ⟨fuel - 1, by simp only [List.length_nil] at hf; omega⟩
    rw [show p ++ encode [] = p by simp [encode], runecountLoop, rd_stop]
    simp [Res.bind]
  | cons c l ih =>
    intro p fuel n hz hf
    simp only [List.length_cons] at hf
    obtain ⟨fuel, rfl⟩ : ∃ k, fuel = k + 1 := ⟨fuel - 1, by omega⟩
    have hc := val_ne_zero (hz c (by simp))
    have next : runecountLoop (p ++ encode (c :: l)) fuel (p.length + (String.utf8EncodeChar c).length) (n + 1) =
        .ok (n + (c :: l).length) := by
      have := ih (p ++ String.utf8EncodeChar c) fuel (n + 1) (fun d hd => hz d (by simp [hd])) (by omega)
      rw [List.length_append, List.append_assoc] at this
      rw [encode_cons, this, List.length_cons]
      congr 1
      omega
    rw [runecountLoop]
    obtain ⟨b, eb, h⟩ := rd_char p (encode l) c
    rw [← encode_cons] at eb
    rw [eb]
    simp only [Res.bind]
    by_cases hb : b < 128
    · have hl : (String.utf8EncodeChar c).length = 1 ∧ b = c.val.toNat := by omega
      rw [if_pos hb, if_neg (by omega), ← next, hl.1]
    · rw [if_neg hb, encode_cons, get_rune_char]
      simp only
      rw [← encode_cons, next]

theorem length_le_encode (l : List Char) : l.length ≤ (encode l).length := by
  induction l with
  | nil => simp
  | cons c l ih =>
    obtain ⟨b, t, e, _⟩ := encodeChar_shape c
    rw [encode_cons, e]
    simp only [List.length_cons, List.length_append]
    omega

theorem runecount_eq (l : List Char) (hz : ∀ c ∈ l, c ≠ '\x00') : runecount (encode l) = .ok l.length := by
  have := runecountLoop_eq l [] ((encode l).length + 1) 0 hz (by have := length_le_encode l; omega)
  simpa [runecount] using this

/-- Any string whatever is counted: no read is past the end, and the loop ends. -/
theorem runecountLoop_total (s : Bytes) (fuel : Nat) : ∀ (i n : Nat), i ≤ s.length → s.length - i < fuel →
    ∃ k, runecountLoop s fuel i n = .ok k := by
  induction fuel with
  | zero => intro i n _ h; omega
  | succ fuel ih =>
    intro i n hi hf
    rw [runecountLoop]
    obtain ⟨b, eb, hb⟩ := rd_byte s i hi
    rw [eb]
    simp only [Res.bind]
    split
    · split
      · exact ⟨_, rfl⟩
      · rename_i h
        have := (hb (fun h0 => h (by rw [h0]; rfl))).1
        exact ih _ _ (by omega) (by omega)
    · rename_i h
      have hlt := (hb (ne_zero_of_ge (by omega))).1
      obtain ⟨r, er, hd⟩ := get_rune_decoded s i hi
      rw [er]
      simp only
      cases hd with
      | one => exact ih _ _ (by simp only; omega) (by simp only; omega)
      | bad => exact ih _ _ (by simp only; omega) (by simp only; omega)
      | two b0 b1 h0 h1 =>
        have := (List.getElem?_eq_some_iff.mp h1).1
        exact ih _ _ (by simp only; omega) (by simp only; omega)
      | three b0 b1 b2 h0 h1 h2 =>
        have := (List.getElem?_eq_some_iff.mp h2).1
        exact ih _ _ (by simp only; omega) (by simp only; omega)
      | four b0 b1 b2 b3 h0 h1 h2 h3 =>
        have := (List.getElem?_eq_some_iff.mp h3).1
        exact ih _ _ (by simp only; omega) (by simp only; omega)

theorem utfnlenLoop_eq (l : List Char) : ∀ (p : Bytes) (fuel m es : Nat), (∀ c ∈ l, c ≠ '\x00') →
    l.length < fuel → p.length ≤ es → ∃ k, utfnlenLoop (p ++ encode l) es fuel p.length m = .ok (m + k) ∧
      k ≤ l.length ∧ p.length + (encode (l.take k)).length ≤ es ∧
      (k < l.length → es < p.length + (encode (l.take (k + 1))).length) := by
  induction l with
  | nil =>
    intro p fuel m es _ hf hp
    obtain ⟨fuel, rfl⟩ : ∃ k, fuel = k + 1 := ⟨fuel - 1, by simp only [List.length_nil] at hf; omega⟩
    rw [show p ++ encode [] = p by simp [encode], utfnlenLoop, rd_stop]
    refine ⟨0, ?_, by simp, by simpa [encode] using hp, by simp⟩
    split
    · rfl
    · simp [Res.bind]
  | cons c l ih =>
    intro p fuel m es hz hf hp
    simp only [List.length_cons] at hf
    obtain ⟨fuel, rfl⟩ : ∃ k, fuel = k + 1 := ⟨fuel - 1, by omega⟩
    have hc := val_ne_zero (hz c (by simp))
    have stop : es < p.length + (String.utf8EncodeChar c).length → ∀ x : Res Empty Nat, x = .ok m →
        ∃ k, x = .ok (m + k) ∧ k ≤ (c :: l).length ∧ p.length + (encode ((c :: l).take k)).length ≤ es ∧
        (k < (c :: l).length → es < p.length + (encode ((c :: l).take (k + 1))).length) := by
      intro hs x hx
      refine ⟨0, hx, by simp, by simpa [encode] using hp, fun _ => ?_⟩
      simpa [encode] using hs
    have next : p.length + (String.utf8EncodeChar c).length ≤ es → ∀ x : Res Empty Nat,
        x = utfnlenLoop (p ++ encode (c :: l)) es fuel (p.length + (String.utf8EncodeChar c).length) (m + 1) →
        ∃ k, x = .ok (m + k) ∧ k ≤ (c :: l).length ∧ p.length + (encode ((c :: l).take k)).length ≤ es ∧
        (k < (c :: l).length → es < p.length + (encode ((c :: l).take (k + 1))).length) := by
      intro hs x hx
      obtain ⟨k, e, h1, h2, h3⟩ := ih (p ++ String.utf8EncodeChar c) fuel (m + 1) es
        (fun d hd => hz d (by simp [hd])) (by omega) (by simpa using hs)
      rw [List.append_assoc, ← encode_cons, List.length_append] at e
      rw [List.length_append] at h2 h3
      refine ⟨k + 1, by rw [hx, e]; congr 1; omega, by simp only [List.length_cons]; omega, ?_, ?_⟩
      · rw [List.take_succ_cons, encode_cons, List.length_append]
        omega
      · intro hk
        rw [List.take_succ_cons, encode_cons, List.length_append]
        have := h3 (by simp only [List.length_cons] at hk; omega)
        omega
    rw [utfnlenLoop]
    obtain ⟨b, eb, h⟩ := rd_char p (encode l) c
    rw [← encode_cons] at eb
    rw [eb]
    by_cases hes : p.length < es
    · rw [if_neg (not_not_intro hes)]
      simp only [Res.bind]
      by_cases hb : b < 128
      · have hl : (String.utf8EncodeChar c).length = 1 ∧ b = c.val.toNat := by omega
        rw [if_pos hb, if_neg (by omega)]
        exact next (by omega) _ (by rw [hl.1])
      · rw [if_neg hb]
        have hfull : fullrune (p ++ encode (c :: l)) p.length (es - p.length) =
            .ok (decide ((String.utf8EncodeChar c).length ≤ es - p.length)) := by
          rw [fullrune, if_neg (by omega), eb]
          simp only [Res.bind]
          rw [if_neg (by omega)]
          split
          · rw [show (String.utf8EncodeChar c).length = 2 by omega]
          · split
            · rw [show (String.utf8EncodeChar c).length = 3 by omega]
            · rw [show (String.utf8EncodeChar c).length = 4 by omega]
        rw [hfull]
        simp only
        by_cases hle : (String.utf8EncodeChar c).length ≤ es - p.length
        · rw [if_neg (by simpa using hle), encode_cons, get_rune_char]
          simp only
          rw [← encode_cons]
          exact next (by omega) _ rfl
        · rw [if_pos (by simpa using hle)]
          exact stop (by omega) _ rfl
    · rw [if_pos hes]
      obtain ⟨b', t, e, _⟩ := encodeChar_shape c
      exact stop (by rw [e]; simp only [List.length_cons]; omega) _ rfl

/-! ## Searching -/

theorem utfruneLoop_eq (c : Char) (l : List Char) : ∀ (p : Bytes) (fuel : Nat), (∀ c ∈ l, c ≠ '\x00') →
    l.length < fuel →
    (c ∉ l → utfruneLoop (p ++ encode l) c.val.toNat fuel p.length = .ok none) ∧
    (∀ a b, l = a ++ c :: b → c ∉ a →
      utfruneLoop (p ++ encode l) c.val.toNat fuel p.length = .ok (some (p.length + (encode a).length))) := by
  induction l with
  | nil =>
    intro p fuel _ hf
    obtain ⟨fuel, rfl⟩ : ∃ k, fuel = k + 1 := ⟨fuel - 1, by simp only [List.length_nil] at hf; omega⟩
    refine ⟨fun _ => ?_, fun a b h => by simp at h⟩
    rw [show p ++ encode [] = p by simp [encode], utfruneLoop, rd_stop]
    simp [Res.bind]
  | cons d l ih =>
    intro p fuel hz hf
    simp only [List.length_cons] at hf
    obtain ⟨fuel, rfl⟩ : ∃ k, fuel = k + 1 := ⟨fuel - 1, by omega⟩
    have hd := val_ne_zero (hz d (by simp))
    have ih := ih (p ++ String.utf8EncodeChar d) fuel (fun e he => hz e (by simp [he])) (by omega)
    rw [List.append_assoc, ← encode_cons, List.length_append] at ih
    have step : utfruneLoop (p ++ encode (d :: l)) c.val.toNat (fuel + 1) p.length =
        if d = c then .ok (some p.length)
        else utfruneLoop (p ++ encode (d :: l)) c.val.toNat fuel (p.length + (String.utf8EncodeChar d).length) := by
      rw [utfruneLoop]
      obtain ⟨b, eb, h⟩ := rd_char p (encode l) d
      rw [← encode_cons] at eb
      rw [eb]
      simp only [Res.bind]
      by_cases hb : b < 128
      · have hl : (String.utf8EncodeChar d).length = 1 ∧ b = d.val.toNat := by omega
        rw [if_pos hb, if_neg (by omega), hl.1, hl.2]
        by_cases hdc : d = c
        · rw [if_pos hdc, if_pos (by rw [hdc])]
        · rw [if_neg hdc, if_neg (fun h => hdc (val_inj h))]
      · rw [if_neg hb, encode_cons, get_rune_char]
        simp only
        by_cases hdc : d = c
        · rw [if_pos hdc, if_pos (by rw [hdc])]
        · rw [if_neg hdc, if_neg (fun h => hdc (val_inj h))]
    rw [step]
    constructor
    · intro hc
      simp only [List.mem_cons, not_or] at hc
      rw [if_neg (fun h => hc.1 h.symm)]
      exact ih.1 hc.2
    · intro a b hab ha
      cases a with
      | nil =>
        simp only [List.nil_append, List.cons.injEq] at hab
        rw [if_pos hab.1]
        simp [encode]
      | cons x a =>
        simp only [List.cons_append, List.cons.injEq] at hab
        obtain ⟨rfl, hab⟩ := hab
        simp only [List.mem_cons, not_or] at ha
        rw [if_neg (fun h => ha.1 h.symm), ih.2 a b hab ha.2, encode_cons, List.length_append, Nat.add_assoc]

/-- No byte of another character is equal to an ASCII character. -/
theorem not_mem_encodeChar {c d : Char} (hc : c.val.toNat < 128) (h : d ≠ c) :
    UInt8.ofNat c.val.toNat ∉ String.utf8EncodeChar d := by
  obtain ⟨b, t, e, ht, hs⟩ := encodeChar_shape d
  rw [e]
  intro hm
  have hcb : (UInt8.ofNat c.val.toNat).toNat = c.val.toNat := toNat8 (by omega)
  rcases List.mem_cons.mp hm with hm | hm
  · rcases hs with ⟨_, h1, _⟩ | h1 | h1 | h1
    · rw [← hm, hcb] at h1
      exact h (val_inj h1.symm)
    all_goals (rw [← hm, hcb] at h1; omega)
  · have := ht _ hm
    omega

theorem not_mem_encode {c : Char} (hc : c.val.toNat < 128) {l : List Char} (h : c ∉ l) :
    UInt8.ofNat c.val.toNat ∉ encode l := by
  induction l with
  | nil => simp [encode]
  | cons d l ih =>
    simp only [List.mem_cons, not_or] at h
    rw [encode_cons, List.mem_append, not_or]
    exact ⟨not_mem_encodeChar hc (fun e => h.1 e.symm), ih h.2⟩

theorem encodeChar_ascii {c : Char} (hc : c.val.toNat < 128) :
    String.utf8EncodeChar c = [UInt8.ofNat c.val.toNat] := by
  unfold String.utf8EncodeChar
  simp only
  rw [if_pos (by omega)]

theorem findIdx?_none {l : Bytes} {c : UInt8} (h : c ∉ l) : l.findIdx? (· = c) = none := by
  rw [List.findIdx?_eq_none_iff]
  intro x hx
  simp only [decide_eq_false_iff_not]
  rintro rfl
  exact h hx

theorem findIdx?_first {a b : Bytes} {c : UInt8} (h : c ∉ a) :
    (a ++ c :: b).findIdx? (· = c) = some a.length := by
  rw [List.findIdx?_append, findIdx?_none h, List.findIdx?_cons]
  simp

theorem ofNat_ne_zero {n : Nat} (h : n < 128) (h0 : n ≠ 0) : UInt8.ofNat n ≠ 0 := by
  intro e
  have := congrArg UInt8.toNat e
  rw [toNat8 (by omega)] at this
  simp at this
  exact h0 this

/-- `utfrune` from the start of a character. -/
theorem utfrune_eq (c : Char) (p l : List Char) (hz : ∀ c ∈ l, c ≠ '\x00') (hc : c ≠ '\x00') :
    (c ∉ l → utfrune (encode (p ++ l)) (encode p).length c.val.toNat = .ok none) ∧
    (∀ a b, l = a ++ c :: b → c ∉ a →
      utfrune (encode (p ++ l)) (encode p).length c.val.toNat = .ok (some (encode (p ++ a)).length)) := by
  have h0 := val_ne_zero hc
  unfold utfrune
  by_cases hs : c.val.toNat < 128
  · simp only [if_pos hs]
    rw [encode_append, List.drop_left]
    unfold strchr
    simp only [if_neg (ofNat_ne_zero hs h0)]
    constructor
    · intro hm
      rw [findIdx?_none (not_mem_encode hs hm)]
      rfl
    · intro a b hl ha
      rw [hl, encode_append, encode_cons, encodeChar_ascii hs, List.cons_append, List.nil_append,
        findIdx?_first (not_mem_encode hs ha), encode_append]
      simp
  · simp only [if_neg hs]
    rw [encode_append]
    have hlen : l.length < (encode p ++ encode l).length + 1 := by
      have := length_le_encode l
      rw [List.length_append]
      omega
    have := utfruneLoop_eq c l (encode p) _ hz hlen
    refine ⟨this.1, fun a b hl ha => ?_⟩
    rw [this.2 a b hl ha, encode_append, List.length_append]

theorem utfrruneLoop_eq (c : Char) (l : List Char) : ∀ (p : Bytes) (fuel : Nat) (s1 : Option Nat),
    (∀ c ∈ l, c ≠ '\x00') → l.length < fuel →
    (c ∉ l → utfrruneLoop (p ++ encode l) c.val.toNat fuel p.length s1 = .ok s1) ∧
    (∀ a b, l = a ++ c :: b → c ∉ b →
      utfrruneLoop (p ++ encode l) c.val.toNat fuel p.length s1 =
        .ok (some (p.length + (encode a).length))) := by
  induction l with
  | nil =>
    intro p fuel s1 _ hf
    obtain ⟨fuel, rfl⟩ : ∃ k, fuel = k + 1 := ⟨fuel - 1, by simp only [List.length_nil] at hf; omega⟩
    refine ⟨fun _ => ?_, fun a b h => by simp at h⟩
    rw [show p ++ encode [] = p by simp [encode], utfrruneLoop, rd_stop]
    simp [Res.bind]
  | cons d l ih =>
    intro p fuel s1 hz hf
    simp only [List.length_cons] at hf
    obtain ⟨fuel, rfl⟩ : ∃ k, fuel = k + 1 := ⟨fuel - 1, by omega⟩
    have hd := val_ne_zero (hz d (by simp))
    have ih := fun s1 => ih (p ++ String.utf8EncodeChar d) fuel s1 (fun e he => hz e (by simp [he])) (by omega)
    rw [List.append_assoc, ← encode_cons, List.length_append] at ih
    have step : utfrruneLoop (p ++ encode (d :: l)) c.val.toNat (fuel + 1) p.length s1 =
        utfrruneLoop (p ++ encode (d :: l)) c.val.toNat fuel (p.length + (String.utf8EncodeChar d).length)
          (if d = c then some p.length else s1) := by
      rw [utfrruneLoop]
      obtain ⟨b, eb, h⟩ := rd_char p (encode l) d
      rw [← encode_cons] at eb
      rw [eb]
      simp only [Res.bind]
      by_cases hb : b < 128
      · have hl : (String.utf8EncodeChar d).length = 1 ∧ b = d.val.toNat := by omega
        rw [if_pos hb, if_neg (by omega), hl.1, hl.2]
        by_cases hdc : d = c
        · rw [if_pos hdc, if_pos (by rw [hdc])]
        · rw [if_neg hdc, if_neg (fun h => hdc (val_inj h))]
      · rw [if_neg hb, encode_cons, get_rune_char]
        simp only
        by_cases hdc : d = c
        · rw [if_pos hdc, if_pos (by rw [hdc])]
        · rw [if_neg hdc, if_neg (fun h => hdc (val_inj h))]
    rw [step]
    constructor
    · intro hc
      simp only [List.mem_cons, not_or] at hc
      rw [if_neg (fun h => hc.1 h.symm)]
      exact (ih s1).1 hc.2
    · intro a b hab hb
      cases a with
      | nil =>
        simp only [List.nil_append, List.cons.injEq] at hab
        rw [if_pos hab.1, (ih _).1 (by rw [hab.2]; exact hb)]
        simp [encode]
      | cons x a =>
        simp only [List.cons_append, List.cons.injEq] at hab
        obtain ⟨rfl, hab⟩ := hab
        rw [(ih _).2 a b hab hb, encode_cons, List.length_append, Nat.add_assoc]

theorem utfrrune_eq (c : Char) (l : List Char) (hz : ∀ c ∈ l, c ≠ '\x00') (hc : c ≠ '\x00') :
    (c ∉ l → utfrrune (encode l) c.val.toNat = .ok none) ∧
    (∀ a b, l = a ++ c :: b → c ∉ b →
      utfrrune (encode l) c.val.toNat = .ok (some (encode a).length)) := by
  have h0 := val_ne_zero hc
  unfold utfrrune
  by_cases hs : c.val.toNat < 128
  · simp only [if_pos hs]
    unfold strrchr
    simp only [if_neg (ofNat_ne_zero hs h0)]
    constructor
    · intro hm
      rw [findIdx?_none (by rw [List.mem_reverse]; exact not_mem_encode hs hm)]
      rfl
    · intro a b hl hb
      rw [hl, encode_append, encode_cons, encodeChar_ascii hs, List.cons_append, List.nil_append,
        List.reverse_append, List.reverse_cons, List.append_assoc, List.singleton_append,
        findIdx?_first (by rw [List.mem_reverse]; exact not_mem_encode hs hb)]
      simp only [Option.map_some, List.length_append, List.length_cons, List.length_reverse]
      congr 2
      omega
  · simp only [if_neg hs]
    have hlen : l.length < (encode l).length + 1 := by
      have := length_le_encode l
      omega
    have := utfrruneLoop_eq c l [] _ none hz hlen
    simpa using this

/-! ## Substrings -/

/-- No encoding of a character begins another. -/
theorem encode_prefix (l2 : List Char) : ∀ l : List Char, encode l2 <+: encode l ↔ l2 <+: l := by
  induction l2 with
  | nil => intro l; simp [encode]
  | cons c l2 ih =>
    intro l
    constructor
    · rintro ⟨t, ht⟩
      rw [encode_cons, List.append_assoc] at ht
      cases l with
      | nil =>
        obtain ⟨b, u, e, _⟩ := encodeChar_shape c
        rw [e] at ht
        simp [encode] at ht
      | cons d l =>
        have h1 := get_rune_encode c (encode l2 ++ t)
        rw [ht, encode_cons, get_rune_encode d] at h1
        injection h1 with h1
        have hcd : d = c := val_inj (congrArg Prod.fst h1)
        subst hcd
        rw [encode_cons] at ht
        have := List.append_cancel_left ht
        rw [List.cons_prefix_cons]
        exact ⟨rfl, (ih l).mp ⟨t, this⟩⟩
    · rintro ⟨t, rfl⟩
      rw [encode_append]
      exact List.prefix_append _ _

/-- Searching goes on after a character where the text does not stand. -/
theorem strstr_skip (n : Bytes) (b : UInt8) (n' : Bytes) (hn : n = b :: n') (hb : b.toNat < 128 ∨ 192 ≤ b.toNat)
    (u t : Bytes) (hu : ∀ x ∈ u, 128 ≤ x.toNat ∧ x.toNat < 192) :
    Strings.strstr n (u ++ t) = (Strings.strstr n t).map (u.length + ·) := by
  induction u with
  | nil => simp
  | cons x u ih =>
    rw [List.cons_append, Strings.strstr]
    have hx := hu x (by simp)
    have : (n.isPrefixOf (x :: (u ++ t))) = false := by
      rw [hn, List.isPrefixOf_cons_cons]
      have : (b == x) = false := by
        rw [beq_eq_false_iff_ne]
        rintro rfl
        omega
      rw [this, Bool.false_and]
    rw [this]
    simp only [Bool.false_eq_true, if_false]
    rw [ih (fun y hy => hu y (by simp [hy]))]
    cases Strings.strstr n t with
    | none => rfl
    | some k => simp; omega

theorem encode_head {c : Char} {l : List Char} : ∃ b n', encode (c :: l) = b :: n' ∧
    (b.toNat < 128 ∨ 192 ≤ b.toNat) := by
  obtain ⟨b, t, e, _, h⟩ := encodeChar_shape c
  refine ⟨b, t ++ encode l, by rw [encode_cons, e]; rfl, ?_⟩
  rcases h with h | h | h | h <;> omega

/-- What a search for one text in another must give. -/
def Found (l1 l2 : List Char) (r : Option Nat) : Prop :=
  (r = none ∧ ¬ l2 <:+: l1) ∨
  ∃ a b, l1 = a ++ l2 ++ b ∧ r = some (encode a).length ∧
    ∀ a' b', l1 = a' ++ l2 ++ b' → a.length ≤ a'.length

theorem found_here {l1 l2 : List Char} (h : l2 <+: l1) : Found l1 l2 (some 0) := by
  obtain ⟨b, hb⟩ := h
  exact .inr ⟨[], b, by simpa using hb.symm, by simp [encode], by simp⟩

theorem found_next {d : Char} {l1 l2 : List Char} {r : Option Nat} (h : Found l1 l2 r) (hn : ¬ l2 <+: d :: l1) :
    Found (d :: l1) l2 (r.map ((String.utf8EncodeChar d).length + ·)) := by
  rcases h with ⟨rfl, h⟩ | ⟨a, b, h, rfl, hm⟩
  · refine .inl ⟨rfl, ?_⟩
    rintro ⟨a, b, hab⟩
    cases a with
    | nil => exact hn ⟨b, by simpa using hab⟩
    | cons x a =>
      simp only [List.cons_append, List.cons.injEq] at hab
      exact h ⟨a, b, hab.2⟩
  · refine .inr ⟨d :: a, b, by simp [h], by simp [encode_cons], ?_⟩
    intro a' b' h'
    cases a' with
    | nil => exact absurd ⟨b', by simpa using h'.symm⟩ hn
    | cons x a' =>
      simp only [List.cons_append, List.cons.injEq] at h'
      have := hm a' b' h'.2
      simp only [List.length_cons]
      omega

theorem strstr_found (c : Char) (l2 l1 : List Char) :
    Found l1 (c :: l2) (Strings.strstr (encode (c :: l2)) (encode l1)) := by
  obtain ⟨b, n', e, hb⟩ := @encode_head c l2
  induction l1 with
  | nil =>
    refine .inl ⟨?_, ?_⟩
    · rw [e]
      simp [encode, Strings.strstr]
    · rintro ⟨x, y, h⟩
      simp at h
  | cons d l1 ih =>
    by_cases hp : c :: l2 <+: d :: l1
    · have : Strings.strstr (encode (c :: l2)) (encode (d :: l1)) = some 0 := by
        have h2 := (encode_prefix _ _).mpr hp
        obtain ⟨b', t', e', _⟩ := @encode_head d l1
        rw [e'] at h2 ⊢
        rw [Strings.strstr, if_pos (by rw [List.isPrefixOf_iff_prefix]; exact h2)]
      rw [this]
      exact found_here hp
    · have h2 := fun h => hp ((encode_prefix _ _).mp h)
      obtain ⟨b', u, e', hu, _⟩ := encodeChar_shape d
      have : Strings.strstr (encode (c :: l2)) (encode (d :: l1)) =
          (Strings.strstr (encode (c :: l2)) (encode l1)).map ((String.utf8EncodeChar d).length + ·) := by
        rw [encode_cons d, e'] at h2 ⊢
        rw [List.cons_append, Strings.strstr,
          if_neg (by rw [List.isPrefixOf_iff_prefix]; exact h2), strstr_skip _ b n' e hb u _ hu]
        cases Strings.strstr (encode (c :: l2)) (encode l1) with
        | none => rfl
        | some k => simp; omega
      rw [this]
      exact found_next ih hp

theorem found_drop {c : Char} {l2 : List Char} {r : Option Nat} {l : List Char} (a : List Char)
    (ha : c ∉ a) (h : Found l (c :: l2) r) :
    Found (a ++ l) (c :: l2) (r.map ((encode a).length + ·)) := by
  induction a with
  | nil => simpa [encode] using h
  | cons d a ih =>
    simp only [List.mem_cons, not_or] at ha
    have := found_next (d := d) (ih ha.2) (by
      rintro ⟨t, ht⟩
      simp only [List.cons_append, List.cons.injEq] at ht
      exact ha.1 ht.1)
    rw [encode_cons]
    cases r with
    | none => exact this
    | some k =>
      simp only [Option.map_some, List.length_append, List.cons_append, Nat.add_assoc] at this ⊢
      exact this

theorem exists_first (c : Char) (l : List Char) (h : c ∈ l) : ∃ a b, l = a ++ c :: b ∧ c ∉ a := by
  induction l with
  | nil => simp at h
  | cons d l ih =>
    by_cases hd : d = c
    · exact ⟨[], l, by simp [hd], by simp⟩
    · rcases List.mem_cons.mp h with h | h
      · exact absurd h.symm hd
      · obtain ⟨a, b, e, ha⟩ := ih h
        refine ⟨d :: a, b, by simp [e], ?_⟩
        simp only [List.mem_cons, not_or]
        exact ⟨fun h => hd h.symm, ha⟩

theorem utfutfLoop_found (c : Char) (l2 : List Char) (hc : c ≠ '\x00') (fuel : Nat) : ∀ (p l : List Char),
    (∀ c ∈ l, c ≠ '\x00') → l.length < fuel → ∃ r,
      utfutfLoop (encode (p ++ l)) (encode (c :: l2)) (String.utf8EncodeChar c).length c.val.toNat fuel
        (encode p).length = .ok (r.map ((encode p).length + ·)) ∧ Found l (c :: l2) r := by
  induction fuel with
  | zero => intro p l _ h; omega
  | succ fuel ih =>
    intro p l hz hf
    rw [utfutfLoop]
    have hu := utfrune_eq c p l hz hc
    by_cases hm : c ∈ l
    · obtain ⟨a, b, hl, ha⟩ := exists_first c l hm
      rw [hu.2 a b hl ha]
      simp only [Res.bind]
      have hd : (encode (p ++ l)).drop (encode (p ++ a)).length = encode (c :: b) := by
        rw [hl, ← List.append_assoc, encode_append (p ++ a), List.drop_left]
      rw [hd]
      by_cases hp : c :: l2 <+: c :: b
      · rw [if_pos (by rw [List.isPrefixOf_iff_prefix]; exact (encode_prefix _ _).mpr hp)]
        refine ⟨some (encode a).length, by simp [encode_append], ?_⟩
        have := found_drop (c := c) a ha (found_here hp)
        rw [hl]
        simpa using this
      · rw [if_neg (by rw [List.isPrefixOf_iff_prefix]; exact fun h => hp ((encode_prefix _ _).mp h))]
        obtain ⟨r, e, hr⟩ := ih (p ++ a ++ [c]) b (fun d hd => hz d (by simp [hl, hd]))
          (by rw [hl] at hf; simp at hf; omega)
        have hlen : (encode (p ++ a ++ [c])).length = (encode (p ++ a)).length + (String.utf8EncodeChar c).length := by
          rw [encode_append _ [c], List.length_append]
          simp [encode]
        rw [hlen, show p ++ a ++ [c] ++ b = p ++ l by simp [hl]] at e
        refine ⟨r.map ((encode (a ++ [c])).length + ·), ?_, ?_⟩
        · rw [e]
          cases r with
          | none => rfl
          | some k =>
            simp only [Option.map_some, encode_append, List.length_append, encode_cons]
            simp [encode]
            omega
        · have h1 := found_next hr hp
          have h2 := found_drop (c := c) a ha h1
          rw [hl]
          cases r with
          | none => exact h2
          | some k =>
            simp only [Option.map_some, encode_append, List.length_append, encode_cons, Nat.add_assoc] at h2 ⊢
            simpa [encode] using h2
    · rw [hu.1 hm]
      refine ⟨none, rfl, .inl ⟨rfl, ?_⟩⟩
      rintro ⟨x, y, h⟩
      exact hm (by rw [← h]; simp)

theorem utfutf_found (l1 l2 : List Char) (h1 : ∀ c ∈ l1, c ≠ '\x00') (h2 : ∀ c ∈ l2, c ≠ '\x00') :
    ∃ r, utfutf (encode l1) (encode l2) = .ok r ∧ Found l1 l2 r := by
  unfold utfutf
  cases l2 with
  | nil =>
    have : get_rune (encode []) 0 = .ok (0, 1) := by simp [get_rune, encode, rd, Res.bind]
    rw [this]
    simp only [Res.bind]
    rw [if_pos (by omega)]
    refine ⟨_, rfl, ?_⟩
    have : Strings.strstr (encode []) (encode l1) = some 0 := by
      cases h : encode l1 <;> simp [encode, Strings.strstr]
    rw [this]
    exact found_here (List.nil_prefix)
  | cons c l2 =>
    rw [encode_cons, get_rune_encode, ← encode_cons]
    simp only [Res.bind]
    split
    · exact ⟨_, rfl, strstr_found c l2 l1⟩
    · obtain ⟨r, e, h⟩ := utfutfLoop_found c l2 (h2 c (by simp)) ((encode l1).length + 1) [] l1 h1
        (by have := length_le_encode l1; omega)
      refine ⟨r, ?_, h⟩
      simp only [List.nil_append, show (encode []).length = 0 from rfl, Nat.zero_add] at e
      rw [e]
      cases r <;> rfl

end Che.Lib.Utf

namespace Che.Lib.Utf
open Che.Spec.Utf

/-! ## What is accepted -/

theorem drop_of_getElem? {s : Bytes} {i : Nat} {b : UInt8} (h : s[i]? = some b) : s.drop i = b :: s.drop (i + 1) := by
  obtain ⟨hi, e⟩ := List.getElem?_eq_some_iff.mp h
  rw [List.drop_eq_getElem_cons hi, e]

/-- The character with a code. -/
def charOf (r : Nat) (h : r < 0xD800 ∨ 0xDFFF < r ∧ r < 0x110000) : Char :=
  ⟨UInt32.ofNat r, by
    have : (UInt32.ofNat r).toNat = r := by
      rw [UInt32.toNat_ofNat']
      omega
    simp only [UInt32.isValidChar, Nat.isValidChar, this]
    exact h⟩

theorem charOf_val (r : Nat) (h : r < 0xD800 ∨ 0xDFFF < r ∧ r < 0x110000) : (charOf r h).val.toNat = r := by
  show (UInt32.ofNat r).toNat = r
  rw [UInt32.toNat_ofNat']
  omega

theorem eq8 {n : Nat} {b : UInt8} (h : n = b.toNat) : UInt8.ofNat n = b := by
  rw [h]
  simp

/-- What is read is a character that stands there, or a surrogate, or an error. -/
theorem decoded_char {s : Bytes} {i : Nat} {r n : Nat} (hi : i < s.length) (h : Decoded s i (r, n)) :
    (r = 0xFFFD ∧ n = 1) ∨ (n = 3 ∧ 0xD800 ≤ r ∧ r ≤ 0xDFFF) ∨
    ∃ c : Char, c.val.toNat = r ∧ (String.utf8EncodeChar c).length = n ∧ String.utf8EncodeChar c <+: s.drop i := by
  cases h with
  | one _ h hb =>
    right; right
    have hv := charOf_val r (by omega)
    have e : String.utf8EncodeChar (charOf r (by omega)) = [UInt8.ofNat r] := by
      rw [encodeChar_ascii (by omega), hv]
    refine ⟨charOf r (by omega), hv, by rw [e]; rfl, ?_⟩
    rw [e, List.drop_eq_getElem_cons hi]
    rw [rd_lt hi] at hb
    injection hb with hb
    rw [eq8 hb.symm]
    exact ⟨_, rfl⟩
  | bad h => exact .inl ⟨rfl, rfl⟩
  | two b0 b1 h0 h1 a0 l0 a1 l1 _ hr hmin =>
    right; right
    have hv := charOf_val r (by omega)
    have e : String.utf8EncodeChar (charOf r (by omega)) = [b0, b1] := by
      unfold String.utf8EncodeChar
      simp only [hv]
      rw [if_neg (by omega), if_pos (by omega), eq8 (b := b0) (by omega), eq8 (b := b1) (by omega)]
    refine ⟨charOf r (by omega), hv, by rw [e]; rfl, ?_⟩
    rw [e, drop_of_getElem? h0, drop_of_getElem? h1]
    exact ⟨_, rfl⟩
  | three b0 b1 b2 h0 h1 h2 a0 l0 a1 l1 a2 l2 _ hr hmin =>
    right
    by_cases hs : 0xD800 ≤ r ∧ r ≤ 0xDFFF
    · exact .inl ⟨rfl, hs⟩
    right
    have hb : r < 0xD800 ∨ 0xDFFF < r ∧ r < 0x110000 := by omega
    have hv := charOf_val r hb
    have e : String.utf8EncodeChar (charOf r hb) = [b0, b1, b2] := by
      unfold String.utf8EncodeChar
      simp only [hv]
      rw [if_neg (by omega), if_neg (by omega), if_pos (by omega), eq8 (b := b0) (by omega),
        eq8 (b := b1) (by omega), eq8 (b := b2) (by omega)]
    refine ⟨charOf r hb, hv, by rw [e]; rfl, ?_⟩
    rw [e, drop_of_getElem? h0, drop_of_getElem? h1, drop_of_getElem? h2]
    exact ⟨_, rfl⟩
  | four b0 b1 b2 b3 h0 h1 h2 h3 a0 l0 a1 l1 a2 l2 a3 l3 _ hr hmin hmax =>
    right; right
    have hb : r < 0xD800 ∨ 0xDFFF < r ∧ r < 0x110000 := by omega
    have hv := charOf_val r hb
    have e : String.utf8EncodeChar (charOf r hb) = [b0, b1, b2, b3] := by
      unfold String.utf8EncodeChar
      simp only [hv]
      rw [if_neg (by omega), if_neg (by omega), if_neg (by omega), eq8 (b := b0) (by omega),
        eq8 (b := b1) (by omega), eq8 (b := b2) (by omega), eq8 (b := b3) (by omega)]
    refine ⟨charOf r hb, hv, by rw [e]; rfl, ?_⟩
    rw [e, drop_of_getElem? h0, drop_of_getElem? h1, drop_of_getElem? h2, drop_of_getElem? h3]
    exact ⟨_, rfl⟩

theorem decoded_size {s : Bytes} {i : Nat} {r n : Nat} (hi : i < s.length) (h : Decoded s i (r, n)) :
    0 < n ∧ i + n ≤ s.length := by
  cases h with
  | one => omega
  | bad => omega
  | two b0 b1 h0 h1 =>
    have := (List.getElem?_eq_some_iff.mp h1).1
    omega
  | three b0 b1 b2 h0 h1 h2 =>
    have := (List.getElem?_eq_some_iff.mp h2).1
    omega
  | four b0 b1 b2 b3 h0 h1 h2 h3 =>
    have := (List.getElem?_eq_some_iff.mp h3).1
    omega

theorem get_rune_drop (s : Bytes) (i : Nat) (h : i ≤ s.length) : get_rune s i = get_rune (s.drop i) 0 := by
  have := get_rune_append (s.take i) (s.drop i)
  rw [List.take_append_drop, List.length_take, Nat.min_eq_left h] at this
  exact this

/-! ## Lengths -/

theorem runenlen_eq (rs : List Nat) : runenlen rs = (rs.flatMap runetochar).length := by
  induction rs with
  | nil => rfl
  | cons r rs ih =>
    rw [runenlen, List.flatMap_cons, List.length_append, ih]
    congr 1
    unfold runetochar
    cases hc : toInt32 r with
    | negSucc k =>
      simp only
      rw [if_pos (by omega)]
      rfl
    | ofNat c =>
      simp only [Int.ofNat_eq_natCast]
      unfold runetocharPos
      by_cases h1 : c ≤ 0x7F
      · rw [if_pos (by omega), if_pos h1]; rfl
      · rw [if_neg (by omega), if_neg h1]
        by_cases h2 : c ≤ 0x7FF
        · rw [if_pos (by omega), if_pos h2]; rfl
        · rw [if_neg (by omega), if_neg h2]
          by_cases h3 : c > 0x10FFFF
          · rw [if_pos (by omega), if_pos h3, if_pos (by omega)]; rfl
          · rw [if_neg h3]
            by_cases h4 : c ≤ 0xFFFF
            · rw [if_pos (by omega), if_pos h4]; rfl
            · rw [if_neg (by omega), if_neg h4]; rfl

/-- `fullrune` says whether a character is complete. -/
theorem fullrune_eq (p t : Bytes) (c : Char) (n : Nat) :
    fullrune (p ++ (String.utf8EncodeChar c ++ t)) p.length n =
      .ok (decide ((String.utf8EncodeChar c).length ≤ n)) := by
  obtain ⟨b, eb, h⟩ := rd_char p t c
  rw [fullrune]
  by_cases h0 : n = 0
  · rw [if_pos h0]
    symm
    congr 1
    rw [decide_eq_false_iff_not]
    omega
  rw [if_neg h0, eb]
  simp only [Res.bind]
  by_cases hb : b < 128
  · rw [if_pos hb]
    symm
    congr 1
    rw [decide_eq_true_eq]
    omega
  · rw [if_neg hb]
    split
    · rw [show (String.utf8EncodeChar c).length = 2 by omega]
    · split
      · rw [show (String.utf8EncodeChar c).length = 3 by omega]
      · rw [show (String.utf8EncodeChar c).length = 4 by omega]

end Che.Lib.Utf
