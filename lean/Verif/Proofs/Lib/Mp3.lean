import Verif.Model.Lib.Mp3
import Verif.Spec.Lib.Mp3
import Verif.Props.Lib.Bits

namespace Che.Lib.Mp3
open Che.Lib Che.Lib.Bits Che.Spec.Lib Che.Spec.Mp3

private theorem bind_ok {α β : Type} (a : α) (f : α → Res String β) : (Res.ok a : Res String α).bind f = f a := rfl

/-! ### Bits of the header -/

/-- A reader of bits that has the given bits before it. -/
def Rd (s : BitReader) (bits : List Bool) : Prop := s.rem ≤ 8 ∧ s.input.src.full = true ∧ leftBits s = bits

theorem rd_loop (n : Nat) : ∀ (s : BitReader) (r : Int) (bits : List Bool), Rd s bits → n ≤ bits.length → Rd (readnLoop n s r).1 (bits.drop n) := by
  induction n with
  | zero => intro s r bits h _; simpa [readnLoop] using h
  | succ n ih =>
    rintro s r bits ⟨h1, h2, rfl⟩ hn
    rcases read1_spec s h1 h2 with ⟨b, e1, e2, e3, e4, e5⟩ | ⟨e1, _⟩
    · have hc : ¬ (read1 s).2 < 0 := by rw [e2]; cases b <;> decide
      rw [readnLoop]
      simp only [if_neg hc]
      rw [e1] at hn ⊢
      simp only [List.length_cons] at hn
      exact ih _ _ _ ⟨e5, e4, rfl⟩ (by omega)
    · rw [e1] at hn; simp at hn

theorem readn_rd {s : BitReader} {a b : List Bool} (h : Rd s (a ++ b)) : (readn s a.length).2 = (bitsValue a : Nat) ∧ Rd (readn s a.length).1 b := by
  obtain ⟨h1, h2, h3⟩ := h
  refine ⟨?_, ?_⟩
  · have := (Props.C49_readn s a.length h1 h2 (by rw [h3]; simp)).1
    rw [this, h3, List.take_left']
    rfl
  · have := rd_loop a.length s 0 (a ++ b) ⟨h1, h2, h3⟩ (by simp)
    rwa [List.drop_left' rfl] at this

theorem readn_pair {s : BitReader} {n : Nat} {a b : List Bool} (hn : a.length = n) (h : Rd s (a ++ b)) : ∃ s', readn s n = (s', ((bitsValue a : Nat) : Int)) ∧ Rd s' b := by
  subst hn
  obtain ⟨h1, h2⟩ := readn_rd h
  exact ⟨(readn s a.length).1, Prod.ext rfl h1, h2⟩

theorem rd_new (data : Bytes) : Rd (newreader (Reader.ofBuffer data) false) (bitString false data) := by
  refine ⟨by simp [newreader], rfl, ?_⟩
  simp [leftBits, newreader, Reader.ofBuffer, Source.rest, List.drop_of_length_le, bitsOf_length]

/-- The bits of a byte. -/
def bit (b : UInt8) (i : Nat) : Bool := b.toNat.testBit i

theorem byte_all (b : UInt8) : bitsValue [bit b 7, bit b 6, bit b 5, bit b 4, bit b 3, bit b 2, bit b 1, bit b 0] = b.toNat ∧
    bitsValue [bit b 7, bit b 6, bit b 5, bit b 4] = b.toNat / 16 ∧ bitsValue [bit b 3] = b.toNat / 8 % 2 ∧ bitsValue [bit b 2, bit b 1] = b.toNat / 2 % 4 ∧
    bitsValue [bit b 0] = b.toNat % 2 ∧ bitsValue [bit b 3, bit b 2] = b.toNat / 4 % 4 ∧ bitsValue [bit b 1] = b.toNat / 2 % 2 ∧ bitsValue [bit b 7, bit b 6] = b.toNat / 64 := by
  revert b
  apply forall_byte
  decide +kernel

theorem bits_four (b0 b1 b2 b3 : UInt8) : bitString false [b0, b1, b2, b3] =
    [bit b0 7, bit b0 6, bit b0 5, bit b0 4, bit b0 3, bit b0 2, bit b0 1, bit b0 0] ++ ([bit b1 7, bit b1 6, bit b1 5, bit b1 4] ++ ([bit b1 3] ++ ([bit b1 2, bit b1 1] ++ ([bit b1 0] ++
      ([bit b2 7, bit b2 6, bit b2 5, bit b2 4] ++ ([bit b2 3, bit b2 2] ++ ([bit b2 1] ++ ([bit b2 0] ++ ([bit b3 7, bit b3 6] ++
        [bit b3 5, bit b3 4, bit b3 3, bit b3 2, bit b3 1, bit b3 0]))))))))) := rfl

/-- What `readfields` does, in bytes. -/
def fields (b2 b3 : UInt8) (h : Header) : Res String (Header × Bool) :=
  match bitrates[b2.toNat / 16]? with
  | none => .panic "undefined: read outside of an array"
  | some b =>
    if b2.toNat / 4 % 4 = 3 then .ok ({ h with bitrate := b }, false)
    else if b2.toNat / 4 % 4 ≠ 0 then .panic "Unsupported sampling frequency"
    else .ok (⟨b, 44100, (b3.toNat / 64 : Nat), b2.toNat / 2 % 2 == 1⟩, true)

theorem readfields_eq {s : BitReader} {b2 b3 : UInt8} {h : Header} (hs : Rd s ([bit b2 7, bit b2 6, bit b2 5, bit b2 4] ++ ([bit b2 3, bit b2 2] ++ ([bit b2 1] ++ ([bit b2 0] ++ ([bit b3 7, bit b3 6] ++
        [bit b3 5, bit b3 4, bit b3 3, bit b3 2, bit b3 1, bit b3 0])))))) : readfields s h = fields b2 b3 h := by
  obtain ⟨_, v1, _, _, v4, v5, v6, _⟩ := byte_all b2
  obtain ⟨_, _, _, _, _, _, _, w⟩ := byte_all b3
  obtain ⟨s1, e1, h1⟩ := readn_pair (n := 4) rfl hs
  obtain ⟨s2, e2, h2⟩ := readn_pair (n := 2) rfl h1
  obtain ⟨s3, e3, h3⟩ := readn_pair (n := 1) rfl h2
  obtain ⟨s4, e4, h4⟩ := readn_pair (n := 1) rfl h3
  obtain ⟨s5, e5, h5⟩ := readn_pair (n := 2) rfl h4
  rw [v1] at e1; rw [v5] at e2; rw [v6] at e3; rw [v4] at e4; rw [w] at e5
  unfold readfields fields
  rw [e1]
  simp only [Int.toNat_natCast]
  generalize bitrates[b2.toNat / 16]? = o
  cases o with
  | none => rfl
  | some b =>
    simp only
    rw [e2]
    simp only
    unfold readfreq
    rw [Int.toNat_natCast]
    have hlt : b2.toNat / 4 % 4 < 4 := by omega
    generalize hx : b2.toNat / 4 % 4 = x at *
    match x, hlt with
    | 0, _ =>
      show (if (44100 : Nat) ≠ 44100 then _ else Res.ok _ : Res String (Option Header)).bind _ = _
      rw [if_neg (by decide), bind_ok, if_neg (by decide), if_neg (by decide)]
      simp only
      rw [e3]
      simp only
      rw [e4]
      simp only
      rw [e5]
      simp only
      have : ((((b2.toNat / 2 % 2 : Nat) : Int) == 1) = (b2.toNat / 2 % 2 == 1)) := by
        rw [Bool.eq_iff_iff, beq_iff_eq, beq_iff_eq]
        omega
      rw [this]
    | 1, _ => rfl
    | 2, _ => rfl
    | 3, _ => rfl

theorem readheader_eq (b0 b1 b2 b3 : UInt8) (h : Header) : readheader (newreader (Reader.ofBuffer [b0, b1, b2, b3]) false) h =
    if b0.toNat ≠ 255 ∨ b1.toNat / 2 ≠ 125 then .ok (h, false) else if b1.toNat % 2 = 0 then .panic "+CRC" else fields b2 b3 h := by
  have hs := rd_new [b0, b1, b2, b3]
  rw [bits_four] at hs
  obtain ⟨u, _⟩ := byte_all b0
  obtain ⟨_, v1, v2, v3, v4, _⟩ := byte_all b1
  obtain ⟨s1, e1, h1⟩ := readn_pair (n := 8) rfl hs
  obtain ⟨s2, e2, h2⟩ := readn_pair (n := 4) rfl h1
  obtain ⟨s3, e3, h3⟩ := readn_pair (n := 1) rfl h2
  obtain ⟨s4, e4, h4⟩ := readn_pair (n := 2) rfl h3
  obtain ⟨s5, e5, h5⟩ := readn_pair (n := 1) rfl h4
  rw [u] at e1; rw [v1] at e2; rw [v2] at e3; rw [v3] at e4; rw [v4] at e5
  have hb := b1.toNat_lt
  unfold readheader
  rw [e1]
  simp only
  by_cases c1 : b0.toNat ≠ 255
  · rw [if_pos (by omega), if_pos (.inl c1)]
  rw [if_neg (by omega), e2]
  simp only
  by_cases c2 : b1.toNat / 16 = 15
  swap
  · rw [if_pos (by omega), if_pos (.inr (by omega))]
  rw [if_neg (by omega), e3]
  simp only
  by_cases c3 : b1.toNat / 8 % 2 = 1
  swap
  · rw [if_pos (by omega), if_pos (.inr (by omega))]
  rw [if_neg (by omega), e4]
  simp only
  by_cases c4 : b1.toNat / 2 % 4 = 1
  swap
  · rw [if_pos (by omega), if_pos (.inr (by omega))]
  rw [if_neg (by omega), e5]
  simp only
  rw [if_neg (show ¬ (b0.toNat ≠ 255 ∨ b1.toNat / 2 ≠ 125) by omega)]
  by_cases c5 : b1.toNat % 2 = 0
  · rw [if_pos (by omega), if_pos c5]
  · rw [if_neg (by omega), if_neg c5, readfields_eq h5]

/-! ### Frames -/

/-- The header of a frame. -/
def hdOf (b2 b3 : UInt8) : Header := ⟨(rate (b2.toNat / 16)).getD 0, 44100, (b3.toNat / 64 : Nat), b2.toNat / 2 % 2 == 1⟩

theorem rate_table {k r : Nat} (h : rate k = some r) : bitrates[k]? = some r ∧ 32 ≤ r ∧ r ≤ 320 := by
  unfold rate at h
  split at h <;> first | (simp only [Option.some.injEq] at h; subst h; decide) | cases h

theorem readframe_frame (m : R) (s t : Bytes) (hs : Frame s) (hr : m.rest = s ++ t) (hl : m.frame.length = 1100) : ∃ b2 b3 body, s = 255 :: 251 :: b2 :: b3 :: body ∧
    readframe m = .ok ({ m with rest := t, h := hdOf b2 b3, framelen := s.length, frame := s ++ m.frame.drop s.length, time := m.time + 26122 }, true) ∧ 104 ≤ s.length ∧ s.length ≤ 1046 := by
  obtain ⟨b2, b3, body, k, p, x, r, rfl, hb, hp, hx, hk, hlen⟩ := hs
  obtain ⟨ht, hr1, hr2⟩ := rate_table hk
  refine ⟨b2, b3, body, rfl, ?_, ?_⟩
  swap
  · rw [hlen]
    have a1 : 144 * 1000 * 32 / 44100 ≤ 144 * 1000 * r / 44100 := Nat.div_le_div_right (Nat.mul_le_mul_left _ hr1)
    have a2 : 144 * 1000 * r / 44100 ≤ 144 * 1000 * 320 / 44100 := Nat.div_le_div_right (Nat.mul_le_mul_left _ hr2)
    omega
  obtain ⟨rest, eof, time, h, framelen, frame, info⟩ := m
  simp only at hr hl ⊢
  subst hr
  unfold readframe
  simp only [List.cons_append, List.take_succ_cons, List.take_zero, List.drop_succ_cons, List.drop_zero, List.length_cons, List.length_nil]
  rw [if_neg (by decide)]
  have e1 : (store frame 0 [255, 251, b2, b3]).take 4 = [255, 251, b2, b3] := rfl
  have hq : b2.toNat / 16 = k := by omega
  have hf : b2.toNat / 4 % 4 = 0 := by omega
  have e2 : fields b2 b3 h = .ok (hdOf b2 b3, true) := by
    unfold fields hdOf
    rw [hq, ht, hk]
    simp only [hf]
    rfl
  rw [e1, readheader_eq, if_neg (by decide), if_neg (by decide), e2, bind_ok]
  simp only [if_true]
  have e3 : framelength (hdOf b2 b3) = body.length + 4 := by
    simp only [List.length_cons] at hlen
    rw [show body.length + 4 = body.length + 1 + 1 + 1 + 1 by omega, hlen]
    unfold framelength hdOf
    simp only [hq, hk, Option.getD_some]
    rw [show 144 * (r * 1000) = 144 * 1000 * r by omega]
    congr 1
    have : b2.toNat / 2 % 2 = p := by omega
    rw [this]
    rcases (show p = 0 ∨ p = 1 by omega) with rfl | rfl <;> rfl
  unfold readrest
  simp only [e3, Nat.add_sub_cancel]
  rw [List.take_left' rfl, List.drop_left' rfl, if_neg (by omega)]
  have e4 : store (store frame 0 [255, 251, b2, b3]) 4 body = 255 :: 251 :: b2 :: b3 :: (body ++ frame.drop (body.length + 1 + 1 + 1 + 1)) := by
    unfold store
    rw [List.take_zero, List.nil_append, ← List.drop_drop (i := body.length) (j := 4), show ∀ z : Bytes, List.take 4 ([255, 251, b2, b3] ++ z) = [255, 251, b2, b3] from fun _ => rfl,
      show ∀ z : Bytes, List.drop 4 ([255, 251, b2, b3] ++ z) = z from fun _ => rfl, List.drop_drop,
      show 0 + [255, 251, b2, b3].length + body.length = body.length + 1 + 1 + 1 + 1 by simp only [List.length_cons, List.length_nil]; omega]
    rfl
  rw [e4, show 1152 * 1000000 / (hdOf b2 b3).freq = 26122 from (by decide : 1152 * 1000000 / 44100 = 26122)]

/-- The reader has loaded the `d + 1`-st frame, and the bytes `t` are left. -/
structure At (m : R) (s t : Bytes) (d : Nat) (info : Bytes) : Prop where
  rest : m.rest = t
  eof : m.eof = false
  time : m.time = (d + 1) * 26122
  len : m.framelen = s.length
  arr : m.frame.length = 1100
  frame : ∃ x, m.frame = s ++ x
  inf : m.info = info
  rate : m.h.bitrate = rateOf s
  mode : m.h.mode = 3 ↔ Mono s

theorem At.write {m : R} {s t info : Bytes} {d : Nat} (h : At m s t d info) : write_frame m = s := by
  obtain ⟨x, hx⟩ := h.frame
  unfold write_frame
  rw [hx, h.len, List.take_left' rfl]

theorem at_next (m : R) (s t : Bytes) (d : Nat) (hs : Frame s) (hr : m.rest = s ++ t) (hl : m.frame.length = 1100) (he : m.eof = false) (ht : m.time = d * 26122) :
    ∃ m', readframe m = .ok (m', true) ∧ At m' s t d m.info := by
  obtain ⟨b2, b3, body, rfl, e, h1, h2⟩ := readframe_frame m s t hs hr hl
  refine ⟨_, e, rfl, he, ?_, rfl, ?_, ⟨_, rfl⟩, rfl, rfl, ?_⟩
  · show m.time + 26122 = _
    rw [ht]; omega
  · show (_ ++ List.drop _ m.frame).length = 1100
    rw [List.length_append, List.length_drop, hl]; omega
  · show ((b3.toNat / 64 : Nat) : Int) = 3 ↔ _
    constructor
    · intro h
      exact ⟨_, _, _, _, _, rfl, by omega⟩
    · rintro ⟨a, b, c, d, r, he, hd⟩
      simp only [List.cons.injEq] at he
      obtain ⟨_, _, _, rfl, _⟩ := he
      omega

theorem nextframe_frame {m : R} {s s' t info : Bytes} {d : Nat} (h : At m s (s' ++ t) d info) (hs : Frame s') : ∃ m', nextframe m = .ok (m', true) ∧ At m' s' t (d + 1) info := by
  obtain ⟨m', e, a⟩ := at_next m s' t (d + 1) hs h.rest h.arr h.eof h.time
  rw [h.inf] at a
  refine ⟨m', ?_, a⟩
  unfold nextframe
  rw [e, bind_ok]
  rfl

theorem nextframe_end {m : R} {s info : Bytes} {d : Nat} (h : At m s [] d info) : ∃ m', nextframe m = .ok (m', false) := by
  refine ⟨{ m with rest := [], frame := store m.frame 0 [], eof := true }, ?_⟩
  unfold nextframe readframe
  rw [h.rest]
  rfl

theorem info_frame_iff {m : R} {s t info : Bytes} {d : Nat} (h : At m s t d info) (hl : 104 ≤ s.length) : info_frame m = true ↔ Info s := by
  obtain ⟨x, hx⟩ := h.frame
  have key : ∀ n, n + 4 ≤ s.length → ((m.frame.drop n).take 4 = cstr "Xing" ↔ ∃ a b, s = a ++ cstr "Xing" ++ b ∧ a.length = n) := by
    intro n hn
    rw [hx, List.drop_append_of_le_length (by omega), List.take_append_of_le_length (by rw [List.length_drop]; omega)]
    constructor
    · intro e
      refine ⟨s.take n, s.drop (n + 4), ?_, by rw [List.length_take]; omega⟩
      rw [← e, ← List.drop_drop, List.append_assoc, List.take_append_drop, List.take_append_drop]
    · rintro ⟨a, b, rfl, rfl⟩
      rw [List.append_assoc, List.drop_left' rfl, List.take_left' (by decide +kernel)]
  unfold info_frame
  simp only [decide_eq_true_eq]
  by_cases hm : Mono s
  · rw [if_pos (h.mode.2 hm), key 21 (by omega)]
    constructor
    · rintro ⟨a, b, e, l⟩; exact ⟨a, b, e, .inl ⟨hm, l⟩⟩
    · rintro ⟨a, b, e, ⟨_, l⟩ | ⟨n, _⟩⟩
      · exact ⟨a, b, e, l⟩
      · exact absurd hm n
  · rw [if_neg (fun c => hm (h.mode.1 c)), key 36 (by omega)]
    constructor
    · rintro ⟨a, b, e, l⟩; exact ⟨a, b, e, .inr ⟨hm, l⟩⟩
    · rintro ⟨a, b, e, ⟨n, _⟩ | ⟨_, l⟩⟩
      · exact absurd n hm
      · exact ⟨a, b, e, l⟩

theorem frame_len {s : Bytes} (hs : Frame s) : 104 ≤ s.length := by
  obtain ⟨_, _, _, _, _, h, _⟩ := readframe_frame ⟨s ++ [], false, 0, ⟨0, 0, 0, false⟩, 0, List.replicate 1100 0, []⟩ s [] hs rfl (List.length_replicate ..)
  exact h

/-! ### Opening -/

/-- Four bytes that are not the start of a header. -/
def Junk (g : Bytes) : Prop := ∃ a b c d : UInt8, g = [a, b, c, d] ∧ ¬ (a.toNat = 255 ∧ b.toNat / 2 = 125)

theorem readframe_junk (m : R) (g t : Bytes) (hg : Junk g) (hr : m.rest = g ++ t) : readframe m = .ok ({ m with rest := t, frame := g ++ m.frame.drop 4 }, false) := by
  obtain ⟨a, b, c, d, rfl, hn⟩ := hg
  unfold readframe
  rw [hr]
  simp only [List.cons_append, List.nil_append, List.take_succ_cons, List.take_zero, List.drop_succ_cons, List.drop_zero, List.length_cons, List.length_nil]
  rw [if_neg (by decide)]
  have e1 : (store m.frame 0 [a, b, c, d]).take 4 = [a, b, c, d] := rfl
  have e2 : store m.frame 0 [a, b, c, d] = a :: b :: c :: d :: m.frame.drop 4 := rfl
  rw [e1, readheader_eq, if_pos (by omega), bind_ok, e2]
  rfl

theorem sync (s t : Bytes) (hs : Frame s) : ∀ (gs : List Bytes) (m : R) (n : Nat), (∀ g ∈ gs, Junk g) → m.rest = gs.flatten ++ (s ++ t) → m.frame.length = 1100 → m.eof = false → m.time = 0 →
    gs.length < n → ∃ m', syncLoop n m = .ok m' ∧ At m' s t 0 m.info := by
  intro gs
  induction gs with
  | nil =>
    intro m n _ hr hl he ht hn
    obtain ⟨n, rfl⟩ : ∃ k, n = k + 1 := ⟨n - 1, by simp at hn; omega⟩
    obtain ⟨m', e, a⟩ := at_next m s t 0 hs (by simpa using hr) hl he (by omega)
    refine ⟨m', ?_, a⟩
    have hne : ¬ m.rest = [] := by
      rw [hr]; intro c
      have := frame_len hs
      simp only [List.flatten_nil, List.nil_append, List.append_eq_nil_iff] at c
      rw [c.1] at this; simp at this
    rw [syncLoop, if_neg hne, e, bind_ok]
    rfl
  | cons g gs ih =>
    intro m n hg hr hl he ht hn
    obtain ⟨n, rfl⟩ : ∃ k, n = k + 1 := ⟨n - 1, by simp at hn; omega⟩
    have hj := hg g (by simp)
    have e := readframe_junk m g (gs.flatten ++ (s ++ t)) hj (by rw [hr]; simp)
    obtain ⟨a, b, c, d, rfl, hx⟩ := hj
    obtain ⟨m', e', at'⟩ := ih { m with rest := gs.flatten ++ (s ++ t), frame := [a, b, c, d] ++ m.frame.drop 4 } n (fun x hx => hg x (by simp [hx])) rfl
      (by simp [hl]) he ht (by simp at hn; omega)
    refine ⟨m', ?_, at'⟩
    have hne : ¬ m.rest = [] := by rw [hr]; simp
    rw [syncLoop, if_neg hne, e, bind_ok]
    exact e'

theorem junk_length {gs : List Bytes} (hg : ∀ g ∈ gs, Junk g) : gs.length ≤ gs.flatten.length := by
  induction gs with
  | nil => simp
  | cons g gs ih =>
    obtain ⟨a, b, c, d, rfl, _⟩ := hg g (by simp)
    have := ih fun x hx => hg x (by simp [hx])
    rw [List.flatten_cons, List.length_append, List.length_cons]; simp only [List.length_cons, List.length_nil] at *; omega

theorem open_audio (gs : List Bytes) (hg : ∀ g ∈ gs, Junk g) (s t : Bytes) (hs : Frame s) (hi : ¬ Info s) : ∃ m, open_reader (gs.flatten ++ (s ++ t)) = .ok (some m) ∧ At m s t 0 [] := by
  have hj := junk_length hg
  obtain ⟨m, e, a⟩ := sync s t hs gs { rest := gs.flatten ++ (s ++ t), eof := false, time := 0, h := ⟨0, 0, 0, false⟩, framelen := 0, frame := List.replicate 1100 0, info := [] }
    ((gs.flatten ++ (s ++ t)).length + 1) hg rfl (List.length_replicate ..) rfl rfl (by rw [List.length_append]; omega)
  refine ⟨m, ?_, a⟩
  unfold open_reader
  rw [e, bind_ok, if_neg (fun c => hi ((info_frame_iff a (frame_len hs)).1 c))]
  unfold opened
  rw [a.eof]
  rfl

theorem open_info (gs : List Bytes) (hg : ∀ g ∈ gs, Junk g) (s s' t : Bytes) (hs : Frame s) (hi : Info s) (hs' : Frame s') : ∃ m, open_reader (gs.flatten ++ (s ++ (s' ++ t))) = .ok (some m) ∧
    At m s' t 0 s := by
  have hj := junk_length hg
  obtain ⟨m, e, a⟩ := sync s (s' ++ t) hs gs { rest := gs.flatten ++ (s ++ (s' ++ t)), eof := false, time := 0, h := ⟨0, 0, 0, false⟩, framelen := 0, frame := List.replicate 1100 0, info := [] }
    ((gs.flatten ++ (s ++ (s' ++ t))).length + 1) hg rfl (List.length_replicate ..) rfl rfl (by rw [List.length_append]; omega)
  obtain ⟨m', e', a'⟩ := at_next { m with time := 0, info := m.frame.take m.framelen } s' t 0 hs' a.rest a.arr a.eof (by simp)
  have hw : m.frame.take m.framelen = s := a.write
  refine ⟨m', ?_, by rw [← hw]; exact a'⟩
  unfold open_reader
  rw [e, bind_ok, if_pos ((info_frame_iff a (frame_len hs)).2 hi), e', bind_ok]
  unfold opened
  simp only
  rw [a'.eof]
  rfl

/-! ### Splitting -/

theorem track_some (q : Nat) : ∀ (fs : List Bytes) (m : R) (s info : Bytes) (d n : Nat), (∀ f ∈ fs, Frame f) → At m s fs.flatten d info → q ≤ (d + fs.length + 1) * 26122 → fs.length + 1 ≤ n →
    ∃ m' as s' bs, trackLoop (some q) n m = .ok (m', as) ∧ s :: fs = as ++ s' :: bs ∧ At m' s' bs.flatten (d + as.length) info ∧ q ≤ (d + as.length + 1) * 26122 ∧
      ∀ k < as.length, (d + k + 1) * 26122 < q := by
  intro fs
  induction fs with
  | nil =>
    intro m s info d n _ ha hq hn
    obtain ⟨n, rfl⟩ : ∃ k, n = k + 1 := ⟨n - 1, by omega⟩
    refine ⟨m, [], s, [], ?_, rfl, ha, hq, fun k hk => absurd hk (Nat.not_lt_zero k)⟩
    rw [trackLoop]
    simp only [decide_eq_true_eq]
    rw [if_neg (by rw [ha.time]; exact Nat.not_lt_of_le hq)]
  | cons f fs ih =>
    intro m s info d n hf ha hq hn
    obtain ⟨n, rfl⟩ : ∃ k, n = k + 1 := ⟨n - 1, by omega⟩
    by_cases hc : m.time < q
    · obtain ⟨m1, e1, a1⟩ := nextframe_frame (t := fs.flatten) ha (hf f (by simp))
      obtain ⟨m', as, s', bs, e2, e3, a2, h1, h2⟩ := ih m1 f info (d + 1) n (fun x hx => hf x (by simp [hx])) a1 (by rw [show d + 1 + fs.length + 1 = d + (fs.length + 1) + 1 by omega]; exact hq) (by simp at hn; omega)
      refine ⟨m', s :: as, s', bs, ?_, by rw [e3]; rfl, ?_, ?_, ?_⟩
      · rw [trackLoop]
        simp only [decide_eq_true_eq]
        rw [if_pos hc, e1, bind_ok]
        simp only [if_true]
        rw [e2, bind_ok, ha.write]
      · rw [List.length_cons, show d + (as.length + 1) = d + 1 + as.length by omega]; exact a2
      · rw [List.length_cons, show d + (as.length + 1) + 1 = d + 1 + as.length + 1 by omega]; exact h1
      · intro k hk
        rcases k with _ | k
        · rw [ha.time] at hc; exact hc
        · rw [show d + (k + 1) + 1 = d + 1 + k + 1 by omega]; exact h2 k (by simpa using hk)
    · refine ⟨m, [], s, f :: fs, ?_, rfl, ha, by rw [ha.time] at hc; exact Nat.le_of_not_lt hc, fun k hk => absurd hk (Nat.not_lt_zero k)⟩
      rw [trackLoop]
      simp only [decide_eq_true_eq]
      rw [if_neg hc]

theorem track_none : ∀ (fs : List Bytes) (m : R) (s info : Bytes) (d n : Nat), (∀ f ∈ fs, Frame f) → At m s fs.flatten d info → fs.length + 1 ≤ n → ∃ m', trackLoop none n m = .ok (m', s :: fs) := by
  intro fs
  induction fs with
  | nil =>
    intro m s info d n _ ha hn
    obtain ⟨n, rfl⟩ : ∃ k, n = k + 1 := ⟨n - 1, by omega⟩
    obtain ⟨m', e⟩ := nextframe_end ha
    refine ⟨m', ?_⟩
    rw [trackLoop]
    simp only [if_true]
    rw [e, bind_ok, ha.write]
    rfl
  | cons f fs ih =>
    intro m s info d n hf ha hn
    obtain ⟨n, rfl⟩ : ∃ k, n = k + 1 := ⟨n - 1, by omega⟩
    obtain ⟨m1, e1, a1⟩ := nextframe_frame (t := fs.flatten) ha (hf f (by simp))
    obtain ⟨m', e2⟩ := ih m1 f info (d + 1) n (fun x hx => hf x (by simp [hx])) a1 (by simp at hn; omega)
    refine ⟨m', ?_⟩
    rw [trackLoop]
    simp only [if_true]
    rw [e1, bind_ok]
    simp only [if_true]
    rw [e2, bind_ok, ha.write]

theorem frames_length {fs : List Bytes} (hf : ∀ f ∈ fs, Frame f) : fs.length ≤ fs.flatten.length := by
  induction fs with
  | nil => simp
  | cons f fs ih =>
    have h1 := frame_len (hf f (by simp))
    have := ih fun x hx => hf x (by simp [hx])
    rw [List.flatten_cons, List.length_append, List.length_cons]; omega

/-- Frame `k` of track `i`, when `d` frames have been passed, ends in the time of the track. -/
def Times (ps : List Nat) (d : Nat) (tracks : List (List Bytes)) : Prop := ∀ (i : Nat) (tr : List Bytes), tracks[i]? = some tr → ∀ k < tr.length,
  (∀ q, ps[i + 1]? = some q → (d + (tracks.take i).flatten.length + k + 1) * 26122 < q) ∧ (∀ q, 0 < i → ps[i]? = some q → q ≤ (d + (tracks.take i).flatten.length + k + 1) * 26122)

theorem cuespl_spec (info : Bytes) (N : Nat) (F : List Bytes → Bytes) (hF : ∀ as, (∀ f ∈ as, Frame f) → as.flatten.length ≤ N → (info = [] ∨ as ≠ []) → trackFile info as = .ok (F as)) :
    ∀ (ps : List Nat) (p : Nat) (fs : List Bytes) (m : R) (s : Bytes) (d : Nat), Frame s → (∀ f ∈ fs, Frame f) → At m s fs.flatten d info → (∀ q ∈ ps, q ≤ (d + fs.length + 1) * 26122) →
    (s :: fs).flatten.length ≤ N → (info = [] ∨ (d + 1) * 26122 ≤ p + 26122 ∧ List.IsChain (fun a b => a + 26122 < b) (p :: ps)) →
    ∃ tracks, cuespl (p :: ps) m = .ok (tracks.map F) ∧ tracks.flatten = s :: fs ∧ tracks.length = ps.length + 1 ∧ (∀ tr ∈ tracks, info = [] ∨ tr ≠ []) ∧ Times (p :: ps) d tracks := by
  intro ps
  induction ps with
  | nil =>
    intro p fs m s d hs hf ha hq hN _
    obtain ⟨m', e⟩ := track_none fs m s info d (m.rest.length + 2) hf ha (by rw [ha.rest]; have := frames_length hf; omega)
    refine ⟨[s :: fs], ?_, by simp, rfl, by simp, ?_⟩
    · rw [cuespl, e, bind_ok]
      simp only
      rw [ha.inf, hF _ (fun f hx => by rcases List.mem_cons.1 hx with rfl | hx; exacts [hs, hf f hx]) hN (.inr (by simp)), bind_ok]
      rfl
    · intro i tr hi k hk
      rcases i with _ | i
      · exact ⟨fun q h => by simp at h, fun q h => by omega⟩
      · simp at hi
  | cons q ps ih =>
    intro p fs m s d hs hf ha hq hN hc
    have hall : ∀ f ∈ s :: fs, Frame f := by
      intro f hx
      rcases List.mem_cons.1 hx with rfl | hx
      · exact hs
      · exact hf f hx
    obtain ⟨m', as, s', bs, e, e2, a', h1, h2⟩ := track_some q fs m s info d (m.rest.length + 2) hf ha (hq q (by simp)) (by rw [ha.rest]; have := frames_length hf; omega)
    have hlen : fs.length + 1 = as.length + bs.length + 1 := by have := congrArg List.length e2; simp at this; omega
    have hfl : (s :: fs).flatten.length = as.flatten.length + (s' :: bs).flatten.length := by rw [e2, List.flatten_append, List.length_append]
    rw [e2] at hall
    have has : ∀ f ∈ as, Frame f := fun f hx => hall f (by simp [hx])
    have hs' : Frame s' := hall s' (by simp)
    have hbs : ∀ f ∈ bs, Frame f := fun f hx => hall f (by simp [hx])
    have hne : info = [] ∨ as ≠ [] := by
      rcases hc with hc | ⟨hc1, hc2⟩
      · exact .inl hc
      · right
        rintro rfl
        have := (List.isChain_cons_cons.1 hc2).1
        simp only [List.length_nil] at h1
        omega
    have hc' : info = [] ∨ (d + as.length + 1) * 26122 ≤ q + 26122 ∧ List.IsChain (fun a b => a + 26122 < b) (q :: ps) := by
      rcases hc with hc | ⟨hc1, hc2⟩
      · exact .inl hc
      · by_cases hi : info = []
        · exact .inl hi
        · have hpos : 0 < as.length := List.length_pos_iff.2 (hne.resolve_left hi)
          have := h2 (as.length - 1) (by omega)
          rw [show d + (as.length - 1) + 1 = d + as.length by omega] at this
          exact .inr ⟨by rw [Nat.succ_mul]; exact Nat.add_le_add_right (Nat.le_of_lt this) _, (List.isChain_cons_cons.1 hc2).2⟩
    obtain ⟨tracks, t1, t2, t3, t5, t4⟩ := ih q bs m' s' (d + as.length) hs' hbs a' (fun x hx => by have := hq x (by simp [hx]); rw [show d + as.length + bs.length + 1 = d + fs.length + 1 by omega]; exact this)
      (by omega) hc'
    refine ⟨as :: tracks, ?_, by rw [List.flatten_cons, t2, e2], by simp [t3], fun tr ht => by rcases List.mem_cons.1 ht with rfl | ht; exacts [hne, t5 tr ht], ?_⟩
    · rw [cuespl, e, bind_ok]
      simp only
      rw [ha.inf, hF as has (by omega) hne, bind_ok, t1, bind_ok]
      rfl
    · intro i tr hi k hk
      rcases i with _ | i
      · simp only [List.getElem?_cons_zero, Option.some.injEq] at hi
        subst hi
        refine ⟨fun x hx => ?_, fun x h => by omega⟩
        simp only [Nat.zero_add, List.getElem?_cons_succ, List.getElem?_cons_zero, Option.some.injEq] at hx
        subst hx
        exact h2 k hk
      · simp only [List.getElem?_cons_succ] at hi
        obtain ⟨u1, u2⟩ := t4 i tr hi k hk
        have ed : d + ((as :: tracks).take (i + 1)).flatten.length + k + 1 = d + as.length + (tracks.take i).flatten.length + k + 1 := by
          simp only [List.take_succ_cons, List.flatten_cons, List.length_append]; omega
        rw [ed]
        refine ⟨fun x hx => u1 x (by simpa using hx), fun x _ hx => ?_⟩
        simp only [List.getElem?_cons_succ] at hx
        rcases Nat.eq_zero_or_pos i with rfl | hi0
        · simp only [List.getElem?_cons_zero, Option.some.injEq] at hx
          subst hx
          exact Nat.le_trans h1 (Nat.mul_le_mul_right _ (by omega))
        · exact u2 x hi0 hx

end Che.Lib.Mp3

namespace Che.Lib.Mp3
open Che.Lib Che.Lib.Bits Che.Spec.Lib Che.Spec.Mp3

/-! ### The table of positions -/

theorem offsets_length (fs : List Bytes) : ∀ b, (offsets b fs).length = fs.length := by
  induction fs with
  | nil => intro b; rfl
  | cons f fs ih => intro b; simp [offsets, ih]

theorem offsets_get (fs : List Bytes) : ∀ (b j : Nat), b + fs.flatten.length < 2 ^ 32 → j < fs.length → (offsets b fs).getD j 0 = b + (fs.take j).flatten.length := by
  induction fs with
  | nil => intro b j _ h; simp at h
  | cons f fs ih =>
    intro b j hb hj
    rw [List.flatten_cons, List.length_append] at hb
    rcases j with _ | j
    · rfl
    · rw [offsets, List.getD_cons_succ, Nat.mod_eq_of_lt (by omega), ih _ _ (by omega) (by simpa using hj), List.take_succ_cons, List.flatten_cons, List.length_append]
      omega

theorem tocByte_val {offs : List Nat} {total i o : Nat} (h : offs.getD (offs.length * i / 100) 0 = o) (ho : o < total) (ht : total * 255 < 2 ^ 32) : (tocByte offs total i).toNat = o * 255 / total := by
  unfold tocByte
  have h1 : o * 255 < total * 255 := Nat.mul_lt_mul_of_pos_right ho (by decide)
  rw [h, Nat.mod_eq_of_lt (Nat.lt_trans h1 ht), UInt8.toNat_ofNat']
  apply Nat.mod_eq_of_lt
  have : o * 255 / total < 255 := by
    rw [Nat.div_lt_iff_lt_mul (by omega), Nat.mul_comm 255]
    exact h1
  exact Nat.lt_trans this (by decide)

theorem be32_val (n : Nat) (h : n < 2 ^ 32) : (be32 n).length = 4 ∧ (be32 n).foldl (fun a b => 256 * a + b.toNat) 0 = n := by
  refine ⟨rfl, ?_⟩
  simp only [be32, List.foldl_cons, List.foldl_nil, UInt8.toNat_ofNat']
  omega

theorem xing_length (a b : Nat) (toc : Bytes) (h : toc.length = 100) : (xing a b toc).length = 116 := by
  unfold xing
  simp only [List.length_append, h]
  rfl

/-- The file of a track. -/
def patched (info : Bytes) (as : List Bytes) : Bytes :=
  info.take 36 ++ xing (as.length + 1) (info.length + as.flatten.length) ((List.range 100).map (tocByte (offsets info.length as) (info.length + as.flatten.length))) ++ info.drop 152 ++ as.flatten

theorem trackFile_info {info : Bytes} {as : List Bytes} (hi : 152 ≤ info.length) (ha : as ≠ []) (hs : (info.length + as.flatten.length) * 255 < 2 ^ 32) (hl : as.length ≤ as.flatten.length) :
    trackFile info as = .ok (patched info as) := by
  unfold trackFile
  simp only
  rw [if_neg (by rintro rfl; simp at hi), if_neg ha, List.length_append, Nat.mod_eq_of_lt (a := info.length + as.flatten.length) (by omega), if_neg (by omega), Nat.mod_eq_of_lt (a := as.length + 1) (by omega)]
  unfold patched store
  rw [xing_length _ _ _ (by simp), List.take_append_of_le_length (by omega), List.drop_append_of_le_length (by omega)]
  simp only [List.append_assoc]

theorem trackFile_audio (as : List Bytes) : trackFile [] as = .ok as.flatten := by
  unfold trackFile
  rfl

/-! ### What is not read -/

theorem readframe_header (m : R) (b0 b1 b2 b3 : UInt8) (t : Bytes) (hr : m.rest = b0 :: b1 :: b2 :: b3 :: t) : readframe m =
    (if b0.toNat ≠ 255 ∨ b1.toNat / 2 ≠ 125 then .ok (m.h, false) else if b1.toNat % 2 = 0 then .panic "+CRC" else fields b2 b3 m.h : Res String (Header × Bool)).bind fun (h, r) =>
      if r then .ok (readrest { m with rest := t, frame := store m.frame 0 [b0, b1, b2, b3], h }) else .ok ({ m with rest := t, frame := store m.frame 0 [b0, b1, b2, b3], h }, false) := by
  unfold readframe
  rw [hr]
  simp only [List.take_succ_cons, List.take_zero, List.drop_succ_cons, List.drop_zero, List.length_cons, List.length_nil]
  rw [if_neg (by decide)]
  have e1 : (store m.frame 0 [b0, b1, b2, b3]).take 4 = [b0, b1, b2, b3] := rfl
  rw [e1, readheader_eq]

theorem open_panic (b0 b1 b2 b3 : UInt8) (t : Bytes) (e : String)
    (h : ∀ m : R, m.rest = b0 :: b1 :: b2 :: b3 :: t → readframe m = .panic e) : open_reader (b0 :: b1 :: b2 :: b3 :: t) = .panic e := by
  unfold open_reader
  rw [syncLoop, if_neg (by simp), h _ rfl]
  rfl

end Che.Lib.Mp3
