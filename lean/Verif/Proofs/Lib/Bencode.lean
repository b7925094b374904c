import Verif.Model.Lib.Bencode
import Verif.Spec.Lib.Bencode

namespace Che.Lib.Bencode
open Che.Lib Che.Spec.Lib

theorem ok_bind {X Y : Type} (x : X) (f : X → Res Unit Y) : (Res.ok x >>= f) = f x := rfl

/-! ## Numbers -/

def digitVal (d : UInt8) : Nat := d.toNat - 48

def isDigit (d : UInt8) : Prop := 48 ≤ d.toNat ∧ d.toNat ≤ 57

/-- The number that digits after a number make. -/
def valFrom (n : Nat) (ds : Bytes) : Nat := ds.foldl (fun n d => n * 10 + digitVal d) n

theorem valFrom_append (n : Nat) (a b : Bytes) : valFrom n (a ++ b) = valFrom (valFrom n a) b := by
  simp [valFrom, List.foldl_append]

theorem le_valFrom (n : Nat) (ds : Bytes) : n ≤ valFrom n ds := by
  induction ds generalizing n with
  | nil => exact Nat.le_refl n
  | cons d ds ih =>
    have := ih (n * 10 + digitVal d)
    simp only [valFrom, List.foldl_cons] at this ⊢
    omega

theorem ofNat_digit {n : Nat} (h : n < 10) : (UInt8.ofNat (48 + n)).toNat = 48 + n := by
  simp; omega

theorem decText_digits (n : Nat) : ∀ d ∈ decText n, isDigit d := by
  induction n using Nat.strongRecOn with
  | ind n ih =>
    intro d hd
    rw [decText] at hd
    split at hd
    · next h =>
      simp only [List.mem_singleton] at hd
      subst hd
      unfold isDigit; rw [ofNat_digit h]; omega
    · next h =>
      rcases List.mem_append.mp hd with hd | hd
      · exact ih (n / 10) (by omega) d hd
      · simp only [List.mem_singleton] at hd
        subst hd
        unfold isDigit; rw [ofNat_digit (Nat.mod_lt n (by omega))]; omega

theorem decText_ne (n : Nat) : decText n ≠ [] := by
  rw [decText]; split <;> simp

theorem valFrom_decText (n : Nat) : valFrom 0 (decText n) = n := by
  induction n using Nat.strongRecOn with
  | ind n ih =>
    rw [decText]
    split
    · next h =>
      simp only [valFrom, List.foldl_cons, List.foldl_nil, digitVal, ofNat_digit h]; omega
    · next h =>
      rw [valFrom_append, ih (n / 10) (by omega)]
      simp only [valFrom, List.foldl_cons, List.foldl_nil, digitVal, ofNat_digit (Nat.mod_lt n (show 0 < 10 by omega))]
      omega

/-! ## Reading -/

/-- `s` is what the reader has before it. -/
def Here (r : R) (s : Bytes) : Prop := r.data.drop r.pos = s

/-- The reader `k` bytes further. -/
def adv (r : R) (k : Nat) : R := { r with pos := r.pos + k }

theorem adv_zero (r : R) : adv r 0 = r := rfl

theorem adv_adv (r : R) (a b : Nat) : adv (adv r a) b = adv r (a + b) := by
  simp [adv, Nat.add_assoc]

theorem here_adv {r : R} {s t : Bytes} (h : Here r (s ++ t)) : Here (adv r s.length) t := by
  unfold Here at h ⊢
  show r.data.drop (r.pos + s.length) = t
  rw [← List.drop_drop, h, List.drop_left]

theorem here_head {r : R} {s : Bytes} (h : Here r s) : r.data[r.pos]? = s.head? := by
  rw [← h, List.head?_drop]

theorem here_length {r : R} {s : Bytes} (h : Here r s) : s.length ≤ r.data.length := by
  rw [← h, List.length_drop]; omega

theorem peek_cons {r : R} {c : UInt8} {s : Bytes} (h : Here r (c :: s)) : peek r = Mem.signed c := by
  simp only [peek, here_head h, List.head?_cons]

theorem peek_nil {r : R} (h : Here r []) : peek r = -1 := by
  simp only [peek, here_head h, List.head?_nil]

theorem pop_cons {r : R} {c : UInt8} {s : Bytes} (h : Here r (c :: s)) : pop r = .ok (adv r 1, c) := by
  simp only [pop, here_head h, List.head?_cons]; rfl

theorem consume_cons {r : R} {c : UInt8} {s : Bytes} (h : Here r (c :: s)) : consume r c = .ok (adv r 1) := by
  simp only [consume, here_head h, List.head?_cons]; simp; rfl

theorem here_cons {r : R} {c : UInt8} {s : Bytes} (h : Here r (c :: s)) : Here (adv r 1) s :=
  here_adv (s := [c]) h

theorem signed_small {c : UInt8} (h : c.toNat < 128) : Mem.signed c = c.toNat := by
  have : c < 128 := by
    rw [UInt8.lt_iff_toNat_lt]; exact h
  simp [Mem.signed, this]

theorem signed_inj {a b : UInt8} (h : Mem.signed a = Mem.signed b) : a = b := by
  have ha := a.toNat_lt; have hb := b.toNat_lt
  unfold Mem.signed at h
  apply UInt8.toNat_inj.mp
  have e1 : (a < 128) ↔ a.toNat < 128 := UInt8.lt_iff_toNat_lt
  have e2 : (b < 128) ↔ b.toNat < 128 := UInt8.lt_iff_toNat_lt
  split at h <;> split at h <;> omega

theorem isdigit_iff (c : UInt8) : isdigit (Mem.signed c) = true ↔ isDigit c := by
  have hc := c.toNat_lt
  have e1 : (c < 128) ↔ c.toNat < 128 := UInt8.lt_iff_toNat_lt
  unfold isdigit isDigit Mem.signed
  simp only [Bool.and_eq_true, decide_eq_true_eq]
  by_cases hx : c < 128
  · rw [if_pos hx]
    constructor <;> intro ⟨_, _⟩ <;> constructor <;> omega
  · rw [if_neg hx]
    have := mt e1.mpr hx
    constructor <;> intro ⟨_, _⟩ <;> constructor <;> omega

theorem int_ok {n : Int} (h1 : -2147483648 ≤ n) (h2 : n ≤ 2147483647) : int n = .ok n := if_pos ⟨h1, h2⟩

theorem num_from_digit {c : UInt8} (h : isDigit c) : Strings.num_from_ascii (Mem.signed c) = (digitVal c : Nat) := by
  have h1 := h.1; have h2 := h.2
  rw [signed_small (by omega)]
  unfold Strings.num_from_ascii digitVal
  rw [if_neg (by intro hc; exact hc ⟨by omega, by omega⟩)]; omega

/-- A text that does not go on with a digit. -/
def NoDigit (s : Bytes) : Prop := ∀ c, s.head? = some c → ¬ isDigit c

theorem isdigit_peek_stop {r : R} {s : Bytes} (h : Here r s) (hs : NoDigit s) : isdigit (peek r) = false := by
  cases s with
  | nil => rw [peek_nil h]; decide
  | cons c s =>
    rw [peek_cons h]
    have := hs c rfl
    rw [← isdigit_iff] at this
    simpa using this

theorem numLoop_digits (ds : Bytes) (hd : ∀ d ∈ ds, isDigit d) (k : Nat) (hk : ds.length < k) {r : R} {s : Bytes}
    (h : Here r (ds ++ s)) (hs : NoDigit s) (n : Nat) (hv : valFrom n ds ≤ 2147483647) :
    numLoop k r n = .ok (adv r ds.length, (valFrom n ds : Nat)) := by
  induction ds generalizing k r n with
  | nil =>
    cases k with
    | zero => omega
    | succ k =>
      rw [numLoop, isdigit_peek_stop h hs]; simp [adv_zero, valFrom]
  | cons d ds ih =>
    cases k with
    | zero => omega
    | succ k =>
      have hdd : isDigit d := hd d (by simp)
      have e : valFrom n (d :: ds) = valFrom (n * 10 + digitVal d) ds := rfl
      have hb : n * 10 + digitVal d ≤ 2147483647 := Nat.le_trans (le_valFrom _ ds) (e ▸ hv)
      rw [List.cons_append] at h
      rw [numLoop, peek_cons h, (isdigit_iff d).mpr hdd, if_pos rfl, int_ok (by omega) (by omega), ok_bind, pop_cons h, ok_bind]
      simp only
      rw [num_from_digit hdd, int_ok (by omega) (by omega), ok_bind]
      have h1 := here_cons h
      have := ih (fun x hx => hd x (by simp [hx])) k (by simp at hk; omega) h1 (n * 10 + digitVal d) (by rw [← e]; exact hv)
      have ec : (n : Int) * 10 + (digitVal d : Nat) = ((n * 10 + digitVal d : Nat) : Int) := by omega
      rw [ec, this, adv_adv, e, List.length_cons, Nat.add_comm 1]

theorem digit_head (n : Nat) : ∃ d ds, decText n = d :: ds ∧ isDigit d := by
  have := decText_ne n
  have hd := decText_digits n
  cases h : decText n with
  | nil => exact absurd h this
  | cons d ds => exact ⟨d, ds, rfl, hd d (by simp [h])⟩

theorem num_nat (n : Nat) (hn : n ≤ 2147483647) {r : R} {s : Bytes} (h : Here r (decText n ++ s)) (hs : NoDigit s) :
    num r = .ok (adv r (decText n).length, (n : Int)) := by
  obtain ⟨d, ds, e, hd⟩ := digit_head n
  have hp : peek r = Mem.signed d := by rw [e] at h; exact peek_cons h
  have hd' := hd
  unfold isDigit at hd'
  have hne : ¬ peek r = 45 := by rw [hp, signed_small (by omega)]; omega
  have hdig : isdigit (peek r) = true := by rw [hp]; exact (isdigit_iff d).mpr hd
  have hl := here_length h
  rw [List.length_append] at hl
  have := numLoop_digits (decText n) (decText_digits n) (r.data.length + 1) (by omega) h hs 0 (by rw [valFrom_decText]; exact hn)
  rw [valFrom_decText] at this
  unfold num
  simp only [hne, hdig, if_false, ok_bind]
  simp only [Bool.not_true, Bool.false_eq_true, if_false]
  have e0 : (((0 : Nat) : Int)) = 0 := rfl
  rw [e0] at this
  rw [this]; rfl

theorem num_int (n : Int) (h1 : -2147483647 ≤ n) (h2 : n ≤ 2147483647) {r : R} {s : Bytes}
    (h : Here r (decTextInt n ++ s)) (hs : NoDigit s) : num r = .ok (adv r (decTextInt n).length, n) := by
  unfold decTextInt at h ⊢
  split at h
  · next hneg =>
    rw [if_pos hneg]
    rw [List.cons_append] at h
    have hp : peek r = 45 := by rw [peek_cons h]; decide
    have hh := here_cons h
    obtain ⟨d, ds, e, hd⟩ := digit_head n.natAbs
    have hp2 : isdigit (peek (adv r 1)) = true := by
      rw [e] at hh
      rw [peek_cons hh]; exact (isdigit_iff d).mpr hd
    have hl := here_length hh
    rw [List.length_append] at hl
    have := numLoop_digits (decText n.natAbs) (decText_digits _) ((adv r 1).data.length + 1) (by omega) hh hs 0 (by rw [valFrom_decText]; omega)
    rw [valFrom_decText] at this
    unfold num
    simp only [hp, pop_cons h, ok_bind]
    simp only [if_true, decide_true, ok_bind, Bool.not_true, Bool.false_eq_true, if_false]
    have e0 : (((0 : Nat) : Int)) = 0 := rfl
    rw [e0] at this
    rw [this, ok_bind]
    simp only
    rw [int_ok (by omega) (by omega), ok_bind, adv_adv]
    have : ((n.natAbs : Nat) : Int) * -1 = n := by omega
    rw [this, hp2, List.length_cons, Nat.add_comm]; rfl
  · next hneg =>
    rw [if_neg hneg]
    have := num_nat n.natAbs (by omega) h hs
    have e : ((n.natAbs : Nat) : Int) = n := by omega
    rw [e] at this
    exact this

theorem popN_app (s t : Bytes) {r : R} (h : Here r (s ++ t)) : popN s.length r = .ok (adv r s.length, s) := by
  induction s generalizing r with
  | nil => rfl
  | cons c s ih =>
    rw [List.cons_append] at h
    rw [List.length_cons, popN, pop_cons h, ok_bind]
    simp only
    rw [ih (here_cons h), ok_bind, adv_adv, Nat.add_comm 1]

theorem noDigit_cons {c : UInt8} (h : ¬ isDigit c) (s : Bytes) : NoDigit (c :: s) := by
  intro x hx
  simp only [List.head?_cons, Option.some.injEq] at hx
  exact hx ▸ h

theorem readbuf_here (v t : Bytes) (hv : v.length ≤ 2147483647) (len : Nat) (hl : v.length ≤ len) {r : R}
    (h : Here r (bstr v ++ t)) :
    readbuf r len = .ok (adv r (bstr v).length, v ++ List.replicate (len - v.length) 0, v.length) := by
  have h' : Here r (decText v.length ++ (58 :: (v ++ t))) := by simpa [bstr] using h
  have hn := num_nat v.length hv h' (noDigit_cons (by unfold isDigit; decide) _)
  have h2 := here_adv h'
  have h3 := here_cons h2
  have h4 := popN_app v t h3
  unfold readbuf
  rw [hn, ok_bind]
  simp only
  rw [if_neg (show ¬ ((v.length : Int) < 0) by omega), if_neg (by simp; omega), consume_cons h2, ok_bind]
  simp only [Int.toNat_natCast]
  rw [h4, ok_bind, adv_adv, adv_adv]
  simp only [bstr, List.length_append, List.length_cons]
  rw [Nat.add_comm 1]

theorem strsize_here (v t : Bytes) (hv : v.length ≤ 2147483647) {r : R} (h : Here r (bstr v ++ t)) :
    strsize r = .ok (r, (v.length : Nat)) := by
  have h' : Here r (decText v.length ++ (58 :: (v ++ t))) := by simpa [bstr] using h
  have hn := num_nat v.length hv h' (noDigit_cons (by unfold isDigit; decide) _)
  unfold strsize
  rw [hn, ok_bind]
  rfl

theorem readnum_here (n : Int) (h1 : -2147483647 ≤ n) (h2 : n ≤ 2147483647) (t : Bytes) {r : R}
    (h : Here r (bencode (.int n) ++ t)) : readnum r = .ok (adv r (bencode (.int n)).length, n) := by
  have h' : Here r (105 :: (decTextInt n ++ 101 :: t)) := by simpa [bencode] using h
  have hh := here_cons h'
  have hn := num_int n h1 h2 hh (noDigit_cons (by unfold isDigit; decide) _)
  have h3 := here_adv hh
  unfold readnum
  rw [consume_cons h', ok_bind, hn, ok_bind]
  simp only
  rw [consume_cons h3, ok_bind, adv_adv, adv_adv]
  simp only [bencode, List.length_append, List.length_cons, List.length_nil, List.cons_append]
  rw [Nat.add_comm 1, Nat.add_right_comm]

/-! ## Skipping -/

/-- The integers that the reader can read. -/
def FitInt (n : Int) : Prop := -2147483647 ≤ n ∧ n ≤ 2147483647

/-- The strings that the reader can read. -/
def FitStr (s : Bytes) : Prop := s.length ≤ 2147483647

theorem bstr_head (s : Bytes) : ∃ d ds, bstr s = d :: ds ∧ isDigit d := by
  obtain ⟨d, ds, e, h⟩ := digit_head s.length
  exact ⟨d, ds ++ 58 :: s, by simp [bstr, e], h⟩

theorem digit_peek {r : R} {s : Bytes} {t : Bytes} (h : Here r (bstr s ++ t)) :
    48 ≤ peek r ∧ peek r ≤ 57 := by
  obtain ⟨d, ds, e, hd⟩ := bstr_head s
  rw [e, List.cons_append] at h
  have h1 := hd.1; have h2 := hd.2
  rw [peek_cons h, signed_small (by omega)]
  omega

theorem bstr_length (s : Bytes) : 2 ≤ (bstr s).length := by
  have := decText_ne s.length
  have : 0 < (decText s.length).length := List.length_pos_iff.mpr this
  simp [bstr]; omega

theorem skip_str (s t : Bytes) (hs : FitStr s) (k : Nat) {r : R} (h : Here r (bstr s ++ t)) :
    skip (k + 1) r = .ok (adv r (bstr s).length, true) := by
  have hp := digit_peek h
  rw [skip, if_neg (by omega), if_neg (by omega), if_neg (by omega)]
  have h' : Here r (decText s.length ++ (58 :: (s ++ t))) := by simpa [bstr] using h
  have hn := num_nat s.length hs h' (noDigit_cons (by unfold isDigit; decide) _)
  have h2 := here_adv h'
  have h3 := here_cons h2
  rw [hn, ok_bind]
  simp only
  rw [consume_cons h2, ok_bind]
  simp only [Int.toNat_natCast]
  rw [popN_app s t h3, ok_bind, adv_adv, adv_adv]
  simp only [bstr, List.length_append, List.length_cons]
  rw [Nat.add_comm 1]

/-- The reader inside a list or dictionary. -/
def inside (r : R) (c : UInt8) : R := { (adv r 1) with stack := r.stack ++ [c] }

theorem enter_here {r : R} {c : UInt8} {s : Bytes} (h : Here r (c :: s)) (hs : r.stack.length < 10) :
    enter r = .ok (inside r c) ∧ Here (inside r c) s := by
  refine ⟨?_, here_cons h⟩
  rw [enter, if_neg (by omega), pop_cons h, ok_bind]; rfl

theorem leave_here {r : R} {c : UInt8} {s : Bytes} (k : Nat) (h : Here (adv (inside r c) k) (101 :: s)) :
    leave (adv (inside r c) k) = .ok (adv r (k + 2)) := by
  unfold leave
  rw [consume_cons h, ok_bind]
  have e : (adv (adv (inside r c) k) 1).stack = r.stack ++ [c] := rfl
  rw [if_neg (by rw [e]; simp)]
  simp only [adv, inside, List.dropLast_concat]
  congr 2; omega

theorem more_end {r : R} {s : Bytes} (hs : r.stack ≠ []) (h : Here r (101 :: s)) : more r = false := by
  have : 0 < r.stack.length := List.length_pos_iff.mpr hs
  rw [more, if_pos this, peek_cons h]; decide

theorem more_inside {r : R} {c : UInt8} {s : Bytes} (hs : r.stack ≠ []) (h : Here r (c :: s)) (hc : c ≠ 101) : more r = true := by
  have : 0 < r.stack.length := List.length_pos_iff.mpr hs
  rw [more, if_pos this, peek_cons h]
  have : Mem.signed c ≠ 101 := fun e => hc (signed_inj (b := 101) e)
  simp [this]

theorem bencode_head (v : BVal) : ∃ c s, bencode v = c :: s ∧ c ≠ 101 := by
  cases v with
  | int n => exact ⟨105, _, by rw [bencode]; rfl, by decide⟩
  | list vs => exact ⟨108, _, by rw [bencode]; rfl, by decide⟩
  | dict es => exact ⟨100, _, by rw [bencode]; rfl, by decide⟩
  | str s =>
    obtain ⟨d, ds, e, hd⟩ := bstr_head s
    refine ⟨d, ds, by rw [bencode, e], ?_⟩
    intro hc; subst hc
    exact absurd hd (by unfold isDigit; decide)

theorem bencode_pos (v : BVal) : 0 < (bencode v).length := by
  obtain ⟨c, s, e, _⟩ := bencode_head v
  rw [e]; simp

theorem stack_adv (r : R) (k : Nat) : (adv r k).stack = r.stack := rfl

mutual
theorem skip_val (v : BVal) (hv : v.All FitInt FitStr FitStr) (k : Nat) (hk : (bencode v).length ≤ k) {r : R} {t : Bytes}
    (h : Here r (bencode v ++ t)) (hd : bdepth v + r.stack.length ≤ 10) :
    skip k r = .ok (adv r (bencode v).length, true) := by
  obtain ⟨k, rfl⟩ : ∃ k', k = k' + 1 := ⟨k - 1, by have := bencode_pos v; omega⟩
  match v with
  | .int n =>
    rw [BVal.All] at hv
    have e : Here r (105 :: (decTextInt n ++ 101 :: t)) := by simpa [bencode] using h
    have hp : peek r = 105 := by rw [peek_cons e]; decide
    rw [skip, if_neg (by omega), if_pos hp, readnum_here n hv.1 hv.2 t h, ok_bind]
  | .str s =>
    rw [BVal.All] at hv
    rw [bencode] at h ⊢
    exact skip_str s t hv k h
  | .list vs =>
    rw [BVal.All] at hv
    rw [bencode] at h hk
    rw [bdepth] at hd
    have h1 : Here r (108 :: (bencodeList vs ++ 101 :: t)) := by simpa using h
    have hp : peek r = 108 := by rw [peek_cons h1]; decide
    obtain ⟨e2, h2⟩ := enter_here h1 (by omega)
    have e3 := skip_list vs hv k (by simp at hk; omega) h2 (by simp [inside]) (by simp [inside]; omega)
    have h3 := here_adv h2
    rw [skip, if_neg (by omega), if_neg (by omega), if_pos (Or.inl hp), e2, ok_bind, e3, ok_bind, leave_here _ h3, ok_bind]
    simp [bencode]
  | .dict es =>
    rw [BVal.All] at hv
    rw [bencode] at h hk
    rw [bdepth] at hd
    have h1 : Here r (100 :: (bencodeEntries es ++ 101 :: t)) := by simpa using h
    have hp : peek r = 100 := by rw [peek_cons h1]; decide
    obtain ⟨e2, h2⟩ := enter_here h1 (by omega)
    have e3 := skip_entries es hv k (by simp at hk; omega) h2 (by simp [inside]) (by simp [inside]; omega)
    have h3 := here_adv h2
    rw [skip, if_neg (by omega), if_neg (by omega), if_pos (Or.inr hp), e2, ok_bind, e3, ok_bind, leave_here _ h3, ok_bind]
    simp [bencode]

theorem skip_list (vs : List BVal) (hv : AllList FitInt FitStr FitStr vs) (k : Nat) (hk : (bencodeList vs).length + 1 ≤ k) {r : R}
    {t : Bytes} (h : Here r (bencodeList vs ++ 101 :: t)) (hne : r.stack ≠ []) (hd : bdepthList vs + r.stack.length ≤ 10) :
    skipLoop k r = .ok (adv r (bencodeList vs).length) := by
  obtain ⟨k, rfl⟩ : ∃ k', k = k' + 1 := ⟨k - 1, by omega⟩
  match vs with
  | [] =>
    rw [bencodeList] at h
    rw [skipLoop, more_end hne h]; simp [bencodeList, adv_zero]
  | v :: vs =>
    rw [AllList] at hv
    rw [bencodeList] at h hk
    rw [bdepthList] at hd
    rw [List.append_assoc] at h
    rw [List.length_append] at hk
    obtain ⟨c, s, e, hc⟩ := bencode_head v
    have hm : more r = true := by
      rw [e] at h; exact more_inside hne h hc
    have hl := bencode_pos v
    have e1 := skip_val v hv.1 k (by omega) h (by omega)
    have h1 := here_adv h
    have e2 := skip_list vs hv.2 k (by omega) h1 hne (by rw [stack_adv]; omega)
    rw [skipLoop, if_pos hm, e1, ok_bind]
    simp only
    rw [e2, adv_adv]; simp [bencodeList]

theorem skip_entries (es : List (Bytes × BVal)) (hv : AllEntries FitInt FitStr FitStr es) (k : Nat)
    (hk : (bencodeEntries es).length + 1 ≤ k) {r : R} {t : Bytes} (h : Here r (bencodeEntries es ++ 101 :: t)) (hne : r.stack ≠ [])
    (hd : bdepthEntries es + r.stack.length ≤ 10) :
    skipLoop k r = .ok (adv r (bencodeEntries es).length) := by
  match es with
  | [] =>
    obtain ⟨k, rfl⟩ : ∃ k', k = k' + 1 := ⟨k - 1, by omega⟩
    rw [bencodeEntries] at h
    rw [skipLoop, more_end hne h]; simp [bencodeEntries, adv_zero]
  | (key, v) :: es =>
    rw [AllEntries] at hv
    rw [bencodeEntries] at h hk
    rw [bdepthEntries] at hd
    rw [List.append_assoc, List.append_assoc] at h
    rw [List.length_append, List.length_append] at hk
    have hl := bencode_pos v
    have hl2 := bstr_length key
    obtain ⟨k, rfl⟩ : ∃ k', k = k' + 3 := ⟨k - 3, by omega⟩
    have hm : more r = true := by
      obtain ⟨c, s, e, hc⟩ := bencode_head (.str key)
      rw [bencode] at e
      rw [e] at h; exact more_inside hne h hc
    have e1 := skip_str key _ hv.1 (k + 1) h
    have h1 := here_adv h
    have hm1 : more (adv r (bstr key).length) = true := by
      obtain ⟨c, s, e, hc⟩ := bencode_head v
      rw [e] at h1; exact more_inside hne h1 hc
    have e2 := skip_val v hv.2.1 (k + 1) (by omega) h1 (by rw [stack_adv]; omega)
    have h2 := here_adv h1
    have e3 := skip_entries es hv.2.2 (k + 1) (by omega) h2 hne (by rw [stack_adv, stack_adv]; omega)
    rw [skipLoop, if_pos hm, e1, ok_bind]
    simp only
    rw [skipLoop, if_pos hm1, e2, ok_bind]
    simp only
    rw [e3, adv_adv, adv_adv]; simp [bencodeEntries, Nat.add_assoc]
end

theorem skipLoop_eof {r : R} (h : Here r []) (hne : r.stack ≠ []) (k : Nat) : skipLoop k r = .diverge := by
  have hm : more r = true := by
    have : 0 < r.stack.length := List.length_pos_iff.mpr hne
    rw [more, if_pos this, peek_nil h]; decide
  induction k with
  | zero => rw [skipLoop]
  | succ k ih =>
    rw [skipLoop, if_pos hm]
    cases k with
    | zero => rw [skip]; rfl
    | succ k => rw [skip, if_pos (peek_nil h), ok_bind]; exact ih

theorem skipLoop_cut (vs : List BVal) (hv : AllList FitInt FitStr FitStr vs) (k : Nat) (hk : (bencodeList vs).length + 1 ≤ k) {r : R}
    (h : Here r (bencodeList vs)) (hne : r.stack ≠ []) (hd : bdepthList vs + r.stack.length ≤ 10) :
    skipLoop k r = .diverge := by
  induction vs generalizing k r with
  | nil => exact skipLoop_eof h hne k
  | cons v vs ih =>
    obtain ⟨k, rfl⟩ : ∃ k', k = k' + 1 := ⟨k - 1, by omega⟩
    rw [AllList] at hv
    rw [bencodeList] at h hk
    rw [bdepthList] at hd
    rw [List.length_append] at hk
    obtain ⟨c, s, e, hc⟩ := bencode_head v
    have hm : more r = true := by
      rw [e] at h; exact more_inside hne h hc
    have hl := bencode_pos v
    have e1 := skip_val v hv.1 k (by omega) h (by omega)
    have h1 := here_adv h
    have e2 := ih hv.2 k (by omega) h1 hne (by rw [stack_adv]; omega)
    rw [skipLoop, if_pos hm, e1, ok_bind]
    exact e2

/-- A list without its end: `skip` goes on for ever. -/
theorem skip_cut (vs : List BVal) (hv : AllList FitInt FitStr FitStr vs) (hd : bdepthList vs < 10) (k : Nat)
    (hk : (bencodeList vs).length + 2 ≤ k) : skip k (newreader (108 :: bencodeList vs)) = .diverge := by
  obtain ⟨k, rfl⟩ : ∃ k', k = k' + 1 := ⟨k - 1, by omega⟩
  have h : Here (newreader (108 :: bencodeList vs)) (108 :: bencodeList vs) := rfl
  have hp : peek (newreader (108 :: bencodeList vs)) = 108 := by rw [peek_cons h]; decide
  obtain ⟨e2, h2⟩ := enter_here h (by simp [newreader])
  have e3 := skipLoop_cut vs hv k (by omega) h2 (by simp [inside]) (by simp [inside, newreader]; omega)
  rw [skip, if_neg (by omega), if_neg (by omega), if_pos (Or.inl hp), e2, ok_bind, e3]; rfl

/-! ## Writing -/

/-- Writing as much as there is room for. -/
def W.put (w : W) (s : Bytes) : W × Bool :=
  let cut := match w.room with
    | none => s
    | some n => s.take (n - w.pos)
  ({ w with out := w.out ++ cut, pos := w.pos + cut.length }, cut.length = s.length)

theorem put_nil (w : W) : w.put [] = (w, true) := by
  cases w with
  | mk out pos room => cases room <;> simp [W.put]

theorem put_cons (w : W) (b : UInt8) (s : Bytes) :
    w.put (b :: s) = if (byte w b).2 then (byte w b).1.put s else (w, false) := by
  obtain ⟨out, pos, room⟩ := w
  cases room with
  | none => simp [W.put, byte, Nat.add_comm, Nat.add_left_comm]
  | some n =>
    by_cases h : pos ≥ n
    · have : n - pos = 0 := by omega
      simp [W.put, byte, h, this]
    · obtain ⟨m, hm⟩ : ∃ m, n - pos = m + 1 := ⟨n - pos - 1, by omega⟩
      have hm' : n - (pos + 1) = m := by omega
      simp only [W.put, byte, if_neg h, hm, hm', List.take_succ_cons]
      simp [Nat.add_comm, Nat.add_left_comm]

theorem byte_put (w : W) (b : UInt8) : byte w b = w.put [b] := by
  rw [put_cons]
  by_cases h : (byte w b).2 = true
  · rw [if_pos h, put_nil, ← h]
  · rw [if_neg h]
    obtain ⟨out, pos, room⟩ := w
    unfold byte at h ⊢
    cases room with
    | none => simp at h
    | some n =>
      simp only at h ⊢
      split at h
      · next h' => rw [if_pos h']
      · simp at h

theorem put_append (w : W) (a b : Bytes) : w.put (a ++ b) = if (w.put a).2 then (w.put a).1.put b else ((w.put a).1, false) := by
  induction a generalizing w with
  | nil => simp [put_nil]
  | cons c a ih =>
    rw [List.cons_append, put_cons, put_cons]
    by_cases h : (byte w c).2 = true
    · rw [if_pos h, if_pos h, ih]
    · rw [if_neg h, if_neg h]; simp

theorem byte_then (w : W) (b : UInt8) (s : Bytes) :
    (if !(byte w b).2 then ((byte w b).1, false) else (byte w b).1.put s) = w.put (b :: s) := by
  have := put_append w [b] s
  rw [← byte_put] at this
  rw [List.singleton_append] at this
  rw [this]
  cases (byte w b).2 <;> simp

theorem bytes_put (w : W) (s : Bytes) : bytes w s = w.put s := by
  induction s generalizing w with
  | nil => rw [bytes, put_nil]
  | cons b s ih =>
    rw [bytes, ← byte_then]
    simp only [ih]

/-- `k + 1` digits of a number. -/
def padText : Nat → Nat → Bytes
  | 0, N => [UInt8.ofNat (48 + N % 10)]
  | k + 1, N => padText k (N / 10) ++ [UInt8.ofNat (48 + N % 10)]

theorem padText_front (k N : Nat) : padText (k + 1) N = UInt8.ofNat (48 + N / 10 ^ (k + 1) % 10) :: padText k N := by
  induction k generalizing N with
  | zero => simp [padText]
  | succ k ih =>
    rw [padText, ih]
    conv => rhs; rw [padText]
    rw [List.cons_append]
    congr 3
    rw [Nat.div_div_eq_div_mul, ← Nat.pow_succ']

theorem padText_mod (k N : Nat) : padText k (N % 10 ^ (k + 1)) = padText k N := by
  induction k generalizing N with
  | zero => simp [padText]
  | succ k ih =>
    rw [padText, padText]
    have e1 : N % 10 ^ (k + 1 + 1) / 10 = N / 10 % 10 ^ (k + 1) := by
      rw [Nat.pow_succ', Nat.mod_mul_right_div_self]
    have e2 : N % 10 ^ (k + 1 + 1) % 10 = N % 10 := Nat.mod_mod_of_dvd N ⟨10 ^ (k + 1), by rw [Nat.pow_succ']⟩
    rw [e1, e2, ih]

theorem decText_pad (k N : Nat) (h1 : 10 ^ k ≤ N ∨ k = 0) (h2 : N < 10 ^ (k + 1)) : decText N = padText k N := by
  induction k generalizing N with
  | zero =>
    rw [decText, if_pos (by omega), padText, Nat.mod_eq_of_lt (by omega)]
  | succ k ih =>
    have h1' : 10 ^ (k + 1) ≤ N := by omega
    have e : 10 ^ (k + 1) = 10 * 10 ^ k := Nat.pow_succ'
    have e' : 10 ^ (k + 1 + 1) = 10 * 10 ^ (k + 1) := Nat.pow_succ'
    have hp : 0 < 10 ^ k := Nat.pow_pos (by omega)
    rw [decText, if_neg (by omega), padText, ih (N / 10) (Or.inl (by omega)) (by omega)]

theorem magnitude_pow (j k N : Nat) (hj : 10 ^ j ≤ N ∨ j = 0) (hk : N < 10 ^ (j + k)) (h0 : 0 < k) :
    ∃ i, magnitude k N (10 ^ j) = .ok (10 ^ i) ∧ (10 ^ i ≤ N ∨ i = 0) ∧ N < 10 ^ (i + 1) := by
  induction k generalizing j with
  | zero => omega
  | succ k ih =>
    rw [magnitude]
    split
    · next h =>
      rw [← Nat.pow_succ] at h ⊢
      have hk' : N < 10 ^ (j + 1 + k) := by rw [Nat.add_right_comm, Nat.add_assoc]; exact hk
      refine ih (j + 1) (Or.inl h) hk' ?_
      cases k with
      | zero => rw [Nat.add_zero] at hk'; omega
      | succ k => omega
    · next h =>
      exact ⟨j, rfl, hj, by rw [Nat.pow_succ]; omega⟩

theorem ascii_digit_ok {d : Nat} (h : d < 10) : Strings.ascii_digit (d : Nat) = .ok (UInt8.ofNat (48 + d)) := by
  unfold Strings.ascii_digit
  rw [if_neg (by omega)]; simp

theorem digitLoop_put (i k : Nat) (hk : i + 2 ≤ k) (w : W) (n N : Nat) (hN : N = n % 10 ^ (i + 1)) :
    digitLoop k w n N (10 ^ i) = .ok (w.put (padText i n)) := by
  have hp : 0 < 10 ^ i := Nat.pow_pos (by omega)
  have hlt : N / 10 ^ i < 10 := by
    rw [hN, Nat.div_lt_iff_lt_mul hp, ← Nat.pow_succ']
    exact Nat.mod_lt _ (Nat.pow_pos (by omega))
  have hd : N / 10 ^ i = n / 10 ^ i % 10 := by
    rw [hN, Nat.pow_succ, Nat.mod_mul_right_div_self]
  obtain ⟨k, rfl⟩ : ∃ k', k = k' + 1 := ⟨k - 1, by omega⟩
  rw [digitLoop, if_pos hp, ascii_digit_ok hlt, ok_bind, hd]
  cases i with
  | zero =>
    obtain ⟨k, rfl⟩ : ∃ k', k = k' + 1 := ⟨k - 1, by omega⟩
    have e : padText 0 n = [UInt8.ofNat (48 + n / 10 ^ 0 % 10)] := by simp [padText]
    rw [e]
    generalize UInt8.ofNat (48 + n / 10 ^ 0 % 10) = b
    have := byte_then w b []
    rw [put_nil] at this
    rw [← this]
    have e : (10 ^ 0 / 10 : Nat) = 0 := rfl
    simp only [e, digitLoop, Nat.lt_irrefl, gt_iff_lt, if_false]
    split <;> rfl
  | succ i =>
    rw [padText_front]
    generalize UInt8.ofNat (48 + n / 10 ^ (i + 1) % 10) = b
    have e : 10 ^ (i + 1) / 10 = 10 ^ i := by rw [Nat.pow_succ]; simp
    rw [e]
    rw [← byte_then]
    generalize byte w b = q
    obtain ⟨w1, ok⟩ := q
    cases ok with
    | false => simp
    | true =>
      simp only [Bool.not_true, Bool.false_eq_true, if_false]
      exact digitLoop_put i k (by omega) w1 n _ rfl
termination_by i

theorem pow_big (i : Nat) : i + 1 ≤ 10 ^ i := by
  have : i < 10 ^ i := Nat.lt_pow_self (by omega)
  exact this

theorem writenum_nat (w : W) (n : Nat) : (do
      let m ← magnitude (n + 1) n 1
      digitLoop (m + 1) w n n m : Res Unit (W × Bool)) = .ok (w.put (decText n)) := by
  obtain ⟨i, e, h1, h2⟩ := magnitude_pow 0 (n + 1) n (Or.inr rfl)
    (by rw [Nat.zero_add]; exact Nat.lt_of_lt_of_le (Nat.lt_succ_self n) (Nat.le_of_lt (Nat.lt_pow_self (by omega)))) (by omega)
  rw [Nat.pow_zero] at e
  rw [e, ok_bind, digitLoop_put i _ (by have := pow_big i; omega) w n n (Nat.mod_eq_of_lt h2).symm, decText_pad i n h1 h2]

theorem writenum_put (w : W) (n : Int) (h1 : -2147483647 ≤ n) (h2 : n ≤ 2147483647) :
    writenum w n = .ok (w.put (decTextInt n)) := by
  unfold writenum decTextInt
  by_cases h : n < 0
  · simp only [if_pos h]
    rw [int_ok (by omega) (by omega), ok_bind, ← byte_then]
    have e : (n * -1).toNat = n.natAbs := by omega
    rw [e]
    generalize byte w 45 = q
    obtain ⟨w1, ok⟩ := q
    cases ok with
    | false => simp
    | true =>
      simp only [Bool.not_true, Bool.false_eq_true, if_false]
      exact writenum_nat w1 n.natAbs
  · simp only [if_neg h]
    have e : n.toNat = n.natAbs := by omega
    simp only [Bool.not_true, Bool.false_eq_true, if_false, ok_bind, e]
    exact writenum_nat w n.natAbs

theorem wnum_put (w : W) (n : Int) (h1 : -2147483647 ≤ n) (h2 : n ≤ 2147483647) :
    wnum w n = .ok (w.put (bencode (.int n))) := by
  unfold wnum
  have e : bencode (.int n) = 105 :: (decTextInt n ++ [101]) := by rw [bencode]; rfl
  rw [e, ← byte_then]
  generalize byte w 105 = q
  obtain ⟨w1, ok⟩ := q
  cases ok with
  | false => simp
  | true =>
    simp only [Bool.not_true, Bool.false_eq_true, if_false]
    rw [writenum_put w1 n h1 h2, ok_bind, put_append]
    generalize w1.put (decTextInt n) = q
    obtain ⟨w2, ok⟩ := q
    cases ok <;> simp [byte_put]

theorem toInt_small {n : Nat} (h : n ≤ 2147483647) : Sha1.toInt n = n := by
  unfold Sha1.toInt
  rw [if_pos (by omega)]; omega

theorem decTextInt_nat (n : Nat) : decTextInt (n : Int) = decText n := by
  unfold decTextInt
  rw [if_neg (by omega), Int.natAbs_natCast]

theorem buf_put (w : W) (s : Bytes) (hs : FitStr s) : buf w s = .ok (w.put (bstr s)) := by
  unfold FitStr at hs
  unfold buf bstr
  rw [toInt_small hs, writenum_put w _ (by omega) (by omega), ok_bind, put_append, decTextInt_nat]
  generalize w.put (decText s.length) = q
  obtain ⟨w2, ok⟩ := q
  cases ok with
  | false => simp
  | true =>
    simp only [Bool.not_true, Bool.false_eq_true, if_false, if_true]
    rw [← byte_then]
    generalize byte w2 58 = q
    obtain ⟨w3, ok⟩ := q
    cases ok <;> simp [bytes_put]

end Che.Lib.Bencode
