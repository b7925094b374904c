import Verif.Model.Prog.Bencode
import Verif.Spec.Lib.BencodeText
import Verif.Proofs.Lib.Bencode
import Verif.Proofs.Lib.Bits

namespace Che.Prog.Bencode
open Che.Lib Che.Lib.Bencode Che.Spec.Lib

theorem decimal_decText (n : Nat) : decimal n = decText n := by
  induction n using Nat.strongRecOn with
  | ind n ih =>
    have hd : ∀ m, m < 10 → UInt8.ofNat (Nat.digitChar m).toNat = UInt8.ofNat (48 + m) := by decide
    unfold decimal
    rw [Nat.toDigits_eq_if (by omega), decText]
    split
    · next h => simp [hd n h]
    · next h =>
      have := ih (n / 10) (by omega)
      unfold decimal at this
      rw [List.map_append, this]
      simp only [List.map_cons, List.map_nil]
      rw [hd _ (Nat.mod_lt _ (by omega))]

theorem printInt_decText (n : Int) : printInt n = decTextInt n := by
  unfold printInt decTextInt
  rw [decimal_decText]

theorem hexText_hexByte : ∀ c : UInt8, hexText c = hexByte c :=
  Bits.forall_byte (by decide +kernel)

theorem isprint_iff (c : UInt8) : isprint c = true ↔ Printable c := by
  revert c
  exact Bits.forall_byte (by decide +kernel)

theorem printbuf_shown (s : Bytes) : printbuf s = shown s := by
  have hall : (s.all isprint = true) ↔ ∀ c ∈ s, Printable c := by
    rw [List.all_eq_true]
    exact ⟨fun h c hc => (isprint_iff c).mp (h c hc), fun h c hc => (isprint_iff c).mpr (h c hc)⟩
  have hloop : ∀ (n i : Nat) (t : Bytes), i ≤ 21 → n = i + t.length →
      hexLoop n i t = ((t.take (22 - i)).map hexByte).flatten ++
        (if n < 22 then [] else [46, 46, 46] ++ decText (n - 21) ++ [32, 109, 111, 114, 101, 46, 46, 46]) := by
    intro n i t
    induction t generalizing i with
    | nil =>
      intro hi hn
      simp only [List.length_nil] at hn
      rw [hexLoop, if_pos (by omega)]; simp
    | cons c t ih =>
      intro hi hn
      rw [List.length_cons] at hn
      rw [hexLoop]
      split
      · next h =>
        have e : i = 21 := by omega
        subst e
        rw [if_neg (by omega), hexText_hexByte, decimal_decText]
        simp
        rfl
      · next h =>
        obtain ⟨m, hm⟩ : ∃ m, 22 - i = m + 1 := ⟨21 - i, by omega⟩
        have hm' : 22 - (i + 1) = m := by omega
        rw [ih (i + 1) (by omega) (by omega), hm, hm', List.take_succ_cons, hexText_hexByte]
        simp
  unfold printbuf shown
  by_cases h : s.all isprint = true
  · rw [if_pos h, if_pos (hall.mp h)]
  · rw [if_neg h, if_neg (mt hall.mpr h), hloop s.length 0 s (by omega) (by omega)]

theorem margin_eq (o : Out) : o.margin = o.print (margin o.indent) := by
  have : ∀ n, (List.replicate n ([95, 32] : Bytes)).flatten = margin n := by
    intro n
    induction n with
    | zero => rfl
    | succ n ih => rw [List.replicate_succ, List.flatten_cons, ih]; rfl
  unfold Out.margin
  rw [this]

theorem print_print (o : Out) (a b : Bytes) : (o.print a).print b = o.print (a ++ b) := by
  simp [Out.print]

/-- The strings that can be printed. -/
def ShowStr (s : Bytes) : Prop := s.length < 2147483647

/-- The keys that can be printed. -/
def ShowKey (s : Bytes) : Prop := s.length ≤ 100

theorem type_of {r : R} {c : UInt8} {s : Bytes} (h : Here r (c :: s)) :
    type r = if c = 255 then 0 else if c = 105 then 105 else if c = 100 then 100 else if c = 108 then 108 else 115 := by
  unfold type
  rw [peek_cons h]
  have key : ∀ d : UInt8, (Mem.signed c = Mem.signed d) ↔ c = d := fun d => ⟨signed_inj, fun e => e ▸ rfl⟩
  have e1 : (Mem.signed c = -1) ↔ c = 255 := key 255
  have e2 : (Mem.signed c = 105) ↔ c = 105 := key 105
  have e3 : (Mem.signed c = 100) ↔ c = 100 := key 100
  have e4 : (Mem.signed c = 108) ↔ c = 108 := key 108
  simp only [e1, e2, e3, e4]

theorem type_digit {r : R} {s t : Bytes} (h : Here r (bstr s ++ t)) : type r = 115 := by
  have := digit_peek h
  unfold type
  rw [if_neg (by omega), if_neg (by omega), if_neg (by omega), if_neg (by omega)]

theorem indent_print (o : Out) (a : Bytes) : (o.print a).indent = o.indent := rfl

theorem more_items {r : R} {vs : List BVal} {t : Bytes} (hne : r.stack ≠ []) (h : Here r (bencodeList vs ++ 101 :: t)) :
    more r = !vs.isEmpty := by
  cases vs with
  | nil => rw [bencodeList] at h; rw [more_end hne h]; rfl
  | cons v vs =>
    obtain ⟨c, s, e, hc⟩ := bencode_head v
    rw [bencodeList, e] at h
    rw [more_inside hne h hc]; rfl

theorem more_entries {r : R} {es : List (Bytes × BVal)} {t : Bytes} (hne : r.stack ≠ [])
    (h : Here r (bencodeEntries es ++ 101 :: t)) : more r = !es.isEmpty := by
  cases es with
  | nil => rw [bencodeEntries] at h; rw [more_end hne h]; rfl
  | cons e es =>
    obtain ⟨k, v⟩ := e
    obtain ⟨c, s, e, hc⟩ := bencode_head (.str k)
    rw [bencode] at e
    rw [bencodeEntries, e] at h
    rw [more_inside hne h hc]; rfl

mutual
theorem printval_val (v : BVal) (hv : v.All FitInt ShowStr ShowKey) (k : Nat) (hk : (bencode v).length ≤ k) {r : R} {t : Bytes}
    (h : Here r (bencode v ++ t)) (hd : bdepth v + r.stack.length ≤ 10) (o : Out) :
    printval k r o = .ok (adv r (bencode v).length, o.print (render o.indent v)) := by
  obtain ⟨k, rfl⟩ : ∃ k', k = k' + 1 := ⟨k - 1, by have := bencode_pos v; omega⟩
  match v with
  | .int n =>
    rw [BVal.All] at hv
    have e : Here r (105 :: (decTextInt n ++ 101 :: t)) := by simpa [bencode] using h
    have ht : type r = 105 := by rw [type_of e]; rfl
    rw [printval, ht, if_neg (by omega), if_pos rfl, readnum_here n hv.1 hv.2 t h, ok_bind, render, ← printInt_decText]
  | .str s =>
    rw [BVal.All] at hv
    unfold ShowStr at hv
    rw [bencode] at h ⊢
    have ht : type r = 115 := type_digit h
    rw [printval, ht, if_neg (by omega), if_neg (by omega), if_pos rfl, strsize_here s t (by omega) h, ok_bind]
    simp only
    rw [int_ok (by omega) (by omega), ok_bind, if_neg (by omega)]
    have e : ((s.length : Int) + 1).toNat = s.length + 1 := by omega
    rw [e, readbuf_here s t (by omega) (s.length + 1) (by omega) h, ok_bind]
    simp only [Int.toNat_natCast, List.take_left]
    rw [printbuf_shown, render]
  | .list vs =>
    rw [BVal.All] at hv
    rw [bencode] at h hk
    rw [bdepth] at hd
    have h1 : Here r (108 :: (bencodeList vs ++ 101 :: t)) := by simpa using h
    have ht : type r = 108 := by rw [type_of h1]; rfl
    obtain ⟨e2, h2⟩ := enter_here h1 (by omega)
    have e3 := listLoop_items vs hv k (by simp at hk; omega) h2 (by simp [inside]) (by simp [inside]; omega) 0
      { (o.print (cstr "[\n")) with indent := o.indent + 1 }
    have h3 := here_adv h2
    rw [printval, ht, if_neg (by omega), if_neg (by omega), if_neg (by omega), if_pos rfl]
    simp only [indent_print]
    rw [e2, ok_bind, e3, ok_bind]
    simp only
    rw [leave_here _ h3, ok_bind, margin_eq]
    simp [bencode, Out.print, render]
    rfl
  | .dict es =>
    rw [BVal.All] at hv
    rw [bencode] at h hk
    rw [bdepth] at hd
    have h1 : Here r (100 :: (bencodeEntries es ++ 101 :: t)) := by simpa using h
    have ht : type r = 100 := by rw [type_of h1]; rfl
    obtain ⟨e2, h2⟩ := enter_here h1 (by omega)
    have e3 := dictLoop_entries es hv k (by simp at hk; omega) h2 (by simp [inside]) (by simp [inside]; omega)
      { (o.print (cstr "{\n")) with indent := o.indent + 1 }
    have h3 := here_adv h2
    rw [printval, ht, if_pos rfl]
    simp only [indent_print]
    rw [e2, ok_bind, e3, ok_bind]
    simp only
    rw [leave_here _ h3, ok_bind, margin_eq]
    simp [bencode, Out.print, render]
    rfl

theorem listLoop_items (vs : List BVal) (hv : AllList FitInt ShowStr ShowKey vs) (k : Nat) (hk : (bencodeList vs).length + 1 ≤ k) {r : R}
    {t : Bytes} (h : Here r (bencodeList vs ++ 101 :: t)) (hne : r.stack ≠ []) (hd : bdepthList vs + r.stack.length ≤ 10) (i : Nat)
    (o : Out) : listLoop k r i o = .ok (adv r (bencodeList vs).length, o.print (renderItems o.indent i vs)) := by
  obtain ⟨k, rfl⟩ : ∃ k', k = k' + 1 := ⟨k - 1, by omega⟩
  have hm := more_items hne h
  match vs with
  | [] =>
    rw [listLoop, hm]; simp [bencodeList, adv_zero, renderItems, Out.print]
  | v :: vs =>
    rw [AllList] at hv
    rw [bencodeList] at h hk
    rw [bdepthList] at hd
    rw [List.append_assoc] at h
    rw [List.length_append] at hk
    have hl := bencode_pos v
    have h1 := here_adv h
    have hm1 := more_items (r := adv r (bencode v).length) hne h1
    rw [listLoop, if_pos (show more r = true by rw [hm]; rfl)]
    simp only [margin_eq, print_print]
    rw [printval_val v hv.1 k (by omega) h (by omega), ok_bind]
    simp only [hm1, print_print]
    have e2 := listLoop_items vs hv.2 k (by omega) h1 hne (by rw [stack_adv]; omega) (i + 1)
    rw [e2, adv_adv]
    rw [printInt_decText, decTextInt_nat]
    cases vs with
    | nil => simp [bencodeList, renderItems, Out.print]; rfl
    | cons w ws => simp [bencodeList, renderItems, Out.print]; rfl

theorem dictLoop_entries (es : List (Bytes × BVal)) (hv : AllEntries FitInt ShowStr ShowKey es) (k : Nat)
    (hk : (bencodeEntries es).length + 1 ≤ k) {r : R} {t : Bytes} (h : Here r (bencodeEntries es ++ 101 :: t)) (hne : r.stack ≠ [])
    (hd : bdepthEntries es + r.stack.length ≤ 10) (o : Out) :
    dictLoop k r o = .ok (adv r (bencodeEntries es).length, o.print (renderEntries o.indent es)) := by
  obtain ⟨k, rfl⟩ : ∃ k', k = k' + 1 := ⟨k - 1, by omega⟩
  have hm := more_entries hne h
  match es with
  | [] =>
    rw [dictLoop, hm]; simp [bencodeEntries, adv_zero, renderEntries, Out.print]
  | (ky, v) :: es =>
    rw [AllEntries] at hv
    rw [bencodeEntries] at h hk
    rw [bdepthEntries] at hd
    rw [List.append_assoc, List.append_assoc] at h
    rw [List.length_append, List.length_append] at hk
    have hkey := hv.1
    unfold ShowKey at hkey
    have hl := bencode_pos v
    have h1 := here_adv h
    have h2 := here_adv h1
    have hm1 := more_entries (r := adv (adv r (bstr ky).length) (bencode v).length) hne h2
    rw [dictLoop, if_pos (show more r = true by rw [hm]; rfl)]
    unfold key
    rw [readbuf_here ky _ (by omega) 100 hkey h, ok_bind]
    simp only [margin_eq, print_print, List.take_left]
    rw [printval_val v hv.2.1 k (by omega) h1 (by rw [stack_adv]; omega), ok_bind]
    simp only [hm1, print_print]
    have e2 := dictLoop_entries es hv.2.2 k (by omega) h2 hne (by rw [stack_adv, stack_adv]; omega)
    rw [e2, adv_adv, adv_adv, printbuf_shown]
    cases es with
    | nil => simp [bencodeEntries, renderEntries, Out.print, Nat.add_assoc]; rfl
    | cons w ws => simp [bencodeEntries, renderEntries, Out.print, Nat.add_assoc]; rfl
end

theorem mainLoop_vals (vs : List BVal) (hv : AllList FitInt ShowStr ShowKey vs) (hd : bdepthList vs ≤ 10) (k : Nat)
    (hk : (bencodeList vs).length + 1 ≤ k) {r : R} (h : Here r (bencodeList vs)) (hs : r.stack = []) (o : Out) :
    mainLoop k r o = .ok (o.print ((vs.map (render o.indent)).flatten)) := by
  induction vs generalizing k r o with
  | nil =>
    obtain ⟨k, rfl⟩ : ∃ k', k = k' + 1 := ⟨k - 1, by omega⟩
    rw [bencodeList] at h
    have hm : more r = false := by rw [more, hs, if_neg (by simp), peek_nil h]; rfl
    rw [mainLoop, hm]; simp [Out.print]
  | cons v vs ih =>
    obtain ⟨k, rfl⟩ : ∃ k', k = k' + 1 := ⟨k - 1, by omega⟩
    rw [AllList] at hv
    rw [bencodeList] at h hk
    rw [bdepthList] at hd
    rw [List.length_append] at hk
    have hl := bencode_pos v
    have hm : more r = true := by
      have : peek r ≠ -1 := by
        match v with
        | .str s =>
          rw [bencode] at h
          have := digit_peek h; omega
        | .int n => rw [bencode] at h; rw [peek_cons (c := 105) h]; decide
        | .list n => rw [bencode] at h; rw [peek_cons (c := 108) h]; decide
        | .dict n => rw [bencode] at h; rw [peek_cons (c := 100) h]; decide
      rw [more, hs, if_neg (by simp)]; simp [this]
    have h1 := here_adv h
    rw [mainLoop, if_pos hm, printval_val v hv.1 k (by omega) h (by rw [hs]; simp; omega), ok_bind]
    simp only
    rw [ih hv.2 (by omega) k (by omega) h1 hs]
    simp [Out.print]

theorem main_vals (vs : List BVal) (hv : AllList FitInt ShowStr ShowKey vs) (hd : bdepthList vs ≤ 10) (k : Nat)
    (hk : (bencodeList vs).length + 1 ≤ k) : main k (bencodeList vs) = .ok (vs.map (render 0)).flatten := by
  unfold main
  rw [mainLoop_vals vs hv hd k hk (r := newreader (bencodeList vs)) rfl rfl, ok_bind]
  simp [Out.print]

end Che.Prog.Bencode
