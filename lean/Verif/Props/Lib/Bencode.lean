import Verif.Proofs.Lib.Bencode
import Verif.Proofs.Prog.Bencode

/-!
C77-C79: `lib/formats/bencode.c` reads bencoded data, `lib/formats/bencode_writer.c` writes
it, and `prog/bencode` shows it.
-/
namespace Che.Props
open Che.Lib Che.Lib.Bencode Che.Spec.Lib

/-! ## C77: reading -/

mutual
/-- A program that reads a value with the calls of the reader and nothing else. -/
def decode : Nat → R → Res Unit (R × BVal)
  | 0, _ => .diverge
  | k + 1, r =>
    if type r = 105 then do
      let (r, n) ← readnum r
      .ok (r, .int n)
    else if type r = 115 then do
      let (r, n) ← strsize r
      let (r, s, _) ← readbuf r n.toNat
      .ok (r, .str s)
    else if type r = 108 then do
      let r ← enter r
      let (r, vs) ← decodeItems k r
      let r ← leave r
      .ok (r, .list vs)
    else if type r = 100 then do
      let r ← enter r
      let (r, es) ← decodeEntries k r
      let r ← leave r
      .ok (r, .dict es)
    else .panic "end"
def decodeItems : Nat → R → Res Unit (R × List BVal)
  | 0, _ => .diverge
  | k + 1, r =>
    if more r then do
      let (r, v) ← decode k r
      let (r, vs) ← decodeItems k r
      .ok (r, v :: vs)
    else .ok (r, [])
def decodeEntries : Nat → R → Res Unit (R × List (Bytes × BVal))
  | 0, _ => .diverge
  | k + 1, r =>
    if more r then do
      let (r, n) ← strsize r
      let (r, s, _) ← key r n.toNat
      let (r, v) ← decode k r
      let (r, es) ← decodeEntries k r
      .ok (r, (s, v) :: es)
    else .ok (r, [])
end

theorem exact_readbuf {r : R} {s t : Bytes} (hs : FitStr s) (h : Here r (bstr s ++ t)) :
    readbuf r ((s.length : Nat) : Int).toNat = .ok (adv r (bstr s).length, s, s.length) := by
  rw [readbuf_here s t hs _ (by simp) h]; simp

mutual
theorem decode_val (v : BVal) (hv : v.All FitInt FitStr FitStr) (k : Nat) (hk : (bencode v).length ≤ k) {r : R} {t : Bytes}
    (h : Here r (bencode v ++ t)) (hd : bdepth v + r.stack.length ≤ 10) :
    decode k r = .ok (adv r (bencode v).length, v) := by
  obtain ⟨k, rfl⟩ : ∃ k', k = k' + 1 := ⟨k - 1, by have := bencode_pos v; omega⟩
  match v with
  | .int n =>
    rw [BVal.All] at hv
    have e : Here r (105 :: (decTextInt n ++ 101 :: t)) := by simpa [bencode] using h
    have ht : type r = 105 := by rw [Prog.Bencode.type_of e]; rfl
    rw [decode, ht, if_pos rfl, readnum_here n hv.1 hv.2 t h, ok_bind]
  | .str s =>
    rw [BVal.All] at hv
    rw [bencode] at h ⊢
    have ht : type r = 115 := Prog.Bencode.type_digit h
    rw [decode, ht, if_neg (by omega), if_pos rfl, strsize_here s t hv h, ok_bind]
    simp only
    rw [exact_readbuf hv h, ok_bind]
  | .list vs =>
    rw [BVal.All] at hv
    rw [bencode] at h hk
    rw [bdepth] at hd
    have h1 : Here r (108 :: (bencodeList vs ++ 101 :: t)) := by simpa using h
    have ht : type r = 108 := by rw [Prog.Bencode.type_of h1]; rfl
    obtain ⟨e2, h2⟩ := enter_here h1 (by omega)
    have e3 := decode_items vs hv k (by simp at hk; omega) h2 (by simp [inside]) (by simp [inside]; omega)
    have h3 := here_adv h2
    rw [decode, ht, if_neg (by omega), if_neg (by omega), if_pos rfl, e2, ok_bind, e3, ok_bind]
    simp only
    rw [leave_here _ h3, ok_bind]
    simp [bencode]
  | .dict es =>
    rw [BVal.All] at hv
    rw [bencode] at h hk
    rw [bdepth] at hd
    have h1 : Here r (100 :: (bencodeEntries es ++ 101 :: t)) := by simpa using h
    have ht : type r = 100 := by rw [Prog.Bencode.type_of h1]; rfl
    obtain ⟨e2, h2⟩ := enter_here h1 (by omega)
    have e3 := decode_entries es hv k (by simp at hk; omega) h2 (by simp [inside]) (by simp [inside]; omega)
    have h3 := here_adv h2
    rw [decode, ht, if_neg (by omega), if_neg (by omega), if_neg (by omega), if_pos rfl, e2, ok_bind, e3, ok_bind]
    simp only
    rw [leave_here _ h3, ok_bind]
    simp [bencode]

theorem decode_items (vs : List BVal) (hv : AllList FitInt FitStr FitStr vs) (k : Nat) (hk : (bencodeList vs).length + 1 ≤ k) {r : R}
    {t : Bytes} (h : Here r (bencodeList vs ++ 101 :: t)) (hne : r.stack ≠ []) (hd : bdepthList vs + r.stack.length ≤ 10) :
    decodeItems k r = .ok (adv r (bencodeList vs).length, vs) := by
  obtain ⟨k, rfl⟩ : ∃ k', k = k' + 1 := ⟨k - 1, by omega⟩
  have hm := Prog.Bencode.more_items hne h
  match vs with
  | [] =>
    rw [decodeItems, hm]; simp [bencodeList, adv_zero]
  | v :: vs =>
    rw [AllList] at hv
    rw [bencodeList] at h hk
    rw [bdepthList] at hd
    rw [List.append_assoc] at h
    rw [List.length_append] at hk
    have hl := bencode_pos v
    have h1 := here_adv h
    rw [decodeItems, if_pos (show more r = true by rw [hm]; rfl)]
    rw [decode_val v hv.1 k (by omega) h (by omega), ok_bind]
    simp only
    rw [decode_items vs hv.2 k (by omega) h1 hne (by rw [stack_adv]; omega), ok_bind, adv_adv]
    simp [bencodeList]

theorem decode_entries (es : List (Bytes × BVal)) (hv : AllEntries FitInt FitStr FitStr es) (k : Nat)
    (hk : (bencodeEntries es).length + 1 ≤ k) {r : R} {t : Bytes} (h : Here r (bencodeEntries es ++ 101 :: t)) (hne : r.stack ≠ [])
    (hd : bdepthEntries es + r.stack.length ≤ 10) :
    decodeEntries k r = .ok (adv r (bencodeEntries es).length, es) := by
  obtain ⟨k, rfl⟩ : ∃ k', k = k' + 1 := ⟨k - 1, by omega⟩
  have hm := Prog.Bencode.more_entries hne h
  match es with
  | [] =>
    rw [decodeEntries, hm]; simp [bencodeEntries, adv_zero]
  | (ky, v) :: es =>
    rw [AllEntries] at hv
    rw [bencodeEntries] at h hk
    rw [bdepthEntries] at hd
    rw [List.append_assoc, List.append_assoc] at h
    rw [List.length_append, List.length_append] at hk
    have hl := bencode_pos v
    have h1 := here_adv h
    have h2 := here_adv h1
    rw [decodeEntries, if_pos (show more r = true by rw [hm]; rfl), strsize_here ky _ hv.1 h, ok_bind]
    simp only
    unfold key
    rw [exact_readbuf hv.1 h, ok_bind]
    simp only
    rw [decode_val v hv.2.1 k (by omega) h1 (by rw [stack_adv]; omega), ok_bind]
    simp only
    rw [decode_entries es hv.2.2 k (by omega) h2 hne (by rw [stack_adv, stack_adv]; omega), ok_bind, adv_adv, adv_adv]
    simp [bencodeEntries, Nat.add_assoc]
end

/-- C77 in full: whatever the value, reading its bencoding gives it. -/
def C77_full : Prop := ∀ v : BVal, ∃ k r, decode k (newreader (bencode v)) = .ok (r, v)

/-- C77.  With the reader before the bencoding of a value, the calls of the reader give this
value and leave the reader behind it, and `skip` leaves it there as well.

This is shown for integers of 32 bits (but the smallest), strings of less than 2^31 bytes,
and at most ten lists and dictionaries inside one another.  It is false of the others
(`C77_deep`, `C77_smallest`, `C77_large`). -/
theorem C77_partial (v : BVal) (hv : v.All (fun n => -2147483648 < n ∧ n < 2147483648) (fun s => s.length < 2147483648) (fun s => s.length < 2147483648))
    (r : R) (t : Bytes) (h : r.data.drop r.pos = bencode v ++ t) (hd : bdepth v + r.stack.length ≤ 10) :
    ∀ k, (bencode v).length ≤ k →
      decode k r = .ok ({ r with pos := r.pos + (bencode v).length }, v) ∧
      skip k r = .ok ({ r with pos := r.pos + (bencode v).length }, true) := by
  have e1 : (fun n : Int => -2147483648 < n ∧ n < 2147483648) = FitInt := by
    funext n; unfold FitInt; exact propext ⟨fun ⟨_, _⟩ => ⟨by omega, by omega⟩, fun ⟨_, _⟩ => ⟨by omega, by omega⟩⟩
  have e2 : (fun s : Bytes => s.length < 2147483648) = FitStr := by
    funext s; unfold FitStr; exact propext ⟨fun _ => by omega, fun _ => by omega⟩
  rw [e1, e2] at hv
  intro k hk
  exact ⟨decode_val v hv k hk h hd, skip_val v hv k hk h hd⟩

/-- `d3:fool1:xi-7eee`: a dictionary with a list. -/
example : decode 100 (newreader "d3:fool1:xi-7eee".toUTF8.toList) =
    .ok ({ newreader "d3:fool1:xi-7eee".toUTF8.toList with pos := 16 }, .dict [([102, 111, 111], .list [.str [120], .int (-7)])]) := by
  have e : "d3:fool1:xi-7eee".toUTF8.toList = bencode (.dict [([102, 111, 111], .list [.str [120], .int (-7)])]) := by
    simp [bencode, bencodeEntries, bencodeList, bstr, decTextInt, decText]; decide +kernel
  rw [e]
  have h := C77_partial (.dict [([102, 111, 111], .list [.str [120], .int (-7)])])
    (by simp [BVal.All, AllEntries, AllList]) (newreader (bencode (.dict [([102, 111, 111], .list [.str [120], .int (-7)])]))) []
    (by simp [newreader]) (by simp [bdepth, bdepthEntries, bdepthList, newreader]) 100
    (by simp [bencode, bencodeEntries, bencodeList, bstr, decTextInt, decText])
  rw [h.1]
  simp [newreader, bencode, bencodeEntries, bencodeList, bstr, decTextInt, decText]

/-- A list with a list inside, `n` times. -/
def nested : Nat → BVal
  | 0 => .list []
  | n + 1 => .list [nested n]

theorem nested_text (n : Nat) : bencode (nested n) = List.replicate (n + 1) 108 ++ List.replicate (n + 1) 101 := by
  induction n with
  | zero => simp [nested, bencode, bencodeList]
  | succ n ih =>
    rw [nested, bencode, bencodeList, bencodeList, ih, List.append_nil, List.replicate_succ (n := n + 1)]
    conv => rhs; rw [List.replicate_succ' (n := n + 1) (a := (101 : UInt8))]
    simp

theorem decode_deep : ∀ (m k : Nat) (r : R) (t : Bytes), Here r (List.replicate (m + 1) 108 ++ t) → r.stack.length + m = 10 →
    decode k r = .diverge ∨ decode k r = .panic "stack too small" := by
  intro m
  induction m with
  | zero =>
    intro k r t h hs
    cases k with
    | zero => exact .inl rfl
    | succ k =>
      have h1 : Here r (108 :: t) := h
      have ht : type r = 108 := by rw [Prog.Bencode.type_of h1]; rfl
      right
      rw [decode, ht, if_neg (by omega), if_neg (by omega), if_pos rfl, enter, if_pos (by omega)]; rfl
  | succ m ih =>
    intro k r t h hs
    cases k with
    | zero => exact .inl rfl
    | succ k =>
      have h1 : Here r (108 :: (List.replicate (m + 1) 108 ++ t)) := by
        rw [List.replicate_succ, List.cons_append] at h; exact h
      have ht : type r = 108 := by rw [Prog.Bencode.type_of h1]; rfl
      obtain ⟨e2, h2⟩ := enter_here h1 (by omega)
      rw [decode, ht, if_neg (by omega), if_neg (by omega), if_pos rfl, e2, ok_bind]
      cases k with
      | zero => exact .inl rfl
      | succ k =>
        have hm : more (inside r 108) = true := by
          have h3 : Here (inside r 108) (108 :: (List.replicate m 108 ++ t)) := by
            rw [List.replicate_succ, List.cons_append] at h2; exact h2
          exact more_inside (by simp [inside]) h3 (by decide)
        rw [decodeItems, if_pos hm]
        rcases ih k (inside r 108) t h2 (by simp [inside]; omega) with e | e
        · rw [e]; exact .inl rfl
        · rw [e]; exact .inr rfl

/-- Lists eleven or more deep are not read. -/
theorem C77_deep (n : Nat) (hn : 10 ≤ n) : ¬ ∃ k r v, decode k (newreader (bencode (nested n))) = .ok (r, v) := by
  rintro ⟨k, r, v, e⟩
  have := decode_deep 10 k (newreader (bencode (nested n))) (List.replicate (n + 1 - 11) 108 ++ List.replicate (n + 1) 101)
    (by
      show List.drop 0 (bencode (nested n)) = _
      rw [nested_text, ← List.append_assoc, List.replicate_append_replicate, List.drop_zero]
      congr 2; omega) rfl
  rcases this with h | h <;> rw [h] at e <;> cases e

/-- The smallest `int` and what does not fit in an `int`, such as the length of a file of
2 GB, makes the reader overflow. -/
theorem C77_smallest : readnum (newreader (bencode (.int (-2147483648)))) = .panic "undefined: overflow" ∧
    readnum (newreader (bencode (.int 2147483648))) = .panic "undefined: overflow" := by
  have e1 : bencode (.int (-2147483648)) = "i-2147483648e".toUTF8.toList := by
    simp [bencode, decTextInt, decText]; decide +kernel
  have e2 : bencode (.int 2147483648) = "i2147483648e".toUTF8.toList := by
    simp [bencode, decTextInt, decText]; decide +kernel
  rw [e1, e2]
  have key : ∀ d : Bytes, (match readnum (newreader d) with | .panic m => m == "undefined: overflow" | _ => false) = true →
      readnum (newreader d) = .panic "undefined: overflow" := by
    intro d h
    generalize readnum (newreader d) = q at h
    cases q with
    | panic m => simp at h; rw [h]
    | _ => cases h
  constructor <;> exact key _ (by decide +kernel)

theorem C77_false : ¬ C77_full := by
  intro h
  obtain ⟨k, r, e⟩ := h (nested 10)
  exact C77_deep 10 (by omega) ⟨k, r, _, e⟩

/-- A list whose end is missing: `skip` does not return. -/
theorem C77_skip_forever (vs : List BVal)
    (hv : AllList (fun n => -2147483647 ≤ n ∧ n ≤ 2147483647) (fun s => s.length ≤ 2147483647) (fun s => s.length ≤ 2147483647) vs)
    (hd : bdepthList vs < 10) : ∃ k0, ∀ k, k0 ≤ k → skip k (newreader (108 :: bencodeList vs)) = .diverge :=
  ⟨(bencodeList vs).length + 2, fun k hk => skip_cut vs hv hd k hk⟩

/-! ## C78: writing -/

mutual
/-- A program that writes a value with the calls of the writer, up to the first that fails. -/
def encode (w : W) : BVal → Res Unit (W × Bool)
  | .int n => wnum w n
  | .str s => buf w s
  | .list vs => do
    let (w, ok) ← begin w 108
    if !ok then .ok (w, false)
    else do
      let (w, ok) ← encodeItems w vs
      if !ok then .ok (w, false) else .ok (finish w)
  | .dict es => do
    let (w, ok) ← begin w 100
    if !ok then .ok (w, false)
    else do
      let (w, ok) ← encodeEntries w es
      if !ok then .ok (w, false) else .ok (finish w)
def encodeItems (w : W) : List BVal → Res Unit (W × Bool)
  | [] => .ok (w, true)
  | v :: vs => do
    let (w, ok) ← encode w v
    if !ok then .ok (w, false) else encodeItems w vs
def encodeEntries (w : W) : List (Bytes × BVal) → Res Unit (W × Bool)
  | [] => .ok (w, true)
  | (k, v) :: es => do
    let (w, ok) ← buf w k
    if !ok then .ok (w, false)
    else do
      let (w, ok) ← encode w v
      if !ok then .ok (w, false) else encodeEntries w es
end

theorem begin_put (w : W) (c : UInt8) (h : c = 108 ∨ c = 100) : begin w c = .ok (w.put [c]) := by
  unfold begin
  rw [if_neg (by rcases h with rfl | rfl <;> decide), byte_put]

mutual
theorem encode_put (v : BVal) (hv : v.All FitInt FitStr FitStr) (w : W) : encode w v = .ok (w.put (bencode v)) := by
  match v with
  | .int n => rw [BVal.All] at hv; rw [encode, wnum_put w n hv.1 hv.2]
  | .str s => rw [BVal.All] at hv; rw [encode, buf_put w s hv, bencode]
  | .list vs =>
    rw [BVal.All] at hv
    have e : bencode (.list vs) = [108] ++ (bencodeList vs ++ [101]) := by rw [bencode]; rfl
    rw [encode, begin_put w 108 (.inl rfl), ok_bind, e, put_append w [108]]
    generalize w.put [108] = q
    obtain ⟨w1, ok⟩ := q
    cases ok with
    | false => rfl
    | true =>
      simp only [Bool.not_true, Bool.false_eq_true, if_false, if_true]
      rw [encodeItems_put vs hv w1, ok_bind, put_append w1]
      generalize w1.put (bencodeList vs) = q
      obtain ⟨w2, ok⟩ := q
      cases ok <;> simp [finish, byte_put]
  | .dict es =>
    rw [BVal.All] at hv
    have e : bencode (.dict es) = [100] ++ (bencodeEntries es ++ [101]) := by rw [bencode]; rfl
    rw [encode, begin_put w 100 (.inr rfl), ok_bind, e, put_append w [100]]
    generalize w.put [100] = q
    obtain ⟨w1, ok⟩ := q
    cases ok with
    | false => rfl
    | true =>
      simp only [Bool.not_true, Bool.false_eq_true, if_false, if_true]
      rw [encodeEntries_put es hv w1, ok_bind, put_append w1]
      generalize w1.put (bencodeEntries es) = q
      obtain ⟨w2, ok⟩ := q
      cases ok <;> simp [finish, byte_put]

theorem encodeItems_put (vs : List BVal) (hv : AllList FitInt FitStr FitStr vs) (w : W) :
    encodeItems w vs = .ok (w.put (bencodeList vs)) := by
  match vs with
  | [] => rw [encodeItems, bencodeList, put_nil]
  | v :: vs =>
    rw [AllList] at hv
    rw [encodeItems, encode_put v hv.1 w, ok_bind, bencodeList, put_append]
    generalize w.put (bencode v) = q
    obtain ⟨w1, ok⟩ := q
    cases ok with
    | false => rfl
    | true =>
      simp only [Bool.not_true, Bool.false_eq_true, if_false, if_true]
      exact encodeItems_put vs hv.2 w1

theorem encodeEntries_put (es : List (Bytes × BVal)) (hv : AllEntries FitInt FitStr FitStr es) (w : W) :
    encodeEntries w es = .ok (w.put (bencodeEntries es)) := by
  match es with
  | [] => rw [encodeEntries, bencodeEntries, put_nil]
  | (k, v) :: es =>
    rw [AllEntries] at hv
    rw [encodeEntries, buf_put w k hv.1, ok_bind, bencodeEntries, List.append_assoc, put_append]
    generalize w.put (bstr k) = q
    obtain ⟨w1, ok⟩ := q
    cases ok with
    | false => rfl
    | true =>
      simp only [Bool.not_true, Bool.false_eq_true, if_false, if_true]
      rw [encode_put v hv.2.1 w1, ok_bind, put_append]
      generalize w1.put (bencode v) = q
      obtain ⟨w2, ok⟩ := q
      cases ok with
      | false => rfl
      | true =>
        simp only [Bool.not_true, Bool.false_eq_true, if_false, if_true]
        exact encodeEntries_put es hv.2.2 w2
end

/-- C78 in full: whatever the value, its bencoding is written. -/
def C78_full : Prop := ∀ v : BVal, ∃ w, encode (tofile none) v = .ok (w, true) ∧ w.out = bencode v

/-- C78.  The calls of the writer write the bencoding of a value.  If there is not enough
room for it (in the buffer, or on the disk), its beginning is written and a call says so;
nothing is written outside the buffer.

This is shown for integers of 32 bits (but the smallest) and strings of less than 2^31
bytes.  It is false of the smallest integer (`C78_counterexample`). -/
theorem C78_partial (v : BVal) (hv : v.All (fun n => -2147483648 < n ∧ n < 2147483648) (fun s => s.length < 2147483648) (fun s => s.length < 2147483648)) :
    (∃ w, encode (tofile none) v = .ok (w, true) ∧ w.out = bencode v) ∧
    ∀ size, ∃ w ok, encode (tobuf size) v = .ok (w, ok) ∧ w.out = (bencode v).take size ∧ w.pos = w.out.length ∧
      (ok = true ↔ (bencode v).length ≤ size) := by
  have e1 : (fun n : Int => -2147483648 < n ∧ n < 2147483648) = FitInt := by
    funext n; unfold FitInt; exact propext ⟨fun ⟨_, _⟩ => ⟨by omega, by omega⟩, fun ⟨_, _⟩ => ⟨by omega, by omega⟩⟩
  have e2 : (fun s : Bytes => s.length < 2147483648) = FitStr := by
    funext s; unfold FitStr; exact propext ⟨fun _ => by omega, fun _ => by omega⟩
  rw [e1, e2] at hv
  refine ⟨⟨((tofile none).put (bencode v)).1, ?_, ?_⟩, fun size => ⟨((tobuf size).put (bencode v)).1, ((tobuf size).put (bencode v)).2, ?_, ?_, ?_, ?_⟩⟩
  · rw [encode_put v hv]; simp [W.put, tofile]
  · simp [W.put, tofile]
  · rw [encode_put v hv]
  · simp [W.put, tobuf]
  · simp [W.put, tobuf]
  · simp only [W.put, tobuf, Nat.sub_zero, List.length_take, decide_eq_true_eq]; omega

/-- A list of two integers, in a buffer that is too small. -/
example : encode (tobuf 5) (.list [.int 12, .int 3]) = .ok ({ out := "li12e".toUTF8.toList, pos := 5, room := some 5 }, false) := by
  rw [encode_put _ (by simp [BVal.All, AllList, FitInt])]
  simp [W.put, tobuf, bencode, bencodeList, decTextInt, decText]
  decide +kernel

/-- For the smallest `int` a sign is written, and then the writer overflows. -/
theorem C78_counterexample : encode (tofile none) (.int (-2147483648)) = .panic "undefined: overflow" := by
  rw [encode]; rfl

theorem C78_false : ¬ C78_full := by
  intro h
  obtain ⟨w, e, _⟩ := h (.int (-2147483648))
  rw [C78_counterexample] at e; cases e

/-- What is written is read back the same. -/
theorem C78_read_back (v : BVal) (hv : v.All (fun n => -2147483648 < n ∧ n < 2147483648) (fun s => s.length < 2147483648) (fun s => s.length < 2147483648))
    (hd : bdepth v ≤ 10) : ∃ w k r, encode (tofile none) v = .ok (w, true) ∧ decode k (newreader w.out) = .ok (r, v) := by
  obtain ⟨w, e, h⟩ := (C78_partial v hv).1
  have := C77_partial v hv (newreader w.out) [] (by simp [newreader, h]) hd (bencode v).length (Nat.le_refl _)
  exact ⟨w, _, _, e, this.1⟩

/-- Two values with the same bencoding are the same, as far as the reader can read them. -/
theorem C77_distinct (v w : BVal)
    (hv : v.All (fun n => -2147483648 < n ∧ n < 2147483648) (fun s => s.length < 2147483648) (fun s => s.length < 2147483648))
    (hw : w.All (fun n => -2147483648 < n ∧ n < 2147483648) (fun s => s.length < 2147483648) (fun s => s.length < 2147483648))
    (hd : bdepth v ≤ 10) (hd' : bdepth w ≤ 10) (t t' : Bytes) (h : bencode v ++ t = bencode w ++ t') : v = w := by
  have h1 := (C77_partial v hv (newreader (bencode v ++ t)) t (by simp [newreader]) hd
    ((bencode v).length + (bencode w).length) (by omega)).1
  have h2 := (C77_partial w hw (newreader (bencode v ++ t)) t' (by simp [newreader, h]) hd'
    ((bencode v).length + (bencode w).length) (by omega)).1
  rw [h1] at h2
  injection h2 with h2; injection h2

/-! ## C79: showing -/

/-- C79 in full: values are shown whatever the strings, and of a string that is cut the number
is how many bytes are not shown. -/
def C79_full : Prop := ∀ s : Bytes, (∃ c ∈ s, ¬ Printable c) → 22 < s.length →
  ∃ k0, ∀ k, k0 ≤ k → Prog.Bencode.main k (bencode (.str s)) =
    .ok (((s.take 22).map hexByte).flatten ++ [46, 46, 46] ++ decText (s.length - 22) ++ [32, 109, 111, 114, 101, 46, 46, 46])

/-- C79.  For a file of bencoded values `prog/bencode` prints the text of every value: the
items of lists with their numbers and the entries of dictionaries with their keys on lines
of their own, with a margin that shows the depth.

This is shown for 32-bit integers (but the smallest), keys of at most 100 bytes, strings of
less than 2^31 - 1 bytes, and depth at most ten.  The text is not quite what one wants: see
`C79_counterexample` and `C79_ambiguous`. -/
theorem C79_partial (vs : List BVal)
    (hv : AllList (fun n => -2147483647 ≤ n ∧ n ≤ 2147483647) (fun s => s.length < 2147483647) (fun s => s.length ≤ 100) vs)
    (hd : bdepthList vs ≤ 10) : ∀ k, (bencodeList vs).length < k →
      Prog.Bencode.main k (bencodeList vs) = .ok (vs.map (render 0)).flatten :=
  fun k hk => Prog.Bencode.main_vals vs hv hd k hk

/-- What is printed for `d1:al1:bi5eee`. -/
example : ∀ k, 13 < k → Prog.Bencode.main k "d1:al1:bi5eee".toUTF8.toList =
    .ok "{\n_ a: [\n_ _ 0: b,\n_ _ 1: 5\n_ ]\n}".toUTF8.toList := by
  intro k hk
  have e : "d1:al1:bi5eee".toUTF8.toList = bencodeList [.dict [([97], .list [.str [98], .int 5])]] := by
    simp [bencode, bencodeEntries, bencodeList, bstr, decTextInt, decText]; decide +kernel
  rw [e, C79_partial _ (by simp [BVal.All, AllEntries, AllList]) (by simp [bdepth, bdepthEntries, bdepthList]) k
    (by simpa [bencode, bencodeEntries, bencodeList, bstr, decTextInt, decText] using hk)]
  simp [render, renderEntries, renderItems, shown, Printable, decTextInt, decText, margin]
  decide +kernel

/-- Of 23 bytes 22 are shown; it says that there are 2 more. -/
theorem C79_counterexample (k : Nat) (hk : 100 < k) : Prog.Bencode.main k (bencodeList [.str (List.replicate 23 1)]) =
    .ok "1111111111111111111111...2 more...".toUTF8.toList := by
  rw [C79_partial _ (by simp [BVal.All, AllList]) (by simp [bdepth, bdepthList]) k
    (by simp [bencode, bencodeList, bstr, decText]; omega)]
  simp only [List.map_cons, List.map_nil, List.flatten_cons, List.flatten_nil, List.append_nil, render]
  unfold shown
  rw [if_neg (by intro h; exact absurd (h 1 (by simp)) (by decide))]
  simp only [List.length_replicate]
  rw [decText]
  decide +kernel

theorem C79_false : ¬ C79_full := by
  intro h
  obtain ⟨k, e⟩ := h (List.replicate 23 1) ⟨1, by simp, by decide⟩ (by simp)
  have h1 := C79_counterexample (max k 101) (by omega)
  rw [bencodeList, bencodeList, List.append_nil, e _ (by omega)] at h1
  injection h1 with h1
  rw [List.length_replicate, decText] at h1
  revert h1
  decide +kernel

/-- Different strings are shown the same: the bytes 1 and 35 like 18 and 3, and a dictionary
or list cannot be told from a string that looks like it. -/
theorem C79_ambiguous : render 0 (.str [1, 35]) = render 0 (.str [18, 3]) ∧ render 0 (.int 5) = render 0 (.str [53]) ∧
    render 0 (.int 12) = ([.int 1, .int 2].map (render 0)).flatten := by
  refine ⟨by simp only [render]; decide +kernel, ?_, ?_⟩
  · simp [render, shown, Printable, decTextInt, decText]
  · simp [render, decTextInt, decText]

end Che.Props
