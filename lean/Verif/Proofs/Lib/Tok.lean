import Verif.Model.Lib.Tokenizer
import Verif.Spec.Lib.Cursor
import Verif.Proofs.Lib.Bits

/-!
The tokenizer and the text that it reads.
-/
namespace Che.Lib.Tok
open Che.Lib Che.Spec.Lib

/-- What is left in a source. -/
def bytes : Source → Bytes
  | .file rest => rest
  | .mem rest => rest
  | .fd chunks => chunks.flatten

/-- Sources that give all they have. -/
def whole : Source → Bool
  | .fd _ => false
  | _ => true

theorem memReadLoop_spec (n : Nat) (rest : Bytes) (r : Int) (got : Bytes) :
    memReadLoop n rest r got = (rest.drop n, r + (rest.take n).length, got ++ rest.take n) := by
  induction n generalizing rest r got with
  | zero => simp [memReadLoop]
  | succ n ih =>
    cases rest with
    | nil => simp [memReadLoop]
    | cons b rest => rw [memReadLoop, ih]; simp; omega

theorem read_whole (src : Source) (h : whole src) (n : Nat) :
    ∃ src' r, src.read n = (src', r, (bytes src).take n) ∧ whole src' ∧ bytes src' = (bytes src).drop n ∧
      ((bytes src).take n ≠ [] → r = ((bytes src).take n).length) ∧ ((bytes src).take n = [] → r ≤ 0) := by
  cases src with
  | file rest =>
    simp only [Source.read, fileRead, bytes]
    by_cases hz : (rest.take n).length = 0
    · have hn : rest.take n = [] := List.eq_nil_of_length_eq_zero hz
      rw [if_pos hz]
      refine ⟨_, _, by rw [hn], rfl, ?_, by simp [hn], ?_⟩
      · rw [List.take_eq_nil_iff] at hn
        rcases hn with rfl | rfl <;> simp
      · intro _; split <;> omega
    · rw [if_neg hz]
      exact ⟨_, _, rfl, rfl, rfl, fun _ => rfl, fun h => absurd (by rw [h]; rfl) hz⟩
  | mem rest =>
    simp only [Source.read, memRead, bytes]
    by_cases hz : rest = []
    · subst hz
      exact ⟨_, _, by simp; exact ⟨rfl, rfl⟩, rfl, by simp, by simp, by simp⟩
    · rw [if_neg hz, memReadLoop_spec]
      refine ⟨_, _, by simp; exact ⟨rfl, rfl⟩, rfl, rfl, by simp, ?_⟩
      intro h; rw [List.take_eq_nil_iff] at h
      rcases h with rfl | rfl
      · simp
      · exact absurd rfl hz
  | fd _ => cases h

/-- The tokenizer is at a place of a text. -/
structure Is (t : T) (c : Cursor) : Prop where
  whole : whole t.reader.src
  rest : t.cache ++ bytes t.reader.src = c.rest
  row : t.row = c.row
  col : t.col = c.col
  size : t.cache.length ≤ 100
  sound : t.sound

theorem left_bytes (src : Source) (h : whole src) : left src = (bytes src).length := by
  cases src <;> simp_all [left, bytes, Tok.whole]

theorem Is.rounds {t : T} {c : Cursor} (h : Is t c) : rounds t = c.rest.length + 1 := by
  unfold Tok.rounds
  rw [left_bytes _ h.whole, ← h.rest]; simp

theorem prefetch_is {t : T} {c : Cursor} (h : Is t c) {n : Nat} (hn : n ≤ 100) :
    Is (prefetch t n) c ∧ (n ≤ (prefetch t n).cache.length ∨ (prefetch t n).cache = c.rest) ∧
      (prefetch t n).cache <+: c.rest := by
  unfold prefetch
  by_cases hc : t.cache.length ≥ n
  · rw [if_pos hc]; exact ⟨h, .inl hc, ⟨_, h.rest⟩⟩
  · rw [if_neg hc]
    obtain ⟨src', r, hr, hw, hb, h1, h2⟩ := read_whole t.reader.src h.whole (n - t.cache.length)
    simp only [Reader.read, hr]
    have hrest := h.rest
    generalize hB : bytes t.reader.src = B at *
    have hsize := h.size
    have e : n - t.cache.length + t.cache.length = n := by omega
    by_cases hz : B.take (n - t.cache.length) = []
    · have := h2 hz
      have hn' : ¬ r > 0 := by omega
      simp only [if_neg hn']
      have hB0 : B = [] := by
        rw [List.take_eq_nil_iff] at hz
        rcases hz with hz | hz
        · omega
        · exact hz
      subst hB0
      have : t.cache = c.rest := by simpa using hrest
      exact ⟨⟨hw, by simp [hb, this], h.row, h.col, h.size, h.sound⟩, .inr this, this ▸ List.prefix_refl _⟩
    · have := h1 hz
      have hp : r > 0 := by
        have := List.length_pos_iff.mpr hz; omega
      simp only [if_pos hp]
      have hl : (t.cache ++ B.take (n - t.cache.length)).length ≤ 100 := by
        simp only [List.length_append, List.length_take]; omega
      refine ⟨⟨hw, by simp [hb, hrest], h.row, h.col, hl, by simp only [h.sound, hl, decide_true, Bool.and_true]⟩, ?_, ?_⟩
      · by_cases hle : n - t.cache.length ≤ B.length
        · left; show n ≤ (t.cache ++ B.take (n - t.cache.length)).length; rw [List.length_append, List.length_take]; omega
        · right; show t.cache ++ B.take (n - t.cache.length) = c.rest; rw [List.take_of_length_le (by omega), hrest]
      · exact ⟨B.drop (n - t.cache.length), by simp [hrest]⟩

theorem peek_is {t : T} {c : Cursor} (h : Is t c) : ∃ t', peek t = (t', code c.rest.head?) ∧ Is t' c := by
  obtain ⟨h1, h2, h3⟩ := prefetch_is h (n := 1) (by omega)
  unfold peek
  generalize prefetch t 1 = t' at *
  refine ⟨t', ?_, h1⟩
  obtain ⟨s, hs⟩ := h3
  cases hc : t'.cache with
  | nil =>
    have : c.rest = [] := by
      rcases h2 with h2 | h2
      · rw [hc] at h2; simp at h2
      · rw [← h2, hc]
    simp [this, code, hc]
  | cons x xs => rw [hc] at hs; rw [← hs]; simp [code, hc]

theorem code_ne (o : Option UInt8) : (code o != -1) = o.isSome := by
  cases o with
  | none => rfl
  | some c => simp [code]

theorem more_is {t : T} {c : Cursor} (h : Is t c) : ∃ t', more t = (t', decide (c.rest ≠ [])) ∧ Is t' c := by
  unfold more
  by_cases hc : t.cache.length > 0
  · rw [if_pos hc]
    refine ⟨t, ?_, h⟩
    have : c.rest ≠ [] := by
      rw [← h.rest]; intro h0
      simp at h0; rw [h0.1] at hc; simp at hc
    simp [this]
  · rw [if_neg hc]
    obtain ⟨t', hp, ht'⟩ := peek_is h
    refine ⟨t', ?_, ht'⟩
    rw [hp]; simp only [code_ne]
    cases c.rest <;> simp

theorem row_snoc (seen : Bytes) (rest : Bytes) (x : UInt8) :
    Cursor.row { seen := seen ++ [x], rest := rest } = if x = 10 then seen.count 10 + 1 else seen.count 10 := by
  simp [Cursor.row, List.count_append, List.count_cons]
  split <;> simp_all

theorem col_snoc (seen : Bytes) (rest : Bytes) (x : UInt8) :
    Cursor.col { seen := seen ++ [x], rest := rest } =
      if x = 10 then 0 else (seen.reverse.takeWhile (· ≠ 10)).length + 1 := by
  simp only [Cursor.col, List.reverse_append, List.reverse_cons, List.reverse_nil, List.nil_append, List.cons_append, List.takeWhile_cons]
  by_cases hx : x = 10 <;> simp [hx]

theorem track_is {t : T} {seen rest : Bytes} {x : UInt8} (hw : whole t.reader.src)
    (hr : t.cache ++ bytes t.reader.src = rest) (hrow : t.row = Cursor.row ⟨seen, x :: rest⟩)
    (hcol : t.col = Cursor.col ⟨seen, x :: rest⟩) (hs : t.cache.length ≤ 100) (hsd : t.sound) :
    Is (trackPos t x) ⟨seen ++ [x], rest⟩ := by
  unfold trackPos
  simp only [Cursor.row, Cursor.col] at hrow hcol
  split
  · rename_i hx
    exact ⟨hw, hr, by rw [row_snoc, if_pos hx]; simp [hrow], by rw [col_snoc, if_pos hx], hs, hsd⟩
  · rename_i hx
    exact ⟨hw, hr, by rw [row_snoc, if_neg hx]; simp [hrow], by rw [col_snoc, if_neg hx]; simp [hcol], hs, hsd⟩

theorem skip_one (seen rest : Bytes) (x : UInt8) : Cursor.skip ⟨seen, x :: rest⟩ 1 = ⟨seen ++ [x], rest⟩ := rfl

theorem skip_nil (seen : Bytes) (n : Nat) : Cursor.skip ⟨seen, []⟩ n = ⟨seen, []⟩ := by simp [Cursor.skip]

theorem get_is {t : T} {c : Cursor} (h : Is t c) : ∃ t', get t = (t', code c.rest.head?) ∧ Is t' (c.skip 1) := by
  obtain ⟨seen, rest⟩ := c
  obtain ⟨hw, hr, hrow, hcol, hs, hsd⟩ := h
  unfold get
  cases hc : t.cache with
  | cons x xs =>
    rw [hc] at hr hs
    simp only [List.cons_append] at hr
    subst hr
    refine ⟨_, by simp [code]; rfl, ?_⟩
    rw [skip_one]
    exact track_is hw rfl hrow hcol (by simp at hs ⊢; omega) hsd
  | nil =>
    rw [hc] at hr
    simp only [List.nil_append] at hr
    obtain ⟨src', r, hr', hw', hb, h1, h2⟩ := read_whole t.reader.src hw 1
    simp only [Reader.read, hr', hr]
    rw [hr] at h1 h2 hb
    cases rest with
    | nil =>
      have := h2 (by simp)
      have hne : r ≠ 1 := by omega
      simp only [if_pos hne]
      refine ⟨_, by simp [code]; rfl, ?_⟩
      rw [skip_nil]
      exact ⟨hw', by simp [hb], hrow, hcol, by simp, hsd⟩
    | cons x xs =>
      have := h1 (by simp)
      have hne : ¬ r ≠ 1 := by simp at this; omega
      simp only [if_neg hne]
      refine ⟨_, by simp [code]; rfl, ?_⟩
      rw [skip_one]
      exact track_is hw' (by simp [hb]) hrow hcol (by simp) hsd

theorem past_nil (c : Cursor) : c.past [] = c := by simp [Cursor.past, Cursor.skip]

theorem past_cons (seen rest s : Bytes) (x y : UInt8) :
    Cursor.past ⟨seen, x :: rest⟩ (y :: s) = Cursor.past ⟨seen ++ [x], rest⟩ s := by
  simp [Cursor.past, Cursor.skip]

theorem past_append (c : Cursor) (s u : Bytes) : (c.past s).past u = c.past (s ++ u) := by
  simp [Cursor.past, Cursor.skip, List.take_add]

theorem past_rest (c : Cursor) (s : Bytes) : (c.past s).rest = c.rest.drop s.length := rfl

theorem skip_skip (c : Cursor) (n m : Nat) : (c.skip n).skip m = c.skip (n + m) := by
  simp [Cursor.skip, List.take_add]

theorem toByte_code (x : UInt8) : toByte (x.toNat : Int) = x := by
  have h : ((x.toNat : Int) % 256).toNat = x.toNat := by have := x.toNat_lt; omega
  unfold toByte; rw [h]; simp

theorem inSet_code (set : Bytes) (x : UInt8) : Tok.inSet set (x.toNat : Int) = Spec.Lib.inSet set x := by
  have h1 : (((x.toNat : Int)) == 0) = decide (x = 0) := by
    rw [Bool.eq_iff_iff]; simp [← UInt8.toNat_inj]
  have h2 : (set.any fun y => ((x.toNat : Int)) == (y.toNat : Int)) = decide (x ∈ set) := by
    rw [Bool.eq_iff_iff]; simp only [List.any_eq_true, decide_eq_true_eq, beq_iff_eq]
    constructor
    · rintro ⟨y, hy, e⟩
      have : x = y := UInt8.toNat_inj.mp (by omega)
      exact this ▸ hy
    · exact fun h => ⟨x, h, rfl⟩
  unfold Tok.inSet Spec.Lib.inSet
  rw [h1, h2]
  by_cases a : x = 0 <;> by_cases b : x ∈ set <;> simp [a, b]

theorem isspace_code (x : UInt8) : Tok.isspace (x.toNat : Int) = blank x := by
  revert x; apply Bits.forall_byte; decide +kernel

theorem isdigit_code (x : UInt8) : Tok.isdigit (x.toNat : Int) = digit x := by
  revert x; apply Bits.forall_byte; decide +kernel

theorem isalpha_code (x : UInt8) : Tok.isalpha (x.toNat : Int) = letter x := by
  revert x; apply Bits.forall_byte; decide +kernel

theorem signed_code (x y : UInt8) (hy : y < 128) : ((x.toNat : Int) = Mem.signed y) ↔ x = y := by
  unfold Mem.signed; rw [if_pos hy, ← UInt8.toNat_inj]; omega

theorem signed_eof (y : UInt8) (hy : y < 128) : (-1 : Int) ≠ Mem.signed y := by
  unfold Mem.signed; rw [if_pos hy]; omega

theorem skipSetLoop_is (set : Bytes) (k : Nat) {t : T} {c : Cursor} (h : Is t c) (hk : c.rest.length < k) :
    Is (skipSetLoop set k t) (c.past (c.rest.takeWhile (Spec.Lib.inSet set))) := by
  induction k generalizing t c with
  | zero => omega
  | succ k ih =>
    obtain ⟨t1, e1, h1⟩ := more_is h
    obtain ⟨t2, e2, h2⟩ := peek_is h1
    obtain ⟨t3, e3, h3⟩ := get_is h2
    obtain ⟨seen, rest⟩ := c
    simp only [skipSetLoop, e1, e2, e3]
    cases rest with
    | nil => simpa [past_nil] using h1
    | cons x rest =>
      simp only [List.head?_cons, code, inSet_code, List.takeWhile_cons] at *
      by_cases hx : Spec.Lib.inSet set x
      · simp only [hx, if_true]
        rw [past_cons]
        exact ih h3 (by simp [Cursor.skip] at *; omega)
      · simp only [hx]
        simpa [past_nil] using h2

theorem buf_skip_set_is {t : T} {c : Cursor} (h : Is t c) (set : Bytes) :
    Is (buf_skip_set t set) (c.past (c.rest.takeWhile (Spec.Lib.inSet set))) :=
  skipSetLoop_is set _ h (by rw [h.rounds]; omega)

theorem buf_skip_is {t : T} {c : Cursor} (h : Is t c) (x : UInt8) (hx : x < 128) :
    ∃ t', buf_skip t x = (t', decide (c.rest.head? = some x)) ∧
      Is t' (if c.rest.head? = some x then c.skip 1 else c) := by
  obtain ⟨t1, e1, h1⟩ := peek_is h
  obtain ⟨t2, e2, h2⟩ := get_is h1
  obtain ⟨seen, rest⟩ := c
  cases rest with
  | nil =>
    simp only [List.head?_nil, code] at e1 e2 ⊢
    simp only [buf_skip, e1, e2]
    rw [if_neg (signed_eof x hx)]
    exact ⟨t1, rfl, by simpa using h1⟩
  | cons y rest =>
    simp only [List.head?_cons, code] at e1 e2 ⊢
    simp only [buf_skip, e1, e2]
    by_cases hy : y = x
    · rw [if_pos ((signed_code y x hx).mpr hy)]
      exact ⟨t2, by simp [hy], by simpa [hy] using h2⟩
    · rw [if_neg (fun e => hy ((signed_code y x hx).mp e))]
      exact ⟨t1, by simp [hy], by simpa [hy] using h1⟩

theorem Is.keep {t : T} {c : Cursor} (h : Is t c) {b : Bool} (hb : b = true) : Is { t with sound := b } c :=
  ⟨h.whole, h.rest, h.row, h.col, h.size, hb⟩

theorem readSetLoop_is (set : Bytes) (k : Nat) {t : T} {c : Cursor} (h : Is t c) (hk : c.rest.length < k) (s : Bytes)
    (hfit : s.length + (c.rest.takeWhile (Spec.Lib.inSet set)).length ≤ 10000) :
    ∃ t', readSetLoop set k t s = (t', s ++ c.rest.takeWhile (Spec.Lib.inSet set)) ∧
      Is t' (c.past (c.rest.takeWhile (Spec.Lib.inSet set))) := by
  induction k generalizing t c s with
  | zero => omega
  | succ k ih =>
    obtain ⟨t1, e1, h1⟩ := more_is h
    obtain ⟨t2, e2, h2⟩ := peek_is h1
    obtain ⟨t3, e3, h3⟩ := get_is h2
    obtain ⟨seen, rest⟩ := c
    simp only [readSetLoop, e1, e2, e3]
    cases rest with
    | nil => exact ⟨t1, by simp, by simpa [past_nil] using h1⟩
    | cons x rest =>
      simp only [List.head?_cons, code, inSet_code, List.takeWhile_cons] at *
      by_cases hx : Spec.Lib.inSet set x
      · simp only [hx, if_true] at *
        rw [past_cons]
        simp only [List.length_cons] at hfit hk
        have hlt : s.length < 10000 := by omega
        obtain ⟨t', e', h'⟩ := ih (h3.keep (b := t3.sound && decide (s.length < 10000)) (by simp [h3.sound, hlt]))
          (by simp [Cursor.skip]; omega) (s ++ [toByte x.toNat]) (by simp [Cursor.skip]; omega)
        refine ⟨t', ?_, h'⟩
        simp only [ne_eq, reduceCtorEq, not_false_eq_true, decide_true, Bool.not_true, Bool.false_eq_true, if_false]
        rw [e']
        simp [toByte_code, Cursor.skip]
      · simp only [hx]
        exact ⟨t2, by simp, by simpa [past_nil] using h2⟩

theorem buf_read_set_is {t : T} {c : Cursor} (h : Is t c) (set : Bytes)
    (hfit : (c.rest.takeWhile (Spec.Lib.inSet set)).length ≤ 10000) :
    ∃ t', buf_read_set t set = (t', c.rest.takeWhile (Spec.Lib.inSet set)) ∧
      Is t' (c.past (c.rest.takeWhile (Spec.Lib.inSet set))) := by
  have := readSetLoop_is set (rounds t) h (by rw [h.rounds]; omega) [] (by simpa using hfit)
  simpa [buf_read_set] using this

theorem spacesLoop_is (k : Nat) {t : T} {c : Cursor} (h : Is t c) (hk : c.rest.length < k) (n : Nat) :
    ∃ t', spacesLoop k t n = (t', n + (c.rest.takeWhile blank).length) ∧ Is t' (c.past (c.rest.takeWhile blank)) := by
  induction k generalizing t c n with
  | zero => omega
  | succ k ih =>
    obtain ⟨t2, e2, h2⟩ := peek_is h
    obtain ⟨t3, e3, h3⟩ := get_is h2
    obtain ⟨seen, rest⟩ := c
    simp only [spacesLoop, e2, e3]
    cases rest with
    | nil => exact ⟨t2, by simp [code, Tok.isspace], by simpa [past_nil] using h2⟩
    | cons x rest =>
      simp only [List.head?_cons, code, isspace_code, List.takeWhile_cons] at *
      by_cases hx : blank x
      · simp only [hx, if_true] at *
        rw [past_cons]
        simp only [List.length_cons] at hk
        obtain ⟨t', e', h'⟩ := ih h3 (by simp [Cursor.skip]; omega) (n + 1)
        refine ⟨t', ?_, h'⟩
        rw [e']; simp [Cursor.skip]; omega
      · simp only [hx]
        exact ⟨t2, by simp, by simpa [past_nil] using h2⟩

theorem spaces_is {t : T} {c : Cursor} (h : Is t c) :
    ∃ t', spaces t = (t', decide (c.rest.takeWhile blank ≠ [])) ∧ Is t' (c.past (c.rest.takeWhile blank)) := by
  obtain ⟨t', e, h'⟩ := spacesLoop_is (rounds t) h (by rw [h.rounds]; omega) 0
  refine ⟨t', ?_, h'⟩
  unfold spaces
  rw [e]
  cases c.rest.takeWhile blank <;> simp

theorem hspacesLoop_is (k : Nat) {t : T} {c : Cursor} (h : Is t c) (hk : c.rest.length < k) :
    Is (hspacesLoop k t) (c.past (c.rest.takeWhile fun x => x = 32 || x = 9)) := by
  induction k generalizing t c with
  | zero => omega
  | succ k ih =>
    obtain ⟨t2, e2, h2⟩ := peek_is h
    obtain ⟨t3, e3, h3⟩ := get_is h2
    obtain ⟨t4, e4, h4⟩ := peek_is h2
    obtain ⟨t5, e5, h5⟩ := get_is h4
    obtain ⟨seen, rest⟩ := c
    cases rest with
    | nil =>
      simp only [List.head?_nil, code] at e2 e3 e4 e5
      simp only [hspacesLoop, e2, e3, e4, e5]
      simpa [past_nil] using h4
    | cons x rest =>
      simp only [List.head?_cons, code, List.takeWhile_cons] at *
      simp only [hspacesLoop, e2, e3, e4, e5]
      simp only [List.length_cons] at hk
      have ex : ((x.toNat : Int) = 32) ↔ x = 32 := by rw [← UInt8.toNat_inj]; simp; omega
      have ey : ((x.toNat : Int) = 9) ↔ x = 9 := by rw [← UInt8.toNat_inj]; simp; omega
      by_cases hx : x = 32
      · rw [if_pos (ex.mpr hx), if_pos (by simp [hx]), past_cons]
        exact ih h3 (by simp [Cursor.skip]; omega)
      · rw [if_neg (fun e => hx (ex.mp e))]
        by_cases hy : x = 9
        · rw [if_pos (ey.mpr hy), if_pos (by simp [hy]), past_cons]
          exact ih h5 (by simp [Cursor.skip]; omega)
        · rw [if_neg (fun e => hy (ey.mp e)), if_neg (by simp [hx, hy]), past_nil]
          exact h4

theorem hspaces_is {t : T} {c : Cursor} (h : Is t c) :
    Is (hspaces t) (c.past (c.rest.takeWhile fun x => x = 32 || x = 9)) :=
  hspacesLoop_is _ h (by rw [h.rounds]; omega)

theorem idLoop_is (n : Nat) (k : Nat) {t : T} {c : Cursor} (h : Is t c) (hk : c.rest.length < k) (w : Bytes) :
    ∃ t', idLoop n k t (w.take (n - 1)) = (t', (w ++ c.rest.takeWhile wordChar).take (n - 1)) ∧
      Is t' (c.past (c.rest.takeWhile wordChar)) := by
  induction k generalizing t c w with
  | zero => omega
  | succ k ih =>
    obtain ⟨t1, e1, h1⟩ := more_is h
    obtain ⟨t2, e2, h2⟩ := peek_is h1
    obtain ⟨t3, e3, h3⟩ := get_is h2
    obtain ⟨seen, rest⟩ := c
    cases rest with
    | nil =>
      simp only [idLoop, e1]
      exact ⟨t1, by simp, by simpa [past_nil] using h1⟩
    | cons x rest =>
      simp only [List.head?_cons, code, List.takeWhile_cons] at *
      have hw : (!isalpha (x.toNat : Int) && !isdigit (x.toNat : Int) && ((x.toNat : Int) != 95)) = !wordChar x := by
        rw [isalpha_code, isdigit_code]
        have : (((x.toNat : Int)) != 95) = !decide (x = 95) := by
          rw [Bool.eq_iff_iff]; simp [← UInt8.toNat_inj]; omega
        rw [this]; unfold wordChar
        cases letter x <;> cases digit x <;> cases decide (x = 95) <;> rfl
      simp only [idLoop, e1, e2, e3, hw, toByte_code]
      simp only [List.length_cons] at hk
      by_cases hx : wordChar x
      · simp only [hx, if_true]
        rw [past_cons]
        obtain ⟨t', e', h'⟩ := ih h3 (by simp [Cursor.skip]; omega) (w ++ [x])
        refine ⟨t', ?_, h'⟩
        have hb : (if (w.take (n - 1)).length < n - 1 then w.take (n - 1) ++ [x] else w.take (n - 1)) = (w ++ [x]).take (n - 1) := by
          by_cases hl : w.length < n - 1
          · rw [List.take_of_length_le (by omega), if_pos hl, List.take_of_length_le (by simp; omega)]
          · rw [if_neg (by simp; omega), List.take_append_of_le_length (by omega)]
        simp only [ne_eq, reduceCtorEq, not_false_eq_true, decide_true, Bool.not_true, Bool.false_eq_true, if_false]
        rw [hb, e']
        simp [Cursor.skip]
      · simp only [hx]
        exact ⟨t2, by simp, by simpa [past_nil] using h2⟩

theorem id_is {t : T} {c : Cursor} (h : Is t c) (n : Nat) :
    ∃ t', Tok.id t n = (t', (wordAt c.rest).map (·.take (n - 1))) ∧ Is t' (c.past ((wordAt c.rest).getD [])) := by
  obtain ⟨t1, e1, h1⟩ := peek_is h
  obtain ⟨t2, e2, h2⟩ := peek_is h1
  obtain ⟨seen, rest⟩ := c
  cases rest with
  | nil =>
    simp only [List.head?_nil, code] at e1 e2
    refine ⟨t2, ?_, by simpa [wordAt, past_nil] using h2⟩
    simp [Tok.id, e1, e2, Tok.isalpha, wordAt]
  | cons x rest =>
    simp only [List.head?_cons, code] at e1 e2
    have h95 : (((x.toNat : Int)) != 95) = !decide (x = 95) := by
      rw [Bool.eq_iff_iff]; simp [← UInt8.toNat_inj]; omega
    simp only [Tok.id, e1, e2, isalpha_code]
    by_cases hl : letter x
    · obtain ⟨t', e', h'⟩ := idLoop_is n (rounds t1) h1 (by rw [h1.rounds]; omega) []
      refine ⟨t', ?_, by simpa [wordAt, hl] using h'⟩
      simp only [List.take_nil] at e'
      simp [hl, e', wordAt]
    · by_cases hu : x = 95
      · obtain ⟨t', e', h'⟩ := idLoop_is n (rounds t2) h2 (by rw [h2.rounds]; omega) []
        refine ⟨t', ?_, by simpa [wordAt, hu] using h'⟩
        simp only [List.take_nil] at e'
        subst hu
        simp [hl, e', wordAt]
      · refine ⟨t2, ?_, by simpa [wordAt, hl, hu, past_nil] using h2⟩
        simp [hl, h95, hu, wordAt]

theorem storeGet_is {t : T} {seen rest : Bytes} {x : UInt8} (h : Is t ⟨seen, x :: rest⟩) {n : Nat} {buf : Bytes}
    (hb : buf.length < n) : ∃ t', storeGet n t buf = (t', buf ++ [x]) ∧ Is t' ⟨seen ++ [x], rest⟩ := by
  obtain ⟨t1, e1, h1⟩ := get_is h
  simp only [List.head?_cons, code] at e1
  refine ⟨_, by simp only [storeGet, e1, store, toByte_code]; rfl, ?_⟩
  rw [skip_one] at h1
  exact h1.keep (by simp [h1.sound, hb])

theorem digitsLoop_is (n : Nat) (k : Nat) {t : T} {c : Cursor} (h : Is t c) (hk : c.rest.length < k) (buf : Bytes)
    (hfit : buf.length + (c.rest.takeWhile digit).length ≤ n) :
    ∃ t', digitsLoop n k t buf = (t', buf ++ c.rest.takeWhile digit) ∧ Is t' (c.past (c.rest.takeWhile digit)) := by
  induction k generalizing t c buf with
  | zero => omega
  | succ k ih =>
    obtain ⟨t2, e2, h2⟩ := peek_is h
    obtain ⟨seen, rest⟩ := c
    cases rest with
    | nil =>
      simp only [List.head?_nil, code] at e2
      simp only [digitsLoop, e2]
      exact ⟨t2, by simp [Tok.isdigit], by simpa [past_nil] using h2⟩
    | cons x rest =>
      simp only [List.head?_cons, code, List.takeWhile_cons] at *
      simp only [digitsLoop, e2, isdigit_code]
      by_cases hx : digit x
      · simp only [hx, if_true, List.length_cons] at *
        obtain ⟨t3, e3, h3⟩ := storeGet_is h2 (n := n) (buf := buf) (by omega)
        simp only [e3]
        rw [past_cons]
        obtain ⟨t', e', h'⟩ := ih h3 (by simp; omega) (buf ++ [x]) (by simp; omega)
        exact ⟨t', by rw [e']; simp, h'⟩
      · simp only [hx]
        exact ⟨t2, by simp, by simpa [past_nil] using h2⟩

theorem digits_is {n : Nat} {t : T} {c : Cursor} (h : Is t c) (buf : Bytes)
    (hfit : buf.length + (digitsAt c.rest).1.length ≤ n) :
    ∃ t', digits n t buf = (t', if (digitsAt c.rest).2 then some (buf ++ (digitsAt c.rest).1) else none) ∧
      Is t' (c.past (digitsAt c.rest).1) := by
  obtain ⟨t2, e2, h2⟩ := peek_is h
  simp only [digitsAt] at *
  obtain ⟨t', e', h'⟩ := digitsLoop_is n (rounds t2) h2 (by rw [h2.rounds]; omega) buf hfit
  obtain ⟨seen, rest⟩ := c
  cases rest with
  | nil =>
    simp only [List.head?_nil, code] at e2
    refine ⟨t2, ?_, by simpa [past_nil] using h2⟩
    simp [digits, e2, Tok.isdigit]
  | cons x rest =>
    simp only [List.head?_cons, code] at e2
    simp only [digits, e2, isdigit_code]
    by_cases hx : digit x
    · refine ⟨t', ?_, h'⟩
      simp only [hx, e']
      simp [hx]
    · refine ⟨t2, ?_, ?_⟩
      · simp [hx]
      · simpa [hx, past_nil] using h2

theorem store_is {n : Nat} {t : T} {c : Cursor} (h : Is t c) {buf : Bytes} (hb : buf.length < n) (x : Int) :
    Is (store n t buf x).1 c := h.keep (by simp [h.sound, hb])

theorem char_iff (x : UInt8) (m : Nat) (hm : m < 256) : ((x.toNat : Int) = (m : Int)) ↔ x = UInt8.ofNat m := by
  rw [← UInt8.toNat_inj]; simp [UInt8.toNat_ofNat']; omega

theorem numExp_is {n : Nat} {t : T} {c : Cursor} (h : Is t c) (buf : Bytes)
    (hfit : buf.length + (expAt c.rest).1.length < n) :
    ∃ t', numExp n t buf = (t', if (expAt c.rest).2 then some (buf ++ (expAt c.rest).1) else none) ∧
      Is t' (c.past (expAt c.rest).1) := by
  obtain ⟨t1, e1, h1⟩ := peek_is h
  obtain ⟨seen, rest⟩ := c
  cases rest with
  | nil =>
    simp only [List.head?_nil, code] at e1
    simp only [expAt] at *
    refine ⟨_, by simp only [numExp, e1]; simp; rfl, ?_⟩
    rw [past_nil]; exact store_is h1 (by simpa using hfit) 0
  | cons x rest =>
    simp only [List.head?_cons, code] at e1
    have ea : ((x.toNat : Int) = 101) ↔ x = 101 := char_iff x 101 (by omega)
    have eb : ((x.toNat : Int) = 69) ↔ x = 69 := char_iff x 69 (by omega)
    by_cases hx : x = 101 ∨ x = 69
    · have hx' : (x = 101 || x = 69) = true := by simpa using hx
      have hc : (decide ((x.toNat : Int) = 101) || decide ((x.toNat : Int) = 69)) = true := by
        simp only [Bool.or_eq_true, decide_eq_true_eq]
        rcases hx with hx | hx
        · exact .inl (ea.mpr hx)
        · exact .inr (eb.mpr hx)
      have hl : buf.length < n := by omega
      obtain ⟨t2, e2, h2⟩ := storeGet_is h1 hl
      obtain ⟨t3, e3, h3⟩ := peek_is h2
      cases rest with
      | nil =>
        simp only [List.head?_nil, code] at e3
        simp only [expAt, hx', if_true, List.length_cons, List.length_nil] at *
        obtain ⟨t4, e4, h4⟩ := digits_is (n := n) h3 (buf ++ [x]) (by simp [digitsAt]; omega)
        refine ⟨t4, ?_, ?_⟩
        · simp only [numExp, e1, hc, if_true, e2, e3]
          simp [e4, digitsAt]
        · simpa [past_cons, digitsAt] using h4
      | cons g rest =>
        simp only [List.head?_cons, code] at e3
        have ec : ((g.toNat : Int) = 45) ↔ g = 45 := char_iff g 45 (by omega)
        have ed : ((g.toNat : Int) = 43) ↔ g = 43 := char_iff g 43 (by omega)
        by_cases hg : g = 45 ∨ g = 43
        · have hg' : (g = 45 || g = 43) = true := by simpa using hg
          have hd : (decide ((g.toNat : Int) = 45) || decide ((g.toNat : Int) = 43)) = true := by
            simp only [Bool.or_eq_true, decide_eq_true_eq]
            rcases hg with hg | hg
            · exact .inl (ec.mpr hg)
            · exact .inr (ed.mpr hg)
          simp only [expAt, hx', hg', if_true, List.length_cons] at *
          obtain ⟨t4, e4, h4⟩ := storeGet_is h3 (n := n) (buf := buf ++ [x]) (by simp; omega)
          obtain ⟨t5, e5, h5⟩ := digits_is (n := n) h4 (buf ++ [x] ++ [g]) (by simp; omega)
          simp only at e5 h5
          simp only [numExp, e1, hc, if_true, e2, e3, hd, e4, e5]
          cases hok : (digitsAt rest).2 with
          | false => exact ⟨t5, by simp, by simpa [past_cons] using h5⟩
          | true =>
            refine ⟨_, by simp; rfl, ?_⟩
            rw [past_cons, past_cons]
            exact store_is h5 (by simp; omega) 0
        · have hg' : ¬ ((g = 45 || g = 43) = true) := by simpa using hg
          have hd : ¬ ((decide ((g.toNat : Int) = 45) || decide ((g.toNat : Int) = 43)) = true) := by
            simp only [Bool.or_eq_true, decide_eq_true_eq]
            rintro (e | e)
            · exact hg (.inl (ec.mp e))
            · exact hg (.inr (ed.mp e))
          simp only [expAt, hx', if_neg hg', if_true, List.length_cons] at *
          obtain ⟨t5, e5, h5⟩ := digits_is (n := n) h3 (buf ++ [x]) (by simp; omega)
          simp only at e5 h5
          simp only [numExp, e1, hc, if_true, e2, e3, if_neg hd, e5]
          cases hok : (digitsAt (g :: rest)).2 with
          | false => exact ⟨t5, by simp, by simpa [past_cons] using h5⟩
          | true =>
            refine ⟨_, by simp; rfl, ?_⟩
            rw [past_cons]
            exact store_is h5 (by simp; omega) 0
    · have hx' : ¬ ((x = 101 || x = 69) = true) := by simpa using hx
      have hc : ¬ ((decide ((x.toNat : Int) = 101) || decide ((x.toNat : Int) = 69)) = true) := by
        simp only [Bool.or_eq_true, decide_eq_true_eq]
        rintro (e | e)
        · exact hx (.inl (ea.mp e))
        · exact hx (.inr (eb.mp e))
      simp only [expAt, if_neg hx'] at *
      refine ⟨_, by simp only [numExp, e1, if_neg hc]; simp; rfl, ?_⟩
      rw [past_nil]; exact store_is h1 (by simpa using hfit) 0

theorem past_drop {c : Cursor} {s : Bytes} : (c.past s).rest = c.rest.drop s.length := rfl

theorem fracAt_exp (s : Bytes) (h : s.head? ≠ some 46) : fracAt s = expAt s := by
  cases s with
  | nil => rfl
  | cons x s =>
    have : x ≠ 46 := by simpa using h
    simp [fracAt, this]

theorem unsigned_is {n : Nat} {t : T} {c : Cursor} (h : Is t c) (buf : Bytes)
    (hfit : buf.length + (unsignedAt c.rest).1.length < n) :
    ∃ t', numUnsigned n t buf =
      (t', if (unsignedAt c.rest).2 then some (buf ++ (unsignedAt c.rest).1) else none) ∧
      Is t' (c.past (unsignedAt c.rest).1) := by
  have hlen : (digitsAt c.rest).1.length ≤ (unsignedAt c.rest).1.length := by
    simp only [unsignedAt]; split <;> simp
  obtain ⟨t1, e1, h1⟩ := digits_is (n := n) h buf (by omega)
  unfold numUnsigned
  rw [e1]
  cases hok : (digitsAt c.rest).2 with
  | false =>
    refine ⟨t1, by simp [unsignedAt, hok], by simpa [unsignedAt, hok] using h1⟩
  | true =>
    simp only [if_true]
    have hu : unsignedAt c.rest = ((digitsAt c.rest).1 ++ (fracAt (c.rest.drop (digitsAt c.rest).1.length)).1,
        (fracAt (c.rest.drop (digitsAt c.rest).1.length)).2) := by simp [unsignedAt, hok]
    rw [hu] at hfit ⊢
    simp only [List.length_append] at hfit
    rw [← past_append]
    rw [← past_drop] at hfit ⊢
    have hassoc : ∀ fs : Bytes, buf ++ ((digitsAt c.rest).1 ++ fs) = (buf ++ (digitsAt c.rest).1) ++ fs := by simp
    simp only [hassoc]
    have hbl : (buf ++ (digitsAt c.rest).1).length = buf.length + (digitsAt c.rest).1.length := by simp
    generalize buf ++ (digitsAt c.rest).1 = buf' at *
    generalize c.past (digitsAt c.rest).1 = c' at *
    clear hu hok e1 h hassoc hlen
    obtain ⟨t2, e2, h2⟩ := peek_is h1
    by_cases h46 : c'.rest.head? = some 46
    · obtain ⟨seen, rest⟩ := c'
      cases rest with
      | nil => simp at h46
      | cons x rest =>
        simp only [List.head?_cons, Option.some.injEq] at h46
        subst h46
        simp only [List.head?_cons, code] at e2
        have hl : (digitsAt rest).1.length + 1 ≤ (fracAt (46 :: rest)).1.length := by
          simp only [fracAt, if_true]; split <;> simp
        simp only at hfit
        obtain ⟨t3, e3, h3⟩ := storeGet_is h2 (n := n) (buf := buf') (by omega)
        obtain ⟨t4, e4, h4⟩ := digits_is (n := n) h3 (buf' ++ [46]) (by simp; omega)
        simp only [e2, e3]
        rw [if_pos (by rfl), e4]
        cases hd : (digitsAt rest).2 with
        | false =>
          refine ⟨t4, by simp [fracAt, hd], ?_⟩
          simpa [fracAt, hd, past_cons] using h4
        | true =>
          simp only [if_true]
          have hf : fracAt (46 :: rest) = (46 :: (digitsAt rest).1 ++ (expAt (rest.drop (digitsAt rest).1.length)).1,
              (expAt (rest.drop (digitsAt rest).1.length)).2) := by simp [fracAt, hd]
          rw [hf] at hfit ⊢
          simp only [List.cons_append, List.length_cons, List.length_append] at hfit
          simp only [List.cons_append]
          rw [past_cons, ← past_append]
          obtain ⟨t5, e5, h5⟩ := numExp_is (n := n) h4 (buf' ++ [46] ++ (digitsAt rest).1) (by
            simp only [List.length_append, List.length_cons, List.length_nil, past_drop]; omega)
          rw [past_drop] at e5 h5
          exact ⟨t5, by rw [e5]; simp, h5⟩
    · have hne : code c'.rest.head? ≠ 46 := by
        intro e
        cases hh : c'.rest.head? with
        | none => rw [hh] at e; simp [code] at e
        | some x =>
          rw [hh] at e h46
          have : x = 46 := (char_iff x 46 (by omega)).mp e
          exact h46 (by rw [this])
      simp only [e2]
      rw [if_neg hne, fracAt_exp _ h46] at *
      exact numExp_is h2 buf' (by omega)

theorem num_is {n : Nat} {t : T} {c : Cursor} (h : Is t c) (hfit : (numberAt c.rest).1.length < n) :
    ∃ t', num t n = (t', if (numberAt c.rest).2 then some (numberAt c.rest).1 else none) ∧
      Is t' (c.past (numberAt c.rest).1) := by
  obtain ⟨t1, e1, h1⟩ := peek_is h
  obtain ⟨seen, rest⟩ := c
  unfold num
  cases rest with
  | nil =>
    simp only [List.head?_nil, code] at e1
    rw [e1]
    simp only []
    obtain ⟨t2, e2, h2⟩ := unsigned_is (n := n) h1 [] (by simpa [unsignedAt, digitsAt, numberAt] using hfit)
    refine ⟨t2, ?_, by simpa [numberAt, unsignedAt, digitsAt] using h2⟩
    rw [if_neg (by decide)]
    simpa [numberAt, unsignedAt, digitsAt] using e2
  | cons x rest =>
    simp only [List.head?_cons, code] at e1
    rw [e1]
    simp only []
    have ex : ((x.toNat : Int) = 45) ↔ x = 45 := char_iff x 45 (by omega)
    by_cases hx : x = 45
    · have hn : numberAt (x :: rest) = (x :: (unsignedAt rest).1, (unsignedAt rest).2) := by simp [numberAt, hx]
      simp only [hn] at *
      simp only [List.length_cons] at hfit
      obtain ⟨t2, e2, h2⟩ := storeGet_is h1 (n := n) (buf := []) (by simp; omega)
      rw [if_pos (ex.mpr hx), e2]
      simp only [List.nil_append]
      obtain ⟨t3, e3, h3⟩ := unsigned_is (n := n) h2 [x] (by simp; omega)
      refine ⟨t3, ?_, by rw [past_cons]; exact h3⟩
      simpa using e3
    · have hn : numberAt (x :: rest) = unsignedAt (x :: rest) := by simp [numberAt, hx]
      simp only [hn] at *
      rw [if_neg (fun e => hx (ex.mp e))]
      obtain ⟨t3, e3, h3⟩ := unsigned_is (n := n) h1 [] (by simp; omega)
      exact ⟨t3, by simpa using e3, h3⟩

theorem sameLoop_iff (lit : Bytes) (h0 : 0 ∉ lit) (c : Bytes) : sameLoop c lit = decide (lit <+: c) := by
  induction lit generalizing c with
  | nil => cases c <;> simp [sameLoop]
  | cons q qs ih =>
    cases c with
    | nil => simp [sameLoop]
    | cons p ps =>
      simp only [List.mem_cons, not_or] at h0
      simp only [sameLoop, List.cons_prefix_cons, ih h0.2]
      by_cases hpq : p = q
      · have : p ≠ 0 := fun e => h0.1 (by rw [← hpq, e])
        simp [← hpq, this]
      · have : q ≠ p := fun e => hpq e.symm
        simp [hpq, this]

theorem literal_follows_is {t : T} {c : Cursor} (h : Is t c) (lit : Bytes) (hl : lit.length ≤ 100) (h0 : 0 ∉ lit) :
    ∃ t', literal_follows t lit = (t', decide (lit <+: c.rest)) ∧ Is t' c := by
  obtain ⟨h1, h2, h3⟩ := prefetch_is h hl
  unfold literal_follows
  simp only []
  generalize prefetch t lit.length = t' at *
  by_cases hlt : t'.cache.length < lit.length
  · rw [if_pos hlt]
    refine ⟨t', ?_, h1⟩
    have : ¬ lit <+: c.rest := by
      intro hp
      rcases h2 with h2 | h2
      · omega
      · have := hp.length_le; rw [← h2] at this; omega
    simp [this]
  · rw [if_neg hlt]
    refine ⟨t', ?_, h1⟩
    rw [sameLoop_iff _ h0]
    have : lit <+: t'.cache ↔ lit <+: c.rest :=
      ⟨fun hp => hp.trans h3, fun hp => List.prefix_of_prefix_length_le hp h3 (by omega)⟩
    simp [this]

theorem getN_is (n : Nat) {t : T} {c : Cursor} (h : Is t c) : Is (getN n t) (c.skip n) := by
  induction n generalizing t c with
  | zero => simpa [getN, Cursor.skip] using h
  | succ n ih =>
    obtain ⟨t1, e1, h1⟩ := get_is h
    rw [getN, e1, show n + 1 = 1 + n by omega, ← skip_skip]
    exact ih h1

theorem skip_literal_is {t : T} {c : Cursor} (h : Is t c) (lit : Bytes) (hl : lit.length ≤ 100) (h0 : 0 ∉ lit) :
    ∃ t', skip_literal t lit = (t', decide (lit <+: c.rest)) ∧ Is t' (if lit <+: c.rest then c.past lit else c) := by
  obtain ⟨t1, e1, h1⟩ := literal_follows_is h lit hl h0
  unfold skip_literal
  rw [e1]
  by_cases hp : lit <+: c.rest
  · exact ⟨getN lit.length t1, by simp [hp], by simp only [hp, if_true]; exact getN_is _ h1⟩
  · exact ⟨t1, by simp [hp], by simpa [hp] using h1⟩

theorem skipUntilLoop_is (lit : Bytes) (hl : lit.length ≤ 100) (h0 : 0 ∉ lit) (k : Nat) {t : T} {c : Cursor} (h : Is t c)
    (hk : c.rest.length < k) (s : Bytes) (hfit : s.length + (before lit c.rest).length ≤ 10000) :
    ∃ t', skipUntilLoop lit k t s = (t', s ++ before lit c.rest) ∧ Is t' (c.past (before lit c.rest)) := by
  induction k generalizing t c s with
  | zero => omega
  | succ k ih =>
    obtain ⟨t1, e1, h1⟩ := more_is h
    obtain ⟨t2, e2, h2⟩ := literal_follows_is h1 lit hl h0
    obtain ⟨t3, e3, h3⟩ := get_is h2
    obtain ⟨seen, rest⟩ := c
    cases rest with
    | nil =>
      simp only [skipUntilLoop, e1]
      exact ⟨t1, by simp [before], by simpa [before, past_nil] using h1⟩
    | cons x rest =>
      simp only [List.head?_cons, code] at e3
      simp only [skipUntilLoop, e1, e2, e3, toByte_code, before] at *
      by_cases hp : lit <+: x :: rest
      · have : lit.isPrefixOf (x :: rest) = true := by simpa using hp
        simp only [this, if_true]
        exact ⟨t2, by simp [hp], by simpa [past_nil] using h2⟩
      · have : ¬ lit.isPrefixOf (x :: rest) = true := by simpa using hp
        simp only [if_neg this] at *
        simp only [List.length_cons] at hfit hk
        have hlt : s.length < 10000 := by omega
        rw [past_cons]
        obtain ⟨t', e', h'⟩ := ih (h3.keep (b := t3.sound && decide (s.length < 10000)) (by simp [h3.sound, hlt]))
          (by simp [Cursor.skip]; omega) (s ++ [x]) (by simp [Cursor.skip]; omega)
        refine ⟨t', ?_, h'⟩
        simp only [ne_eq, reduceCtorEq, not_false_eq_true, decide_true, Bool.not_true, Bool.false_eq_true, if_false, hp, decide_false]
        rw [e']
        simp [Cursor.skip]

theorem buf_skip_until_is {t : T} {c : Cursor} (h : Is t c) (lit : Bytes) (hl : lit.length ≤ 100) (h0 : 0 ∉ lit)
    (hfit : (before lit c.rest).length ≤ 10000) :
    ∃ t', buf_skip_until t lit = (t', before lit c.rest) ∧ Is t' (c.past (before lit c.rest)) := by
  have := skipUntilLoop_is lit hl h0 (rounds t) h (by rw [h.rounds]; omega) [] (by simpa using hfit)
  simpa [buf_skip_until] using this

theorem readUntilLoop_is (x : UInt8) (hx : x < 128) (len : Nat) (k : Nat) {t : T} {c : Cursor} (h : Is t c)
    (hk : c.rest.length < k) (s : Bytes) (hs : s.length < len) :
    ∃ t', readUntilLoop x len k t s =
        (t', decide (s.length + (c.rest.takeWhile (· ≠ x)).length < len), s ++ (c.rest.takeWhile (· ≠ x)).take (len - 1 - s.length)) ∧
      Is t' (c.past ((c.rest.takeWhile (· ≠ x)).take (len - 1 - s.length))) := by
  induction k generalizing t c s with
  | zero => omega
  | succ k ih =>
    obtain ⟨t1, e1, h1⟩ := more_is h
    obtain ⟨t2, e2, h2⟩ := peek_is h1
    obtain ⟨t3, e3, h3⟩ := get_is h2
    obtain ⟨seen, rest⟩ := c
    cases rest with
    | nil =>
      simp only [readUntilLoop, e1]
      exact ⟨t1, by simp [hs], by simpa [past_nil] using h1⟩
    | cons y rest =>
      simp only [List.head?_cons, code] at e2 e3
      simp only [readUntilLoop, e1, e2, e3, toByte_code, List.takeWhile_cons]
      by_cases hy : y = x
      · refine ⟨t2, ?_, ?_⟩
        · have := (signed_code y x hx).mpr hy
          subst hy
          simp [this, hs]
        · simpa [hy, past_nil] using h2
      · have hne : (y.toNat : Int) ≠ Mem.signed x := fun e => hy ((signed_code y x hx).mp e)
        simp only [List.length_cons] at hk
        by_cases hf : s.length = len - 1
        · refine ⟨t2, ?_, ?_⟩
          · simp only [ne_eq, reduceCtorEq, not_false_eq_true, decide_true, Bool.not_true, Bool.false_eq_true, if_false, hne, if_true, hf, hy,
              List.length_cons, Nat.sub_self, List.take_zero, List.append_nil]
            simp; omega
          · have : len - 1 - s.length = 0 := by omega
            simpa [hy, this, past_nil] using h2
        · obtain ⟨t', e', h'⟩ := ih h3 (by simp [Cursor.skip]; omega) (s ++ [y]) (by simp; omega)
          have hd : len - 1 - s.length = (len - 1 - (s ++ [y]).length) + 1 := by simp; omega
          refine ⟨t', ?_, ?_⟩
          · simp only [ne_eq, reduceCtorEq, not_false_eq_true, decide_true, Bool.not_true, Bool.false_eq_true, if_false, hne, hf, if_true, hy]
            rw [e', hd]
            simp [Cursor.skip]
            omega
          · simp only [ne_eq, hy, not_false_eq_true, decide_true, if_true]
            rw [hd, List.take_succ_cons, past_cons]
            exact h'

theorem read_until_is {t : T} {c : Cursor} (h : Is t c) (x : UInt8) (hx : x < 128) (n : Nat) (hn : 0 < n) :
    ∃ t', read_until t x n =
        (t', decide ((c.rest.takeWhile (· ≠ x)).length < n), (c.rest.takeWhile (· ≠ x)).take (n - 1)) ∧
      Is t' (c.past ((c.rest.takeWhile (· ≠ x)).take (n - 1))) := by
  have := readUntilLoop_is x hx n (rounds t) h (by rw [h.rounds]; omega) [] hn
  simpa [read_until] using this

theorem tail_is {t : T} {c : Cursor} (h : Is t c) (buf : Bytes) (hb : 0 < buf.length) (hb' : buf.length ≤ 100) :
    ∃ t', tail t buf buf.length = (t', into buf (c.rest.take (buf.length - 1))) ∧ Is t' c := by
  obtain ⟨h1, h2, h3⟩ := prefetch_is h hb'
  unfold tail
  simp only []
  generalize prefetch t buf.length = t' at *
  refine ⟨t', ?_, h1⟩
  have hs : t'.cache.take (if buf.length - 1 > t'.cache.length then t'.cache.length else buf.length - 1) = c.rest.take (buf.length - 1) := by
    obtain ⟨u, hu⟩ := h3
    rcases h2 with h2 | h2
    · rw [if_neg (by omega), ← hu, List.take_append_of_le_length (by omega)]
    · rw [h2]
      split
      · rw [List.take_of_length_le (by omega), List.take_of_length_le (by omega)]
      · rfl
  have hn : (if buf.length - 1 > t'.cache.length then t'.cache.length else buf.length - 1) = (c.rest.take (buf.length - 1)).length := by
    rw [← hs, List.length_take]; split <;> omega
  rw [hs, hn]
  generalize hS : c.rest.take (buf.length - 1) = S at *
  have hSl : S.length ≤ buf.length - 1 := by rw [← hS]; simp; omega
  have hd : buf.drop S.length ≠ [] := by
    intro e; have := congrArg List.length e; simp at this; omega
  obtain ⟨d, z, hdz⟩ : ∃ d z, buf.drop S.length = d ++ [z] := by
    exact ⟨_, _, (List.dropLast_concat_getLast hd).symm⟩
  have hdl : S.length + d.length + 1 = buf.length := by
    have := congrArg List.length hdz; simp at this; omega
  unfold into
  rw [hdz]
  have : S ++ (d ++ [z]) = (S ++ d) ++ [z] := by simp
  rw [this, List.set_append_right _ _ (by simp; omega)]
  have : buf.length - 1 - (S ++ d).length = 0 := by simp; omega
  rw [this]
  simp

/-- The calls of a tokenizer. -/
def call (t : T) : Call → T × Answer
  | .peek => let (t, c) := peek t; (t, .char c)
  | .more => let (t, b) := more t; (t, .flag b)
  | .get => let (t, c) := get t; (t, .char c)
  | .tail buf => let (t, s) := tail t buf buf.length; (t, .text s)
  | .skipSet set => (buf_skip_set t set, .nothing)
  | .skip x => let (t, b) := buf_skip t x; (t, .flag b)
  | .readSet set => let (t, s) := buf_read_set t set; (t, .text s)
  | .spaces => let (t, b) := spaces t; (t, .flag b)
  | .hspaces => (hspaces t, .nothing)
  | .id n => let (t, s) := Tok.id t n; (t, .maybe s)
  | .num n => let (t, s) := num t n; (t, .maybe s)
  | .skipLiteral lit => let (t, b) := skip_literal t lit; (t, .flag b)
  | .literalFollows lit => let (t, b) := literal_follows t lit; (t, .flag b)
  | .position => (t, .text (posstr t))
  | .skipUntil lit => let (t, s) := buf_skip_until t lit; (t, .text s)
  | .readUntil x n => let (t, b, s) := read_until t x n; (t, .flagText b s)

/-- Calls made one after another. -/
def run (t : T) : List Call → T × List Answer
  | [] => (t, [])
  | k :: ks =>
    let (t, a) := call t k
    let (t, as) := run t ks
    (t, a :: as)

theorem call_is {t : T} {c : Cursor} (h : Is t c) (k : Call) (hf : c.Fits k) :
    ∃ t', call t k = (t', (c.call k).2) ∧ Is t' (c.call k).1 := by
  cases k with
  | peek => obtain ⟨t', e, h'⟩ := peek_is h; exact ⟨t', by simp [call, e, Cursor.call], h'⟩
  | more => obtain ⟨t', e, h'⟩ := more_is h; exact ⟨t', by simp [call, e, Cursor.call], h'⟩
  | get => obtain ⟨t', e, h'⟩ := get_is h; exact ⟨t', by simp [call, e, Cursor.call], h'⟩
  | tail buf => obtain ⟨t', e, h'⟩ := tail_is h buf hf.1 hf.2; exact ⟨t', by simp [call, e, Cursor.call], h'⟩
  | skipSet set => exact ⟨_, rfl, buf_skip_set_is h set⟩
  | skip x =>
    obtain ⟨t', e, h'⟩ := buf_skip_is h x hf
    refine ⟨t', ?_, ?_⟩
    · simp only [call, e, Cursor.call]; split <;> simp_all
    · simp only [Cursor.call]; split <;> simp_all
  | readSet set => obtain ⟨t', e, h'⟩ := buf_read_set_is h set hf; exact ⟨t', by simp [call, e, Cursor.call], h'⟩
  | spaces => obtain ⟨t', e, h'⟩ := spaces_is h; exact ⟨t', by simp [call, e, Cursor.call], h'⟩
  | hspaces => exact ⟨_, rfl, hspaces_is h⟩
  | id n =>
    obtain ⟨t', e, h'⟩ := id_is h n
    refine ⟨t', ?_, ?_⟩
    · simp only [call, e, Cursor.call]; cases wordAt c.rest <;> simp
    · simp only [Cursor.call]
      cases hw : wordAt c.rest with
      | none => simpa [hw, past_nil] using h'
      | some w => simpa [hw] using h'
  | num n => obtain ⟨t', e, h'⟩ := num_is h hf; exact ⟨t', by simp [call, e, Cursor.call], h'⟩
  | skipLiteral lit =>
    obtain ⟨t', e, h'⟩ := skip_literal_is h lit hf.1 hf.2
    refine ⟨t', ?_, ?_⟩
    · simp only [call, e, Cursor.call]; split <;> simp_all
    · simp only [Cursor.call]; split <;> simp_all
  | literalFollows lit =>
    obtain ⟨t', e, h'⟩ := literal_follows_is h lit hf.1 hf.2; exact ⟨t', by simp [call, e, Cursor.call], h'⟩
  | position => exact ⟨t, by simp [call, Cursor.call, posstr, h.row, h.col, decimal, digitsOf], h⟩
  | skipUntil lit =>
    obtain ⟨t', e, h'⟩ := buf_skip_until_is h lit hf.1 hf.2.1 hf.2.2; exact ⟨t', by simp [call, e, Cursor.call], h'⟩
  | readUntil x n =>
    obtain ⟨t', e, h'⟩ := read_until_is h x hf.1 n hf.2
    refine ⟨t', ?_, ?_⟩
    · simp only [call, e, Cursor.call]
      split
      · rename_i hl; rw [List.take_of_length_le (by omega), decide_eq_true hl]
      · rename_i hl; rw [decide_eq_false hl]
    · simp only [Cursor.call]
      split
      · rename_i hl; rw [List.take_of_length_le (by omega)] at h'; exact h'
      · rename_i hl
        have : ((c.rest.takeWhile (· ≠ x)).take (n - 1)).length = n - 1 := by rw [List.length_take]; omega
        unfold Cursor.past at h'; rw [this] at h'; exact h'

theorem run_is (ks : List Call) {t : T} {c : Cursor} (h : Is t c) (hf : c.AllFit ks) :
    ∃ t', run t ks = (t', c.run ks) ∧ t'.sound = true := by
  induction ks generalizing t c with
  | nil => exact ⟨t, rfl, h.sound⟩
  | cons k ks ih =>
    obtain ⟨t1, e1, h1⟩ := call_is h k hf.1
    obtain ⟨t2, e2, h2⟩ := ih h1 hf.2
    exact ⟨t2, by simp [run, e1, e2, Cursor.run], h2⟩

theorem new_is (r : Reader) (h : whole r.src) : Is (new r) { seen := [], rest := bytes r.src } :=
  ⟨h, by simp [new], rfl, rfl, by simp [new], rfl⟩

end Che.Lib.Tok
