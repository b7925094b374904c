import Verif.Model.Prog.Tracklist
import Verif.Spec.Prog.Tracklist
import Verif.Proofs.Lib.Srt
import Verif.Proofs.Lib.Time

namespace Che.Prog.Tracklist
open Che.Lib Che.Spec.Tracklist Che.Spec.Opt

private theorem bind_ok {α β : Type} (a : α) (f : α → Res String β) : (Res.ok a : Res String α).bind f = f a := rfl

theorem blank_space {c : UInt8} (h : c = 32 ∨ c = 9) : Strings.isspace c = true := by rcases h with rfl | rfl <;> decide

theorem digit_space {c : UInt8} (h : 48 ≤ c ∧ c ≤ 57) : Strings.isspace c = false ∧ c ≠ 0 ∧ c ≠ 10 ∧ c ≠ 58 := by
  have : ∀ n : Fin 256, (48 ≤ UInt8.ofNat n.val ∧ UInt8.ofNat n.val ≤ 57) → Strings.isspace (UInt8.ofNat n.val) = false ∧ UInt8.ofNat n.val ≠ 0 ∧ UInt8.ofNat n.val ≠ 10 ∧ UInt8.ofNat n.val ≠ 58 := by decide +kernel
  have := this ⟨c.toNat, c.toNat_lt⟩
  simp only [UInt8.ofNat_toNat] at this
  exact this h

theorem space_isspace {c : UInt8} : Space c ↔ Strings.isspace c = true := by
  unfold Space Strings.isspace; simp

theorem takeWhile_all : ∀ {s : Bytes} {p : UInt8 → Bool}, (∀ c ∈ s, p c = true) → s.takeWhile p = s
  | [], _, _ => rfl
  | c :: s, p, h => by rw [List.takeWhile_cons_of_pos (h c (by simp)), takeWhile_all fun c hc => h c (by simp [hc])]

/-! ### The last word -/

theorem wordLoop_eq {a w : Bytes} (ha : ∀ c, a.getLast? = some c → Strings.isspace c = true) (hw : ∀ c ∈ w, Strings.isspace c = false) : ∀ k, k ≤ w.length → wordLoop (a ++ w) (a.length + k) = a.length := by
  intro k
  induction k with
  | zero =>
    intro _
    rw [Nat.add_zero]
    rcases List.eq_nil_or_concat a with rfl | ⟨a', c, rfl⟩
    · rfl
    · rw [List.concat_eq_append] at ha ⊢
      rw [List.length_append, List.length_singleton, wordLoop]
      have : (a' ++ [c] ++ w).getD a'.length 0 = c := by simp [List.getD]
      rw [this, ha c (by simp)]
      simp
  | succ k ih =>
    intro hk
    rw [← Nat.add_assoc, wordLoop]
    have hm : (a ++ w).getD (a.length + k) 0 ∈ w := by
      have hg : (a ++ w).getD (a.length + k) 0 = w[k] := by simp [List.getD, List.getElem?_append_right, List.getElem?_eq_getElem (show k < w.length by omega)]
      rw [hg]
      exact List.getElem_mem _
    rw [hw _ hm]
    simp only [Bool.not_false, if_true]
    exact ih (by omega)

theorem numLoop_eq : ∀ (d s : Bytes) (n : Nat), (∀ c ∈ d, 48 ≤ c ∧ c ≤ 57) → (∀ c, s.head? = some c → ¬ (48 ≤ c ∧ c ≤ 57)) → Time.val n d < 2 ^ 31 → numLoop (d ++ s) n = .ok (((Time.val n d : Nat) : Int), s) := by
  intro d
  induction d with
  | nil =>
    intro s n _ hs _
    rw [List.nil_append]
    cases s with
    | nil => rfl
    | cons c s =>
      rw [numLoop, if_neg]
      · rfl
      · rw [Time.isdigit_iff]; exact hs c rfl
  | cons c d ih =>
    intro s n hd hs hv
    have hc := hd c (by simp)
    have hc1 : 48 ≤ c.toNat := by have := UInt8.le_iff_toNat_le.1 hc.1; simpa using this
    have hc2 : c.toNat ≤ 57 := by have := UInt8.le_iff_toNat_le.1 hc.2; simpa using this
    have hv' : Time.val n (c :: d) = Time.val (10 * n + (c.toNat - 48)) d := rfl
    have hle := Time.val_le (10 * n + (c.toNat - 48)) d
    rw [hv'] at hv
    have p31 : (2 : Nat) ^ 31 = 2147483648 := rfl
    have i1 : Time.int ((n : Int) * 10) = .ok ((n : Int) * 10) := if_pos (by omega)
    have i2 : Time.int ((n : Int) * 10 + ((c.toNat : Int) - 48)) = .ok ((n : Int) * 10 + ((c.toNat : Int) - 48)) := if_pos (by omega)
    have e1 : Strings.num_from_ascii (c.toNat : Int) = (c.toNat : Int) - 48 := by
      unfold Strings.num_from_ascii
      rw [if_neg (by omega)]
    rw [List.cons_append, numLoop, if_pos ((Time.isdigit_iff c).mpr hc), i1, bind_ok, e1, i2, bind_ok, show (n : Int) * 10 + ((c.toNat : Int) - 48) = ((10 * n + (c.toNat - 48) : Nat) : Int) by omega,
      ih s _ (fun x hx => hd x (by simp [hx])) hs hv, hv']

theorem leftSpaces_eq : ∀ (b t : Bytes), Blanks b → (∀ c, t.head? = some c → ¬ Space c) → (b ++ t).drop (Strings.leftSpaces (b ++ t)) = t := by
  intro b
  induction b with
  | nil =>
    intro t _ ht
    cases t with
    | nil => rfl
    | cons c t =>
      rw [List.nil_append, Strings.leftSpaces, if_neg (fun h => ht c rfl (space_isspace.mpr h))]
      rfl
  | cons c b ih =>
    intro t hb ht
    rw [List.cons_append, Strings.leftSpaces, if_pos (blank_space (hb c (by simp))), List.drop_succ_cons]
    exact ih t (fun x hx => hb x (by simp [hx])) ht

theorem parseRest_eq {d b t : Bytes} {n : Nat} (u : Int) (hd : Decimal d n) (hn : n < 2 ^ 31) (hb : Blanks b) (ht : ∀ c, t.head? = some c → ¬ Space c) (hl : t.length < 1000) :
    parseRest (d ++ 46 :: (b ++ t)) u = .ok ⟨n, t, u⟩ := by
  obtain ⟨_, h2, h3⟩ := Srt.decimal_digits hd
  have := numLoop_eq d (46 :: (b ++ t)) 0 h2 (by intro c hc; cases hc; decide) (by rw [h3]; exact hn)
  unfold parseRest
  rw [show (0 : Int) = ((0 : Nat) : Int) from rfl, this, bind_ok]
  simp only
  rw [leftSpaces_eq b t hb ht, if_neg (by omega), h3]

/-! ### Trimming -/

theorem blanks_space {b : Bytes} (h : Blanks b) : ∀ c ∈ b, Spec.Vtt.Space c := fun c hc => (Srt.space_iff c).mp (blank_space (h c hc))
theorem blanks_end {b : Bytes} (h : Blanks b) : ∀ c ∈ b, Spec.Vtt.EndSpace c := by
  intro c hc
  rcases h c hc with rfl | rfl <;> unfold Spec.Vtt.EndSpace <;> decide

theorem not_space {c : UInt8} (h : Strings.isspace c = false) : ¬ Spec.Vtt.Space c := fun hs => by rw [(Srt.space_iff c).mpr hs] at h; cases h
theorem not_end {c : UInt8} (h : Strings.isspace c = false) : ¬ Spec.Vtt.EndSpace c := fun hs => not_space h (Srt.endSpace_space hs)

theorem trim_solid {l o r : Bytes} (hl : Blanks l) (hr : ∀ c ∈ r, Spec.Vtt.EndSpace c) (h1 : ∀ c, o.head? = some c → Strings.isspace c = false) (h2 : ∀ c, o.getLast? = some c → Strings.isspace c = false) :
    Strings.trim (l ++ o ++ r) = o :=
  Srt.trim_eq ⟨l, r, rfl, blanks_space hl, hr, fun c hc => not_space (h1 c hc), fun c hc => not_end (h2 c hc)⟩

theorem parseline_core {d b2 t b3 m s : Bytes} {n mi se : Nat} (hd : Decimal d n) (hn : n < 2 ^ 31) (hb2 : Blanks b2) (hl : t.length < 1000)
    (ht1 : ∀ c, t.head? = some c → ¬ Space c) (ht2 : ∀ c, t.getLast? = some c → ¬ Space c) (hb3 : Blanks b3) (hne : b3 ≠ []) (hm : Decimal m mi) (hs : Decimal s se) (hr : mi * 60 + se ≤ 2147)
    (e : Strings.trim (d ++ 46 :: (b2 ++ (t ++ (b3 ++ (m ++ 58 :: s))))) = d ++ 46 :: (b2 ++ (t ++ (b3 ++ (m ++ 58 :: s))))) :
    parseline (d ++ 46 :: (b2 ++ (t ++ (b3 ++ (m ++ 58 :: s))))) = .ok ⟨n, t, (((mi * 60 + se) * 1000000 : Nat) : Int)⟩ := by
  obtain ⟨dn, dd, _⟩ := Srt.decimal_digits hd
  obtain ⟨mn, md, _⟩ := Srt.decimal_digits hm
  obtain ⟨sn, sd, _⟩ := Srt.decimal_digits hs
  obtain ⟨b, z, rfl⟩ : ∃ b z, b3 = b ++ [z] := by
    rcases List.eq_nil_or_concat b3 with h | ⟨b, z, h⟩
    · exact absurd h hne
    · exact ⟨b, z, by simpa using h⟩
  have split : d ++ 46 :: (b2 ++ (t ++ ((b ++ [z]) ++ (m ++ 58 :: s)))) = (d ++ 46 :: (b2 ++ (t ++ b)) ++ [z]) ++ (m ++ 58 :: s) := by simp
  have hw : wordLoop (d ++ 46 :: (b2 ++ (t ++ ((b ++ [z]) ++ (m ++ 58 :: s))))) (d ++ 46 :: (b2 ++ (t ++ ((b ++ [z]) ++ (m ++ 58 :: s))))).length = (d ++ 46 :: (b2 ++ (t ++ b)) ++ [z]).length := by
    rw [split, List.length_append (bs := m ++ 58 :: s)]
    refine wordLoop_eq ?_ ?_ _ (Nat.le_refl _)
    · intro c hc
      rw [List.getLast?_append_of_ne_nil _ (by simp)] at hc
      simp only [List.getLast?_singleton, Option.some.injEq] at hc
      subst hc
      exact blank_space (hb3 z (by simp))
    · intro c hc
      simp only [List.mem_append, List.mem_cons] at hc
      rcases hc with h | rfl | h
      · exact (digit_space (md c h)).1
      · decide
      · exact (digit_space (sd c h)).1
  have hdur : Time.parse_duration (m ++ 58 :: s) = .ok (((mi * 60 + se : Nat) : Int) * 1000000) := by
    have := Time.parse_clock (Spec.Time.Clock.mk m s [] mi se hm (.inr hs) (by intro c hc; simp at hc) (by simp)) hr
    rw [show m ++ [58] ++ s ++ [] = m ++ 58 :: s by simp] at this
    rw [this]
    show Res.ok _ = Res.ok _
    rw [show Time.micros [] = 0 from rfl]
    simp
  unfold parseline
  simp only
  rw [e, hw, split, List.drop_left' rfl, hdur]
  simp only
  rw [if_neg (by simp), List.take_append_of_le_length (by simp), List.length_append, List.length_singleton, Nat.add_sub_cancel, List.take_left' rfl]
  have tr : Strings.trim (d ++ 46 :: (b2 ++ (t ++ b))) = d ++ 46 :: ((if t = [] then [] else b2) ++ t) := by
    have hd0 : ∀ (x : Bytes) c, (d ++ x).head? = some c → Strings.isspace c = false := by
      intro x c hc
      cases d with
      | nil => exact absurd rfl dn
      | cons y d =>
        simp only [List.cons_append, List.head?_cons, Option.some.injEq] at hc
        subst hc
        exact (digit_space (dd _ (by simp))).1
    by_cases ht : t = []
    · subst ht
      rw [if_pos rfl]
      have := trim_solid (l := []) (o := d ++ [46]) (r := b2 ++ b) (by intro c hc; simp at hc)
        (fun c hc => (List.mem_append.1 hc).elim (blanks_end hb2 c) (blanks_end (fun c hc => hb3 c (by simp [hc])) c)) (hd0 [46]) (by intro c hc; simp at hc; subst hc; decide)
      simpa using this
    · rw [if_neg ht]
      have := trim_solid (l := []) (o := d ++ 46 :: (b2 ++ t)) (r := b) (by intro c hc; simp at hc) (blanks_end fun c hc => hb3 c (by simp [hc])) (hd0 _) (by
        intro c hc
        rw [show d ++ 46 :: (b2 ++ t) = (d ++ 46 :: b2) ++ t by simp, List.getLast?_append_of_ne_nil _ ht] at hc
        exact Bool.eq_false_iff.mpr fun h => ht2 c hc (space_isspace.mpr h))
      simpa using this
  rw [tr]
  have := parseRest_eq (d := d) (b := if t = [] then [] else b2) (t := t) (n := n) (((mi * 60 + se : Nat) : Int) * 1000000) hd hn (by split <;> [intro c hc; exact hb2]; simp at hc) ht1 hl
  rw [this, Int.natCast_mul]
  rfl

/-- What a line of a track is when it is trimmed, and what is read from it. -/
theorem line_read {r : Row} {l e : Bytes} (h : Line r l) (he : e = [] ∨ e = [10]) :
    Strings.trim (Vtt.str (l ++ e)) ≠ [] ∧ parseline (Strings.trim (Vtt.str (l ++ e))) = .ok ⟨r.num, r.title, (((r.min * 60 + r.sec) * 1000000 : Nat) : Int)⟩ := by
  obtain ⟨b1, d, b2, t, b3, m, s, b4, cr, n, mi, se, hb1, hd, hn, hb2, ht, hl, ht1, ht2, hb3, hne, hm, hs, hr, hb4, hcr⟩ := h
  obtain ⟨dn, dd, _⟩ := Srt.decimal_digits hd
  obtain ⟨mn, md, _⟩ := Srt.decimal_digits hm
  obtain ⟨sn, sd, _⟩ := Srt.decimal_digits hs
  have bz : ∀ {b : Bytes}, Blanks b → ∀ c ∈ b, c ≠ 0 := by
    intro b hb c hc
    rcases hb c hc with rfl | rfl <;> decide
  have z : ∀ c ∈ b1 ++ (d ++ 46 :: (b2 ++ (t ++ (b3 ++ (m ++ 58 :: (s ++ (b4 ++ cr))))))) ++ e, c ≠ 0 := by
    intro c hc
    simp only [List.mem_append, List.mem_cons] at hc
    rcases hc with (h | h | rfl | h | h | h | h | rfl | h | h | h) | h
    · exact bz hb1 c h
    · exact (digit_space (dd c h)).2.1
    · decide
    · exact bz hb2 c h
    · exact (ht c h).2
    · exact bz hb3 c h
    · exact (digit_space (md c h)).2.1
    · decide
    · exact (digit_space (sd c h)).2.1
    · exact bz hb4 c h
    · rcases hcr with rfl | rfl
      · simp at h
      · simp at h; subst h; decide
    · rcases he with rfl | rfl
      · simp at h
      · simp at h; subst h; decide
  have e1 : Vtt.str (b1 ++ (d ++ 46 :: (b2 ++ (t ++ (b3 ++ (m ++ 58 :: (s ++ (b4 ++ cr))))))) ++ e) = b1 ++ (d ++ 46 :: (b2 ++ (t ++ (b3 ++ (m ++ 58 :: s))))) ++ (b4 ++ cr ++ e) := by
    unfold Vtt.str
    rw [takeWhile_all fun c hc => by simpa using z c hc]
    simp
  have h1 : ∀ c, (d ++ 46 :: (b2 ++ (t ++ (b3 ++ (m ++ 58 :: s))))).head? = some c → Strings.isspace c = false := by
    intro c hc
    cases d with
    | nil => exact absurd rfl dn
    | cons y d =>
      simp only [List.cons_append, List.head?_cons, Option.some.injEq] at hc
      subst hc
      exact (digit_space (dd _ (by simp))).1
  have h2 : ∀ c, (d ++ 46 :: (b2 ++ (t ++ (b3 ++ (m ++ 58 :: s))))).getLast? = some c → Strings.isspace c = false := by
    intro c hc
    rw [show d ++ 46 :: (b2 ++ (t ++ (b3 ++ (m ++ 58 :: s)))) = (d ++ 46 :: (b2 ++ (t ++ (b3 ++ (m ++ [58]))))) ++ s by simp, List.getLast?_append_of_ne_nil _ sn] at hc
    exact (digit_space (sd c (List.mem_of_getLast? hc))).1
  have hend : ∀ c ∈ b4 ++ cr ++ e, Spec.Vtt.EndSpace c := by
    intro c hc
    simp only [List.mem_append] at hc
    rcases hc with (h | h) | h
    · exact blanks_end hb4 c h
    · rcases hcr with rfl | rfl
      · simp at h
      · simp at h; subst h; unfold Spec.Vtt.EndSpace; decide
    · rcases he with rfl | rfl
      · simp at h
      · simp at h; subst h; unfold Spec.Vtt.EndSpace; decide
  have e2 := trim_solid hb1 hend h1 h2
  rw [e1, e2]
  refine ⟨by simp, parseline_core hd hn hb2 hl ht1 ht2 hb3 hne hm hs hr ?_⟩
  have := trim_solid (l := []) (r := []) (by intro c hc; simp at hc) (by intro c hc; simp at hc) h1 h2
  simpa using this

theorem line_ends {r : Row} {l : Bytes} (h : Line r l) : 10 ∉ l ∧ l ≠ [] := by
  obtain ⟨b1, d, b2, t, b3, m, s, b4, cr, n, mi, se, hb1, hd, hn, hb2, ht, hl, ht1, ht2, hb3, hne, hm, hs, hr, hb4, hcr⟩ := h
  obtain ⟨dn, dd, _⟩ := Srt.decimal_digits hd
  obtain ⟨mn, md, _⟩ := Srt.decimal_digits hm
  obtain ⟨sn, sd, _⟩ := Srt.decimal_digits hs
  have bz : ∀ {b : Bytes}, Blanks b → 10 ∉ b := by
    intro b hb hc
    rcases hb _ hc with h | h <;> revert h <;> decide
  refine ⟨fun hc => ?_, by simp⟩
  simp only [List.mem_append, List.mem_cons] at hc
  rcases hc with h | h | h | h | h | h | h | h | h | h | h
  · exact bz hb1 h
  · exact (digit_space (dd _ h)).2.2.1 rfl
  · revert h; decide
  · exact bz hb2 h
  · exact (ht _ h).1 rfl
  · exact bz hb3 h
  · exact (digit_space (md _ h)).2.2.1 rfl
  · revert h; decide
  · exact (digit_space (sd _ h)).2.2.1 rfl
  · exact bz hb4 h
  · rcases hcr with rfl | rfl <;> revert h <;> decide

theorem empty_trim {l : Bytes} (h : Empty l) : 10 ∉ l ∧ Strings.trim (Vtt.str (l ++ [10])) = [] := by
  obtain ⟨b, cr, rfl, hb, hcr⟩ := h
  have key : ∀ c ∈ b ++ cr ++ [10], Spec.Vtt.EndSpace c ∧ c ≠ 0 := by
    intro c hc
    simp only [List.mem_append] at hc
    rcases hc with (h | h) | h
    · exact ⟨blanks_end hb c h, by rcases hb c h with rfl | rfl <;> decide⟩
    · rcases hcr with rfl | rfl
      · simp at h
      · simp at h; subst h; unfold Spec.Vtt.EndSpace; decide
    · simp at h; subst h; unfold Spec.Vtt.EndSpace; decide
  constructor
  · intro hc
    rcases List.mem_append.1 hc with h | h
    · rcases hb _ h with h | h <;> revert h <;> decide
    · rcases hcr with rfl | rfl <;> revert h <;> decide
  · unfold Vtt.str
    rw [takeWhile_all fun c hc => by simpa using (key c hc).2]
    have := trim_solid (l := []) (o := []) (r := b ++ cr ++ [10]) (by intro c hc; simp at hc) (fun c hc => (key c hc).1) (by simp) (by simp)
    simpa using this

theorem fgets_end : ∀ {n : Nat} {l : Bytes}, (10 : UInt8) ∉ l → l.length < n → Vtt.fgets n l = (l, [])
  | 0, _, _, h => absurd h (by omega)
  | n + 1, [], _, _ => rfl
  | n + 1, c :: l, hl, h => by
    simp only [List.mem_cons, not_or] at hl
    rw [Vtt.fgets, if_neg (fun e => hl.1 e.symm), fgets_end hl.2 (by simpa using h)]

def conv (r : Row) : Entry := ⟨r.num, r.title, (((r.min * 60 + r.sec) * 1000000 : Nat) : Int)⟩

theorem readLoop_file {rs : List Row} {s : Bytes} (h : File rs s) : ∀ (k : Nat) (list : List Entry), s.length < k → list.length ≤ 100 →
    (list.length + rs.length ≤ 100 → readLoop k s list = .ok (list ++ rs.map conv)) ∧ (100 < list.length + rs.length → readLoop k s list = .panic "undefined: write past the end of list") := by
  induction h with
  | nil =>
    intro k list hk hl
    obtain ⟨k, rfl⟩ : ∃ j, k = j + 1 := ⟨k - 1, by omega⟩
    exact ⟨fun _ => by simp [readLoop], fun h => by simp at h; omega⟩
  | last r l hr hlen =>
    intro k list hk hl
    obtain ⟨k, rfl⟩ : ∃ j, k = j + 1 := ⟨k - 1, by omega⟩
    obtain ⟨h10, hne⟩ := line_ends hr
    obtain ⟨t1, t2⟩ := line_read (e := []) hr (.inl rfl)
    rw [List.append_nil] at t1 t2
    have hk1 : 0 < k := by have := List.length_pos_iff.2 hne; omega
    obtain ⟨k, rfl⟩ : ∃ j, k = j + 1 := ⟨k - 1, by omega⟩
    rw [readLoop, if_neg hne, fgets_end h10 hlen]
    simp only
    rw [if_neg t1]
    constructor
    · intro h
      rw [if_neg (by simp at h; omega), t2, bind_ok, readLoop, if_pos rfl]
      rfl
    · intro h
      rw [if_pos (by simp at h; omega)]
  | row r l rs s hr hlen _ ih =>
    intro k list hk hl
    obtain ⟨k, rfl⟩ : ∃ j, k = j + 1 := ⟨k - 1, by omega⟩
    obtain ⟨h10, _⟩ := line_ends hr
    obtain ⟨t1, t2⟩ := line_read (e := [10]) hr (.inr rfl)
    rw [readLoop, if_neg (by simp), Vtt.fgets_line h10 hlen]
    simp only
    rw [if_neg t1]
    by_cases hf : list.length ≥ 100
    · rw [if_pos hf]
      exact ⟨fun h => by simp at h; omega, fun _ => rfl⟩
    · rw [if_neg hf, t2, bind_ok]
      have := ih k (list ++ [conv r]) (by simp at hk; omega) (by simp; omega)
      simp only [List.length_append, List.length_singleton, List.append_assoc, List.singleton_append] at this
      refine ⟨fun h => ?_, fun h => this.2 (by simp at h; omega)⟩
      rw [List.map_cons]
      exact this.1 (by simp at h; omega)
  | empty l rs s he hlen _ ih =>
    intro k list hk hl
    obtain ⟨k, rfl⟩ : ∃ j, k = j + 1 := ⟨k - 1, by omega⟩
    obtain ⟨h10, ht⟩ := empty_trim he
    rw [readLoop, if_neg (by simp), Vtt.fgets_line h10 hlen]
    simp only
    rw [if_pos ht]
    exact ih k list (by simp at hk; omega) hl

theorem positions_spec : ∀ (rs : List Row) (p : Nat), (positions p (rs.map conv)).length = rs.length ∧
    ∀ i r, rs[i]? = some r → (positions p (rs.map conv))[i]? = some ((r.num : Int), r.title, ((p + ((rs.take i).map fun r => (r.min * 60 + r.sec) * 1000000).sum : Nat) : Int)) := by
  intro rs
  induction rs with
  | nil => intro p; exact ⟨rfl, by simp⟩
  | cons r rs ih =>
    intro p
    have ih := ih (p + (r.min * 60 + r.sec) * 1000000)
    have e : positions p ((r :: rs).map conv) = ((r.num : Int), r.title, (p : Int)) :: positions ((p + (r.min * 60 + r.sec) * 1000000 : Nat) : Int) (rs.map conv) := by
      rw [List.map_cons, positions, Int.natCast_add]
      rfl
    rw [e]
    refine ⟨by rw [List.length_cons, List.length_cons, ih.1], ?_⟩
    intro i q hq
    cases i with
    | zero =>
      simp only [List.getElem?_cons_zero, Option.some.injEq] at hq
      subst hq
      rfl
    | succ i =>
      rw [List.getElem?_cons_succ] at hq ⊢
      rw [ih.2 i q hq, List.take_succ_cons, List.map_cons, List.sum_cons, Nat.add_assoc]

end Che.Prog.Tracklist
