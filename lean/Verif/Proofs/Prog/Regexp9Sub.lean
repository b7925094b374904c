import Verif.Model.Prog.Regexp9
import Verif.Spec.Prog.Regexp9
import Verif.Proofs.Prog.Regexp9

/-!
`regsub`.
-/
namespace Che.Proofs.Regexp9
open Che Che.Lib Che.Prog.Regexp9 Che.Spec.Regexp9

theorem template_total : ∀ (n : Nat) (sp : List UInt8), sp.length ≤ n → ∃ l, Template sp l := by
  intro n
  induction n with
  | zero => intro sp h; cases sp with
    | nil => exact ⟨_, .nil⟩
    | cons _ _ => simp at h
  | succ n ih =>
    intro sp h
    cases sp with
    | nil => exact ⟨_, .nil⟩
    | cons b sp =>
      simp only [List.length_cons] at h
      by_cases h92 : b = 92
      · subst h92
        cases sp with
        | nil => exact ⟨_, .stop⟩
        | cons c sp =>
          simp only [List.length_cons] at h
          obtain ⟨l, hl⟩ := ih sp (by omega)
          by_cases hd : 48 ≤ c.toNat ∧ c.toNat ≤ 57
          · have : c = UInt8.ofNat (48 + (c.toNat - 48)) := by
              rw [show 48 + (c.toNat - 48) = c.toNat by omega]; simp
            rw [this]
            exact ⟨_, .digit (by omega) hl⟩
          · exact ⟨_, .quoted hd hl⟩
      · obtain ⟨l, hl⟩ := ih sp (by omega)
        by_cases h38 : b = 38
        · subst h38; exact ⟨_, .amp hl⟩
        · exact ⟨_, .plain h92 h38 hl⟩

/-- What fits. -/
def fit (dlen : Nat) (l : List UInt8) : List UInt8 := l.take (dlen - 1)

theorem fit_put {dlen : Nat} (l : List UInt8) (b : UInt8) : put dlen (fit dlen l) b = fit dlen (l ++ [b]) := by
  unfold put fit
  split
  · rename_i h
    rw [List.length_take] at h
    rw [List.take_of_length_le (by omega), List.take_of_length_le (by simp; omega)]
  · rename_i h
    rw [List.length_take] at h
    rw [List.take_append_of_le_length (by omega)]

theorem copy_fit {text : List UInt8} {dlen : Nat} : ∀ (n s : Nat) (l : List UInt8), s + n ≤ text.length →
    copy text dlen n s (fit dlen l) = .ok (fit dlen (l ++ (text.drop s).take n)) := by
  intro n
  induction n with
  | zero => intro s l _; simp [copy]
  | succ n ih =>
    intro s l h
    have hs : s < text.length := by omega
    have e : (text.drop s).take (n + 1) = [text[s]] ++ (text.drop (s + 1)).take n := by
      rw [List.drop_eq_getElem_cons hs]; rfl
    have hrd : Utf.rd text s = .ok (text[s]).toNat := by
      rw [Utf.rd, if_pos hs, List.getD_eq_getElem?_getD, List.getElem?_eq_getElem hs]; rfl
    rw [copy, e, ← List.append_assoc, ← ih (s + 1) _ (by omega), ← fit_put, put]
    split
    · rw [hrd]; simp [Res.bind]
    · rfl

/-- The array holds the groups. -/
def Holding (text : List UInt8) (mp : Option (List Resub)) (ms : Nat) (c : Caps) : Prop :=
  match mp with
  | none => ∀ n, c n = (none, none)
  | some l => ∀ (n : Nat) m, l[n]? = some m →
      if n < ms then (m.sp, m.ep) = c n ∧ ∀ i j, c n = (some i, some j) → i ≤ j ∧ j ≤ text.length else c n = (none, none)

theorem copyGroup_fit {text dlen mp ms c} (h : Holding text mp ms c) {n : Nat} (hn : ∀ l, mp = some l → n < l.length) (l : List UInt8) :
    copyGroup text dlen mp ms n (fit dlen l) = .ok (fit dlen (l ++ (Piece.group n).text text c)) := by
  cases mp with
  | none => simp [copyGroup, Piece.text, h n]
  | some k =>
    have hlt := hn k rfl
    rw [copyGroup, List.getElem?_eq_getElem hlt]
    simp only
    generalize hm : k[n] = m
    have h1 := h n m (by rw [List.getElem?_eq_getElem hlt, hm])
    by_cases hms : n < ms
    · rw [if_pos hms] at h1
      obtain ⟨h1, h2⟩ := h1
      cases hsp : m.sp with
      | none => rw [hsp] at h1; simp [Piece.text, ← h1]
      | some b =>
        simp only
        rw [if_pos hms]
        cases hep : m.ep with
        | none => rw [hsp, hep] at h1; simp [Piece.text, ← h1, copy]
        | some j =>
          rw [hsp, hep] at h1
          obtain ⟨h4, h5⟩ := h2 b j h1.symm
          rw [Option.getD_some, copy_fit _ _ _ (by omega)]
          simp [Piece.text, ← h1]
    · rw [if_neg hms] at h1
      cases hsp : m.sp with
      | none => simp [Piece.text, h1]
      | some b => simp [Piece.text, h1, hms]

theorem digit_toNat {n : Nat} (h : n < 10) : (UInt8.ofNat (48 + n)).toNat = 48 + n := by
  simp; omega

theorem subLoop_fit {text dlen mp ms c} (h : Holding text mp ms c) {sp ps} (ht : Template sp ps)
    (hn : ∀ n, Piece.group n ∈ ps → ∀ l, mp = some l → n < l.length) : ∀ (l : List UInt8),
    subLoop text dlen mp ms sp (fit dlen l) = .ok (fit dlen (l ++ ps.flatMap (Piece.text text c))) := by
  induction ht with
  | nil => intro l; simp [subLoop]
  | stop => intro l; simp [subLoop]
  | @amp s ps _ ih =>
    intro l
    have e : subLoop text dlen mp ms (38 :: s) (fit dlen l) = (copyGroup text dlen mp ms 0 (fit dlen l)).bind fun out => subLoop text dlen mp ms s out := by
      rw [subLoop]
      · simp
      · simp
      · simp
    rw [e, copyGroup_fit h (hn 0 (by simp))]
    simp only [Res.bind]
    rw [ih (fun n hm => hn n (List.mem_cons_of_mem _ hm))]
    simp
  | @digit n s ps hlt _ ih =>
    intro l
    rw [subLoop, digit_toNat hlt, if_pos (by omega), show 48 + n - 48 = n by omega, copyGroup_fit h (hn n (by simp))]
    simp only [Res.bind]
    rw [ih (fun n hm => hn n (List.mem_cons_of_mem _ hm))]
    simp
  | @quoted b s ps hb _ ih =>
    intro l
    rw [subLoop, if_neg hb, fit_put, ih (fun n hm => hn n (List.mem_cons_of_mem _ hm))]
    simp [Piece.text]
  | @plain b s ps h1 h2 _ ih =>
    intro l
    have e : subLoop text dlen mp ms (b :: s) (fit dlen l) = subLoop text dlen mp ms s (put dlen (fit dlen l) b) := by
      rw [subLoop]
      · rw [if_neg h2]
      · rintro rfl; exact absurd rfl h1
      · rintro _ _ rfl; exact absurd rfl h1
    rw [e, fit_put, ih (fun n hm => hn n (List.mem_cons_of_mem _ hm))]
    simp [Piece.text]

/-- What `regsub` writes. -/
theorem regsub_eq {text dlen mp ms c} (h : Holding text mp ms c) {sp ps} (ht : Template sp ps)
    (hn : ∀ n, Piece.group n ∈ ps → ∀ l, mp = some l → n < l.length) (hd : 0 < dlen) :
    regsub text sp dlen mp ms = .ok ((ps.flatMap (Piece.text text c)).take (dlen - 1) ++ [0]) := by
  have := subLoop_fit (dlen := dlen) h ht hn []
  rw [show fit dlen [] = [] by simp [fit], List.nil_append] at this
  rw [regsub, this]
  simp only [Res.bind]
  rw [if_pos (by simp [fit]; omega), fit]

/-- Groups that are named but not in the array are read nevertheless. -/
theorem subLoop_past {text dlen l ms sp ps} (ht : Template sp ps) {n : Nat} (hn : Piece.group n ∈ ps) (hl : l.length ≤ n)
    (hg : ∀ m ∈ l, ∀ i j, m.sp = some i → m.ep = some j → j ≤ text.length) : ∀ out,
    subLoop text dlen (some l) ms sp out = .panic "undefined: read past the end of the array" := by
  have group : ∀ k out, copyGroup text dlen (some l) ms k out = .panic "undefined: read past the end of the array" ∨
      ∃ out', copyGroup text dlen (some l) ms k out = .ok out' ∧ k < l.length := by
    intro k out
    rw [copyGroup]
    rcases Nat.lt_or_ge k l.length with h | h
    · right
      rw [List.getElem?_eq_getElem h]
      simp only
      have hc : ∀ n s out, s + n ≤ text.length ∨ n = 0 → ∃ out', copy text dlen n s out = .ok out' := by
        intro n
        induction n with
        | zero => intro s out _; exact ⟨_, rfl⟩
        | succ n ih =>
          intro s out h
          have hs : s + n + 1 ≤ text.length := by omega
          rw [copy]
          split
          · rw [Utf.rd, if_pos (by omega)]
            exact ih _ _ (by omega)
          · exact ih _ _ (by omega)
      cases hsp : l[k].sp with
      | none => exact ⟨_, rfl, h⟩
      | some b =>
        simp only
        split
        · obtain ⟨o, ho⟩ := hc (l[k].ep.getD 0 - b) b out (by
            cases hep : l[k].ep with
            | none => right; simp
            | some j =>
              have := hg _ (List.getElem_mem h) b j hsp hep
              simp only [Option.getD_some]; omega)
          exact ⟨o, ho, h⟩
        · exact ⟨_, rfl, h⟩
    · left; rw [List.getElem?_eq_none h]
  induction ht with
  | nil => simp at hn
  | stop => simp at hn
  | @amp s ps _ ih =>
    intro out
    have e : subLoop text dlen (some l) ms (38 :: s) out = (copyGroup text dlen (some l) ms 0 out).bind fun out => subLoop text dlen (some l) ms s out := by
      rw [subLoop]
      · simp
      · simp
      · simp
    rw [e]
    rcases group 0 out with h | ⟨o, h, h0⟩
    · rw [h]; rfl
    · rw [h]
      refine ih ?_ o
      rcases List.mem_cons.1 hn with h1 | h1
      · cases h1; omega
      · exact h1
  | @digit k s ps hlt _ ih =>
    intro out
    rw [subLoop, digit_toNat hlt, if_pos (by omega), show 48 + k - 48 = k by omega]
    rcases group k out with h | ⟨o, h, h0⟩
    · rw [h]; rfl
    · rw [h]
      refine ih ?_ o
      rcases List.mem_cons.1 hn with h1 | h1
      · cases h1; omega
      · exact h1
  | @quoted b s ps hb _ ih =>
    intro out
    rw [subLoop, if_neg hb]
    exact ih (by simpa using hn) _
  | @plain b s ps h1 h2 _ ih =>
    intro out
    have e : subLoop text dlen (some l) ms (b :: s) out = subLoop text dlen (some l) ms s (put dlen out b) := by
      rw [subLoop]
      · rw [if_neg h2]
      · rintro rfl; exact absurd rfl h1
      · rintro _ _ rfl; exact absurd rfl h1
    rw [e]
    exact ih (by simpa using hn) _

/-- Where groups are. -/
theorem M_bounds {t : Text} (ht : ∀ i r j, t.chr i r j → i ≤ j) {e i j c c'} (h : M t e i j c c') :
    i ≤ j ∧ ∀ n, c' n = c n ∨ ∃ a b, c' n = (some a, some b) ∧ i ≤ a ∧ a ≤ b ∧ b ≤ j := by
  have two : ∀ {i m j : Nat} {c c1 c2 : Caps}, (i ≤ m ∧ ∀ n, c1 n = c n ∨ ∃ a b, c1 n = (some a, some b) ∧ i ≤ a ∧ a ≤ b ∧ b ≤ m) →
      (m ≤ j ∧ ∀ n, c2 n = c1 n ∨ ∃ a b, c2 n = (some a, some b) ∧ m ≤ a ∧ a ≤ b ∧ b ≤ j) →
      i ≤ j ∧ ∀ n, c2 n = c n ∨ ∃ a b, c2 n = (some a, some b) ∧ i ≤ a ∧ a ≤ b ∧ b ≤ j := by
    intro i m j c c1 c2 ⟨h1, h2⟩ ⟨h3, h4⟩
    refine ⟨by omega, fun n => ?_⟩
    rcases h4 n with h | ⟨a, b, h5, h6, h7, h8⟩
    · rw [h]
      rcases h2 n with h | ⟨a, b, h5, h6, h7, h8⟩
      · exact Or.inl h
      · exact Or.inr ⟨a, b, h5, h6, h7, by omega⟩
    · exact Or.inr ⟨a, b, h5, by omega, h7, h8⟩
  induction h with
  | eps => exact ⟨Nat.le_refl _, fun _ => Or.inl rfl⟩
  | one _ h => exact ⟨ht _ _ _ h, fun _ => Or.inl rfl⟩
  | bol => exact ⟨Nat.le_refl _, fun _ => Or.inl rfl⟩
  | eol => exact ⟨Nat.le_refl _, fun _ => Or.inl rfl⟩
  | @grp e i j c1 c0 g _ ih =>
    obtain ⟨h1, h2⟩ := ih
    refine ⟨h1, fun n => ?_⟩
    by_cases hn : n = g
    · subst hn
      right
      rcases h2 n with h | ⟨a, b, h3, h4, h5, h6⟩
      · exact ⟨i, j, by simp [Caps.closed, h, Caps.opened], Nat.le_refl _, h1, Nat.le_refl _⟩
      · exact ⟨a, j, by simp [Caps.closed, h3], h4, by omega, Nat.le_refl _⟩
    · have e1 : c1.closed g j n = c1 n := by simp [Caps.closed, hn]
      have e2 : c0.opened g i n = c0 n := by simp [Caps.opened, hn]
      rw [e1, ← e2]
      exact h2 n
  | altL _ ih => exact ih
  | altR _ ih => exact ih
  | cat _ _ ih1 ih2 => exact two ih1 ih2
  | starNil => exact ⟨Nat.le_refl _, fun _ => Or.inl rfl⟩
  | starCons _ _ ih1 ih2 => exact two ih1 ih2
  | plus _ _ ih1 ih2 => exact two ih1 ih2
  | optNil => exact ⟨Nat.le_refl _, fun _ => Or.inl rfl⟩
  | optSome _ ih => exact ih

theorem M_between {cs lo e i j c c'} (h : M (Text.of cs) e i j c c') : Between cs lo i → Between cs lo j := by
  induction h with
  | one _ h => intro hi; exact bd_chr (lo := lo) hi h
  | eps | bol | eol | starNil | optNil => exact fun h => h
  | grp _ ih => exact ih
  | altL _ ih => exact ih
  | altR _ ih => exact ih
  | cat _ _ ih1 ih2 => exact fun h => ih2 (ih1 h)
  | starCons _ _ ih1 ih2 => exact fun h => ih2 (ih1 h)
  | plus _ _ ih1 ih2 => exact fun h => ih2 (ih1 h)
  | optSome _ ih => exact ih

/-- The groups of a match are parts of it. -/
theorem found_bounds {cs lo e x j c} (h : Found cs lo e x j c) (n : Nat) :
    c n = (none, none) ∨ ∃ a b, c n = (some a, some b) ∧ x ≤ a ∧ a ≤ b ∧ b ≤ j ∧ j ≤ (Spec.Utf.encode cs).length := by
  have h1 := bd_le (M_between h.2 h.1)
  rcases (M_bounds (fun i r j h => Nat.le_of_lt (charAt_lt h)) h.2).2 n with h2 | ⟨a, b, h2, h3, h4, h5⟩
  · exact Or.inl h2
  · exact Or.inr ⟨a, b, h2, h3, h4, h5, h1⟩

end Che.Proofs.Regexp9
