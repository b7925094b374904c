import Verif.Model.Lib.Utf
import Verif.Spec.Lib.Utf

/-!
Binary search in the case and class tables, and what the tables say.
-/
namespace Che.Lib.Utf
open Che.Spec.Utf

/-- The element in a column of a row. -/
theorem el_flatten {w : Nat} : ∀ {rows : List (List Nat)} (_ : ∀ r ∈ rows, r.length = w) {k : Nat}
    (hk : k < rows.length) {j : Nat} (_ : j < w), el rows.flatten (k * w + j) = .ok (rows[k].getD j 0) := by
  intro rows
  induction rows with
  | nil => intro _ k hk; simp at hk
  | cons r rows ih =>
    intro hw k hk j hj
    have hr := hw r (by simp)
    cases k with
    | zero =>
      unfold el
      rw [List.flatten_cons, Nat.zero_mul, Nat.zero_add, List.getElem?_append_left (by omega)]
      simp only [List.getElem_cons_zero, List.getD_eq_getElem?_getD]
      rw [List.getElem?_eq_getElem (by omega)]
      rfl
    | succ k =>
      have := ih (fun s hs => hw s (by simp [hs])) (k := k) (by simpa using hk) hj
      simp only [List.getElem_cons_succ]
      rw [← this]
      unfold el
      rw [List.flatten_cons, List.getElem?_append_right (by rw [hr, Nat.succ_mul]; omega), hr,
        show (k + 1) * w + j - w = k * w + j by rw [Nat.succ_mul]; omega]

theorem length_flatten {w : Nat} : ∀ {rows : List (List Nat)} (_ : ∀ r ∈ rows, r.length = w),
    rows.flatten.length = rows.length * w := by
  intro rows
  induction rows with
  | nil => simp
  | cons r rows ih =>
    intro hw
    rw [List.flatten_cons, List.length_append, ih (fun s hs => hw s (by simp [hs])), hw r (by simp),
      List.length_cons, Nat.succ_mul, Nat.add_comm]

/-- The first column. -/
abbrev key (rows : List (List Nat)) (k : Nat) : Nat := (rows.getD k []).getD 0 0

theorem el_key {w : Nat} {rows : List (List Nat)} (hw : ∀ r ∈ rows, r.length = w) (w0 : 0 < w) {k : Nat}
    (hk : k < rows.length) : el rows.flatten (k * w) = .ok (key rows k) := by
  have := el_flatten hw hk w0
  rw [Nat.add_zero] at this
  rw [this]
  simp [key, hk]

/-- The search ends at a row whose key is not above `c`, unless that is the first, and the
key after it is. -/
theorem bsearchLoop_eq {w : Nat} {rows : List (List Nat)} (hw : ∀ r ∈ rows, r.length = w) (w0 : 0 < w)
    (c fuel : Nat) : ∀ k n : Nat, n < fuel → 0 < n → k + n ≤ rows.length → (k = 0 ∨ key rows k ≤ c) →
    (k + n = rows.length ∨ c < key rows (k + n)) →
    ∃ m, bsearchLoop rows.flatten c w fuel (k * w) n = .ok (m * w, 1) ∧ m < rows.length ∧
      (m = 0 ∨ key rows m ≤ c) ∧ (m + 1 = rows.length ∨ c < key rows (m + 1)) := by
  induction fuel with
  | zero => intro k n h; omega
  | succ fuel ih =>
    intro k n hf hn hle hlo hhi
    rw [bsearchLoop]
    by_cases h1 : n > 1
    · rw [if_neg (by omega), show k * w + n / 2 * w = (k + n / 2) * w by rw [Nat.add_mul],
        el_key hw w0 (by omega)]
      simp only [Res.bind]
      split
      · rename_i hc
        refine ih _ _ (by omega) (by omega) (by omega) (.inr hc) ?_
        rw [show k + n / 2 + (n - n / 2) = k + n by omega]
        exact hhi
      · rename_i hc
        exact ih _ _ (by omega) (by omega) (by omega) hlo (.inr (by omega))
    · have : n = 1 := by omega
      subst this
      rw [if_pos (by omega)]
      exact ⟨k, rfl, by omega, hlo, hhi⟩

/-- `rune_bsearch` finds the last row whose key is not above `c`. -/
theorem rune_bsearch_eq {w : Nat} {rows : List (List Nat)} (hw : ∀ r ∈ rows, r.length = w) (w0 : 0 < w)
    (h0 : 0 < rows.length) (c : Nat) :
    (rune_bsearch rows.flatten c (rows.flatten.length / w) w = .ok none ∧ c < key rows 0) ∨
    ∃ m, rune_bsearch rows.flatten c (rows.flatten.length / w) w = .ok (some (m * w)) ∧ m < rows.length ∧
      key rows m ≤ c ∧ (m + 1 = rows.length ∨ c < key rows (m + 1)) := by
  rw [length_flatten hw, Nat.mul_div_cancel _ w0]
  obtain ⟨m, e, hm, h1, h2⟩ := bsearchLoop_eq hw w0 c (rows.length + 1) 0 rows.length (by omega) h0
    (by omega) (.inl rfl) (.inl (by omega))
  rw [Nat.zero_mul] at e
  unfold rune_bsearch
  rw [e]
  simp only [Res.bind]
  rw [if_neg (by omega), el_key hw w0 hm]
  simp only
  by_cases hc : key rows m ≤ c
  · exact .inr ⟨m, by rw [if_pos hc], hm, hc, h2⟩
  · rcases h1 with h1 | h1
    · subst h1
      exact .inl ⟨by rw [if_neg hc], by omega⟩
    · exact absurd h1 hc

/-- Each row lies below the next: `hi` is the last rune of a row. -/
def ascending (hi : List Nat → Nat) : List (List Nat) → Bool
  | [] => true
  | [r] => decide (r.getD 0 0 ≤ hi r)
  | r :: s :: rest => decide (r.getD 0 0 ≤ hi r) && decide (hi r < s.getD 0 0) && ascending hi (s :: rest)

theorem ascending_le {hi : List Nat → Nat} : ∀ {rows : List (List Nat)} (_ : ascending hi rows = true),
    (∀ r ∈ rows, r.getD 0 0 ≤ hi r) ∧ ∀ i j (_ : i < j) (hj : j < rows.length),
      hi (rows[i]'(by omega)) < key rows j := by
  intro rows
  induction rows with
  | nil => intro _; exact ⟨by simp, fun i j _ hj => by simp at hj⟩
  | cons r rows ih =>
    intro h
    cases rows with
    | nil =>
      refine ⟨by simpa [ascending] using h, fun i j hij hj => ?_⟩
      simp at hj
      omega
    | cons s rows =>
      rw [ascending, Bool.and_eq_true, Bool.and_eq_true, decide_eq_true_eq, decide_eq_true_eq] at h
      obtain ⟨⟨hr, hrs⟩, h⟩ := h
      obtain ⟨i1, i2⟩ := ih h
      refine ⟨fun x hx => ?_, fun i j hij hj => ?_⟩
      · rcases List.mem_cons.mp hx with hx | hx
        · rw [hx]; exact hr
        · exact i1 x hx
      · obtain ⟨j, rfl⟩ : ∃ k, j = k + 1 := ⟨j - 1, by omega⟩
        have hj' : j < (s :: rows).length := by simpa using hj
        cases i with
        | zero =>
          simp only [List.getElem_cons_zero, key, List.getD_cons_succ]
          cases j with
          | zero => simpa using hrs
          | succ j =>
            have := i2 0 (j + 1) (by omega) hj'
            have h3 := i1 s (by simp)
            simp only [List.getElem_cons_zero, key] at this
            omega
        | succ i =>
          have := i2 i j (by omega) hj'
          simpa [key] using this

/-- In an ascending table the row that has `c` between its key and its last rune is the
last one whose key is not above `c`. -/
theorem find?_unique {hi : List Nat → Nat} {rows : List (List Nat)} (ha : ascending hi rows = true) (c : Nat)
    {m : Nat} (hm : m < rows.length) (h1 : key rows m ≤ c) (h2 : m + 1 = rows.length ∨ c < key rows (m + 1)) :
    rows.find? (fun r => decide (r.getD 0 0 ≤ c) && decide (c ≤ hi r)) =
      if c ≤ hi rows[m] then some rows[m] else none := by
  obtain ⟨_, a2⟩ := ascending_le ha
  have key_eq : ∀ k (hk : k < rows.length), key rows k = (rows[k]).getD 0 0 := by
    intro k hk
    simp [key, hk]
  have only : ∀ k (hk : k < rows.length), (rows[k]).getD 0 0 ≤ c → c ≤ hi rows[k] → k = m := by
    intro k hk hk1 hk2
    rcases Nat.lt_trichotomy k m with h | h | h
    · have := a2 k m h hm
      omega
    · exact h
    · rcases h2 with h2 | h2
      · omega
      · rcases Nat.lt_or_ge (m + 1) k with h3 | h3
        · have h4 := a2 (m + 1) k h3 hk
          rw [key_eq k hk] at h4
          have h5 := (ascending_le ha).1 (rows[m + 1]'(by omega)) (List.getElem_mem _)
          rw [key_eq (m + 1) (by omega)] at h2
          omega
        · have : k = m + 1 := by omega
          subst this
          rw [key_eq _ hk] at h2
          omega
  split
  · rename_i hc
    rw [List.find?_eq_some_iff_append]
    refine ⟨by simp only [Bool.and_eq_true, decide_eq_true_eq]; exact ⟨by rw [← key_eq m hm]; exact h1, hc⟩,
      rows.take m, rows.drop (m + 1), by simp, ?_⟩
    intro x hx
    obtain ⟨k, hk, rfl⟩ := List.mem_iff_getElem.mp hx
    have hk' : k < m := by simp at hk; omega
    rw [List.getElem_take]
    cases hb : decide ((rows[k]'(by omega)).getD 0 0 ≤ c) && decide (c ≤ hi (rows[k]'(by omega))) with
    | false => rfl
    | true =>
      simp only [Bool.and_eq_true, decide_eq_true_eq] at hb
      have := only k (by omega) hb.1 hb.2
      omega
  · rename_i hc
    rw [List.find?_eq_none]
    intro x hx
    obtain ⟨k, hk, rfl⟩ := List.mem_iff_getElem.mp hx
    simp only [Bool.and_eq_true, decide_eq_true_eq, not_and]
    intro hk1 hk2
    have := only k hk hk1 hk2
    subst this
    exact hc hk2

theorem find?_below {hi : List Nat → Nat} {rows : List (List Nat)} (ha : ascending hi rows = true) (c : Nat)
    (h : c < key rows 0) :
    rows.find? (fun r => decide (r.getD 0 0 ≤ c) && decide (c ≤ hi r)) = none := by
  obtain ⟨a1, a2⟩ := ascending_le ha
  rw [List.find?_eq_none]
  intro x hx
  obtain ⟨k, hk, rfl⟩ := List.mem_iff_getElem.mp hx
  simp only [Bool.and_eq_true, decide_eq_true_eq, not_and]
  intro hk1
  cases k with
  | zero =>
    have e0 : key rows 0 = (rows[0]).getD 0 0 := by simp [key, hk]
    omega
  | succ k =>
    have h3 := a2 0 (k + 1) (by omega) hk
    have h4 := a1 rows[0] (List.getElem_mem _)
    have e0 : key rows 0 = (rows[0]).getD 0 0 := by
      have : 0 < rows.length := by omega
      simp [key, this]
    have e1 : key rows (k + 1) = (rows[k + 1]).getD 0 0 := by simp [key, hk]
    omega

/-- A row of a table and where it is stored. -/
def Stored (rows : List (List Nat)) (w : Nat) (p : Option Nat) (r : Option (List Nat)) : Prop :=
  (p = none ∧ r = none) ∨ ∃ k, ∃ h : k < rows.length, p = some (k * w) ∧ r = some rows[k]

theorem inRange_eq {w : Nat} {rows : List (List Nat)} (hw : ∀ r ∈ rows, r.length = w) (w1 : 1 < w)
    (h0 : 0 < rows.length) (ha : ascending (fun r => r.getD 1 0) rows = true) (c : Nat) :
    ∃ p, inRange rows.flatten c w = .ok p ∧ Stored rows w p (rowOf rows c) := by
  unfold inRange rowOf
  rcases rune_bsearch_eq hw (by omega) h0 c with ⟨e, h⟩ | ⟨m, e, hm, h1, h2⟩
  · rw [e]
    exact ⟨none, rfl, .inl ⟨rfl, find?_below ha c h⟩⟩
  · rw [e]
    simp only [Res.bind]
    rw [el_key hw (by omega) hm, el_flatten hw hm w1, find?_unique ha c hm h1 h2]
    simp only
    by_cases hc : c ≤ rows[m].getD 1 0
    · rw [if_pos ⟨h1, hc⟩, if_pos hc]
      exact ⟨_, rfl, .inr ⟨m, hm, rfl, rfl⟩⟩
    · rw [if_neg (fun h => hc h.2), if_neg hc]
      exact ⟨_, rfl, .inl ⟨rfl, rfl⟩⟩

theorem isEntry_eq {w : Nat} {rows : List (List Nat)} (hw : ∀ r ∈ rows, r.length = w) (w0 : 0 < w)
    (h0 : 0 < rows.length) (ha : ascending (fun r => r.getD 0 0) rows = true) (c : Nat) :
    ∃ p, isEntry rows.flatten c w = .ok p ∧ Stored rows w p (entryOf rows c) := by
  have hE : entryOf rows c = rows.find? (fun r => decide (r.getD 0 0 ≤ c) && decide (c ≤ r.getD 0 0)) := by
    unfold entryOf
    congr 1
    funext r
    by_cases h : r.getD 0 0 = c
    · simp only [h, Nat.le_refl, decide_true, Bool.and_self]
    · simp only [h, decide_false]
      symm
      rw [Bool.and_eq_false_iff, decide_eq_false_iff_not, decide_eq_false_iff_not]
      omega
  unfold isEntry
  rw [hE]
  rcases rune_bsearch_eq hw w0 h0 c with ⟨e, h⟩ | ⟨m, e, hm, h1, h2⟩
  · rw [e]
    exact ⟨none, rfl, .inl ⟨rfl, find?_below (hi := fun r => r.getD 0 0) ha c h⟩⟩
  · rw [e]
    simp only [Res.bind]
    rw [el_key hw w0 hm, find?_unique (hi := fun r => r.getD 0 0) ha c hm h1 h2]
    simp only
    have hk : key rows m = rows[m].getD 0 0 := by simp [key, hm]
    by_cases hc : c ≤ rows[m].getD 0 0
    · rw [if_pos (show c = key rows m by omega), if_pos hc]
      exact ⟨_, rfl, .inr ⟨m, hm, rfl, rfl⟩⟩
    · rw [if_neg (show ¬ c = key rows m by omega), if_neg hc]
      exact ⟨_, rfl, .inl ⟨rfl, rfl⟩⟩

/-- The mapping the tables describe, read row by row. -/
def mapSpec (t2 t1 : List (List Nat)) (c : Nat) : Nat :=
  match rowOf t2 c with
  | some r => shift c (r.getD 2 0)
  | none => match entryOf t1 c with
    | some r => shift c (r.getD 1 0)
    | none => c

/-- The class the tables describe, read row by row. -/
def inSpec (t2 t1 : List (List Nat)) (c : Nat) : Bool := (rowOf t2 c).isSome || (entryOf t1 c).isSome

/-- A table is stored as it should be. -/
structure Ok (rows : List (List Nat)) (w : Nat) (hi : List Nat → Nat) : Prop where
  width : ∀ r ∈ rows, r.length = w
  pos : 0 < rows.length
  asc : ascending hi rows = true

theorem mapCase_eq {t2 t1 : List (List Nat)} (h2 : Ok t2 3 (fun r => r.getD 1 0))
    (h1 : Ok t1 2 (fun r => r.getD 0 0)) (c : Nat) :
    mapCase t2.flatten t1.flatten c = .ok (mapSpec t2 t1 c) := by
  obtain ⟨p, e, hp⟩ := inRange_eq h2.width (by omega) h2.pos h2.asc c
  obtain ⟨q, e', hq⟩ := isEntry_eq h1.width (by omega) h1.pos h1.asc c
  unfold mapCase mapSpec mapEntry
  rw [e, e']
  rcases hp with ⟨rfl, hr⟩ | ⟨k, hk, rfl, hr⟩
  · rw [hr]
    simp only [Res.bind]
    rcases hq with ⟨rfl, hr'⟩ | ⟨j, hj, rfl, hr'⟩
    · rw [hr']
    · rw [hr']
      simp only
      rw [el_flatten h1.width hj (by omega)]
  · rw [hr]
    simp only [Res.bind]
    rw [el_flatten h2.width hk (by omega)]

theorem inTables_eq {t2 t1 : List (List Nat)} {w2 w1 : Nat} (h2 : Ok t2 w2 (fun r => r.getD 1 0)) (hw2 : 1 < w2)
    (h1 : Ok t1 w1 (fun r => r.getD 0 0)) (hw1 : 0 < w1) (c : Nat) :
    inTables t2.flatten t1.flatten w2 w1 c = .ok (inSpec t2 t1 c) := by
  obtain ⟨p, e, hp⟩ := inRange_eq h2.width hw2 h2.pos h2.asc c
  obtain ⟨q, e', hq⟩ := isEntry_eq h1.width hw1 h1.pos h1.asc c
  unfold inTables inSpec
  rw [e, e']
  rcases hp with ⟨rfl, hr⟩ | ⟨k, hk, rfl, hr⟩
  · rw [hr]
    simp only [Res.bind]
    rcases hq with ⟨rfl, hr'⟩ | ⟨j, hj, rfl, hr'⟩
    · rw [hr']; rfl
    · rw [hr']; rfl
  · rw [hr]
    rfl

theorem tolower2_ok : Ok tolower2 3 (fun r => r.getD 1 0) := ⟨by decide +kernel, by decide +kernel, by decide +kernel⟩
theorem tolower1_ok : Ok tolower1 2 (fun r => r.getD 0 0) := ⟨by decide +kernel, by decide +kernel, by decide +kernel⟩
theorem toupper2_ok : Ok toupper2 3 (fun r => r.getD 1 0) := ⟨by decide +kernel, by decide +kernel, by decide +kernel⟩
theorem toupper1_ok : Ok toupper1 2 (fun r => r.getD 0 0) := ⟨by decide +kernel, by decide +kernel, by decide +kernel⟩
theorem totitle1_ok : Ok totitle1 2 (fun r => r.getD 0 0) := ⟨by decide +kernel, by decide +kernel, by decide +kernel⟩
theorem alpha2_ok : Ok alpha2 2 (fun r => r.getD 1 0) := ⟨by decide +kernel, by decide +kernel, by decide +kernel⟩
theorem alpha1_ok : Ok alpha1 1 (fun r => r.getD 0 0) := ⟨by decide +kernel, by decide +kernel, by decide +kernel⟩
theorem space2_ok : Ok space2 2 (fun r => r.getD 1 0) := ⟨by decide +kernel, by decide +kernel, by decide +kernel⟩

theorem tolowerrune_eq (c : Nat) : tolowerrune c = .ok (mapSpec tolower2 tolower1 c) :=
  mapCase_eq tolower2_ok tolower1_ok c
theorem toupperrune_eq (c : Nat) : toupperrune c = .ok (mapSpec toupper2 toupper1 c) :=
  mapCase_eq toupper2_ok toupper1_ok c
theorem islowerrune_eq (c : Nat) : islowerrune c = .ok (inSpec toupper2 toupper1 c) :=
  inTables_eq toupper2_ok (by omega) toupper1_ok (by omega) c
theorem isupperrune_eq (c : Nat) : isupperrune c = .ok (inSpec tolower2 tolower1 c) :=
  inTables_eq tolower2_ok (by omega) tolower1_ok (by omega) c

theorem totitlerune_eq (c : Nat) : totitlerune c = .ok (match entryOf totitle1 c with
    | some r => shift c (r.getD 1 0)
    | none => c) := by
  obtain ⟨q, e, hq⟩ := isEntry_eq totitle1_ok.width (by omega) totitle1_ok.pos totitle1_ok.asc c
  unfold totitlerune mapEntry
  rw [e]
  rcases hq with ⟨rfl, hr⟩ | ⟨j, hj, rfl, hr⟩
  · rw [hr]; rfl
  · rw [hr]
    simp only [Res.bind]
    rw [el_flatten totitle1_ok.width hj (by omega)]

theorem isspacerune_eq (c : Nat) : isspacerune c = .ok (rowOf space2 c).isSome := by
  obtain ⟨q, e, hq⟩ := inRange_eq space2_ok.width (by omega) space2_ok.pos space2_ok.asc c
  unfold isspacerune
  rw [e]
  rcases hq with ⟨rfl, hr⟩ | ⟨j, hj, rfl, hr⟩
  · rw [hr]; rfl
  · rw [hr]; rfl

theorem isalpharune_eq (c : Nat) : isalpharune c =
    .ok (inSpec tolower2 tolower1 c || inSpec toupper2 toupper1 c || inSpec alpha2 alpha1 c) := by
  unfold isalpharune
  rw [isupperrune_eq, islowerrune_eq, inTables_eq alpha2_ok (by omega) alpha1_ok (by omega)]
  cases inSpec tolower2 tolower1 c <;> cases inSpec toupper2 toupper1 c <;> rfl

theorem istitlerune_eq (c : Nat) : istitlerune c =
    .ok (inSpec tolower2 tolower1 c && inSpec toupper2 toupper1 c) := by
  unfold istitlerune
  rw [isupperrune_eq, islowerrune_eq]
  cases inSpec tolower2 tolower1 c <;> cases inSpec toupper2 toupper1 c <;> rfl

/-! ## Every rune of a class -/

/-- The runes of two tables. -/
def members (t2 t1 : List (List Nat)) : List Nat :=
  t2.flatMap (fun r => (List.range (r.getD 1 0 + 1 - r.getD 0 0)).map (r.getD 0 0 + ·)) ++
    t1.map fun r => r.getD 0 0

theorem mem_members {t2 t1 : List (List Nat)} {c : Nat} (h : inSpec t2 t1 c = true) : c ∈ members t2 t1 := by
  unfold inSpec at h
  rw [Bool.or_eq_true, Option.isSome_iff_exists, Option.isSome_iff_exists] at h
  unfold members
  rw [List.mem_append]
  rcases h with ⟨r, h⟩ | ⟨r, h⟩
  · left
    have h1 := List.find?_some h
    have h2 := List.mem_of_find?_eq_some h
    simp only [Bool.and_eq_true, decide_eq_true_eq] at h1
    rw [List.mem_flatMap]
    refine ⟨r, h2, ?_⟩
    rw [List.mem_map]
    exact ⟨c - r.getD 0 0, by rw [List.mem_range]; omega, by omega⟩
  · right
    have h1 := List.find?_some h
    have h2 := List.mem_of_find?_eq_some h
    simp only [decide_eq_true_eq] at h1
    rw [List.mem_map]
    exact ⟨r, h2, h1⟩

/-- A claim about the runes of two tables is checked rune by rune. -/
theorem forall_members {t2 t1 : List (List Nat)} {P : Nat → Bool} (h : (members t2 t1).all P = true) {c : Nat}
    (hc : inSpec t2 t1 c = true) : P c = true :=
  List.all_eq_true.mp h c (mem_members hc)

theorem mapSpec_other {t2 t1 : List (List Nat)} {c : Nat} (h : inSpec t2 t1 c = false) : mapSpec t2 t1 c = c := by
  unfold inSpec at h
  rw [Bool.or_eq_false_iff] at h
  unfold mapSpec
  rw [Option.isSome_eq_false_iff, Option.isSome_eq_false_iff, Option.isNone_iff_eq_none,
    Option.isNone_iff_eq_none] at h
  rw [h.1, h.2]

/-- Upper case letters whose lower case is that of another letter, or is not lower case. -/
def oddUpper (c : Nat) : Bool :=
  decide (c = 0x130 ∨ c = 0x1c5 ∨ c = 0x1c8 ∨ c = 0x1cb ∨ c = 0x1f2 ∨ (0x10a0 ≤ c ∧ c ≤ 0x10c5))

/-- Lower case letters whose upper case is that of another letter. -/
def oddLower (c : Nat) : Bool :=
  [0x131, 0x17f, 0x1c5, 0x1c8, 0x1cb, 0x1f2, 0x3d0, 0x3d1, 0x3d5, 0x3d6, 0x3f0, 0x3f1].contains c

theorem lower_changes : (members tolower2 tolower1).all (fun c => mapSpec tolower2 tolower1 c != c) = true := by
  decide +kernel
theorem upper_changes : (members toupper2 toupper1).all (fun c => mapSpec toupper2 toupper1 c != c) = true := by
  decide +kernel
theorem upper_lower : (members tolower2 tolower1).all (fun c =>
    oddUpper c != (mapSpec toupper2 toupper1 (mapSpec tolower2 tolower1 c) == c)) = true := by
  decide +kernel
theorem lower_upper : (members toupper2 toupper1).all (fun c =>
    oddLower c != (mapSpec tolower2 tolower1 (mapSpec toupper2 toupper1 c) == c)) = true := by
  decide +kernel
theorem title_members : (members tolower2 tolower1).all (fun c =>
    inSpec toupper2 toupper1 c == [0x1c5, 0x1c8, 0x1cb, 0x1f2].contains c) = true := by
  decide +kernel

end Che.Lib.Utf
