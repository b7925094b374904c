import Verif.Model.Lib.Json
import Verif.Spec.Lib.Json
import Verif.Spec.Lib.Cursor
import Verif.Proofs.Lib.Bits

/-!
The parser of `lib/formats/json.c` on lists of bytes, and the grammar of JSON.
-/
namespace Che.Lib.Json
open Che.Lib Che.Spec.Lib

variable {D : Type}

def ws (s : Bytes) : Bytes := s.dropWhile blank

def lexpect (s : Bytes) (c : UInt8) : Res Unit Bytes :=
  match ws s with
  | [] => .err ()
  | x :: r => if x = c then .ok r else .err ()

def leat (s : Bytes) (c : UInt8) : Bytes × Bool :=
  match ws s with
  | [] => ([], false)
  | x :: r => if x = c then (r, true) else (x :: r, false)

def lchars : Bytes → Bytes → Res Unit (Bytes × Bytes)
  | [], acc => .ok ([], acc)
  | c :: s, acc =>
    if c = 34 then .ok (c :: s, acc)
    else if c = 92 then
      match s with
      | [] => .err ()
      | x :: s => lchars s (acc ++ [x])
    else lchars s (acc ++ [c])

def lstr (s : Bytes) : Res Unit (Bytes × Bytes) := do
  let s ← lexpect s 34
  let (s, x) ← lchars s []
  let s ← lexpect s 34
  .ok (s, x)

def lnum (dbl : Dbl D) (s : Bytes) : Res Unit (Bytes × Val D) :=
  if 100 ≤ (numberAt s).1.length then .panic ""
  else if (numberAt s).2 then .ok (s.drop (numberAt s).1.length, .num (dbl.scan (numberAt s).1)) else .err ()

def lkw (s : Bytes) : Res Unit (Bytes × Val D) :=
  if [116, 114, 117, 101] <+: s then .ok (s.drop 4, .bool true)
  else if [102, 97, 108, 115, 101] <+: s then .ok (s.drop 5, .bool false)
  else if [110, 117, 108, 108] <+: s then .ok (s.drop 4, .null)
  else .err ()

mutual
def lnode (dbl : Dbl D) : Nat → Bytes → Res Unit (Bytes × Val D)
  | 0, _ => .diverge
  | n + 1, s =>
    match ws s with
    | [] => .err ()
    | c :: r =>
      if c = 91 then larray dbl n (c :: r)
      else if c = 123 then ldict dbl n (c :: r)
      else if c = 34 then do
        let (s, x) ← lstr (c :: r)
        .ok (s, .str x)
      else if digit c || c = 45 then lnum dbl (c :: r)
      else lkw (c :: r)

def larray (dbl : Dbl D) : Nat → Bytes → Res Unit (Bytes × Val D)
  | 0, _ => .diverge
  | n + 1, s => do
    let s ← lexpect s 91
    let (s, closed) := leat s 93
    if closed then .ok (s, .arr [])
    else
      let (s, vals) ← lvals dbl n s []
      let s ← lexpect s 93
      .ok (s, .arr vals)

def lvals (dbl : Dbl D) : Nat → Bytes → List (Val D) → Res Unit (Bytes × List (Val D))
  | 0, _, _ => .diverge
  | n + 1, s, a =>
    if ws s = [] then .ok ([], a)
    else do
      let (s, x) ← lnode dbl n s
      let (s, comma) := leat s 44
      if !comma then .ok (s, push x a) else lvals dbl n s (push x a)

def ldict (dbl : Dbl D) : Nat → Bytes → Res Unit (Bytes × Val D)
  | 0, _ => .diverge
  | n + 1, s => do
    let s ← lexpect s 123
    let (s, closed) := leat s 125
    if closed then .ok (s, .obj [])
    else
      let (s, es) ← lentries dbl n s []
      let s ← lexpect s 125
      .ok (s, .obj es)

def lentries (dbl : Dbl D) : Nat → Bytes → List (Bytes × Val D) → Res Unit (Bytes × List (Bytes × Val D))
  | 0, _, _ => .diverge
  | n + 1, s, o =>
    if ws s = [] then .ok ([], o)
    else do
      let (s, k) ← lstr s
      let s ← lexpect s 58
      let (s, v) ← lnode dbl n s
      let (s, comma) := leat s 44
      if !comma then .ok (s, put k v o) else lentries dbl n s (put k v o)
end

theorem bind_ok {α β : Type} {x : Res Unit α} {f : α → Res Unit β} {b : β} (h : (x >>= f) = .ok b) :
    ∃ a, x = .ok a ∧ f a = .ok b := by
  cases x with
  | ok a => exact ⟨a, rfl, h⟩
  | err e => cases h
  | panic m => cases h
  | diverge => cases h

theorem ok_bind {α β : Type} (a : α) (f : α → Res Unit β) : ((Res.ok a : Res Unit α) >>= f) = f a := rfl

theorem mem_takeWhile {p : UInt8 → Bool} {s : Bytes} {c : UInt8} (h : c ∈ s.takeWhile p) : p c = true := by
  induction s with
  | nil => simp at h
  | cons x s ih =>
    rw [List.takeWhile_cons] at h
    split at h
    · simp only [List.mem_cons] at h
      rcases h with rfl | h
      · assumption
      · exact ih h
    · simp at h

theorem blank_iff (c : UInt8) : blank c = true ↔ lax.ws c := by simp [blank, lax]

/-- The blanks before a text. -/
theorem ws_split (s : Bytes) : ∃ a, s = a ++ ws s ∧ Blanks lax a := by
  refine ⟨s.takeWhile blank, (List.takeWhile_append_dropWhile).symm, ?_⟩
  exact fun c hc => (blank_iff c).mp (mem_takeWhile hc)

theorem ws_blanks {a : Bytes} (h : Blanks lax a) (s : Bytes) : ws (a ++ s) = ws s := by
  unfold ws
  induction a with
  | nil => rfl
  | cons c a ih =>
    have hc : blank c = true := (blank_iff c).mpr (h c (by simp))
    simp only [List.cons_append, List.dropWhile_cons, hc, if_true]
    exact ih fun x hx => h x (by simp [hx])

theorem ws_cons {c : UInt8} (h : blank c = false) (s : Bytes) : ws (c :: s) = c :: s := by
  simp [ws, h]

theorem ws_head {s : Bytes} {c : UInt8} {r : Bytes} (h : ws s = c :: r) : blank c = false := by
  unfold ws at h
  have := List.head?_dropWhile_not blank s
  rw [h] at this
  simpa using this

theorem ws_length (s : Bytes) : (ws s).length ≤ s.length := (List.dropWhile_sublist _).length_le

theorem lexpect_ok {s r : Bytes} {c : UInt8} (h : lexpect s c = .ok r) : ws s = c :: r := by
  unfold lexpect at h
  split at h
  · cases h
  · split at h
    · rename_i hw hx; rw [hw, hx]; injection h with h; rw [h]
    · cases h

theorem lexpect_blanks {a : Bytes} (h : Blanks lax a) {c : UInt8} (hc : blank c = false) (r : Bytes) :
    lexpect (a ++ c :: r) c = .ok r := by
  unfold lexpect; rw [ws_blanks h, ws_cons hc]; simp

theorem leat_true {s r : Bytes} {c : UInt8} (h : leat s c = (r, true)) : ws s = c :: r := by
  unfold leat at h
  split at h
  · cases h
  · split at h
    · rename_i hw hx; rw [hw, hx]; injection h with h _; rw [h]
    · cases h

theorem leat_false {s r : Bytes} {c : UInt8} (h : leat s c = (r, false)) : r = ws s ∧ ∀ r', ws s ≠ c :: r' := by
  unfold leat at h
  split at h
  · rename_i hw; injection h with h _; rw [hw]; exact ⟨h.symm, by simp⟩
  · split at h
    · cases h
    · rename_i hw hx; injection h with h _; rw [hw]; exact ⟨h.symm, by simp [hx]⟩

theorem leat_blanks {a : Bytes} (h : Blanks lax a) {c : UInt8} (hc : blank c = false) (r : Bytes) :
    leat (a ++ c :: r) c = (r, true) := by
  unfold leat; rw [ws_blanks h, ws_cons hc]; simp

theorem leat_other {a : Bytes} (h : Blanks lax a) {c x : UInt8} (hc : blank x = false) (hx : x ≠ c) (r : Bytes) :
    leat (a ++ x :: r) c = (x :: r, false) := by
  unfold leat; rw [ws_blanks h, ws_cons hc]; simp [hx]

/-! Strings. -/

theorem lchars_sound (s acc s' x : Bytes) (h : lchars s acc = .ok (s', x)) :
    ∃ t y, s = t ++ s' ∧ x = acc ++ y ∧ JChars lax t y ∧ (s' = [] ∨ ∃ r, s' = 34 :: r) := by
  fun_induction lchars s acc with
  | case1 acc =>
    injection h with h; injection h with h1 h2
    exact ⟨[], [], by simp [h1], by simp [h2], .nil, .inl h1.symm⟩
  | case2 s acc =>
    injection h with h; injection h with h1 h2
    exact ⟨[], [], by simp [h1], by simp [h2], .nil, .inr ⟨s, h1.symm⟩⟩
  | case3 => cases h
  | case4 acc c s hne ih =>
    obtain ⟨t, y, e1, e2, hj, hs⟩ := ih h
    refine ⟨92 :: [c] ++ t, [c] ++ y, by simp [e1], by simp [e2], .esc ⟨c, rfl, rfl⟩ hj, hs⟩
  | case5 c s acc h34 h92 ih =>
    obtain ⟨t, y, e1, e2, hj, hs⟩ := ih h
    refine ⟨c :: t, c :: y, by simp [e1], by simp [e2], .plain trivial h34 h92 hj, hs⟩

theorem lchars_quote (r acc : Bytes) : lchars (34 :: r) acc = .ok (34 :: r, acc) := by
  rw [lchars.eq_def]; simp

theorem lchars_plain {c : UInt8} (h34 : c ≠ 34) (h92 : c ≠ 92) (r acc : Bytes) : lchars (c :: r) acc = lchars r (acc ++ [c]) := by
  rw [lchars.eq_def]; simp [h34, h92]

theorem lchars_esc (c : UInt8) (r acc : Bytes) : lchars (92 :: c :: r) acc = lchars r (acc ++ [c]) := by
  rw [lchars.eq_def]; simp

theorem lchars_complete {t y : Bytes} (h : JChars lax t y) (acc r : Bytes) :
    lchars (t ++ 34 :: r) acc = .ok (34 :: r, acc ++ y) := by
  induction h generalizing acc with
  | nil => simp [lchars_quote]
  | plain _ h34 h92 _ ih => rw [List.cons_append, lchars_plain h34 h92, ih]; simp
  | esc he _ ih =>
    obtain ⟨c, rfl, rfl⟩ := he
    simp only [List.cons_append, List.nil_append]
    rw [lchars_esc, ih]
    simp

theorem lstr_sound {s s' x : Bytes} (h : lstr s = .ok (s', x)) :
    ∃ a t, s = a ++ t ++ s' ∧ Blanks lax a ∧ JString lax x t := by
  unfold lstr at h
  obtain ⟨s1, h1, h⟩ := bind_ok h
  obtain ⟨⟨s2, y⟩, h2, h⟩ := bind_ok h
  obtain ⟨s3, h3, h⟩ := bind_ok h
  injection h with h; injection h with e1 e2
  subst e1 e2
  obtain ⟨a, ha, hb⟩ := ws_split s
  rw [lexpect_ok h1] at ha
  obtain ⟨t, y', e1, e2, hj, hs⟩ := lchars_sound _ _ _ _ h2
  have hw := lexpect_ok h3
  rcases hs with rfl | ⟨r, rfl⟩
  · simp [ws] at hw
  · rw [ws_cons (by decide)] at hw
    injection hw with _ hw
    subst hw
    simp only [List.nil_append] at e2
    subst e2
    exact ⟨a, [34] ++ t ++ [34], by rw [ha, e1]; simp, hb, t, hj, rfl⟩

theorem lstr_complete {x t : Bytes} (h : JString lax x t) {a : Bytes} (ha : Blanks lax a) (r : Bytes) :
    lstr (a ++ t ++ r) = .ok (r, x) := by
  obtain ⟨u, hj, rfl⟩ := h
  unfold lstr
  have e : a ++ ([34] ++ u ++ [34]) ++ r = a ++ 34 :: (u ++ 34 :: r) := by simp
  rw [e, lexpect_blanks ha (by decide), ok_bind, lchars_complete hj, ok_bind]
  simp only [List.nil_append]
  have : lexpect (34 :: r) 34 = .ok r := lexpect_blanks (a := []) (by simp [Blanks]) (by decide) r
  rw [this]; rfl

/-! Numbers. -/

/-- What does not go on with a number. -/
def Stop (r : Bytes) : Prop := ∀ c s, r = c :: s → digit c = false ∧ c ≠ 46 ∧ c ≠ 101 ∧ c ≠ 69

theorem digit_iff (c : UInt8) : digit c = true ↔ JDigit c := by simp [digit, JDigit]

theorem takeWhile_digits {ds r : Bytes} (h : ∀ c ∈ ds, JDigit c) (hr : ∀ c s, r = c :: s → digit c = false) :
    (ds ++ r).takeWhile digit = ds := by
  induction ds with
  | nil =>
    cases r with
    | nil => rfl
    | cons c s => simp [hr c s rfl]
  | cons d ds ih =>
    have hd : digit d = true := (digit_iff d).mpr (h d (by simp))
    simp only [List.cons_append, List.takeWhile_cons, hd, if_true]
    rw [ih fun c hc => h c (by simp [hc])]

theorem digitsAt_complete {ds r : Bytes} (h : ∀ c ∈ ds, JDigit c) (hne : ds ≠ []) (hr : ∀ c s, r = c :: s → digit c = false) :
    digitsAt (ds ++ r) = (ds, true) := by
  simp [digitsAt, takeWhile_digits h hr, hne]

theorem expAt_complete {t r : Bytes} (h : JExp t) (hr : Stop r) : expAt (t ++ r) = (t, true) := by
  rcases h with rfl | ⟨e, sign, ds, rfl, he, hs, hne, hd⟩
  · cases r with
    | nil => rfl
    | cons c s =>
      have := hr c s rfl
      simp [expAt, this.2.2.1, this.2.2.2]
  · have he' : (decide (e = 101) || decide (e = 69)) = true := by simpa using he
    have hdig := digitsAt_complete hd hne fun c s h => (hr c s h).1
    rcases hs with rfl | rfl | rfl
    · cases ds with
      | nil => exact absurd rfl hne
      | cons d ds =>
        have hj := hd d (by simp)
        have h1 : d ≠ 45 := by intro e; subst e; exact absurd ((digit_iff _).mpr hj) (by decide)
        have h2 : d ≠ 43 := by intro e; subst e; exact absurd ((digit_iff _).mpr hj) (by decide)
        simp only [List.cons_append, List.nil_append] at hdig ⊢
        simp [expAt, he', h1, h2, hdig]
    · simp [expAt, he', hdig]
    · simp [expAt, he', hdig]

theorem expAt_prefix (s : Bytes) : (expAt s).1 <+: s := by
  unfold expAt
  split
  · simp
  · rename_i e s
    split
    · split
      · simp
      · rename_i g s'
        split
        · simp [digitsAt, List.cons_prefix_cons, List.takeWhile_prefix]
        · simp only [digitsAt, List.cons_prefix_cons, true_and]; exact List.takeWhile_prefix _
    · simp

theorem takeWhile_JDigit (s : Bytes) : ∀ c ∈ s.takeWhile digit, JDigit c :=
  fun c hc => (digit_iff c).mp (mem_takeWhile hc)

theorem expAt_sound {s : Bytes} (h : (expAt s).2 = true) : JExp (expAt s).1 := by
  unfold expAt at h ⊢
  split at h
  · exact .inl rfl
  · rename_i e s
    split at h
    · rename_i he
      have he' : e = 101 ∨ e = 69 := by simpa using he
      simp only [he, if_true]
      split at h
      · cases h
      · rename_i g s'
        split at h
        · rename_i hg
          simp only [hg, if_true]
          simp only [digitsAt, decide_eq_true_eq] at h ⊢
          refine .inr ⟨e, [g], s'.takeWhile digit, rfl, he', ?_, h, takeWhile_JDigit _⟩
          simp at hg; rcases hg with rfl | rfl <;> simp
        · rename_i hg
          simp only [hg]
          simp only [digitsAt, decide_eq_true_eq] at h ⊢
          exact .inr ⟨e, [], (g :: s').takeWhile digit, rfl, he', .inl rfl, h, takeWhile_JDigit _⟩
    · rename_i he
      simp only [he]
      exact .inl rfl

theorem expAt_stop {t r : Bytes} (h : JExp t) (hr : Stop r) : ∀ c s, t ++ r = c :: s → digit c = false := by
  intro c s e
  rcases h with rfl | ⟨e', sign, ds, rfl, he, _⟩
  · exact (hr c s (by simpa using e)).1
  · simp at e; rcases he with he | he <;> (rw [← e.1, he]; decide)

theorem fracAt_complete {f t r : Bytes} (hf : JFrac f) (h : JExp t) (hr : Stop r) : fracAt (f ++ t ++ r) = (f ++ t, true) := by
  rcases hf with rfl | ⟨ds, rfl, hne, hd⟩
  · simp only [List.nil_append]
    have he := expAt_complete h hr
    have : (t ++ r).head? ≠ some 46 := by
      intro e
      rcases h with rfl | ⟨e', sign, ds, rfl, he, _⟩
      · cases r with
        | nil => simp at e
        | cons c s => simp at e; exact (hr c s rfl).2.1 e
      · simp at e; rcases he with he | he <;> (rw [he] at e; exact absurd e (by decide))
    cases hs : t ++ r with
    | nil => rw [hs] at he; simpa [fracAt, expAt] using he
    | cons c s =>
      rw [hs] at this he
      have : c ≠ 46 := by simpa using this
      simp [fracAt, this, he]
  · have hdig := digitsAt_complete (r := t ++ r) hd hne (expAt_stop h hr)
    simp only [List.cons_append, List.append_assoc]
    simp only [fracAt, if_true, hdig, List.drop_left, expAt_complete h hr]
    simp

theorem fracAt_sound {s : Bytes} (h : (fracAt s).2 = true) :
    (∃ f t, (fracAt s).1 = f ++ t ∧ JFrac f ∧ JExp t) ∧ (fracAt s).1 <+: s := by
  unfold fracAt at h ⊢
  split at h
  · exact ⟨⟨[], [], rfl, .inl rfl, .inl rfl⟩, by simp⟩
  · rename_i d s
    split at h
    · rename_i hd
      subst hd
      simp only [if_true]
      simp only [digitsAt, decide_eq_true_eq] at h ⊢
      by_cases hne : s.takeWhile digit ≠ []
      · simp only [if_pos hne] at h ⊢
        refine ⟨⟨46 :: s.takeWhile digit, (expAt (s.drop (s.takeWhile digit).length)).1, rfl,
          .inr ⟨_, rfl, hne, takeWhile_JDigit _⟩, expAt_sound h⟩, ?_⟩
        simp only [List.cons_append, List.cons_prefix_cons, true_and]
        obtain ⟨u, hu⟩ := expAt_prefix (s.drop (s.takeWhile digit).length)
        refine ⟨u, ?_⟩
        rw [List.append_assoc, hu]
        obtain ⟨v, hv⟩ := List.takeWhile_prefix (p := digit) (l := s)
        generalize s.takeWhile digit = w at *
        rw [← hv]; simp
      · simp only [if_neg hne] at h; cases h
    · rename_i hd
      simp only [if_neg hd]
      exact ⟨⟨[], _, rfl, .inl rfl, expAt_sound h⟩, expAt_prefix _⟩

theorem unsignedAt_complete {ds f t r : Bytes} (hd : JDigits ds) (hf : JFrac f) (h : JExp t) (hr : Stop r) :
    unsignedAt (ds ++ f ++ t ++ r) = (ds ++ f ++ t, true) := by
  have hstop : ∀ c s, f ++ t ++ r = c :: s → digit c = false := by
    intro c s e
    rcases hf with rfl | ⟨ds, rfl, _⟩
    · exact expAt_stop h hr c s (by simpa using e)
    · simp at e; rw [← e.1]; decide
  have e : ds ++ f ++ t ++ r = ds ++ (f ++ t ++ r) := by simp
  have hdig := digitsAt_complete hd.2 hd.1 hstop
  rw [e]
  simp only [unsignedAt, hdig, if_true, List.drop_left, fracAt_complete hf h hr]
  simp

theorem number_complete {t r : Bytes} (h : JNumber JDigits t) (hr : Stop r) : numberAt (t ++ r) = (t, true) := by
  obtain ⟨sign, ds, f, x, rfl, hs, hd, hf, hx⟩ := h
  have hu := unsignedAt_complete hd hf hx hr
  rcases hs with rfl | rfl
  · simp only [List.nil_append]
    cases ds with
    | nil => exact absurd rfl hd.1
    | cons d ds =>
      have hj := hd.2 d (by simp)
      have h1 : d ≠ 45 := by intro e; subst e; exact absurd ((digit_iff _).mpr hj) (by decide)
      simp only [List.cons_append] at hu ⊢
      simp only [numberAt, if_neg h1, hu]
  · have e : [45] ++ ds ++ f ++ x ++ r = 45 :: (ds ++ f ++ x ++ r) := by simp
    rw [e]
    simp only [numberAt, if_true, hu]
    simp

theorem unsignedAt_sound {s : Bytes} (h : (unsignedAt s).2 = true) :
    (∃ ds f t, (unsignedAt s).1 = ds ++ f ++ t ∧ JDigits ds ∧ JFrac f ∧ JExp t) ∧ (unsignedAt s).1 <+: s := by
  simp only [unsignedAt, digitsAt, decide_eq_true_eq] at h ⊢
  by_cases hne : s.takeWhile digit ≠ []
  · simp only [if_pos hne] at h ⊢
    obtain ⟨⟨f, t, e, hf, ht⟩, hp⟩ := fracAt_sound h
    refine ⟨⟨s.takeWhile digit, f, t, by rw [e]; simp, ⟨hne, takeWhile_JDigit _⟩, hf, ht⟩, ?_⟩
    obtain ⟨u, hu⟩ := hp
    refine ⟨u, ?_⟩
    rw [List.append_assoc, hu]
    obtain ⟨v, hv⟩ := List.takeWhile_prefix (p := digit) (l := s)
    generalize s.takeWhile digit = w at *
    rw [← hv]; simp
  · simp only [if_neg hne] at h; cases h

theorem number_sound {s : Bytes} (h : (numberAt s).2 = true) : JNumber JDigits (numberAt s).1 ∧ (numberAt s).1 <+: s := by
  unfold numberAt at h ⊢
  split at h
  · cases h
  · rename_i m s
    split at h
    · rename_i hm
      subst hm
      simp only [if_true]
      obtain ⟨⟨ds, f, t, e, hd, hf, ht⟩, hp⟩ := unsignedAt_sound h
      exact ⟨⟨[45], ds, f, t, by rw [e]; simp, .inr rfl, hd, hf, ht⟩, by simpa [List.cons_prefix_cons] using hp⟩
    · rename_i hm
      simp only [if_neg hm]
      obtain ⟨⟨ds, f, t, e, hd, hf, ht⟩, hp⟩ := unsignedAt_sound h
      exact ⟨⟨[], ds, f, t, by rw [e]; simp, .inl rfl, hd, hf, ht⟩, hp⟩

end Che.Lib.Json
