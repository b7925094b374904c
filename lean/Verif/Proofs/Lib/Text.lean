import Verif.Spec.Lib.Text
import Verif.Model.Lib.LineReader
import Verif.Proofs.Lib.Tok
import Verif.Proofs.Prog.Regexp9Conv

namespace Che.Lib.Url
open Che.Lib Che.Lib.Tok Che.Spec.Lib Che.Spec.Text

theorem fill_is (size : Nat) (stop : Int → Bool) (k : Nat) {t : T} {c : Cursor} (h : Is t c) (hk : c.rest.length < k) (s : Bytes)
    (hs : s.length ≤ size) :
    (s.length + (c.rest.takeWhile (fun x => !stop (x.toNat : Int))).length ≤ size ∧
      ∃ t', fill size stop k t s = .ok (t', s ++ c.rest.takeWhile (fun x => !stop (x.toNat : Int))) ∧
        Is t' (c.past (c.rest.takeWhile (fun x => !stop (x.toNat : Int))))) ∨
    (s.length + (c.rest.takeWhile (fun x => !stop (x.toNat : Int))).length > size ∧ ∃ m, fill size stop k t s = .panic m) := by
  induction k generalizing t c s with
  | zero => omega
  | succ k ih =>
    obtain ⟨t1, e1, h1⟩ := more_is h
    obtain ⟨t2, e2, h2⟩ := peek_is h1
    obtain ⟨t3, e3, h3⟩ := get_is h2
    obtain ⟨seen, rest⟩ := c
    simp only [fill, e1, e2, e3]
    cases rest with
    | nil => exact .inl ⟨by simpa using hs, t1, by simp, by simpa [past_nil] using h1⟩
    | cons x rest =>
      simp only [List.head?_cons, code, List.takeWhile_cons] at *
      rcases Bool.eq_false_or_eq_true (stop (x.toNat : Int)) with hx | hx
      · left
        simp only [hx, Bool.not_true, Bool.false_eq_true, if_false, List.length_nil, List.append_nil]
        exact ⟨by omega, t2, by simp, by simpa [past_nil] using h2⟩
      · simp only [hx, Bool.not_false, if_true, ne_eq, reduceCtorEq, not_false_eq_true, decide_true, Bool.not_true, Bool.false_eq_true, if_false]
        rw [past_cons]
        simp only [List.length_cons] at hk ⊢
        by_cases hl : s.length ≥ size
        · right; rw [if_pos hl]; exact ⟨by omega, _, rfl⟩
        · rw [if_neg hl]
          rw [toByte_code]
          have := ih h3 (by simp [Cursor.skip]; omega) (s ++ [toByte x.toNat]) (by simp; omega)
          simp only [skip_one, toByte_code, List.length_append, List.length_singleton, List.append_assoc, List.singleton_append] at this
          rcases this with ⟨a, b⟩ | ⟨a, b⟩
          · exact .inl ⟨by omega, b⟩
          · exact .inr ⟨by omega, b⟩

theorem fill_rounds (size : Nat) (stop : Int → Bool) {t : T} {c : Cursor} (h : Is t c) :
    ((c.rest.takeWhile (fun x => !stop (x.toNat : Int))).length ≤ size ∧
      ∃ t', fill size stop (rounds t) t [] = .ok (t', c.rest.takeWhile (fun x => !stop (x.toNat : Int))) ∧
        Is t' (c.past (c.rest.takeWhile (fun x => !stop (x.toNat : Int))))) ∨
    ((c.rest.takeWhile (fun x => !stop (x.toNat : Int))).length > size ∧ ∃ m, fill size stop (rounds t) t [] = .panic m) := by
  simpa using fill_is size stop (rounds t) h (by rw [h.rounds]; omega) [] (by simp)

theorem past_takeWhile (c : Cursor) (p : UInt8 → Bool) : (c.past (c.rest.takeWhile p)).rest = c.rest.dropWhile p := by
  obtain ⟨seen, rest⟩ := c
  simp only [Cursor.past, Cursor.skip]
  have : rest.drop (rest.takeWhile p).length = rest.dropWhile p := by
    conv => lhs; rw [← List.takeWhile_append_dropWhile (p := p) (l := rest), List.takeWhile_append_dropWhile]
    generalize he : rest.takeWhile p = a
    have := List.takeWhile_append_dropWhile (p := p) (l := rest)
    rw [he] at this
    rw [← this, List.drop_left]
    rw [this]
  exact this

theorem char_ne (x : UInt8) (y : Nat) (hy : y < 256) : ((x.toNat : Int) = (y : Int)) ↔ x = UInt8.ofNat y := char_iff x y hy

theorem colon (x : UInt8) : (!decide ((x.toNat : Int) = 58)) = decide (x ≠ 58) := by
  have := char_ne x 58 (by omega)
  by_cases h : x = 58
  · subst h; rfl
  · have h' : ¬ ((x.toNat : Int) = 58) := fun e => h (this.mp e)
    simp [h, h']

theorem slash (x : UInt8) : (!decide ((x.toNat : Int) = 47)) = decide (x ≠ 47) := by
  have := char_ne x 47 (by omega)
  by_cases h : x = 47
  · subst h; rfl
  · have h' : ¬ ((x.toNat : Int) = 47) := fun e => h (this.mp e)
    simp [h, h']

theorem code_eq (o : Option UInt8) (y : Nat) (hy : y < 256) : code o = (y : Int) ↔ o = some (UInt8.ofNat y) := by
  cases o with
  | none => simp [code]
  | some x => simp only [code, Option.some.injEq]; exact char_ne x y hy

theorem marks_is {t : T} {c : Cursor} (h : Is t c) :
    (∃ r, c.rest = 58 :: 47 :: 47 :: r ∧ ∃ t' c', marks t = (t', true) ∧ Is t' c' ∧ c'.rest = r) ∨
    ((∀ r, c.rest ≠ 58 :: 47 :: 47 :: r) ∧ ∃ t', marks t = (t', false)) := by
  obtain ⟨seen, rest⟩ := c
  obtain ⟨t1, e1, h1⟩ := get_is h
  obtain ⟨t2, e2, h2⟩ := get_is h1
  obtain ⟨t3, e3, h3⟩ := get_is h2
  simp only [marks, e1, e2, e3]
  have k58 : ∀ o, code o = 58 ↔ o = some 58 := fun o => code_eq o 58 (by omega)
  have k47 : ∀ o, code o = 47 ↔ o = some 47 := fun o => code_eq o 47 (by omega)
  simp only [ne_eq, k58, k47]
  simp only [Cursor.skip] at *
  match rest with
  | [] => exact .inr ⟨by simp, by simp⟩
  | a :: rest =>
    by_cases ha : a = 58
    · subst ha
      match rest with
      | [] => exact .inr ⟨by simp, by simp⟩
      | b :: rest =>
        by_cases hb : b = 47
        · subst hb
          match rest with
          | [] => exact .inr ⟨by simp, by simp⟩
          | d :: rest =>
            by_cases hd : d = 47
            · subst hd
              exact .inl ⟨rest, rfl, t3, _, by simp, h3, by simp⟩
            · exact .inr ⟨by simp [hd], by simp [hd]⟩
        · exact .inr ⟨by simp [hb], by simp [hb]⟩
    · exact .inr ⟨by simp [ha], by simp [ha]⟩

/-- What is after the hostname. -/
def portOf (s : Bytes) : Bytes × Bytes :=
  match s with
  | 58 :: r => (r.takeWhile (· ≠ 47), r.dropWhile (· ≠ 47))
  | _ => ([], s)

theorem readPort_is {t : T} {c : Cursor} (h : Is t c) :
    ((portOf c.rest).1.length ≤ 10 ∧ ∃ t' c', readPort t = .ok (t', (portOf c.rest).1) ∧ Is t' c' ∧ c'.rest = (portOf c.rest).2) ∨
    ((portOf c.rest).1.length > 10 ∧ ∃ m, readPort t = .panic m) := by
  obtain ⟨t1, e1, h1⟩ := peek_is h
  obtain ⟨t2, e2, h2⟩ := get_is h1
  simp only [readPort, e1, e2]
  have k58 : ∀ o, code o = 58 ↔ o = some 58 := fun o => code_eq o 58 (by omega)
  simp only [k58]
  obtain ⟨seen, rest⟩ := c
  by_cases hh : ∃ r, rest = 58 :: r
  · obtain ⟨r, rfl⟩ := hh
    simp only [portOf, List.head?_cons, if_true]
    rw [skip_one] at h2
    have := fill_rounds 10 (fun c => c = 47) h2
    simp only [slash] at this
    rcases this with ⟨a, t', e, h'⟩ | ⟨a, m, e⟩
    · exact .inl ⟨a, t', _, e, h', past_takeWhile _ _⟩
    · exact .inr ⟨a, m, e⟩
  · have hne : rest.head? ≠ some 58 := by
      intro he
      cases rest with
      | nil => cases he
      | cons x r => simp at he; exact hh ⟨r, by rw [he]⟩
    have hp : portOf rest = ([], rest) := by
      unfold portOf
      split
      · rename_i r; exact absurd ⟨r, rfl⟩ hh
      · rfl
    simp only [hp, hne, if_false]
    exact .inl ⟨by simp, t1, _, rfl, h1, rfl⟩

theorem takeWhile_true (s : Bytes) : s.takeWhile (fun _ => true) = s := by
  induction s with
  | nil => rfl
  | cons x s ih => simp [ih]

theorem readPath_is {t : T} {c : Cursor} (h : Is t c) (hr : c.rest = [] ∨ ∃ p, c.rest = 47 :: p) :
    (c.rest.length ≤ 100 ∧ ∃ t', readPath t = .ok (t', if c.rest = [] then [47] else c.rest)) ∨
    (c.rest.length > 100 ∧ ∃ m, readPath t = .panic m) := by
  obtain ⟨t1, e1, h1⟩ := peek_is h
  simp only [readPath, e1]
  have k47 : ∀ o, code o = 47 ↔ o = some 47 := fun o => code_eq o 47 (by omega)
  simp only [k47]
  obtain ⟨seen, rest⟩ := c
  rcases hr with hr | ⟨p, hr⟩ <;> simp only at hr <;> subst hr
  · exact .inl ⟨by simp, t1, by simp⟩
  · simp only [List.head?_cons, if_true]
    have := fill_rounds 100 (fun _ => false) h1
    simp only [Bool.not_false, takeWhile_true] at this
    rcases this with ⟨a, t', e, h'⟩ | ⟨a, m, e⟩
    · exact .inl ⟨a, t', by rw [e]; simp⟩
    · exact .inr ⟨a, m, e⟩

theorem takeWhile_stop {p : UInt8 → Bool} {a b : Bytes} (ha : ∀ x ∈ a, p x = true) (hb : ∀ x, b.head? = some x → p x = false) :
    (a ++ b).takeWhile p = a ∧ (a ++ b).dropWhile p = b := by
  induction a with
  | nil =>
    cases b with
    | nil => exact ⟨rfl, rfl⟩
    | cons x b => have := hb x rfl; simp [List.takeWhile_cons, List.dropWhile_cons, this]
  | cons x a ih =>
    have hx := ha x (by simp)
    obtain ⟨h1, h2⟩ := ih (fun y hy => ha y (by simp [hy]))
    simp [List.takeWhile_cons, List.dropWhile_cons, hx, h1, h2]

theorem dropWhile_head {p : UInt8 → Bool} (s : Bytes) (x : UInt8) (h : (s.dropWhile p).head? = some x) : p x = false := by
  induction s with
  | nil => cases h
  | cons y s ih =>
    rw [List.dropWhile_cons] at h
    by_cases hy : p y = true
    · rw [if_pos hy] at h; exact ih h
    · rw [if_neg hy] at h; cases h; simpa using hy

theorem takeWhile_mem {p : UInt8 → Bool} (s : Bytes) : ∀ x ∈ s.takeWhile p, p x = true := by
  induction s with
  | nil => simp
  | cons y s ih =>
    rw [List.takeWhile_cons]
    by_cases hy : p y = true
    · rw [if_pos hy]
      intro x hx
      rcases List.mem_cons.mp hx with rfl | hx
      · exact hy
      · exact ih x hx
    · rw [if_neg hy]; simp

/-- A URL is its parts. -/
theorem isUrl_iff (s : Bytes) (u : Url) : IsUrl s u ↔
    u.schema = s.takeWhile (· ≠ 58) ∧ ∃ r, s.dropWhile (· ≠ 58) = 58 :: 47 :: 47 :: r ∧
      u.hostname = r.takeWhile (fun x => x ≠ 58 && x ≠ 47) ∧
      u.port = (portOf (r.dropWhile fun x => x ≠ 58 && x ≠ 47)).1 ∧
      u.path = (let p := (portOf (r.dropWhile fun x => x ≠ 58 && x ≠ 47)).2; if p = [] then [47] else p) := by
  constructor
  · rintro ⟨schema, hostname, port, path, portText, pathText, h1, h2, h3, h4, h5⟩
    have s1 := takeWhile_stop (p := (· ≠ 58)) (a := schema) (b := [58, 47, 47] ++ hostname ++ portText ++ pathText)
      (by intro x hx; simp; rintro rfl; exact h1 hx) (by intro x hx; simp at hx; simp [← hx])
    have hpath : ∀ x, pathText.head? = some x → x = 47 := by
      rcases h5 with ⟨rfl, _⟩ | ⟨rfl, p, rfl⟩
      · intro x hx; cases hx
      · intro x hx; simp at hx; exact hx.symm
    have s2 := takeWhile_stop (p := fun x => x ≠ 58 && x ≠ 47) (a := hostname) (b := portText ++ pathText)
      (by
        intro x hx
        have a : x ≠ 58 := by rintro rfl; exact h2 hx
        have b : x ≠ 47 := by rintro rfl; exact h3 hx
        simp [a, b])
      (by
        intro x hx
        rcases h4 with ⟨rfl, _⟩ | ⟨rfl, _⟩
        · rw [hpath x hx]; rfl
        · simp at hx; subst hx; rfl)
    simp only [List.append_assoc] at s1 s2 ⊢
    refine ⟨s1.1.symm, hostname ++ (portText ++ pathText), by rw [s1.2]; rfl, s2.1.symm, ?_, ?_⟩
    · rw [s2.2]
      rcases h4 with ⟨rfl, rfl⟩ | ⟨rfl, h4⟩
      · rcases h5 with ⟨rfl, _⟩ | ⟨rfl, p, rfl⟩ <;> rfl
      · show _ = ((port ++ pathText).takeWhile (· ≠ 47))
        rw [(takeWhile_stop (p := (· ≠ 47)) (by intro x hx; simp; rintro rfl; exact h4 hx) (by intro x hx; rw [hpath x hx]; rfl)).1]
    · rw [s2.2]
      rcases h4 with ⟨rfl, rfl⟩ | ⟨rfl, h4⟩
      · rcases h5 with ⟨rfl, rfl⟩ | ⟨rfl, p, rfl⟩ <;> rfl
      · have : (portOf (58 :: port ++ pathText)).2 = pathText :=
          (takeWhile_stop (p := (· ≠ 47)) (by intro x hx; simp; rintro rfl; exact h4 hx) (by intro x hx; rw [hpath x hx]; rfl)).2
        rw [this]
        rcases h5 with ⟨rfl, rfl⟩ | ⟨rfl, p, rfl⟩ <;> rfl
  · rintro ⟨h1, r, h2, h3, h4, h5⟩
    obtain ⟨schema, hostname, port, path⟩ := u
    simp only at h1 h3 h4 h5
    have e1 := List.takeWhile_append_dropWhile (p := (· ≠ (58 : UInt8))) (l := s)
    rw [← h1, h2] at e1
    have e2 := List.takeWhile_append_dropWhile (p := fun x : UInt8 => x ≠ 58 && x ≠ 47) (l := r)
    rw [← h3] at e2
    have hd := dropWhile_head (p := fun x : UInt8 => x ≠ 58 && x ≠ 47) r
    generalize r.dropWhile (fun x : UInt8 => x ≠ 58 && x ≠ 47) = q at h4 h5 e2 hd
    have m1 : (58 : UInt8) ∉ schema := by
      intro hx; rw [h1] at hx
      have := takeWhile_mem s _ hx; simp at this
    have m2 : (58 : UInt8) ∉ hostname := by
      intro hx; rw [h3] at hx
      have := takeWhile_mem r _ hx; simp at this
    have m3 : (47 : UInt8) ∉ hostname := by
      intro hx; rw [h3] at hx
      have := takeWhile_mem r _ hx; simp at this
    by_cases hq : ∃ q', q = 58 :: q'
    · obtain ⟨q', rfl⟩ := hq
      simp only [portOf] at h4 h5
      have e3 := List.takeWhile_append_dropWhile (p := (· ≠ (47 : UInt8))) (l := q')
      rw [← h4] at e3
      have hd' := dropWhile_head (p := (· ≠ (47 : UInt8))) q'
      generalize q'.dropWhile (· ≠ (47 : UInt8)) = pt at h5 e3 hd'
      have m4 : (47 : UInt8) ∉ port := by
        intro hx; rw [h4] at hx
        have := takeWhile_mem q' _ hx; simp at this
      have := IsUrl.mk schema hostname port path (58 :: port) pt m1 m2 m3 (.inr ⟨rfl, m4⟩) (by
        by_cases hp : pt = []
        · left; rw [if_pos hp] at h5; exact ⟨hp, h5⟩
        · right; rw [if_neg hp] at h5
          refine ⟨h5.symm, ?_⟩
          subst h5
          cases path with
          | nil => exact absurd rfl hp
          | cons y p => have := hd' y rfl; simp at this; exact ⟨p, by rw [this]⟩)
      have e : schema ++ [58, 47, 47] ++ hostname ++ (58 :: port) ++ pt = s := by
        rw [← e1, ← e2, ← e3]; simp
      rwa [e] at this
    · have hp : portOf q = ([], q) := by
        unfold portOf
        split
        · rename_i r; exact absurd ⟨r, rfl⟩ hq
        · rfl
      rw [hp] at h4 h5
      simp only at h4 h5
      have := IsUrl.mk schema hostname port path [] q m1 m2 m3 (.inl ⟨rfl, h4⟩) (by
        by_cases hp : q = []
        · left; rw [if_pos hp] at h5; exact ⟨hp, h5⟩
        · right; rw [if_neg hp] at h5
          refine ⟨h5.symm, ?_⟩
          subst h5
          cases path with
          | nil => exact absurd rfl hp
          | cons y p =>
            have := hd y rfl
            simp at this
            by_cases hy : y = 58
            · exact absurd ⟨p, by rw [hy]⟩ hq
            · exact ⟨p, by rw [this hy]⟩)
      have e : schema ++ [58, 47, 47] ++ hostname ++ [] ++ q = s := by
        rw [← e1, ← e2]; simp
      rwa [e] at this

theorem from_str_is (s : Bytes) : Is (from_str s) ⟨[], s⟩ := new_is _ rfl

theorem both (x : UInt8) : (!(decide ((x.toNat : Int) = 58) || decide ((x.toNat : Int) = 47))) = (decide (x ≠ 58) && decide (x ≠ 47)) := by
  rw [Bool.not_or, colon, slash]

theorem path_rest (q : Bytes) (hq : ∀ x, q.head? = some x → x = 58 ∨ x = 47) :
    (portOf q).2 = [] ∨ ∃ p, (portOf q).2 = 47 :: p := by
  unfold portOf
  split
  · rename_i r
    have := dropWhile_head (p := (· ≠ (47 : UInt8))) r
    generalize r.dropWhile (· ≠ (47 : UInt8)) = d at this
    cases d with
    | nil => exact .inl rfl
    | cons y d => have := this y rfl; simp at this; exact .inr ⟨d, by rw [this]⟩
  · rename_i hne
    cases q with
    | nil => exact .inl rfl
    | cons y d =>
      rcases hq y rfl with rfl | rfl
      · exact absurd rfl (hne d)
      · exact .inr ⟨d, rfl⟩

theorem parse_spec (s : Bytes) :
    ((s.takeWhile (· ≠ 58)).length > 10 ∧ ∃ m, parse s = .panic m) ∨
    ((s.takeWhile (· ≠ 58)).length ≤ 10 ∧ (∀ u, ¬ IsUrl s u) ∧ parse s = .ok none) ∨
    (∃ u, IsUrl s u ∧ (∀ v, IsUrl s v → v = u) ∧ u.schema.length ≤ 10 ∧
      ((Fits u ∧ parse s = .ok (some u)) ∨ (¬ Fits u ∧ ∃ m, parse s = .panic m))) := by
  have h0 := from_str_is s
  unfold parse
  simp only
  have f1 := fill_rounds 10 (fun c => c = 58) h0
  simp only [colon] at f1
  rcases f1 with ⟨a1, t1, e1, h1⟩ | ⟨a1, m, e1⟩
  · rw [e1]
    simp only [Res.bind]
    have hr1 := past_takeWhile ⟨[], s⟩ (· ≠ (58 : UInt8))
    simp only at hr1
    rcases marks_is h1 with ⟨r, hr, t2, c2, e2, h2, hc2⟩ | ⟨hno, t2, e2⟩
    · rw [hr1] at hr
      rw [e2]
      simp only [Bool.not_true, Bool.false_eq_true, if_false]
      right; right
      refine ⟨⟨s.takeWhile (· ≠ 58), r.takeWhile (fun x => x ≠ 58 && x ≠ 47), (portOf (r.dropWhile fun x => x ≠ 58 && x ≠ 47)).1,
        (let p := (portOf (r.dropWhile fun x => x ≠ 58 && x ≠ 47)).2; if p = [] then [47] else p)⟩,
        (isUrl_iff s _).mpr ⟨rfl, r, hr, rfl, rfl, rfl⟩, ?_, a1, ?_⟩
      · intro v hv
        obtain ⟨b1, r', b2, b3, b4, b5⟩ := (isUrl_iff s v).mp hv
        rw [hr] at b2; cases b2
        cases v; simp only at b1 b3 b4 b5
        rw [b1, b3, b4, b5]
      · have f2 := fill_rounds 100 (fun c => c = 58 || c = 47) h2
        simp only [both, hc2] at f2
        rcases f2 with ⟨a2, t3, e3, h3⟩ | ⟨a2, m, e3⟩
        · rw [e3]
          simp only [Res.bind]
          have hr3 := past_takeWhile c2 (fun x => decide (x ≠ (58 : UInt8)) && decide (x ≠ 47))
          rw [hc2] at hr3
          have hq : ∀ x, (r.dropWhile (fun x => decide (x ≠ (58 : UInt8)) && decide (x ≠ 47))).head? = some x → x = 58 ∨ x = 47 := by
            intro x hx
            have := dropWhile_head (p := fun x => decide (x ≠ (58 : UInt8)) && decide (x ≠ 47)) r x hx
            by_cases h58 : x = 58
            · exact .inl h58
            · right; simp at this; exact this h58
          have hpr := path_rest _ hq
          rcases readPort_is h3 with ⟨a4, t4, c4, e4, h4, hc4⟩ | ⟨a4, m, e4⟩
          · rw [hr3] at a4 e4 hc4
            rw [e4]
            simp only [Res.bind]
            rw [← hc4] at hpr
            rcases readPath_is h4 hpr with ⟨a5, t5, e5⟩ | ⟨a5, m, e5⟩
            · rw [e5]
              simp only [Res.bind, hc4]
              left
              refine ⟨⟨a1, a2, a4, ?_⟩, trivial⟩
              simp only
              rw [hc4] at a5
              split
              · simp
              · exact a5
            · rw [e5]
              right
              refine ⟨?_, m, rfl⟩
              rintro ⟨-, -, -, h⟩
              simp only at h
              rw [hc4] at a5
              rw [if_neg (by intro h0; rw [h0] at a5; simp at a5)] at h
              omega
          · rw [hr3] at a4
            rw [e4]
            right
            refine ⟨?_, m, rfl⟩
            rintro ⟨-, -, h, -⟩
            simp only at h
            omega
        · rw [e3]
          right
          refine ⟨?_, m, rfl⟩
          rintro ⟨-, h, -, -⟩
          simp only at h
          omega
    · right; left
      rw [e2]
      refine ⟨a1, ?_, rfl⟩
      intro u hu
      obtain ⟨_, r, b2, _⟩ := (isUrl_iff s u).mp hu
      rw [hr1] at hno
      exact hno r b2
  · rw [e1]; exact .inl ⟨a1, m, rfl⟩
end Che.Lib.Url

namespace Che.Lib.LineReader
open Che.Lib Che.Spec.Text

/-- Before the first 255: what there is of the file. -/
def seen (f : Bytes) : Bytes := f.takeWhile (· ≠ 255)

/-- The text of a line that is being read is at the start of the buffer. -/
theorem readLoop_spec (n : Nat) (b : T) (acc : Bytes) (hn : b.file.length < n) (hacc : b.buf.take acc.length = acc)
    (hl : acc.length < b.buf.length) (he : b.ended = false) :
    ∃ b' l, readLoop n b acc.length = .ok (b', (acc ++ l).length) ∧ b'.buf.take (acc ++ l).length = acc ++ l ∧
      (acc ++ l).length < b'.buf.length ∧
      ((∃ r, l = r ++ [10] ∧ (10 : UInt8) ∉ r ∧ (255 : UInt8) ∉ l ∧ b.file = l ++ b'.file ∧ b'.ended = false) ∨
       ((10 : UInt8) ∉ l ∧ l = seen b.file ∧ b'.ended = true)) := by
  induction n generalizing b acc with
  | zero => omega
  | succ n ih =>
    rw [readLoop]
    cases hf : b.file with
    | nil =>
      simp only [List.head?_nil, isEof, if_true]
      exact ⟨_, [], by simp; rfl, by simpa using hacc, by simpa using hl, .inr ⟨by simp, rfl, rfl⟩⟩
    | cons c rest =>
      simp only [List.head?_cons, isEof, List.drop_succ_cons, List.drop_zero, Option.getD_some]
      by_cases hc : c = 255
      · simp only [hc, decide_true, if_true]
        exact ⟨_, [], by simp; rfl, by simpa using hacc, by simpa using hl, .inr ⟨by simp, by simp [seen], rfl⟩⟩
      · simp only [hc, decide_false, Bool.false_eq_true, if_false]
        obtain ⟨buf1, hb1, htake, hlen⟩ : ∃ buf1, (if acc.length + 2 > b.buf.length then
            ({ file := rest, buf := b.buf ++ List.replicate b.buf.length 0, ended := b.ended } : T)
            else { file := rest, buf := b.buf, ended := b.ended }) = { file := rest, buf := buf1, ended := b.ended } ∧
            buf1.take acc.length = acc ∧ acc.length + 2 ≤ buf1.length := by
          by_cases h : acc.length + 2 > b.buf.length
          · rw [if_pos h]
            refine ⟨_, rfl, ?_, by simp; omega⟩
            rw [List.take_append_of_le_length (by omega)]; exact hacc
          · rw [if_neg h]
            exact ⟨_, rfl, hacc, by omega⟩
        rw [hb1]
        simp only
        rw [if_neg (by omega)]
        have hset : (buf1.set acc.length c).take (acc ++ [c]).length = acc ++ [c] := by
          rw [List.length_append, List.length_singleton, List.take_set, List.take_succ_eq_append_getElem (by omega), htake]
          rw [List.set_append_right _ _ (by omega)]
          simp
        by_cases h10 : c = 10
        · rw [if_pos h10]
          subst h10
          exact ⟨{ file := rest, buf := buf1.set acc.length 10, ended := b.ended }, [10], by simp, hset, by simp; omega, .inl ⟨[], rfl, by simp, by simp, rfl, he⟩⟩
        · rw [if_neg h10]
          obtain ⟨b', l, e, ht, hlt, hcase⟩ := ih { file := rest, buf := buf1.set acc.length c, ended := b.ended } (acc ++ [c])
            (by simp [hf] at hn ⊢; omega) hset (by simp; omega) he
          rw [List.append_assoc] at e ht hlt
          refine ⟨b', c :: l, by simpa using e, ht, hlt, ?_⟩
          rcases hcase with ⟨r, rfl, h1, h2, h3, h4⟩ | ⟨h1, h2, h3⟩
          · left
            refine ⟨c :: r, rfl, by simp [Ne.symm h10, h1], ?_, by simp only at h3; rw [h3]; rfl, h4⟩
            simp only [List.mem_cons, not_or]
            exact ⟨fun h => hc h.symm, h2⟩
          · right
            refine ⟨by simp [Ne.symm h10, h1], ?_, h3⟩
            rw [h2]
            simp [seen, List.takeWhile_cons, hc]

theorem takeWhile_zero {l rest : Bytes} : (l ++ 0 :: rest).takeWhile (· ≠ 0) = l.takeWhile (· ≠ 0) := by
  induction l with
  | nil => simp
  | cons x l ih =>
    rw [List.cons_append, List.takeWhile_cons, List.takeWhile_cons, ih]

theorem line_of {buf l : Bytes} (h : buf.take l.length = l) (hl : l.length < buf.length) :
    (buf.set l.length 0).takeWhile (· ≠ 0) = l.takeWhile (· ≠ 0) := by
  have : buf.set l.length 0 = l ++ 0 :: buf.drop (l.length + 1) := by
    rw [List.set_eq_take_append_cons_drop, if_pos hl, h]
  rw [this, takeWhile_zero]

theorem seen_append {l r : Bytes} (h : (255 : UInt8) ∉ l) : seen (l ++ r) = l ++ seen r := by
  induction l with
  | nil => rfl
  | cons x l ih =>
    have hx : x ≠ 255 := fun e => h (by simp [e])
    simp only [seen, List.cons_append, List.takeWhile_cons]
    have := ih (fun e => h (by simp [e]))
    simp only [seen] at this
    rw [if_pos (by simpa using hx), this]

theorem readAll_spec (n : Nat) (b : T) (hn : b.file.length + 1 < n) (hb : 0 < b.buf.length) (he : b.ended = false) :
    ∃ ls, Lines (seen b.file) ls ∧ readAll n b = .ok (ls.map fun l => l.takeWhile (· ≠ 0)) := by
  induction n generalizing b with
  | zero => omega
  | succ n ih =>
    obtain ⟨b1, l, e, ht, hlt, hcase⟩ := readLoop_spec (b.file.length + 1) b [] (by omega) rfl hb he
    simp only [List.nil_append, List.length_nil] at e ht hlt
    rw [readAll, read, he]
    simp only [Bool.false_eq_true, if_false, e, Res.bind]
    rw [if_neg (by omega)]
    simp only [Res.bind]
    rcases hcase with ⟨r, rfl, h1, h2, h3, h4⟩ | ⟨h1, h2, h3⟩
    · have hpos : (r ++ [10]).length > 0 := by simp
      simp only [hpos, decide_true, if_true]
      obtain ⟨ls, hls, e2⟩ := ih { b1 with buf := b1.buf.set (r ++ [10]).length 0 }
        (by rw [h3] at hn; simp at hn ⊢; omega) (by simp; omega) h4
      rw [e2]
      refine ⟨(r ++ [10]) :: ls, ?_, ?_⟩
      · rw [h3, seen_append h2]; exact .line r _ ls h1 hls
      · simp only [line]
        rw [line_of ht hlt]; rfl
    · by_cases h0 : l = []
      · subst h0
        simp only [List.length_nil, Nat.lt_irrefl, decide_false, Bool.false_eq_true, if_false, gt_iff_lt]
        exact ⟨[], by rw [← h2]; exact .none, rfl⟩
      · have hpos : l.length > 0 := List.length_pos_iff.mpr h0
        simp only [hpos, decide_true, if_true]
        have e2 : readAll n { b1 with buf := b1.buf.set l.length 0 } = .ok [] := by
          cases n with
          | zero => omega
          | succ n => rw [readAll, read, if_pos h3]; rfl
        rw [e2]
        refine ⟨[l], by rw [← h2]; exact .last l h0 h1, ?_⟩
        simp only [line]
        rw [line_of ht hlt]; rfl

theorem lines_unique {s : Bytes} {a b : List Bytes} (h : Lines s a) (h' : Lines s b) : a = b := by
  induction h generalizing b with
  | none =>
    generalize hs : ([] : Bytes) = s at h'
    cases h' with
    | none => rfl
    | last l h0 => exact absurd hs.symm h0
    | line l s ls => simp at hs
  | last l h0 h10 =>
    generalize hs : l = s at h'
    cases h' with
    | none => exact absurd hs h0
    | last l' => rfl
    | line l' s ls => rw [hs] at h10; simp at h10
  | line l s ls h10 _ ih =>
    generalize hs : l ++ [10] ++ s = s' at h'
    cases h' with
    | none => simp at hs
    | last l' _ h10' => rw [← hs] at h10'; simp at h10'
    | line l' s' ls' h10' h' =>
      have key : ∀ (l l' s s' : Bytes), (10 : UInt8) ∉ l → (10 : UInt8) ∉ l' → l ++ [10] ++ s = l' ++ [10] ++ s' → l = l' ∧ s = s' := by
        intro l
        induction l with
        | nil =>
          intro l' s s' _ h2 h3
          cases l' with
          | nil => exact ⟨rfl, by simpa using h3⟩
          | cons x l' => simp at h3; rw [← h3.1] at h2; simp at h2
        | cons x l ih =>
          intro l' s s' h1 h2 h3
          cases l' with
          | nil => simp at h3; rw [h3.1] at h1; simp at h1
          | cons y l' =>
            simp only [List.cons_append, List.cons.injEq] at h3
            obtain ⟨rfl, rfl⟩ := ih l' s s' (fun e => h1 (by simp [e])) (fun e => h2 (by simp [e])) h3.2
            exact ⟨by rw [h3.1], rfl⟩
      obtain ⟨rfl, rfl⟩ := key l l' s s' h10 h10' hs
      rw [ih h']
end Che.Lib.LineReader

namespace Che.Lib.Table
open Che.Lib Che.Spec.Text

theorem putLoop_spec (w : Nat) (s : Bytes) (n : Nat) (h : n + s.length ≤ w) : putLoop w s n = (s, n + s.length) := by
  induction s generalizing n with
  | nil => rfl
  | cons c s ih =>
    simp only [List.length_cons] at h
    rw [putLoop]
    by_cases hw : n + 1 = w
    · rw [if_pos hw]
      have : s = [] := List.length_eq_zero_iff.mp (by omega)
      subst this; rfl
    · rw [if_neg hw, ih (n + 1) (by omega)]
      simp only [List.length_cons, Prod.mk.injEq, true_and]; omega

theorem printwidth_padded (s : Bytes) (w : Nat) (h : s.length ≤ w) : Padded s w (printwidth s w) := by
  unfold printwidth
  rw [putLoop_spec w s 0 (by omega)]
  refine ⟨?_, w - (0 + s.length), rfl⟩
  simp; omega

/-- The widths grow, and have room for what was seen. -/
theorem widthsLoop_spec (ncols : Nat) (hn : 0 < ncols) (i : Nat) (vs : List Bytes) (ws : List Nat) (hw : ws.length = ncols) :
    (widthsLoop ncols i vs ws).length = ncols ∧
    (∀ c, ws.getD c 0 ≤ (widthsLoop ncols i vs ws).getD c 0) ∧
    (∀ (k : Nat) (v : Bytes), vs[k]? = some v → v.length ≤ (widthsLoop ncols i vs ws).getD ((i + k) % ncols) 0) ∧
    (∀ c, (widthsLoop ncols i vs ws).getD c 0 = ws.getD c 0 ∨
      ∃ (k : Nat) (v : Bytes), vs[k]? = some v ∧ (i + k) % ncols = c ∧ (widthsLoop ncols i vs ws).getD c 0 = v.length + 2) := by
  induction vs generalizing i ws with
  | nil => exact ⟨hw, fun c => Nat.le_refl _, by simp, fun c => .inl rfl⟩
  | cons v vs ih =>
    rw [widthsLoop]
    have hcol : i % ncols < ncols := Nat.mod_lt _ hn
    generalize hws : (if v.length > ws.getD (i % ncols) 0 then ws.set (i % ncols) (v.length + 2) else ws) = ws1
    have hget : ∀ c, ws1.getD c 0 = if c = i % ncols ∧ v.length > ws.getD (i % ncols) 0 then v.length + 2 else ws.getD c 0 := by
      intro c
      rw [← hws]
      by_cases hv : v.length > ws.getD (i % ncols) 0
      · rw [if_pos hv]
        by_cases hc : c = i % ncols
        · subst hc
          rw [if_pos ⟨rfl, hv⟩]
          simp [List.getD_eq_getElem?_getD, List.getElem?_set, hw, hcol]
        · rw [if_neg (by simp [hc])]
          simp [List.getD_eq_getElem?_getD, List.getElem?_set, Ne.symm hc]
      · rw [if_neg hv, if_neg (by simp only [not_and]; exact fun _ => hv)]
    obtain ⟨h1, h2, h3, h4⟩ := ih (i + 1) ws1 (by rw [← hws]; split <;> simp [hw])
    refine ⟨h1, ?_, ?_, ?_⟩
    · intro c
      refine Nat.le_trans ?_ (h2 c)
      rw [hget]
      split
      · rename_i h; rw [h.1]; omega
      · omega
    · intro k u hu
      cases k with
      | zero =>
        simp only [List.getElem?_cons_zero, Option.some.injEq] at hu
        subst hu
        refine Nat.le_trans ?_ (h2 _)
        rw [hget, Nat.add_zero]
        split
        · omega
        · rename_i h; simp only [true_and] at h; omega
      | succ k =>
        have := h3 k u (by simpa using hu)
        rwa [show i + 1 + k = i + (k + 1) by omega] at this
    · intro c
      rcases h4 c with h | ⟨k, u, hu, hc, he⟩
      · rw [hget] at h
        by_cases hc : c = i % ncols ∧ v.length > ws.getD (i % ncols) 0
        · rw [if_pos hc] at h
          exact .inr ⟨0, v, rfl, hc.1.symm, h⟩
        · rw [if_neg hc] at h; exact .inl h
      · exact .inr ⟨k + 1, u, by simpa using hu, by rw [← hc]; congr 1; omega, he⟩

theorem printLoop_laid (ncols : Nat) (hn : 0 < ncols) (ws : List Nat) (i : Nat) (vs : List Bytes)
    (h : ∀ (k : Nat) (v : Bytes), vs[k]? = some v → v.length ≤ ws.getD ((i + k) % ncols) 0) :
    Laid ncols (fun c => ws.getD c 0) i vs (printLoop ncols ws i vs) := by
  induction vs generalizing i with
  | nil => exact .nil i
  | cons v vs ih =>
    rw [printLoop]
    have hp := printwidth_padded v (ws.getD (i % ncols) 0) (by simpa using h 0 v rfl)
    have hr := ih (i + 1) (by
      intro k u hu
      have := h (k + 1) u (by simpa using hu)
      rwa [show i + (k + 1) = i + 1 + k by omega] at this)
    have hcol : i % ncols < ncols := Nat.mod_lt _ hn
    by_cases hc : i % ncols = ncols - 1
    · simp only [hc, if_true]
      rw [hc] at hp
      refine .last i v _ vs _ (by rw [hc]; exact hp) (by omega) hr
    · simp only [hc, if_false, List.append_nil]
      exact .cell i v _ vs _ hp (by omega) hr
end Che.Lib.Table
