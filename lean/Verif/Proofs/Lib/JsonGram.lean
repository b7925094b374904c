import Verif.Proofs.Lib.JsonList

/-!
The parser of `lib/formats/json.c` reads exactly the texts of the lenient grammar.
-/
namespace Che.Lib.Json
open Che.Lib Che.Spec.Lib

variable {D : Type}

mutual
/-- The value in memory for a JSON value.  A later entry replaces an earlier one with
the same key. -/
def toVal (dbl : Dbl D) : JVal → Val D
  | .null => .null
  | .bool b => .bool b
  | .num t => .num (dbl.scan t)
  | .str s => .str s
  | .arr vs => .arr (toVals dbl vs)
  | .obj es => .obj (toEntries dbl es [])

def toVals (dbl : Dbl D) : List JVal → List (Val D)
  | [] => []
  | v :: vs => toVal dbl v :: toVals dbl vs

def toEntries (dbl : Dbl D) : List (Bytes × JVal) → List (Bytes × Val D) → List (Bytes × Val D)
  | [], o => o
  | (k, v) :: es, o => toEntries dbl es (put k (toVal dbl v) o)
end

theorem lnum_sound {dbl : Dbl D} {s s' : Bytes} {v : Val D} (h : lnum dbl s = .ok (s', v)) :
    ∃ t j, s = t ++ s' ∧ JText lax j t ∧ toVal dbl j = v := by
  unfold lnum at h
  split at h
  · cases h
  · rename_i hlen
    split at h
    · rename_i hn
      injection h with h; injection h with h1 h2
      obtain ⟨hj, u, hu⟩ := number_sound hn
      refine ⟨(numberAt s).1, .num (numberAt s).1, ?_, .num ⟨hj, by omega⟩, h2⟩
      rw [← h1]
      generalize (numberAt s).1 = w at *
      rw [← hu]; simp
    · cases h

theorem lkw_sound {dbl : Dbl D} {s s' : Bytes} {v : Val D} (h : lkw s = .ok (s', v)) :
    ∃ t j, s = t ++ s' ∧ JText lax j t ∧ toVal dbl j = v := by
  unfold lkw at h
  split at h
  · rename_i hp
    obtain ⟨u, rfl⟩ := hp
    injection h with h; injection h with h1 h2
    exact ⟨_, _, by rw [← h1]; rfl, .true, h2⟩
  · split at h
    · rename_i hp
      obtain ⟨u, rfl⟩ := hp
      injection h with h; injection h with h1 h2
      exact ⟨_, _, by rw [← h1]; rfl, .false, h2⟩
    · split at h
      · rename_i hp
        obtain ⟨u, rfl⟩ := hp
        injection h with h; injection h with h1 h2
        exact ⟨_, _, by rw [← h1]; rfl, .null, h2⟩
      · cases h

theorem blanks_nil : Blanks lax [] := by simp [Blanks]

theorem blanks_append {a b : Bytes} (ha : Blanks lax a) (hb : Blanks lax b) : Blanks lax (a ++ b) := by
  intro c hc; rcases List.mem_append.mp hc with h | h
  · exact ha c h
  · exact hb c h

theorem sound (dbl : Dbl D) (n : Nat) :
    (∀ s s' v, lnode dbl n s = .ok (s', v) → ∃ a t j, s = a ++ t ++ s' ∧ Blanks lax a ∧ JText lax j t ∧ toVal dbl j = v) ∧
    (∀ s s' v, larray dbl n s = .ok (s', v) → ∃ a t j, s = a ++ t ++ s' ∧ Blanks lax a ∧ JText lax j t ∧ toVal dbl j = v) ∧
    (∀ s s' v, ldict dbl n s = .ok (s', v) → ∃ a t j, s = a ++ t ++ s' ∧ Blanks lax a ∧ JText lax j t ∧ toVal dbl j = v) ∧
    (∀ s s' acc vs, lvals dbl n s acc = .ok (s', vs) →
      s' = [] ∨ ∃ j js t, s = t ++ s' ∧ JItems lax j js t ∧ vs = acc ++ toVals dbl (j :: js)) ∧
    (∀ s s' acc es, lentries dbl n s acc = .ok (s', es) →
      s' = [] ∨ ∃ j js t, s = t ++ s' ∧ JMembers lax j js t ∧ es = toEntries dbl (j :: js) acc) := by
  induction n with
  | zero =>
    refine ⟨?_, ?_, ?_, ?_, ?_⟩ <;> intros <;> rename_i h
    · simp [lnode] at h
    · simp [larray] at h
    · simp [ldict] at h
    · simp [lvals] at h
    · simp [lentries] at h
  | succ n ih =>
    obtain ⟨ihn, iha, ihd, ihv, ihe⟩ := ih
    refine ⟨?_, ?_, ?_, ?_, ?_⟩
    · intro s s' v h
      obtain ⟨w, hw, hb⟩ := ws_split s
      rw [lnode] at h
      split at h
      · cases h
      · rename_i c r hws
        rw [hws] at hw
        have key : (∃ a t j, c :: r = a ++ t ++ s' ∧ Blanks lax a ∧ JText lax j t ∧ toVal dbl j = v) →
            ∃ a t j, s = a ++ t ++ s' ∧ Blanks lax a ∧ JText lax j t ∧ toVal dbl j = v := by
          rintro ⟨a, t, j, e, ha, hj, hv⟩
          exact ⟨w ++ a, t, j, by rw [hw, e]; simp, blanks_append hb ha, hj, hv⟩
        apply key
        have key2 : (∃ t j, c :: r = t ++ s' ∧ JText lax j t ∧ toVal dbl j = v) →
            ∃ a t j, c :: r = a ++ t ++ s' ∧ Blanks lax a ∧ JText lax j t ∧ toVal dbl j = v := by
          rintro ⟨t, j, e, hj, hv⟩
          exact ⟨[], t, j, by rw [e]; simp, blanks_nil, hj, hv⟩
        split at h
        · exact iha _ _ _ h
        · split at h
          · exact ihd _ _ _ h
          · split at h
            · obtain ⟨⟨s1, x⟩, h1, h⟩ := bind_ok h
              injection h with h; injection h with e1 e2
              subst e1
              obtain ⟨a, t, e, ha, hj⟩ := lstr_sound h1
              exact ⟨a, t, .str x, e, ha, .str hj, e2⟩
            · split at h
              · exact key2 (lnum_sound h)
              · exact key2 (lkw_sound h)
    · intro s s' v h
      rw [larray] at h
      obtain ⟨s1, h1, h⟩ := bind_ok h
      obtain ⟨a, ha, hb⟩ := ws_split s
      rw [lexpect_ok h1] at ha
      cases he : leat s1 93 with
      | mk s2 closed =>
        rw [he] at h
        obtain ⟨w, hw, hbw⟩ := ws_split s1
        cases closed with
        | true =>
          simp only [if_true] at h
          injection h with h; injection h with e1 e2
          subst e1
          rw [leat_true he] at hw
          exact ⟨a, [91] ++ w ++ [93], .arr [], by rw [ha, hw]; simp, hb, .arr0 hbw, e2⟩
        | false =>
          simp only [Bool.false_eq_true, if_false] at h
          obtain ⟨⟨s3, vs⟩, h3, h⟩ := bind_ok h
          obtain ⟨s4, h4, h⟩ := bind_ok h
          injection h with h; injection h with e1 e2
          subst e1
          have hw4 := lexpect_ok h4
          rcases ihv _ _ _ _ h3 with rfl | ⟨j, js, t, e, hj, hv⟩
          · simp [ws] at hw4
          · obtain ⟨b, hb4, hbb⟩ := ws_split s3
            rw [hw4] at hb4
            obtain ⟨hs2, _⟩ := leat_false he
            -- the blanks around the items go into the items
            have hj' : JItems lax j js (w ++ (t ++ b)) := by
              clear hv
              have : ∀ {j js t}, JItems lax j js t → JItems lax j js (t ++ b) := by
                intro j js
                induction js generalizing j with
                | nil =>
                  rintro t (⟨h1, h2, h3⟩ | _)
                  rw [List.append_assoc]
                  exact .one h1 h2 (blanks_append h3 hbb)
                | cons j' js ihj =>
                  rintro t (_ | ⟨h1, h2, h3, h4⟩)
                  rw [List.append_assoc]
                  exact .more h1 h2 h3 (ihj h4)
              have hjb := this hj
              have : ∀ {j js t}, JItems lax j js t → JItems lax j js (w ++ t) := by
                rintro j js t (⟨h1, h2, h3⟩ | ⟨h1, h2, h3, h4⟩)
                · rw [← List.append_assoc, ← List.append_assoc]
                  exact .one (blanks_append hbw h1) h2 h3
                · simp only [← List.append_assoc]
                  have := JItems.more (blanks_append hbw h1) h2 h3 h4
                  simpa only [← List.append_assoc] using this
              exact this hjb
            refine ⟨a, [91] ++ (w ++ (t ++ b)) ++ [93], .arr (j :: js), ?_, hb, .arr hj', ?_⟩
            · rw [ha, hw, ← hs2, e, hb4]; simp
            · rw [toVal, ← e2, hv]; simp
    · intro s s' v h
      rw [ldict] at h
      obtain ⟨s1, h1, h⟩ := bind_ok h
      obtain ⟨a, ha, hb⟩ := ws_split s
      rw [lexpect_ok h1] at ha
      cases he : leat s1 125 with
      | mk s2 closed =>
        rw [he] at h
        obtain ⟨w, hw, hbw⟩ := ws_split s1
        cases closed with
        | true =>
          simp only [if_true] at h
          injection h with h; injection h with e1 e2
          subst e1
          rw [leat_true he] at hw
          exact ⟨a, [123] ++ w ++ [125], .obj [], by rw [ha, hw]; simp, hb, .obj0 hbw, e2⟩
        | false =>
          simp only [Bool.false_eq_true, if_false] at h
          obtain ⟨⟨s3, vs⟩, h3, h⟩ := bind_ok h
          obtain ⟨s4, h4, h⟩ := bind_ok h
          injection h with h; injection h with e1 e2
          subst e1
          have hw4 := lexpect_ok h4
          rcases ihe _ _ _ _ h3 with rfl | ⟨j, js, t, e, hj, hv⟩
          · simp [ws] at hw4
          · obtain ⟨b, hb4, hbb⟩ := ws_split s3
            rw [hw4] at hb4
            obtain ⟨hs2, _⟩ := leat_false he
            have hj' : JMembers lax j js (w ++ (t ++ b)) := by
              clear hv
              have : ∀ {j js t}, JMembers lax j js t → JMembers lax j js (t ++ b) := by
                intro j js
                induction js generalizing j with
                | nil =>
                  rintro t (⟨h1, h2, h3, h4, h5, h6⟩ | _)
                  rw [List.append_assoc]
                  exact .one h1 h2 h3 h4 h5 (blanks_append h6 hbb)
                | cons j' js ihj =>
                  rintro t (_ | ⟨h1, h2, h3, h4, h5, h6, h7⟩)
                  rw [List.append_assoc]
                  exact .more h1 h2 h3 h4 h5 h6 (ihj h7)
              have hjb := this hj
              have : ∀ {j js t}, JMembers lax j js t → JMembers lax j js (w ++ t) := by
                rintro j js t (⟨h1, h2, h3, h4, h5, h6⟩ | ⟨h1, h2, h3, h4, h5, h6, h7⟩)
                · have := JMembers.one (blanks_append hbw h1) h2 h3 h4 h5 h6
                  simpa only [← List.append_assoc] using this
                · have := JMembers.more (blanks_append hbw h1) h2 h3 h4 h5 h6 h7
                  simpa only [← List.append_assoc] using this
              exact this hjb
            refine ⟨a, [123] ++ (w ++ (t ++ b)) ++ [125], .obj (j :: js), ?_, hb, .obj hj', ?_⟩
            · rw [ha, hw, ← hs2, e, hb4]; simp
            · rw [toVal, ← e2, hv]
    · intro s s' acc vs h
      rw [lvals] at h
      split at h
      · injection h with h; injection h with e1 _
        exact .inl e1.symm
      · obtain ⟨⟨s1, x⟩, h1, h⟩ := bind_ok h
        obtain ⟨a, t, j, e, ha, hj, hv⟩ := ihn _ _ _ h1
        obtain ⟨b, hb, hbb⟩ := ws_split s1
        cases he : leat s1 44 with
        | mk s2 comma =>
          simp only [he] at h
          cases comma with
          | false =>
            simp only [Bool.not_false, if_true] at h
            injection h with h; injection h with e1 e2
            subst e1
            obtain ⟨hs2, _⟩ := leat_false he
            refine .inr ⟨j, [], a ++ t ++ b, ?_, .one ha hj hbb, ?_⟩
            · rw [e, hs2]; conv => lhs; rw [hb]
              simp
            · rw [← e2]; simp [push, toVals, hv]
          | true =>
            simp only [Bool.not_true, Bool.false_eq_true, if_false] at h
            rw [leat_true he] at hb
            rcases ihv _ _ _ _ h with rfl | ⟨j', js, t', e', hj', hv'⟩
            · exact .inl rfl
            · refine .inr ⟨j, j' :: js, a ++ t ++ b ++ [44] ++ t', ?_, .more ha hj hbb hj', ?_⟩
              · rw [e, hb, e']; simp
              · rw [hv']; simp [push, toVals, hv]
    · intro s s' acc es h
      rw [lentries] at h
      split at h
      · injection h with h; injection h with e1 _
        exact .inl e1.symm
      · obtain ⟨⟨sk, k⟩, hk, h⟩ := bind_ok h
        obtain ⟨sc, hc, h⟩ := bind_ok h
        obtain ⟨⟨s1, x⟩, h1, h⟩ := bind_ok h
        obtain ⟨ka, kt, ke, hka, hkj⟩ := lstr_sound hk
        obtain ⟨cb, hcb, hcbb⟩ := ws_split sk
        rw [lexpect_ok hc] at hcb
        obtain ⟨a, t, j, e, ha, hj, hv⟩ := ihn _ _ _ h1
        obtain ⟨b, hb, hbb⟩ := ws_split s1
        cases he : leat s1 44 with
        | mk s2 comma =>
          simp only [he] at h
          cases comma with
          | false =>
            simp only [Bool.not_false, if_true] at h
            injection h with h; injection h with e1 e2
            subst e1
            obtain ⟨hs2, _⟩ := leat_false he
            refine .inr ⟨(k, j), [], ka ++ kt ++ cb ++ [58] ++ a ++ t ++ b, ?_, .one hka hkj hcbb ha hj hbb, ?_⟩
            · rw [ke, hcb, e, hs2]; conv => lhs; rw [hb]
              simp
            · rw [← e2]; simp [toEntries, hv]
          | true =>
            simp only [Bool.not_true, Bool.false_eq_true, if_false] at h
            rw [leat_true he] at hb
            rcases ihe _ _ _ _ h with rfl | ⟨j', js, t', e', hj', hv'⟩
            · exact .inl rfl
            · refine .inr ⟨(k, j), j' :: js, ka ++ kt ++ cb ++ [58] ++ a ++ t ++ b ++ [44] ++ t', ?_,
                .more hka hkj hcbb ha hj hbb hj', ?_⟩
              · rw [ke, hcb, e, hb, e']; simp
              · rw [hv']; simp [toEntries, hv]

/-! The other way round: a text of the grammar is read. -/

theorem number_head {t : Bytes} (h : JNumber JDigits t) : ∃ c u, t = c :: u ∧ (digit c || c = 45) = true := by
  obtain ⟨sign, ds, f, x, rfl, hs, hd, hf, hx⟩ := h
  rcases hs with rfl | rfl
  · cases ds with
    | nil => exact absurd rfl hd.1
    | cons d ds => exact ⟨d, ds ++ f ++ x, by simp, by simp [(digit_iff d).mpr (hd.2 d (by simp))]⟩
  · exact ⟨45, ds ++ f ++ x, by simp, by simp⟩

theorem digit_plain (c : UInt8) (h : (digit c || c = 45) = true) : blank c = false ∧ c ≠ 91 ∧ c ≠ 123 ∧ c ≠ 34 := by
  revert c; apply Bits.forall_byte; decide +kernel

theorem stop_blank {a : Bytes} (ha : Blanks lax a) {c : UInt8} (hc : digit c = false ∧ c ≠ 46 ∧ c ≠ 101 ∧ c ≠ 69) (r : Bytes) :
    Stop (a ++ c :: r) := by
  intro x s e
  cases a with
  | nil => simp at e; rw [← e.1]; exact hc
  | cons y a =>
    simp at e
    have hb : blank y = true := (blank_iff y).mpr (ha y (by simp))
    rw [← e.1]
    revert hb; clear e ha; revert y; apply Bits.forall_byte; decide +kernel

theorem lnode_ws (dbl : Dbl D) (n : Nat) {a : Bytes} (ha : Blanks lax a) {c : UInt8} (hc : blank c = false) (r : Bytes) :
    lnode dbl (n + 1) (a ++ c :: r) =
      if c = 91 then larray dbl n (c :: r)
      else if c = 123 then ldict dbl n (c :: r)
      else if c = 34 then do
        let (s, x) ← lstr (c :: r)
        .ok (s, .str x)
      else if digit c || c = 45 then lnum dbl (c :: r)
      else lkw (c :: r) := by
  rw [lnode, ws_blanks ha, ws_cons hc]

/-- The first character of a value is not a blank, nor the end of a list. -/
theorem text_head {j : JVal} {t : Bytes} (h : JText lax j t) : ∃ c u, t = c :: u ∧ blank c = false ∧ c ≠ 93 ∧ c ≠ 125 := by
  cases h with
  | null => exact ⟨_, _, rfl, by decide⟩
  | true => exact ⟨_, _, rfl, by decide⟩
  | false => exact ⟨_, _, rfl, by decide⟩
  | num hn =>
    obtain ⟨c, u, rfl, hc⟩ := number_head hn.1
    refine ⟨c, u, rfl, ?_⟩
    revert hc; clear hn; revert c; apply Bits.forall_byte; decide +kernel
  | str hs => obtain ⟨u, _, rfl⟩ := hs; exact ⟨_, _, rfl, by decide⟩
  | arr0 => exact ⟨_, _, rfl, by decide⟩
  | arr => exact ⟨_, _, rfl, by decide⟩
  | obj0 => exact ⟨_, _, rfl, by decide⟩
  | obj => exact ⟨_, _, rfl, by decide⟩

theorem items_head {j : JVal} {js : List JVal} {t : Bytes} (h : JItems lax j js t) :
    ∃ a c u, t = a ++ c :: u ∧ Blanks lax a ∧ blank c = false ∧ c ≠ 93 ∧ c ≠ 125 := by
  cases h with
  | one ha ht hb =>
    obtain ⟨c, u, rfl, hc⟩ := text_head ht
    exact ⟨_, c, _, by simp only [List.append_assoc, List.cons_append]; rfl, ha, hc⟩
  | more ha ht hb hr =>
    obtain ⟨c, u, rfl, hc⟩ := text_head ht
    exact ⟨_, c, _, by simp only [List.append_assoc, List.cons_append]; rfl, ha, hc⟩

theorem members_head {j : Bytes × JVal} {js : List (Bytes × JVal)} {t : Bytes} (h : JMembers lax j js t) :
    ∃ a c u, t = a ++ c :: u ∧ Blanks lax a ∧ blank c = false ∧ c ≠ 93 ∧ c ≠ 125 := by
  cases h with
  | one ha hk =>
    obtain ⟨u, _, rfl⟩ := hk
    exact ⟨_, 34, _, by simp only [List.append_assoc, List.cons_append, List.nil_append]; rfl, ha, by decide⟩
  | more ha hk =>
    obtain ⟨u, _, rfl⟩ := hk
    exact ⟨_, 34, _, by simp only [List.append_assoc, List.cons_append, List.nil_append]; rfl, ha, by decide⟩

/-- Reading a value. -/
def NodeOk (dbl : Dbl D) (j : JVal) (t : Bytes) : Prop :=
  ∀ a r n, Blanks lax a → Stop r → 3 * t.length ≤ n → lnode dbl n (a ++ t ++ r) = .ok (r, toVal dbl j)

def ItemsOk (dbl : Dbl D) (j : JVal) (js : List JVal) (t : Bytes) : Prop :=
  ∀ x r n acc, x ≠ 44 → blank x = false → digit x = false ∧ x ≠ 46 ∧ x ≠ 101 ∧ x ≠ 69 → 3 * t.length + 1 ≤ n →
    lvals dbl n (t ++ x :: r) acc = .ok (x :: r, acc ++ toVals dbl (j :: js))

def MembersOk (dbl : Dbl D) (e : Bytes × JVal) (es : List (Bytes × JVal)) (t : Bytes) : Prop :=
  ∀ x r n acc, x ≠ 44 → blank x = false → digit x = false ∧ x ≠ 46 ∧ x ≠ 101 ∧ x ≠ 69 → 3 * t.length + 1 ≤ n →
    lentries dbl n (t ++ x :: r) acc = .ok (x :: r, toEntries dbl (e :: es) acc)

theorem items_step (dbl : Dbl D) {j : JVal} {a t : Bytes} (ha : Blanks lax a) (hj : JText lax j t) (hn : NodeOk dbl j t)
    {r : Bytes} (hr : Stop r) {n : Nat} (h : 3 * t.length + 1 ≤ n) (acc : List (Val D)) :
    lvals dbl n (a ++ t ++ r) acc =
      (let (s, comma) := leat r 44
       if !comma then .ok (s, push (toVal dbl j) acc) else lvals dbl (n - 1) s (push (toVal dbl j) acc)) := by
  cases n with
  | zero => omega
  | succ n =>
    have hws : ws (a ++ t ++ r) ≠ [] := by
      obtain ⟨c, u, rfl, hc, _⟩ := text_head hj
      rw [List.append_assoc, ws_blanks ha, List.cons_append, ws_cons hc]; simp
    rw [lvals, if_neg hws, hn a r n ha hr (by omega), ok_bind]
    rfl

theorem members_step (dbl : Dbl D) {k : Bytes} {j : JVal} {a kt b c t : Bytes} (ha : Blanks lax a) (hk : JString lax k kt)
    (hb : Blanks lax b) (hc : Blanks lax c) (hn : NodeOk dbl j t)
    {r : Bytes} (hr : Stop r) {n : Nat} (h : 3 * t.length + 1 ≤ n) (acc : List (Bytes × Val D)) :
    lentries dbl n (a ++ kt ++ b ++ [58] ++ c ++ t ++ r) acc =
      (let (s, comma) := leat r 44
       if !comma then .ok (s, put k (toVal dbl j) acc) else lentries dbl (n - 1) s (put k (toVal dbl j) acc)) := by
  cases n with
  | zero => omega
  | succ n =>
    have e : a ++ kt ++ b ++ [58] ++ c ++ t ++ r = a ++ kt ++ (b ++ 58 :: (c ++ t ++ r)) := by simp
    have hws : ws (a ++ kt ++ (b ++ 58 :: (c ++ t ++ r))) ≠ [] := by
      obtain ⟨u, _, rfl⟩ := hk
      rw [List.append_assoc, ws_blanks ha]
      simp only [List.append_assoc, List.cons_append, List.nil_append]
      rw [ws_cons (by decide)]; simp
    rw [e, lentries, if_neg hws, lstr_complete hk ha, ok_bind]
    simp only []
    rw [lexpect_blanks hb (by decide), ok_bind, hn c r n hc hr (by omega), ok_bind]
    rfl

theorem lnode_blanks (dbl : Dbl D) (n : Nat) {a : Bytes} (ha : Blanks lax a) (s : Bytes) : lnode dbl n (a ++ s) = lnode dbl n s := by
  cases n with
  | zero => rfl
  | succ n => rw [lnode, lnode, ws_blanks ha]

theorem lvals_ws (dbl : Dbl D) (n : Nat) {a : Bytes} (ha : Blanks lax a) (s : Bytes) (acc : List (Val D)) :
    lvals dbl n (a ++ s) acc = lvals dbl n s acc := by
  cases n with
  | zero => rfl
  | succ n => rw [lvals, lvals, ws_blanks ha, lnode_blanks dbl n ha]

theorem lstr_blanks {a : Bytes} (ha : Blanks lax a) (s : Bytes) : lstr (a ++ s) = lstr s := by
  unfold lstr lexpect; rw [ws_blanks ha]

theorem lentries_ws (dbl : Dbl D) (n : Nat) {a : Bytes} (ha : Blanks lax a) (s : Bytes) (acc : List (Bytes × Val D)) :
    lentries dbl n (a ++ s) acc = lentries dbl n s acc := by
  cases n with
  | zero => rfl
  | succ n => rw [lentries, lentries, ws_blanks ha, lstr_blanks ha]

mutual
theorem complete_text (dbl : Dbl D) : ∀ {j t}, JText lax j t → NodeOk dbl j t
  | _, _, .null => by
    intro a r n ha hr hn
    cases n with
    | zero => simp at hn
    | succ n =>
      rw [List.append_assoc]
      simp only [List.cons_append, List.nil_append]
      rw [lnode_ws dbl n ha (by decide)]
      simp [digit, lkw, toVal]
  | _, _, .true => by
    intro a r n ha hr hn
    cases n with
    | zero => simp at hn
    | succ n =>
      rw [List.append_assoc]
      simp only [List.cons_append, List.nil_append]
      rw [lnode_ws dbl n ha (by decide)]
      simp [digit, lkw, toVal]
  | _, _, .false => by
    intro a r n ha hr hn
    cases n with
    | zero => simp at hn
    | succ n =>
      rw [List.append_assoc]
      simp only [List.cons_append, List.nil_append]
      rw [lnode_ws dbl n ha (by decide)]
      simp [digit, lkw, toVal]
  | _, _, .num (t := t) hnum => by
    intro a r n ha hr hn
    have hlen : t.length < 100 := hnum.2
    have hc := number_complete hnum.1 hr
    obtain ⟨c, u, rfl, hd⟩ := number_head hnum.1
    obtain ⟨h1, h2, h3, h4⟩ := digit_plain c hd
    cases n with
    | zero => simp at hn
    | succ n =>
      rw [List.append_assoc, List.cons_append, lnode_ws dbl n ha h1, if_neg h2, if_neg h3, if_neg h4, if_pos hd]
      rw [← List.cons_append, lnum, hc, if_neg (by simp only; omega)]
      simp [toVal]
  | _, _, .str hs => by
    intro a r n ha hr hn
    have hc := lstr_complete hs blanks_nil r
    obtain ⟨u, hu, rfl⟩ := hs
    cases n with
    | zero => simp at hn
    | succ n =>
      rw [List.append_assoc]
      simp only [List.append_assoc, List.cons_append, List.nil_append] at hc ⊢
      rw [lnode_ws dbl n ha (by decide), if_neg (by decide), if_neg (by decide), if_pos rfl, hc]
      rfl
  | _, _, .arr0 (w := w) hw => by
    intro a r n ha hr hn
    have e : a ++ ([91] ++ w ++ [93]) ++ r = a ++ 91 :: (w ++ 93 :: r) := by simp
    simp only [List.length_append, List.length_cons, List.length_nil] at hn
    match n, hn with
    | n + 2, _ =>
      rw [e, lnode_ws dbl (n + 1) ha (by decide), if_pos rfl, larray]
      rw [show lexpect (91 :: (w ++ 93 :: r)) 91 = .ok (w ++ 93 :: r) from lexpect_blanks (a := []) blanks_nil (by decide) _, ok_bind]
      rw [leat_blanks hw (by decide)]
      rfl
  | _, _, .arr (v := v) (vs := vs) (t := t) hi => by
    intro a r n ha hr hn
    have hok := complete_items dbl hi
    have e : a ++ ([91] ++ t ++ [93]) ++ r = a ++ 91 :: (t ++ 93 :: r) := by simp
    simp only [List.length_append, List.length_cons, List.length_nil] at hn
    obtain ⟨b, c, u, ht, hb, hc, h93, _⟩ := items_head hi
    match n, hn with
    | n + 2, hn =>
      rw [e, lnode_ws dbl (n + 1) ha (by decide), if_pos rfl, larray]
      rw [show lexpect (91 :: (t ++ 93 :: r)) 91 = .ok (t ++ 93 :: r) from lexpect_blanks (a := []) blanks_nil (by decide) _, ok_bind]
      have hleat : leat (t ++ 93 :: r) 93 = (c :: (u ++ 93 :: r), false) := by
        rw [ht, List.append_assoc, List.cons_append]; exact leat_other hb hc h93 _
      rw [hleat]
      simp only [Bool.false_eq_true, if_false]
      have hstrip : lvals dbl n (c :: (u ++ 93 :: r)) [] = lvals dbl n (t ++ 93 :: r) [] := by
        rw [ht, List.append_assoc, List.cons_append]
        exact (lvals_ws dbl n hb _ _).symm
      rw [hstrip, hok 93 r n [] (by decide) (by decide) (by decide) (by omega), ok_bind]
      simp only [List.nil_append]
      rw [show lexpect (93 :: r) 93 = .ok r from lexpect_blanks (a := []) blanks_nil (by decide) _]
      simp [toVal, ok_bind]
  | _, _, .obj0 (w := w) hw => by
    intro a r n ha hr hn
    have e : a ++ ([123] ++ w ++ [125]) ++ r = a ++ 123 :: (w ++ 125 :: r) := by simp
    simp only [List.length_append, List.length_cons, List.length_nil] at hn
    match n, hn with
    | n + 2, _ =>
      rw [e, lnode_ws dbl (n + 1) ha (by decide), if_neg (by decide), if_pos rfl, ldict]
      rw [show lexpect (123 :: (w ++ 125 :: r)) 123 = .ok (w ++ 125 :: r) from lexpect_blanks (a := []) blanks_nil (by decide) _, ok_bind]
      rw [leat_blanks hw (by decide)]
      simp [toVal, toEntries]
  | _, _, .obj (e := e) (es := es) (t := t) hi => by
    intro a r n ha hr hn
    have hok := complete_members dbl hi
    have e : a ++ ([123] ++ t ++ [125]) ++ r = a ++ 123 :: (t ++ 125 :: r) := by simp
    simp only [List.length_append, List.length_cons, List.length_nil] at hn
    obtain ⟨b, c, u, ht, hb, hc, _, h93⟩ := members_head hi
    match n, hn with
    | n + 2, hn =>
      rw [e, lnode_ws dbl (n + 1) ha (by decide), if_neg (by decide), if_pos rfl, ldict]
      rw [show lexpect (123 :: (t ++ 125 :: r)) 123 = .ok (t ++ 125 :: r) from lexpect_blanks (a := []) blanks_nil (by decide) _, ok_bind]
      have hleat : leat (t ++ 125 :: r) 125 = (c :: (u ++ 125 :: r), false) := by
        rw [ht, List.append_assoc, List.cons_append]; exact leat_other hb hc h93 _
      rw [hleat]
      simp only [Bool.false_eq_true, if_false]
      have hstrip : lentries dbl n (c :: (u ++ 125 :: r)) [] = lentries dbl n (t ++ 125 :: r) [] := by
        rw [ht, List.append_assoc, List.cons_append]
        exact (lentries_ws dbl n hb _ _).symm
      rw [hstrip, hok 125 r n [] (by decide) (by decide) (by decide) (by omega), ok_bind]
      simp only []
      rw [show lexpect (125 :: r) 125 = .ok r from lexpect_blanks (a := []) blanks_nil (by decide) _]
      simp [toVal, ok_bind]

theorem complete_items (dbl : Dbl D) : ∀ {j js t}, JItems lax j js t → ItemsOk dbl j js t
  | _, _, _, .one (v := v) (a := a) (t := t) (b := b) ha ht hb => by
    intro x r n acc hx hbx hs hn
    have hok := complete_text dbl ht
    simp only [List.length_append] at hn
    rw [show a ++ t ++ b ++ x :: r = a ++ t ++ (b ++ x :: r) by simp]
    rw [items_step dbl ha ht hok (stop_blank hb hs r) (by omega), leat_other hb hbx hx]
    simp [push, toVals]
  | _, _, _, .more (v := v) (v' := v') (vs := vs) (a := a) (t := t) (b := b) (r := u) ha ht hb hi => by
    intro x r n acc hx hbx hs hn
    have hok := complete_text dbl ht
    have hokr := complete_items dbl hi
    simp only [List.length_append, List.length_cons, List.length_nil] at hn
    rw [show a ++ t ++ b ++ [44] ++ u ++ x :: r = a ++ t ++ (b ++ 44 :: (u ++ x :: r)) by simp]
    rw [items_step dbl ha ht hok (stop_blank hb (by decide) _) (by omega), leat_blanks hb (by decide)]
    simp only [Bool.not_true, Bool.false_eq_true, if_false]
    rw [hokr x r (n - 1) _ hx hbx hs (by omega)]
    simp [push, toVals]

theorem complete_members (dbl : Dbl D) : ∀ {e es t}, JMembers lax e es t → MembersOk dbl e es t
  | _, _, _, .one (k := k) (v := v) (a := a) (kt := kt) (b := b) (c := c) (t := t) (d := d) ha hk hb hc ht hd => by
    intro x r n acc hx hbx hs hn
    have hok := complete_text dbl ht
    simp only [List.length_append] at hn
    rw [show a ++ kt ++ b ++ [58] ++ c ++ t ++ d ++ x :: r = a ++ kt ++ b ++ [58] ++ c ++ t ++ (d ++ x :: r) by simp]
    rw [members_step dbl ha hk hb hc hok (stop_blank hd hs r) (by omega), leat_other hd hbx hx]
    simp [toEntries]
  | _, _, _, .more (k := k) (v := v) (e := e) (es := es) (a := a) (kt := kt) (b := b) (c := c) (t := t) (d := d) (r := u)
      ha hk hb hc ht hd hi => by
    intro x r n acc hx hbx hs hn
    have hok := complete_text dbl ht
    have hokr := complete_members dbl hi
    simp only [List.length_append, List.length_cons, List.length_nil] at hn
    rw [show a ++ kt ++ b ++ [58] ++ c ++ t ++ d ++ [44] ++ u ++ x :: r =
      a ++ kt ++ b ++ [58] ++ c ++ t ++ (d ++ 44 :: (u ++ x :: r)) by simp]
    rw [members_step dbl ha hk hb hc hok (stop_blank hd (by decide) _) (by omega), leat_blanks hd (by decide)]
    simp only [Bool.not_true, Bool.false_eq_true, if_false]
    rw [hokr x r (n - 1) _ hx hbx hs (by omega)]
    simp [toEntries]
end

/-! The budget is enough. -/

theorem bind_div {α β : Type} {x : Res Unit α} {f : α → Res Unit β} (hx : x ≠ .diverge) (hf : ∀ a, x = .ok a → f a ≠ .diverge) :
    (x >>= f) ≠ .diverge := by
  cases x with
  | ok a => exact hf a rfl
  | err e => intro h; cases h
  | panic m => intro h; cases h
  | diverge => exact absurd rfl hx

theorem lexpect_div (s : Bytes) (c : UInt8) : lexpect s c ≠ .diverge := by
  unfold lexpect; split
  · simp
  · split <;> simp

theorem lchars_div (s acc : Bytes) : lchars s acc ≠ .diverge := by
  fun_induction lchars s acc with
  | case1 => simp
  | case2 => simp
  | case3 => simp
  | case4 _ _ _ _ ih => exact ih
  | case5 _ _ _ _ _ ih => exact ih

theorem lstr_div (s : Bytes) : lstr s ≠ .diverge := by
  unfold lstr
  exact bind_div (lexpect_div _ _) fun _ _ => bind_div (lchars_div _ _) fun _ _ => bind_div (lexpect_div _ _) fun _ _ => by simp

theorem lnode_shorter {dbl : Dbl D} {n : Nat} {s s' : Bytes} {v : Val D} (h : lnode dbl n s = .ok (s', v)) : s'.length < s.length := by
  obtain ⟨a, t, j, e, _, hj, _⟩ := (sound dbl n).1 _ _ _ h
  obtain ⟨c, u, rfl, _⟩ := text_head hj
  rw [e]; simp; omega

theorem lexpect_shorter {s r : Bytes} {c : UInt8} (h : lexpect s c = .ok r) : r.length < s.length := by
  have := ws_length s; rw [lexpect_ok h, List.length_cons] at this; omega

theorem lstr_shorter {s s' x : Bytes} (h : lstr s = .ok (s', x)) : s'.length < s.length := by
  obtain ⟨a, t, e, _, u, _, rfl⟩ := lstr_sound h
  rw [e]; simp; omega

theorem leat_length (s : Bytes) (c : UInt8) : (leat s c).1.length ≤ s.length := by
  have := ws_length s
  unfold leat
  split
  · simp
  · rename_i hw; rw [hw] at this; simp at this
    split
    · simp only; omega
    · simpa using this

theorem nodiv (dbl : Dbl D) (n : Nat) :
    (∀ s : Bytes, 3 * s.length + 1 ≤ n → lnode dbl n s ≠ .diverge) ∧
    (∀ s : Bytes, 3 * s.length ≤ n → s ≠ [] → larray dbl n s ≠ .diverge) ∧
    (∀ s : Bytes, 3 * s.length ≤ n → s ≠ [] → ldict dbl n s ≠ .diverge) ∧
    (∀ s : Bytes, ∀ acc, 3 * s.length + 2 ≤ n → lvals dbl n s acc ≠ .diverge) ∧
    (∀ s : Bytes, ∀ acc, 3 * s.length + 2 ≤ n → lentries dbl n s acc ≠ .diverge) := by
  induction n with
  | zero =>
    refine ⟨?_, ?_, ?_, ?_, ?_⟩
    · intro s h; omega
    · intro s h hne; exact absurd (List.eq_nil_of_length_eq_zero (by omega)) hne
    · intro s h hne; exact absurd (List.eq_nil_of_length_eq_zero (by omega)) hne
    · intro s _ h; omega
    · intro s _ h; omega
  | succ n ih =>
    obtain ⟨ihn, iha, ihd, ihv, ihe⟩ := ih
    refine ⟨?_, ?_, ?_, ?_, ?_⟩
    · intro s h
      have hl := ws_length s
      rw [lnode]
      split
      · simp
      · rename_i c r hws
        rw [hws] at hl
        split
        · exact iha _ (by omega) (by simp)
        · split
          · exact ihd _ (by omega) (by simp)
          · split
            · exact bind_div (lstr_div _) fun _ _ => by simp
            · split
              · unfold lnum; split
                · simp
                · split <;> simp
              · unfold lkw; split
                · simp
                · split
                  · simp
                  · split <;> simp
    · intro s h hne
      rw [larray]
      refine bind_div (lexpect_div _ _) fun s1 h1 => ?_
      have := lexpect_shorter h1
      have hl := leat_length s1 93
      cases he : leat s1 93 with
      | mk s2 closed =>
        rw [he] at hl
        cases closed with
        | true => simp
        | false =>
          simp only [Bool.false_eq_true, if_false]
          exact bind_div (ihv _ _ (by simp only at hl; omega)) fun _ _ => bind_div (lexpect_div _ _) fun _ _ => by simp
    · intro s h hne
      rw [ldict]
      refine bind_div (lexpect_div _ _) fun s1 h1 => ?_
      have := lexpect_shorter h1
      have hl := leat_length s1 125
      cases he : leat s1 125 with
      | mk s2 closed =>
        rw [he] at hl
        cases closed with
        | true => simp
        | false =>
          simp only [Bool.false_eq_true, if_false]
          exact bind_div (ihe _ _ (by simp only at hl; omega)) fun _ _ => bind_div (lexpect_div _ _) fun _ _ => by simp
    · intro s acc h
      rw [lvals]
      split
      · simp
      · refine bind_div (ihn _ (by omega)) fun ⟨s1, x⟩ h1 => ?_
        have := lnode_shorter h1
        have hl := leat_length s1 44
        cases he : leat s1 44 with
        | mk s2 comma =>
          rw [he] at hl
          cases comma with
          | false => simp [he]
          | true =>
            simp only [he, Bool.not_true, Bool.false_eq_true, if_false]
            exact ihv _ _ (by simp only at hl; omega)
    · intro s acc h
      rw [lentries]
      split
      · simp
      · refine bind_div (lstr_div _) fun ⟨sk, k⟩ hk => ?_
        have := lstr_shorter hk
        refine bind_div (lexpect_div _ _) fun sc hc => ?_
        have := lexpect_shorter hc
        refine bind_div (ihn _ (by omega)) fun ⟨s1, x⟩ h1 => ?_
        have := lnode_shorter h1
        have hl := leat_length s1 44
        cases he : leat s1 44 with
        | mk s2 comma =>
          rw [he] at hl
          cases comma with
          | false => simp [he]
          | true =>
            simp only [he, Bool.not_true, Bool.false_eq_true, if_false]
            exact ihe _ _ (by simp only at hl; omega)

end Che.Lib.Json
