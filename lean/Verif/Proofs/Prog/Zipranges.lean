import Verif.Model.Prog.Zipranges
import Verif.Spec.Prog.Zipranges

namespace Che.Prog.Zipranges
open Che Che.Lib

theorem space_iff (c : UInt8) : Strings.isspace c = true ↔ Space c := by simp [Strings.isspace, Space]

theorem digit_ofNat {d : Nat} (h : d < 10) : isdigit (UInt8.ofNat (48 + d)) = true ∧ (UInt8.ofNat (48 + d)).toNat - 48 = d := by
  have : ∀ d : Fin 10, isdigit (UInt8.ofNat (48 + d.val)) = true ∧ (UInt8.ofNat (48 + d.val)).toNat - 48 = d.val := by decide
  exact this ⟨d, h⟩

theorem digits_value {ds : Bytes} {n : Nat} (h : Digits ds n) : (∀ c ∈ ds, isdigit c = true) ∧ value ds = n ∧ ds ≠ [] := by
  induction h with
  | one hd =>
    obtain ⟨h1, h2⟩ := digit_ofNat hd
    refine ⟨fun c hc => ?_, ?_, by simp⟩
    · rw [List.mem_singleton] at hc; rw [hc]; exact h1
    · simp only [value, List.foldl_cons, List.foldl_nil]; omega
  | more _ hd ih =>
    obtain ⟨h1, h2⟩ := digit_ofNat hd
    refine ⟨fun c hc => ?_, ?_, by simp⟩
    · rcases List.mem_append.1 hc with hc | hc
      · exact ih.1 c hc
      · rw [List.mem_singleton] at hc; rw [hc]; exact h1
    · have := ih.2.1
      unfold value at this ⊢
      rw [List.foldl_append, this]
      simp only [List.foldl_cons, List.foldl_nil]
      omega

theorem takeWhile_end {p : UInt8 → Bool} : ∀ {ds : Bytes} {r : Bytes}, (∀ c ∈ ds, p c = true) → (∀ c r', r = c :: r' → p c = false) → (ds ++ r).takeWhile p = ds ∧ (ds ++ r).dropWhile p = r
  | [], r, _, h => by
    cases r with
    | nil => simp
    | cons c r => simp [List.takeWhile_cons, List.dropWhile_cons, h c r rfl]
  | d :: ds, r, h1, h2 => by
    obtain ⟨e1, e2⟩ := takeWhile_end (ds := ds) (fun c hc => h1 c (by simp [hc])) h2
    simp only [List.cons_append, List.takeWhile_cons, List.dropWhile_cons, h1 d (by simp), if_true, e1, e2, and_self]

theorem space_not_digit {c : UInt8} (h : Space c) : isdigit c = false := by
  have : ∀ c : Fin 256, (UInt8.ofNat c.val = 32 ∨ 9 ≤ UInt8.ofNat c.val ∧ UInt8.ofNat c.val ≤ 13) → isdigit (UInt8.ofNat c.val) = false := by decide +kernel
  have h2 := this ⟨c.toNat, c.toNat_lt⟩
  simp only [UInt8.ofNat_toNat] at h2
  exact h2 h

theorem scanDigits_eq {ds r : Bytes} {n : Nat} (h : Digits ds n) (hr : ∀ c r', r = c :: r' → Space c) (sign : Int) : scanDigits sign (ds ++ r) = .num (sign * n) (r.dropWhile Strings.isspace) := by
  obtain ⟨h1, h2, h3⟩ := digits_value h
  obtain ⟨e1, e2⟩ := takeWhile_end h1 (r := r) fun c r' e => space_not_digit (hr c r' e)
  unfold scanDigits
  simp only
  rw [e1, if_neg h3, h2, e2]

theorem digits_head {ds : Bytes} {n : Nat} (h : Digits ds n) : ∃ c t, ds = c :: t ∧ c ≠ 45 ∧ c ≠ 43 ∧ Strings.isspace c = false := by
  obtain ⟨h1, _, h3⟩ := digits_value h
  match ds, h3 with
  | c :: t, _ =>
    have h2 := h1 c (by simp)
    have : ∀ c : Fin 256, isdigit (UInt8.ofNat c.val) = true → UInt8.ofNat c.val ≠ 45 ∧ UInt8.ofNat c.val ≠ 43 ∧ Strings.isspace (UInt8.ofNat c.val) = false := by decide +kernel
    have h4 := this ⟨c.toNat, c.toNat_lt⟩
    simp only [UInt8.ofNat_toNat] at h4
    exact ⟨c, t, rfl, h4 h2⟩

theorem scan_number {w t r : Bytes} {v : Int} (hw : ∀ c ∈ w, Space c) (h : Number t v) (hr : ∀ c r', r = c :: r' → Space c) : scan (w ++ (t ++ r)) = .num v (r.dropWhile Strings.isspace) := by
  have hw' : ∀ c ∈ w, Strings.isspace c = true := fun c hc => (space_iff c).2 (hw c hc)
  unfold scan
  cases h with
  | plain hd =>
    obtain ⟨c, t', e, h1, h2, h3⟩ := digits_head hd
    have := (takeWhile_end (p := Strings.isspace) hw' (r := t ++ r) (by
      intro c' r' e'
      rw [e, List.cons_append] at e'
      injection e' with e' _
      rw [← e']
      exact h3)).2
    rw [this, e, List.cons_append]
    have e2 : scanNumber (c :: (t' ++ r)) = scanDigits 1 (c :: (t' ++ r)) := by
      unfold scanNumber
      split
      · rename_i h; simp at h
      · rename_i h; injection h with h _; exact absurd h h1
      · rename_i h; injection h with h _; exact absurd h h2
      · rfl
    rw [e2, ← List.cons_append, ← e, scanDigits_eq hd hr]
    simp
  | plus hd =>
    have := (takeWhile_end (p := Strings.isspace) hw' (r := 43 :: (‹Bytes› ++ r)) (by
      intro c' r' e'
      injection e' with e' _
      rw [← e']
      decide)).2
    rw [List.cons_append, this]
    show scanDigits 1 _ = _
    rw [scanDigits_eq hd hr]
    simp
  | minus hd =>
    have := (takeWhile_end (p := Strings.isspace) hw' (r := 45 :: (‹Bytes› ++ r)) (by
      intro c' r' e'
      injection e' with e' _
      rw [← e']
      decide)).2
    rw [List.cons_append, this]
    show scanDigits (-1) _ = _
    rw [scanDigits_eq hd hr]
    simp

theorem dropWhile_twice (p : UInt8 → Bool) (l : Bytes) : (l.dropWhile p).dropWhile p = l.dropWhile p := by
  induction l with
  | nil => rfl
  | cons d l ih =>
    by_cases h : p d = true
    · simp only [List.dropWhile_cons, h, if_true]; exact ih
    · simp [h]

/-- Numbers are put in the cells one after another. -/
def feed : List Int → List (Int × Int) → Res String (List (Int × Int))
  | [], cells => .ok cells
  | v :: vs, cells => (append cells v).bind fun cells => feed vs cells

theorem main_drop (n : Nat) (input : Bytes) (cells : List (Int × Int)) : main n (input.dropWhile Strings.isspace) cells = main n input cells := by
  cases n with
  | zero => rfl
  | succ n => rw [main, main, scan, dropWhile_twice]; rfl

theorem main_feed {input : Bytes} {vs : List Int} (h : Numbers input vs) : ∀ {n : Nat} (cells : List (Int × Int)), vs.length < n → (∀ v ∈ vs, -2147483648 ≤ v ∧ v ≤ 2147483647) →
    main n input cells = (feed vs cells).bind fun cells => .ok (0, out cells) := by
  have hend : ∀ {w : Bytes}, (∀ c ∈ w, Space c) → ∀ {n} cells, 0 < n → main n w cells = .ok (0, out cells) := by
    intro w hw n cells hn
    obtain ⟨n, rfl⟩ : ∃ k, n = k + 1 := ⟨n - 1, by omega⟩
    have := (takeWhile_end (p := Strings.isspace) (ds := w) (fun c hc => (space_iff c).2 (hw c hc)) (r := []) (by simp)).2
    rw [List.append_nil] at this
    rw [main, scan, this]
    rfl
  induction h with
  | none hw =>
    intro n cells hn _
    rw [hend hw cells (by omega)]
    rfl
  | @last w t v hw ht =>
    intro n cells hn hv
    obtain ⟨n, rfl⟩ : ∃ k, n = k + 1 := ⟨n - 1, by omega⟩
    have := scan_number hw ht (r := []) (by simp)
    rw [List.append_nil] at this
    rw [main, this]
    simp only
    rw [if_pos (hv v (by simp)), feed]
    cases append cells v with
    | ok cs =>
      simp only [Res.bind, feed]
      exact hend (w := []) (by simp) cs (by simp at hn; omega)
    | err e => rfl
    | panic e => rfl
    | diverge => rfl
  | @more w t v c rest vs hw ht hc _ ih =>
    intro n cells hn hv
    obtain ⟨n, rfl⟩ : ∃ k, n = k + 1 := ⟨n - 1, by omega⟩
    have := scan_number hw ht (r := c :: rest) (by
      intro c' r' e
      injection e with e _
      rw [← e]; exact hc)
    rw [main, this]
    simp only
    rw [if_pos (hv v (by simp)), feed]
    cases append cells v with
    | ok cs =>
      simp only [Res.bind]
      have e : (c :: rest).dropWhile Strings.isspace = rest.dropWhile Strings.isspace := by
        rw [List.dropWhile_cons, if_pos ((space_iff c).2 hc)]
      rw [e, main_drop]
      exact ih cs (by simp at hn; omega) fun v hv' => hv v (by simp [hv'])
    | err e => rfl
    | panic e => rfl
    | diverge => rfl

theorem last_append (cs : List (Int × Int)) (c : Int × Int) : last (cs ++ [c]) = some (cs, c) := by
  cases h : cs ++ [c] with
  | nil => simp at h
  | cons d ds =>
    unfold last
    simp only [← h]
    simp

theorem feed_append (vs ws : List Int) : ∀ cells, feed (vs ++ ws) cells = (feed vs cells).bind fun cells => feed ws cells := by
  induction vs with
  | nil => intro cells; rfl
  | cons v vs ih =>
    intro cells
    rw [List.cons_append, feed, feed]
    cases append cells v with
    | ok cs => simp only [Res.bind]; exact ih cs
    | err e => rfl
    | panic e => rfl
    | diverge => rfl

theorem feed_run (a : Int) (cs : List (Int × Int)) : ∀ (k : Nat) (b : Int), b + k ≤ 2147483647 → feed ((List.range k).map fun j : Nat => b + 1 + j) (cs ++ [(a, b)]) = .ok (cs ++ [(a, b + k)])
  | 0, b, _ => by simp [feed]
  | k + 1, b, h => by
    rw [List.range_succ_eq_map, List.map_cons, List.map_map, feed]
    have e1 : append (cs ++ [(a, b)]) (b + 1 + ((0 : Nat) : Int)) = .ok (cs ++ [(a, b + 1)]) := by
      unfold append
      rw [last_append]
      simp only
      rw [if_neg (by omega), if_pos (by omega)]
    rw [e1]
    simp only [Res.bind]
    have := feed_run a cs k (b + 1) (by omega)
    have e2 : (List.range k).map ((fun j : Nat => b + 1 + j) ∘ Nat.succ) = (List.range k).map fun j : Nat => b + 1 + 1 + j := by
      apply List.map_congr_left
      intro j _
      simp only [Function.comp]
      omega
    rw [e2, this]
    congr 4
    omega

theorem expand_cons {r : Int × Int} (h : r.1 ≤ r.2) : expand r = r.1 :: (List.range (r.2 - r.1).toNat).map fun j : Nat => r.1 + 1 + j := by
  unfold expand
  rw [show (r.2 - r.1 + 1).toNat = (r.2 - r.1).toNat + 1 by omega, List.range_succ_eq_map, List.map_cons, List.map_map]
  congr 1
  · omega
  · apply List.map_congr_left
    intro j _
    simp only [Function.comp]
    omega

theorem feed_range {cs : List (Int × Int)} {r : Int × Int} (hr : r.1 ≤ r.2) (hb : r.2 ≤ 2147483647) (hl : cs.length < 4000) (hc : ∀ ds d, cs = ds ++ [d] → d.2 < 2147483647 ∧ r.1 ≠ d.2 + 1) :
    feed (expand r) cs = .ok (cs ++ [r]) := by
  rw [expand_cons hr, feed]
  have e1 : append cs r.1 = .ok (cs ++ [(r.1, r.1)]) := by
    rcases List.eq_nil_or_concat cs with rfl | ⟨ds, d, e⟩
    · rfl
    · rw [List.concat_eq_append] at e
      obtain ⟨h1, h2⟩ := hc ds d e
      unfold append
      rw [e, last_append, ← e]
      simp only
      rw [if_neg (by omega), if_neg h2, if_pos hl]
  rw [e1]
  simp only [Res.bind]
  rw [feed_run r.1 cs _ r.1 (by omega)]
  congr 3
  refine Prod.ext rfl ?_
  simp only
  omega

theorem feed_ranges {rs : List (Int × Int)} {vs : List Int} (h : Ranges rs vs) : ∀ {cs : List (Int × Int)}, cs.length + rs.length ≤ 4000 → (∀ r ∈ rs, r.2 ≤ 2147483647) →
    (∀ u r s v, rs = u ++ r :: s :: v → r.2 < 2147483647) → (∀ ds d s v, cs = ds ++ [d] → rs = s :: v → d.2 < 2147483647 ∧ s.1 ≠ d.2 + 1) → feed vs cs = .ok (cs ++ rs) := by
  induction h with
  | none => intro cs _ _ _ _; simp [feed]
  | @one r hr =>
    intro cs hl hb _ hc
    exact feed_range hr (hb r (by simp)) (by simp at hl; omega) fun ds d e => hc ds d r [] e rfl
  | @more r s rs vs hr hs _ ih =>
    intro cs hl hb hm hc
    rw [feed_append, feed_range hr (hb r (by simp)) (by simp at hl; omega) fun ds d e => hc ds d r (s :: rs) e rfl]
    simp only [Res.bind]
    rw [ih (cs := cs ++ [r]) (by simp at hl ⊢; omega) (fun r' h => hb r' (by simp at h ⊢; exact .inr h)) (fun u r' s' v e => hm (r :: u) r' s' v (by rw [e]; rfl)) ?_]
    · simp
    · intro ds d s' v e1 e2
      obtain ⟨_, e3⟩ := List.append_inj' e1 rfl
      injection e3 with e3 _
      injection e2 with e2 _
      subst e3 e2
      exact ⟨hm [] r s rs rfl, hs⟩

theorem ranges_exist : ∀ vs : List Int, ∃ rs, Ranges rs vs ∧ rs.length ≤ vs.length
  | [] => ⟨[], .none, by simp⟩
  | v :: vs => by
    obtain ⟨rs, h, hl⟩ := ranges_exist vs
    have e1 : expand (v, v) = [v] := by rw [expand_cons (by simp)]; simp
    cases h with
    | none => exact ⟨[(v, v)], e1 ▸ .one (by simp), by simp⟩
    | @one r hr =>
      by_cases hv : r.1 = v + 1
      · refine ⟨[(v, r.2)], ?_, by simp⟩
        have : v :: expand r = expand (v, r.2) := by
          rw [expand_cons hr, expand_cons (show (v, r.2).1 ≤ (v, r.2).2 by simp; omega)]
          simp only
          rw [show (r.2 - v).toNat = (r.2 - r.1).toNat + 1 by omega, List.range_succ_eq_map, List.map_cons, List.map_map]
          congr 2
          · omega
          · apply List.map_congr_left
            intro j _
            simp only [Function.comp]
            omega
        rw [this]
        exact .one (by simp; omega)
      · refine ⟨[(v, v), r], ?_, by simp at hl ⊢; omega⟩
        have := Ranges.more (r := (v, v)) (by simp) hv (.one hr)
        rw [e1] at this
        exact this
    | @more r s rs ws hr hs h2 =>
      by_cases hv : r.1 = v + 1
      · refine ⟨(v, r.2) :: s :: rs, ?_, by simp at hl ⊢; omega⟩
        have : v :: expand r = expand (v, r.2) := by
          rw [expand_cons hr, expand_cons (show (v, r.2).1 ≤ (v, r.2).2 by simp; omega)]
          simp only
          rw [show (r.2 - v).toNat = (r.2 - r.1).toNat + 1 by omega, List.range_succ_eq_map, List.map_cons, List.map_map]
          congr 2
          · omega
          · apply List.map_congr_left
            intro j _
            simp only [Function.comp]
            omega
        rw [← List.cons_append, this]
        exact .more (by simp; omega) hs h2
      · refine ⟨(v, v) :: r :: s :: rs, ?_, by simp at hl ⊢; omega⟩
        have := Ranges.more (r := (v, v)) (by simp) hv (.more hr hs h2)
        rw [e1] at this
        exact this
end Che.Prog.Zipranges
