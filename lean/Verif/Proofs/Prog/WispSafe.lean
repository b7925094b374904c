import Verif.Proofs.Prog.WispReader

/-!
`read_sexp` of `prog/wisp` reads what was printed; on any input it ends, and it leaves its arrays only if too many brackets are open.
-/
namespace Che.Prog.Wisp
open Che Che.Lib Che.Spec.Wisp

private theorem bind_ok {ε α β : Type} (a : α) (f : α → Res ε β) : ((Res.ok a : Res ε α) >>= f) = f a := rfl

/-- Between two calls of `read_sexp`. -/
structure Ready (r : Reader) : Prop where
  stack : r.stack = []
  fits : Fits r.eater
  buf : r.eater.buf = []

theorem same_afterWs {rest l : List Int} (h : Same rest l) : afterWs l = afterWs rest := by
  rcases h with rfl | ⟨rfl, rfl⟩
  · rfl
  · rfl

/-- The state that `push` makes. -/
def fresh : State := { items := [], tail := nil, quote_mode := false, dotpair_mode := 0, vector_mode := false }

theorem fresh_put (v : Val) : (fresh.put v).list = .cons v nil ∧ (fresh.put v).quote_mode = false ∧ (fresh.put v).dotpair_mode = 0 := ⟨rfl, rfl, rfl⟩

theorem loop_one {r : Reader} {s : State} {v : Val} (k : Nat) (hs : r.stack = [s]) (hl : s.list = .cons v nil) : loop (k + 1) r = .ok r := by
  rw [loop, if_neg (by rw [hs]; simp), if_neg]
  unfold goes topOf
  simp only [hs, hl, decide_eq_true_eq]
  rintro ⟨_, _, x | x⟩
  · cases x
  · exact absurd x (by simp)

theorem finish_one {r : Reader} {s : State} {v : Val} (hs : r.stack = [s]) (hl : s.list = .cons v nil) (hq : s.quote_mode = false) (hd : s.dotpair_mode = 0)
    (he : r.eof = false) (hr : r.error = false) (hf : Fits r.eater) :
    ∃ e, finish r = .ok ({ r with eater := e, stack := [] }, v) ∧ inp e = afterWs (inp r.eater) ∧ e.buf = r.eater.buf ∧ Fits e := by
  obtain ⟨e2, h2, i2, b2, f2⟩ := consume_whitespace_ok hf
  refine ⟨e2, ?_, i2, b2, f2⟩
  unfold finish
  rw [if_pos ⟨he, hr⟩, h2, bind_ok, bind_ok]
  unfold topOf
  simp only [hr, hs, hl, hq, hd]
  rw [if_neg (by simp), if_neg (by simp), if_neg (by simp), if_neg (by intro h; cases h)]
  rfl

theorem read_eq (r : Reader) (hb : r.shebang ≠ -1) (hs : r.stack = []) :
    read_sexp r = loop (2 * r.eater.left) { r with error := false, stack := [fresh] } >>= finish := by
  unfold read_sexp shebang push
  rw [if_neg hb, bind_ok, hs]
  simp only
  rw [if_neg (by decide), bind_ok]
  rfl

theorem run_gap {g : List Int} (h : Gap g) : ∀ {r : Reader} {s : State} {tl : List State} {rest : List Int}, Open r s tl → inp r.eater = g ++ rest →
    ∃ n e', n ≤ g.length ∧ Runs r { r with eater := e' } n ∧ Open { r with eater := e' } s tl ∧ inp e' = rest := by
  induction h with
  | nil =>
    intro r s tl rest ho hi
    exact ⟨0, r.eater, Nat.le_refl _, Runs.refl r, ho, hi⟩
  | space c t hc _ ih =>
    intro r s tl rest ho hi
    obtain ⟨e1, g1, i1, b1, f1⟩ := getc_cons ho.fits hi
    have h1 : step r = .ok { r with eater := e1 } := by
      unfold step
      rw [g1]
      simp only
      rw [if_neg (by omega), if_neg (by omega), if_neg (by omega), if_pos hc]
    obtain ⟨n, e', k1, k2, k3, k4⟩ := ih (r := { r with eater := e1 }) ⟨ho.stack, ho.eof, ho.error, ho.more, f1, b1.trans ho.buf⟩ i1
    exact ⟨1 + n, e', by simp; omega, (ho.run h1).trans k2, k3, k4⟩
  | comment l t h1 h2 _ ih =>
    intro r s tl rest ho hi
    have hi : inp r.eater = 59 :: (l ++ 10 :: t ++ rest) := hi
    obtain ⟨e1, g1, i1, b1, f1⟩ := getc_cons ho.fits hi
    obtain ⟨e2, a2, i2, b2, f2⟩ := consume_line_ok f1
    have hs : step r = .ok { r with eater := e2 } := by
      unfold step
      rw [g1]
      simp only
      rw [if_neg (by decide), if_pos trivial, a2, bind_ok]
    have hal : inp e2 = t ++ rest := by
      rw [i2, i1]
      unfold afterLine
      have : (l ++ 10 :: t ++ rest).dropWhile (fun c : Int => decide (c ≠ 10 ∧ c ≠ -1)) = 10 :: (t ++ rest) := by
        rw [List.append_assoc, List.dropWhile_append_of_pos (by
          intro x hx
          simp only [decide_eq_true_eq]
          exact ⟨fun e => h1 (e ▸ hx), fun e => h2 (e ▸ hx)⟩)]
        rfl
      rw [this]
      rfl
    obtain ⟨n, e', k1, k2, k3, k4⟩ := ih (r := { r with eater := e2 }) ⟨ho.stack, ho.eof, ho.error, ho.more, f2, b2.trans (b1.trans ho.buf)⟩ hal
    exact ⟨1 + n, e', by simp; omega, (ho.run hs).trans k2, k3, k4⟩

theorem takes_text {n : Nat} {v : Val} {b : Bool} {cs : List Int} (h : Text n v b cs) : ∀ {r : Reader} {s : State} {tl stk : List State} {rest : List Int}, Open r s tl →
    addTo (s :: tl) v = .ok stk → r.stack.length + n ≤ 31 → inp r.eater = cs ++ rest → (b = true → Delim rest) → Takes stk r cs rest := by
  induction h with
  | value v cs hv hs =>
    intro r s tl stk rest ho ha hl hi hd
    exact (takes_all v).1 hv r s tl stk cs rest ho ha hl hi hs hd
  | quote n v b g cs hg _ ih =>
    intro r s tl stk rest ho ha hl hi hd
    obtain ⟨e1, g1, i1, b1, f1⟩ := getc_cons ho.fits hi
    have hlen : r.stack.length = tl.length + 1 := by rw [ho.stack]; rfl
    let q : State := { items := [.sym (cstr "quote")], tail := nil, quote_mode := true, dotpair_mode := 0, vector_mode := false }
    have h1 : step r = .ok { r with eater := e1, stack := q :: s :: tl } := by
      unfold step
      rw [g1]
      simp only
      rw [if_neg (by decide), if_neg (by decide), if_neg (by decide), if_neg (by decide), if_neg (by decide), if_neg (by decide), if_neg (by decide), if_neg (by decide), if_pos trivial]
      unfold push
      simp only
      rw [if_neg (by omega), bind_ok]
      unfold add
      simp only
      rw [addTo_put _ (by show (0 : Nat) ≠ 2; decide) rfl]
      simp only [settle, bind_ok, setTop]
      rw [if_neg (by rw [ho.error]; simp), ho.stack]
      rfl
    have o1 : Open { r with eater := e1, stack := q :: s :: tl } q (s :: tl) := ⟨rfl, ho.eof, ho.error, .inr (by simp), f1, b1.trans ho.buf⟩
    have i1 : inp e1 = g ++ (cs ++ rest) := by rw [← List.append_assoc]; exact i1
    obtain ⟨m, e2, k1, k2, o2, i2⟩ := run_gap hg o1 i1
    have ha' : addTo (q :: s :: tl) v = .ok stk := by
      rw [addTo, if_neg (by show ¬ (0 : Nat) = 2; decide)]
      exact ha
    obtain ⟨m2, e3, j1, j2, j3, j4, j5⟩ := ih (r := { r with eater := e2, stack := q :: s :: tl }) o2 ha' (by show tl.length + 1 + 1 + n ≤ 31; omega) i2 hd
    exact ⟨1 + m + m2, e3, by simp; omega, ((ho.run h1).trans k2).trans j2, j3, j4, j5⟩

/-- A value after white space and comments. -/
theorem read_text {n : Nat} {v : Val} {b : Bool} {g cs rest : List Int} (hg : Gap g) (ht : Text n v b cs) (hn : n ≤ 30) {r : Reader} (hr : Ready r) (he : r.eof = false) (hb : r.shebang ≠ -1)
    (hi : inp r.eater = g ++ (cs ++ rest)) (ha : b = true → Delim rest) :
    ∃ r', read_sexp r = .ok (r', v) ∧ Ready r' ∧ r'.eof = false ∧ r'.error = false ∧ r'.shebang = r.shebang ∧ inp r'.eater = afterWs rest := by
  have ho : Open { r with error := false, stack := [fresh] } fresh [] := ⟨rfl, he, rfl, .inl rfl, hr.fits, hr.buf⟩
  obtain ⟨m, e0, hm, h0, o0, i0⟩ := run_gap hg ho hi
  obtain ⟨n, e1, hn, h1, f1, b1, i1⟩ := takes_text ht o0 (addTo_put v (by show (0 : Nat) ≠ 2; decide) rfl) (by show 1 + n ≤ 31; omega) i0 ha
  obtain ⟨k, hk⟩ : ∃ k, 2 * r.eater.left = (k + 1) + (m + n) := by
    have := left_eq r.eater
    rw [hi, List.length_append, List.length_append] at this
    exact ⟨2 * r.eater.left - (m + n) - 1, by omega⟩
  obtain ⟨p1, p2, p3⟩ := fresh_put v
  rw [read_eq r hb hr.stack, hk, h0.trans h1 (k + 1), loop_one k rfl p1, bind_ok]
  obtain ⟨e2, h2, i2, b2, f2⟩ := finish_one (r := { r with error := false, eater := e1, stack := [fresh.put v] }) rfl p1 p2 p3 he rfl f1
  exact ⟨_, h2, ⟨rfl, f2, b2.trans b1⟩, he, rfl, rfl, by rw [i2]; exact same_afterWs i1⟩

theorem read_print {v : Val} (hv : readable v) (hd : depth v ≤ 30) {r : Reader} (hr : Ready r) (he : r.eof = false) (hb : r.shebang ≠ -1)
    {cs rest : List Int} (hi : inp r.eater = cs ++ rest) (hs : Spells cs (print v)) (ha : isAtom v = true → Delim rest) :
    ∃ r', read_sexp r = .ok (r', v) ∧ Ready r' ∧ r'.eof = false ∧ r'.error = false ∧ r'.shebang = r.shebang ∧ inp r'.eater = afterWs rest :=
  read_text .nil (.value v cs hv hs) hd hr he hb hi ha

/-! ### Any input -/

/-- `p` does not count `EOF`. -/
theorem readTo_count (halt : Bytes) (p : Int → Bool) (hp : p (-1) = false) : ∀ (n : Nat) (l : List Int), l.length ≤ n → (readTo halt l).2.countP p ≤ l.countP p := by
  intro n
  induction n with
  | zero =>
    intro l hl
    have : l = [] := List.length_eq_zero_iff.mp (by omega)
    subst this
    simp [readTo, hp]
  | succ n ih =>
    intro l hl
    cases l with
    | nil => simp [readTo, hp]
    | cons c t =>
      simp only [List.length_cons] at hl
      by_cases hc : c = 92
      · subst hc
        cases t with
        | nil => simp [readTo, hp]
        | cons d u =>
          simp only [List.length_cons] at hl
          simp only [readTo, if_true]
          by_cases hd : d = -1
          · rw [if_pos hd, List.countP_cons (a := 92)]
            exact Nat.le_add_right _ _
          · rw [if_neg hd]
            have := ih u (by omega)
            rw [List.countP_cons, List.countP_cons]
            simp only
            omega
      · rw [readTo_cons halt c t hc]
        by_cases hs : strchr halt c = true ∨ c = -1
        · rw [if_pos hs]
          exact Nat.le_refl _
        · rw [if_neg hs, List.countP_cons]
          have := ih t (by omega)
          simp only
          omega

theorem dropWhile_count (q p : Int → Bool) (l : List Int) : (l.dropWhile q).countP p ≤ l.countP p := (List.dropWhile_sublist q).countP_le

theorem afterLine_count (p : Int → Bool) (hp : p (-1) = false) (l : List Int) : (afterLine l).countP p ≤ l.countP p := by
  have := dropWhile_count (fun c => c ≠ 10 ∧ c ≠ -1) p l
  unfold afterLine
  split
  · simp [hp]
  · next c t e =>
    rw [e, List.countP_cons] at this
    split
    · omega
    · rw [List.countP_cons]; exact this

/-- Characters that are not `EOF`. -/
def real (l : List Int) : Nat := l.countP fun c => c ≠ -1

/-- Characters that open a list, a vector or a quote. -/
def opens (l : List Int) : Nat := l.countP fun c => c = 40 ∨ c = 91 ∨ c = 39

/-- What the loop makes smaller: a point becomes `0.`, but only once. -/
def size (l : List Int) : Nat := 2 * real l - (if l.take 2 = [48, 46] then 3 else 0)

theorem real_cons (c : Int) (l : List Int) : real (c :: l) = real l + if c = -1 then 0 else 1 := by
  unfold real
  rw [List.countP_cons]
  by_cases h : c = -1 <;> simp [h]

theorem opens_cons (c : Int) (l : List Int) : opens (c :: l) = opens l + if c = 40 ∨ c = 91 ∨ c = 39 then 1 else 0 := by
  unfold opens
  rw [List.countP_cons]
  by_cases h : c = 40 ∨ c = 91 ∨ c = 39 <;> simp [h]

theorem opens_tail (c : Int) (l : List Int) : opens l ≤ opens (c :: l) := by rw [opens_cons]; omega

theorem size_le (l : List Int) : size l ≤ 2 * real l := by unfold size; omega

/-- In the loop. -/
structure Inside (r : Reader) : Prop where
  stack : r.stack ≠ []
  eof : r.eof = false
  error : r.error = false
  fits : Fits r.eater
  buf : r.eater.buf = []
  she : r.shebang ≠ -1

/-- After an error. -/
structure Failed (r : Reader) : Prop where
  stack : r.stack = []
  error : r.error = true
  fits : Fits r.eater
  buf : r.eater.buf = []
  she : r.shebang ≠ -1

/-- At the end of the input. -/
structure Ended (r : Reader) : Prop where
  stack : r.stack ≠ []
  eof : r.eof = true
  error : r.error = false
  fits : Fits r.eater
  buf : r.eater.buf = []
  she : r.shebang ≠ -1

theorem read_error_ok {r : Reader} (hf : Fits r.eater) (hx : r.shebang ≠ -1) : ∃ r', read_error r = .ok r' ∧ Failed r' := by
  obtain ⟨e, h, _, _, f⟩ := consume_line_ok hf
  refine ⟨{ r with eater := { e with buf := [], back := [] }, stack := [], error := true }, ?_, ⟨rfl, rfl, ⟨?_, Nat.zero_le _, f.buflen⟩, rfl, hx⟩⟩
  · unfold read_error
    rw [h, bind_ok]
  · have := f.back
    show 0 < e.readbuflen
    omega

theorem addTo_fine (o : Val) (stack : List State) (h : stack ≠ []) : (∃ st, addTo stack o = .ok st ∧ st ≠ [] ∧ st.length ≤ stack.length) ∨ ∃ m, addTo stack o = .err m := by
  induction stack generalizing o with
  | nil => exact absurd rfl h
  | cons s rest ih =>
    unfold addTo
    by_cases h2 : s.dotpair_mode = 2
    · rw [if_pos h2]
      exact .inr ⟨_, rfl⟩
    · rw [if_neg h2]
      simp only
      generalize (if s.dotpair_mode = 0 then { s with items := s.items ++ [o] } else { s with tail := o, dotpair_mode := 2 } : State) = s'
      by_cases hq : s'.quote_mode = true
      · rw [if_pos hq]
        cases rest with
        | nil => exact .inr ⟨_, rfl⟩
        | cons x y =>
          simp only
          rcases ih s'.value (by simp) with ⟨st, e, h1, h2⟩ | ⟨m, e⟩
          · exact .inl ⟨st, e, h1, by rw [List.length_cons]; omega⟩
          · exact .inr ⟨m, e⟩
      · rw [if_neg hq]
        exact .inl ⟨_, rfl, by simp, by simp⟩

/-- How a turn of the loop may end. -/
inductive Turn (r : Reader) : Res Unit Reader → Prop
  | goes (r' : Reader) : Inside r' → size (inp r'.eater) < size (inp r.eater) → r'.stack.length + opens (inp r'.eater) ≤ r.stack.length + opens (inp r.eater) → Turn r (.ok r')
  | eof (r' : Reader) : Ended r' → Turn r (.ok r')
  | error (r' : Reader) : Failed r' → Turn r (.ok r')
  | number : Turn r (.panic "undefined: number out of range")
  | array : 31 < r.stack.length + opens (inp r.eater) → Turn r (.panic "undefined: write outside of an array")

theorem settle_fine {r0 r : Reader} {stack : List State} {o : Val} (hs : stack ≠ []) (he : r.eof = false) (hr : r.error = false) (hf : Fits r.eater) (hb : r.eater.buf = []) (hx : r.shebang ≠ -1)
    (h1 : size (inp r.eater) < size (inp r0.eater)) (h2 : stack.length + opens (inp r.eater) ≤ r0.stack.length + opens (inp r0.eater)) : Turn r0 (settle r (addTo stack o)) := by
  rcases addTo_fine o stack hs with ⟨st, e, k1, k2⟩ | ⟨m, e⟩
  · rw [e]
    refine .goes { r with stack := st } ⟨k1, he, hr, hf, hb, hx⟩ h1 ?_
    show st.length + opens (inp r.eater) ≤ _
    omega
  · rw [e]
    obtain ⟨r', h, k⟩ := read_error_ok hf hx
    show Turn r0 (read_error r)
    rw [h]
    exact .error r' k

theorem error_fine {r0 r : Reader} (hf : Fits r.eater) (hx : r.shebang ≠ -1) : Turn r0 (read_error r) := by
  obtain ⟨r', h, k⟩ := read_error_ok hf hx
  rw [h]
  exact .error r' k

theorem addpop_fine {r0 r : Reader} (he : r.eof = false) (hr : r.error = false) (hf : Fits r.eater) (hb : r.eater.buf = []) (hx : r.shebang ≠ -1)
    (h1 : size (inp r.eater) < size (inp r0.eater)) (h2 : r.stack.length + opens (inp r.eater) ≤ r0.stack.length + opens (inp r0.eater)) : Turn r0 (addpop r) := by
  unfold addpop
  split
  · exact error_fine hf hx
  · exact error_fine hf hx
  · next s rest hne e =>
    split
    · exact error_fine hf hx
    · refine settle_fine (fun x => hne x) he hr hf hb hx h1 ?_
      rw [e, List.length_cons] at h2
      omega

theorem push_fine (r : Reader) (h : r.stack.length + 1 ≠ 32) :
    push r = .ok { r with stack := { items := [], tail := nil, quote_mode := false, dotpair_mode := 0, vector_mode := false } :: r.stack } := by
  unfold push
  rw [if_neg h]

/-- The characters are fewer after one is taken, if it is not the zero of `0.`. -/
theorem size_drop {c : Int} {t l : List Int} (hc : c ≠ -1) (h0 : c ≠ 48) (hl : real l ≤ real t) : size l < size (c :: t) := by
  have h1 := size_le l
  have h2 : size (c :: t) = 2 * (real t + 1) := by
    unfold size
    rw [real_cons, if_neg hc, if_neg]
    · rfl
    · intro e
      cases t with
      | nil => simp at e
      | cons d u =>
        simp at e
        exact h0 e.1
  omega

theorem intValue_fine (s : Bytes) : (∃ n, intValue s = .ok n) ∨ intValue s = .panic "undefined: number out of range" := by
  unfold intValue
  generalize sign s = x
  obtain ⟨m, d⟩ := x
  simp only
  generalize (if m = true then -(digitsValue d : Int) else digitsValue d : Int) = v
  by_cases h : -2 ^ 31 ≤ v ∧ v < 2 ^ 31
  · rw [if_pos h]; exact .inl ⟨v, rfl⟩
  · rw [if_neg h]; exact .inr rfl

theorem step_fine (r : Reader) (hr : Inside r) : Turn r (step r) := by
  cases hl : inp r.eater with
  | nil =>
    obtain ⟨e1, g1, i1, b1, f1⟩ := getc_nil hr.fits hl
    unfold step
    rw [g1]
    exact .eof _ ⟨hr.stack, rfl, hr.error, f1, b1.trans hr.buf, hr.she⟩
  | cons c t =>
    obtain ⟨e1, g1, i1, b1, f1⟩ := getc_cons hr.fits hl
    have hb1 : e1.buf = [] := b1.trans hr.buf
    have hop := opens_tail c t
    unfold step
    rw [g1]
    simp only
    by_cases hc : c = -1
    · rw [if_pos hc]
      exact .eof _ ⟨hr.stack, rfl, hr.error, f1, hb1, hr.she⟩
    rw [if_neg hc]
    by_cases h59 : c = 59
    · rw [if_pos h59]
      obtain ⟨e2, a2, i2, b2, f2⟩ := consume_line_ok f1
      rw [a2, bind_ok]
      refine .goes _ ⟨hr.stack, hr.eof, hr.error, f2, b2.trans hb1, hr.she⟩ ?_ ?_
      · show size (inp e2) < _
        rw [i2, i1, hl]
        exact size_drop hc (by omega) (afterLine_count _ (by decide) t)
      · show r.stack.length + opens (inp e2) ≤ _
        rw [i2, i1, hl]
        have := afterLine_count (fun c => c = 40 ∨ c = 91 ∨ c = 39) (by decide) t
        have : opens (afterLine t) ≤ opens t := this
        omega
    rw [if_neg h59]
    by_cases h46 : c = 46
    · rw [if_pos h46]
      subst h46
      unfold readDot
      simp only
      obtain ⟨nc, e2, u, g2, i2, k2, k3, b2, f2⟩ : ∃ nc e2 u, getc e1 = (nc, e2) ∧ inp e2 = u ∧ real (nc :: u) ≤ real t ∧ opens (nc :: u) ≤ opens t ∧ e2.buf = [] ∧ Fits e2 := by
        cases ht : t with
        | nil =>
          obtain ⟨e2, g2, i2, b2, f2⟩ := getc_nil f1 (i1.trans ht)
          exact ⟨-1, e2, [], g2, i2, Nat.le_refl _, Nat.le_refl _, b2.trans hb1, f2⟩
        | cons d u =>
          obtain ⟨e2, g2, i2, b2, f2⟩ := getc_cons f1 (i1.trans ht)
          exact ⟨d, e2, u, g2, i2, Nat.le_refl _, Nat.le_refl _, b2.trans hb1, f2⟩
      rw [g2]
      simp only
      by_cases hs : strchr (cstr " \t\r\n()") nc = true
      · rw [if_pos hs]
        split
        · exact error_fine f2 hr.she
        · split
          · exact error_fine f2 hr.she
          · obtain ⟨s, rest, hst⟩ : ∃ s rest, r.stack = s :: rest := by
              cases h : r.stack with
              | nil => exact absurd h hr.stack
              | cons s rest => exact ⟨s, rest, rfl⟩
            unfold setTop
            simp only
            rw [hst]
            simp only [bind_ok]
            obtain ⟨e3, a3, i3, b3, f3⟩ := putc_ok f2 nc
            rw [a3, bind_ok]
            refine .goes _ ⟨by simp, hr.eof, hr.error, f3, b3.trans b2, hr.she⟩ ?_ ?_
            · show size (inp e3) < _
              rw [i3, i2, hl]
              exact size_drop hc (by decide) k2
            · show (_ :: rest).length + opens (inp e3) ≤ _
              rw [i3, i2, hl, hst]
              simp only [List.length_cons]
              omega
      · rw [if_neg hs]
        obtain ⟨e3, a3, i3, b3, f3⟩ := putc_ok f2 nc
        obtain ⟨e4, a4, i4, b4, f4⟩ := putc_ok f3 46
        obtain ⟨e5, a5, i5, b5, f5⟩ := putc_ok f4 48
        rw [a3, bind_ok, a4, bind_ok, a5, bind_ok]
        refine .goes _ ⟨hr.stack, hr.eof, hr.error, f5, b5.trans (b4.trans (b3.trans b2)), hr.she⟩ ?_ ?_
        · show size (inp e5) < _
          rw [i5, i4, i3, i2, hl]
          have h1 : size (48 :: 46 :: nc :: u) = 2 * (real (nc :: u) + 1 + 1) - 3 := by
            unfold size
            rw [real_cons, real_cons (c := 46), if_neg (by decide), if_neg (by decide), if_pos (by simp)]
          have h2 : size (46 :: t) = 2 * (real t + 1) := by
            unfold size
            rw [real_cons, if_neg (by decide), if_neg (by cases t <;> simp)]
            rfl
          rw [h1, h2]
          omega
        · show r.stack.length + opens (inp e5) ≤ _
          rw [i5, i4, i3, i2, hl]
          rw [opens_cons (c := 48), opens_cons (c := 46), if_neg (by decide), if_neg (by decide)]
          omega
    rw [if_neg h46]
    by_cases hw : c = 10 ∨ c = 32 ∨ c = 9 ∨ c = 13
    · rw [if_pos hw]
      refine .goes _ ⟨hr.stack, hr.eof, hr.error, f1, hb1, hr.she⟩ ?_ ?_
      · show size (inp e1) < _
        rw [i1, hl]
        exact size_drop hc (by omega) (Nat.le_refl _)
      · show r.stack.length + opens (inp e1) ≤ _
        rw [i1, hl]
        omega
    rw [if_neg hw]
    -- a push is possible, or too much is open
    have pushes : c = 40 ∨ c = 91 ∨ c = 39 → 31 < r.stack.length + opens (c :: t) ∨ r.stack.length + 1 ≠ 32 := by
      intro h
      rw [opens_cons, if_pos h]
      omega
    have pushPanic : r.stack.length + 1 = 32 → ∀ e, push { r with eater := e } = .panic "undefined: write outside of an array" := by
      intro h e
      unfold push
      rw [if_pos h]
    by_cases h40 : c = 40
    · rw [if_pos h40]
      by_cases h32 : r.stack.length + 1 = 32
      · rw [pushPanic h32]
        refine .array ?_
        rw [hl]
        rcases pushes (.inl h40) with h | h
        · exact h
        · exact absurd h32 h
      · rw [push_fine { r with eater := e1 } h32]
        refine .goes _ ⟨by simp, hr.eof, hr.error, f1, hb1, hr.she⟩ ?_ ?_
        · show size (inp e1) < _
          rw [i1, hl]
          exact size_drop hc (by omega) (Nat.le_refl _)
        · show r.stack.length + 1 + opens (inp e1) ≤ _
          rw [i1, hl, opens_cons, if_pos (.inl h40)]
          omega
    rw [if_neg h40]
    have closes : c ≠ 48 → Turn r (addpop { r with eater := e1 }) := by
      intro h48
      refine addpop_fine hr.eof hr.error f1 hb1 hr.she ?_ ?_
      · show size (inp e1) < _
        rw [i1, hl]
        exact size_drop hc h48 (Nat.le_refl _)
      · show r.stack.length + opens (inp e1) ≤ _
        rw [i1, hl]
        omega
    by_cases h41 : c = 41
    · rw [if_pos h41]
      split
      · exact error_fine f1 hr.she
      · split
        · exact error_fine f1 hr.she
        · exact closes (by omega)
    rw [if_neg h41]
    by_cases h91 : c = 91
    · rw [if_pos h91]
      by_cases h32 : r.stack.length + 1 = 32
      · rw [pushPanic h32]
        refine .array ?_
        rw [hl]
        rcases pushes (.inr (.inl h91)) with h | h
        · exact h
        · exact absurd h32 h
      · rw [push_fine { r with eater := e1 } h32, bind_ok]
        refine .goes _ ⟨by simp, hr.eof, hr.error, f1, hb1, hr.she⟩ ?_ ?_
        · show size (inp e1) < _
          rw [i1, hl]
          exact size_drop hc (by omega) (Nat.le_refl _)
        · show r.stack.length + 1 + opens (inp e1) ≤ _
          rw [i1, hl, opens_cons, if_pos (.inr (.inl h91))]
          omega
    rw [if_neg h91]
    by_cases h93 : c = 93
    · rw [if_pos h93]
      split
      · exact error_fine f1 hr.she
      · split
        · exact error_fine f1 hr.she
        · exact closes (by omega)
    rw [if_neg h93]
    by_cases h39 : c = 39
    · rw [if_pos h39]
      by_cases h32 : r.stack.length + 1 = 32
      · rw [pushPanic h32]
        refine .array ?_
        rw [hl]
        rcases pushes (.inr (.inr h39)) with h | h
        · exact h
        · exact absurd h32 h
      · rw [push_fine { r with eater := e1 } h32, bind_ok]
        unfold add
        simp only
        rw [addTo_put _ (by show (0 : Nat) ≠ 2; decide) rfl]
        simp only [settle, bind_ok, setTop]
        rw [if_neg (by rw [hr.error]; simp)]
        refine .goes _ ⟨by simp, hr.eof, hr.error, f1, hb1, hr.she⟩ ?_ ?_
        · show size (inp e1) < _
          rw [i1, hl]
          exact size_drop hc (by omega) (Nat.le_refl _)
        · show r.stack.length + 1 + opens (inp e1) ≤ _
          rw [i1, hl, opens_cons, if_pos (.inr (.inr h39))]
          omega
    rw [if_neg h39]
    by_cases h34 : c = 34
    · rw [if_pos h34]
      unfold readStr parse_str
      simp only
      obtain ⟨e2, a2, i2, b2, f2⟩ := buf_read_ok f1 (cstr "\"")
      rw [a2, bind_ok]
      unfold add
      rw [i1] at i2
      have k1 : real (inp e2) ≤ real t := by rw [i2]; exact readTo_count _ _ (by decide) _ _ (Nat.le_refl _)
      have k2 : opens (inp e2) ≤ opens t := by rw [i2]; exact readTo_count _ _ (by decide) _ _ (Nat.le_refl _)
      have f3 := clearBuf_fits f2
      rcases addTo_fine (.str (textOf e2.buf)) r.stack hr.stack with ⟨st, e, j1, j2⟩ | ⟨m, e⟩
      · rw [e]
        simp only [settle, bind_ok]
        obtain ⟨_, q2, q3, _, q5⟩ := getc_eq { e2 with buf := [] }
        refine .goes _ ⟨j1, hr.eof, hr.error, q5 f3, q3, hr.she⟩ ?_ ?_
        · show size (inp (getc { e2 with buf := [] }).2) < _
          rw [hl, q2]
          refine size_drop hc (by omega) (Nat.le_trans ?_ k1)
          exact (List.tail_sublist _).countP_le
        · show st.length + opens (inp (getc { e2 with buf := [] }).2) ≤ _
          rw [hl, q2]
          have : opens (inp { e2 with buf := [] }).tail ≤ opens (inp e2) := (List.tail_sublist _).countP_le
          omega
      · rw [e]
        obtain ⟨r', h, k⟩ := read_error_ok (r := { r with eater := { e2 with buf := [] } }) f3 hr.she
        show Turn r (read_error { r with eater := { e2 with buf := [] } } >>= _)
        rw [h, bind_ok]
        obtain ⟨_, q2, q3, _, q5⟩ := getc_eq r'.eater
        exact .error _ ⟨k.stack, k.error, q5 k.fits, q3.trans k.buf, k.she⟩
    rw [if_neg h34]
    unfold readAtom
    simp only
    obtain ⟨e2, a2, i2, b2, f2⟩ := buf_append_ok f1 c
    obtain ⟨e3, a3, i3, b3, f3⟩ := buf_read_ok f2 (cstr " \t\r\n()[];")
    rw [a2, bind_ok, a3, bind_ok]
    rw [i2, i1] at i3
    have k1 : size (inp e3) < size (inp r.eater) := by
      have hle : real (inp e3) ≤ real t := by rw [i3]; exact readTo_count _ _ (by decide) _ _ (Nat.le_refl _)
      rw [hl]
      by_cases h48 : c = 48
      · by_cases hd : t.head? = some 46
        · obtain ⟨u, rfl⟩ : ∃ u, t = 46 :: u := by
            cases t with
            | nil => cases hd
            | cons d u => simp at hd; exact ⟨u, by rw [hd]⟩
          have hle : real (inp e3) ≤ real u := by
            rw [i3, readTo_cons _ _ _ (by decide), if_neg (by decide)]
            exact readTo_count _ _ (by decide) _ _ (Nat.le_refl _)
          have h1 := size_le (inp e3)
          have h2 : size (c :: 46 :: u) = 2 * (real u + 1 + 1) - 3 := by
            unfold size
            rw [real_cons, real_cons, if_neg hc, if_neg (by decide), h48, if_pos (by simp)]
          omega
        · have h1 := size_le (inp e3)
          have h2 : size (c :: t) = 2 * (real t + 1) := by
            unfold size
            rw [real_cons, if_neg hc, if_neg]
            · rfl
            · intro e
              cases t with
              | nil => simp at e
              | cons d u => simp at e; exact hd (by simp [e.2])
          omega
      · exact size_drop hc h48 hle
    have k2 : opens (inp e3) ≤ opens (c :: t) := by
      have : opens (inp e3) ≤ opens t := by rw [i3]; exact readTo_count _ _ (by decide) _ _ (Nat.le_refl _)
      omega
    have f4 := clearBuf_fits f3
    have fine : ∀ o : Val, Turn r (if ({ r with eater := { e3 with buf := [] } } : Reader).error then .ok { r with eater := { e3 with buf := [] } } else add { r with eater := { e3 with buf := [] } } o) := by
      intro o
      rw [if_neg (by rw [hr.error]; simp)]
      refine settle_fine hr.stack hr.eof hr.error f4 rfl hr.she k1 ?_
      show r.stack.length + opens (inp e3) ≤ _
      rw [hl]
      omega
    unfold parse_atom
    simp only
    split
    · rcases intValue_fine (textOf e3.buf) with ⟨n, h⟩ | h
      · rw [h, bind_ok, bind_ok]
        exact fine _
      · rw [h]
        exact .number
    · split
      · rw [bind_ok]
        exact fine _
      · split
        · rw [bind_ok]
          exact fine _
        · obtain ⟨r', h, k⟩ := read_error_ok (r := { r with eater := e3 }) f3 hr.she
          rw [h, bind_ok, bind_ok]
          simp only
          rw [if_pos k.error]
          exact .error _ k

/-- How the loop may end. -/
inductive Done (n : Nat) : Res Unit Reader → Prop
  | list (r' : Reader) : Inside r' → Done n (.ok r')
  | eof (r' : Reader) : Ended r' → Done n (.ok r')
  | error (r' : Reader) : Failed r' → Done n (.ok r')
  | number : Done n (.panic "undefined: number out of range")
  | array : 31 < n → Done n (.panic "undefined: write outside of an array")

theorem loop_fine : ∀ (k n : Nat) (r : Reader), Inside r → size (inp r.eater) + 2 ≤ k → r.stack.length + opens (inp r.eater) ≤ n → Done n (loop k r) := by
  intro k
  induction k with
  | zero => intro n r _ h; omega
  | succ k ih =>
    intro n r hr hk hn
    rw [loop, if_neg (fun h => hr.stack h.2.2)]
    split
    · have ht := step_fine r hr
      have stops : ∀ r' : Reader, r'.eof = true ∨ r'.error = true → loop k r' = .ok r' := by
        intro r' h
        obtain ⟨k, rfl⟩ : ∃ k', k = k' + 1 := ⟨k - 1, by omega⟩
        rw [loop, if_neg, if_neg]
        · unfold goes
          simp only [decide_eq_true_eq]
          rintro ⟨h1, h2, _⟩
          rcases h with h | h
          · rw [h] at h1; cases h1
          · rw [h] at h2; cases h2
        · rintro ⟨h1, h2, _⟩
          rcases h with h | h
          · rw [h] at h1; cases h1
          · rw [h] at h2; cases h2
      generalize step r = x at ht
      cases ht with
      | goes r' h1 h2 h3 =>
        rw [bind_ok]
        exact ih n r' h1 (by omega) (by omega)
      | eof r' h1 =>
        rw [bind_ok, stops r' (.inl h1.eof)]
        exact .eof r' h1
      | error r' h1 =>
        rw [bind_ok, stops r' (.inr h1.error)]
        exact .error r' h1
      | number => exact .number
      | array h => exact .array (by omega)
    · exact .list r hr

/-- How a call of `read_sexp` may end. -/
inductive Ends (n : Nat) : Res Unit (Reader × Val) → Prop
  | ok (r' : Reader) (v : Val) : Ready r' → r'.shebang ≠ -1 → (r'.error = true → v = .sym (cstr "wisp-error")) → Ends n (.ok (r', v))
  | number : Ends n (.panic "undefined: number out of range")
  | pair : Ends n (.panic "undefined: not a pair")
  | array : 31 < n → Ends n (.panic "undefined: write outside of an array")

theorem finish_fine (n : Nat) (r : Reader) (h : Inside r ∨ Ended r ∨ Failed r) : Ends n (finish r) := by
  have core : ∀ r : Reader, Fits r.eater → r.eater.buf = [] → r.error = false → r.stack ≠ [] → r.shebang ≠ -1 → Ends n (
      if r.error then .ok (r, .sym (cstr "wisp-error"))
      else if r.stack = [] then .panic "undefined: null pointer"
      else if r.stack.length > 1 ∨ (topOf r).quote_mode ∨ (topOf r).dotpair_mode = 1 then do
        let r ← read_error r
        .ok (r, .sym (cstr "wisp-error"))
      else if (topOf r).list = nil then .ok ({ r with stack := r.stack.tail }, nil)
      else
        match (topOf r).list with
        | .cons a _ => .ok ({ r with stack := r.stack.tail }, a)
        | _ => .panic "undefined: not a pair") := by
    intro r hf hb he hs hx
    rw [if_neg (by rw [he]; simp), if_neg hs]
    split
    · obtain ⟨r', h, k⟩ := read_error_ok hf hx
      rw [h, bind_ok]
      exact .ok _ _ ⟨k.stack, k.fits, k.buf⟩ k.she (fun _ => rfl)
    · next hn =>
      have ht : r.stack.tail = [] := by
        cases h : r.stack with
        | nil => rfl
        | cons a b =>
          cases b with
          | nil => rfl
          | cons c d => exact absurd (Or.inl (by rw [h]; simp)) hn
      split
      · exact .ok _ _ ⟨ht, hf, hb⟩ hx (fun h => absurd (he.symm.trans h) (by simp))
      · split
        · exact .ok _ _ ⟨ht, hf, hb⟩ hx (fun h => absurd (he.symm.trans h) (by simp))
        · exact .pair
  unfold finish
  rcases h with h | h | h
  · rw [if_pos ⟨h.eof, h.error⟩]
    obtain ⟨e, a, _, b, f⟩ := consume_whitespace_ok h.fits
    rw [a, bind_ok, bind_ok]
    exact core _ f (b.trans h.buf) h.error h.stack h.she
  · rw [if_neg (by rw [h.eof]; simp), bind_ok]
    exact core r h.fits h.buf h.error h.stack h.she
  · rw [if_neg (by rw [h.error]; simp), bind_ok]
    simp only
    rw [if_pos h.error]
    exact .ok _ _ ⟨h.stack, h.fits, h.buf⟩ h.she (fun _ => rfl)

theorem size_lt_left (e : Eater) : size (inp e) + 2 ≤ 2 * e.left := by
  have h1 := size_le (inp e)
  have h2 : real (inp e) ≤ (inp e).length := List.countP_le_length
  have := left_eq e
  omega

theorem read_fine_after (r : Reader) (hr : Ready r) (hb : r.shebang ≠ -1) : Ends (1 + opens (inp r.eater)) (read_sexp r) := by
  rw [read_eq r hb hr.stack]
  by_cases he : r.eof = false
  · have h := loop_fine (2 * r.eater.left) (1 + opens (inp r.eater)) { r with error := false, stack := [fresh] } ⟨by simp, he, rfl, hr.fits, hr.buf, hb⟩ (size_lt_left _) (Nat.le_refl _)
    generalize loop (2 * r.eater.left) { r with error := false, stack := [fresh] } = x at h
    cases h with
    | list r' h1 => exact finish_fine _ r' (.inl h1)
    | eof r' h1 => exact finish_fine _ r' (.inr (.inl h1))
    | error r' h1 => exact finish_fine _ r' (.inr (.inr h1))
    | number => exact .number
    | array h => exact .array h
  · have he : r.eof = true := by cases h : r.eof <;> simp_all
    obtain ⟨k, hk⟩ : ∃ k, 2 * r.eater.left = k + 1 := ⟨2 * r.eater.left - 1, by have := size_lt_left r.eater; omega⟩
    rw [hk, loop, if_neg (by simp), if_neg (by unfold goes; simp [he]), bind_ok]
    exact finish_fine _ _ (.inr (.inl ⟨by simp, he, rfl, hr.fits, hr.buf, hb⟩))

theorem opens_char {c : Int} (h : -128 ≤ c ∧ c ≤ 255) (l : List Int) : opens (toChar (toByte c) :: l) = opens (c :: l) := by
  have hb : (toByte c).toNat = (c % 256).toNat := by
    unfold toByte
    rw [UInt8.toNat_ofNat']
    omega
  have key : (toChar (toByte c) = 40 ↔ c = 40) ∧ (toChar (toByte c) = 91 ↔ c = 91) ∧ (toChar (toByte c) = 39 ↔ c = 39) := by
    unfold toChar
    split
    · next h1 => rw [UInt8.lt_iff_toNat_lt, hb, show (128 : UInt8).toNat = 128 from rfl] at h1; omega
    · next h1 => rw [UInt8.lt_iff_toNat_lt, hb, show (128 : UInt8).toNat = 128 from rfl] at h1; omega
  rw [opens_cons, opens_cons]
  simp only [key.1, key.2.1, key.2.2]

theorem inp_range (e : Eater) (h : e.back = []) : ∀ c ∈ inp e, -128 ≤ c ∧ c ≤ 255 := by
  intro c hc
  unfold inp at hc
  rw [h, List.nil_append] at hc
  split at hc
  · obtain ⟨b, _, rfl⟩ := List.mem_map.mp hc
    have := toChar_range b
    omega
  · obtain ⟨b, _, rfl⟩ := List.mem_map.mp hc
    have := b.toNat_lt
    omega

theorem shebang_fine {r : Reader} (hr : Ready r) (hback : r.shebang = -1 → r.eater.back = []) :
    ∃ r1, shebang r = .ok r1 ∧ Ready r1 ∧ (r1.shebang ≠ -1) ∧ opens (inp r1.eater) ≤ opens (inp r.eater) := by
  by_cases hb : r.shebang = -1
  · have hrange := inp_range r.eater (hback hb)
    unfold shebang
    rw [if_pos hb]
    obtain ⟨c1, i1, b1, _, g1⟩ := getc_eq r.eater
    have f1 := g1 hr.fits
    generalize getc r.eater = x at *
    obtain ⟨c0, e1⟩ := x
    obtain ⟨c2, i2, b2, _, g2⟩ := getc_eq e1
    have f2 := g2 f1
    simp only at c1 i1 b1 ⊢
    generalize getc e1 = y at *
    obtain ⟨c1', e2⟩ := y
    simp only at c2 i2 b2 f2 ⊢
    have tail_le : ∀ l : List Int, opens l.tail ≤ opens l := fun l => (List.tail_sublist _).countP_le
    split
    · obtain ⟨e3, a3, i3, b3, f3⟩ := consume_line_ok f2
      rw [a3, bind_ok]
      refine ⟨_, rfl, ⟨hr.stack, f3, b3.trans (b2.trans (b1.trans hr.buf))⟩, by simp, ?_⟩
      show opens (inp e3) ≤ _
      rw [i3, i2, i1]
      exact Nat.le_trans (afterLine_count _ (by decide) _) (Nat.le_trans (tail_le _) (tail_le _))
    · obtain ⟨e3, a3, i3, b3, f3⟩ := putc_ok f2 (toChar (toByte c1'))
      obtain ⟨e4, a4, i4, b4, f4⟩ := putc_ok f3 (toChar (toByte c0))
      rw [a3, bind_ok, a4, bind_ok]
      refine ⟨_, rfl, ⟨hr.stack, f4, b4.trans (b3.trans (b2.trans (b1.trans hr.buf)))⟩, by simp, ?_⟩
      show opens (inp e4) ≤ _
      rw [i4, i3, i2]
      rw [i1] at c2 ⊢
      generalize inp r.eater = l at *
      match l with
      | [] => subst c1 c2; decide
      | [a] =>
        have ha := hrange a (by simp)
        simp only [List.headD_cons, List.tail_cons, List.headD_nil, List.tail_nil] at c1 c2 ⊢
        subst c1 c2
        rw [opens_char ha, opens_cons, opens_cons (c := c0)]
        exact Nat.add_le_add_right (by decide) _
      | a :: b :: t =>
        have ha := hrange a (by simp)
        have hb := hrange b (by simp)
        simp only [List.headD_cons, List.tail_cons] at c1 c2 ⊢
        subst c1 c2
        rw [opens_char ha, opens_cons, opens_char hb, opens_cons (c := c0)]
        exact Nat.le_refl _
  · exact ⟨r, by unfold shebang; rw [if_neg hb], hr, hb, Nat.le_refl _⟩

theorem read_shebang {r r1 : Reader} (h : shebang r = .ok r1) (hb : r1.shebang ≠ -1) : read_sexp r = read_sexp r1 := by
  unfold read_sexp
  rw [h]
  have : shebang r1 = .ok r1 := by unfold shebang; rw [if_neg hb]
  rw [this]

theorem Ends.mono {n m : Nat} (h : n ≤ m) {x : Res Unit (Reader × Val)} (k : Ends n x) : Ends m x := by
  cases k with
  | ok r' v a b c => exact .ok r' v a b c
  | number => exact .number
  | pair => exact .pair
  | array g => exact .array (Nat.lt_of_lt_of_le g h)

theorem read_fine (r : Reader) (hr : Ready r) (hback : r.shebang = -1 → r.eater.back = []) : Ends (1 + opens (inp r.eater)) (read_sexp r) := by
  obtain ⟨r1, h1, h2, h3, h4⟩ := shebang_fine hr hback
  rw [read_shebang h1 h3]
  exact (read_fine_after r1 h2 h3).mono (by omega)

theorem create_ready (src : Src) (interactive : Bool) : Ready (reader_create src interactive) ∧ (reader_create src interactive).eater.back = [] := by
  refine ⟨⟨rfl, ?_, rfl⟩, rfl⟩
  exact init_fits src

end Che.Prog.Wisp
