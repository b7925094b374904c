import Verif.Proofs.Prog.WispEater

/-!
What `obj_print` of `prog/wisp` prints is read back by its reader.
-/
namespace Che.Prog.Wisp
open Che Che.Lib Che.Spec.Wisp

private theorem bind_ok {ε α β : Type} (a : α) (f : α → Res ε β) : ((Res.ok a : Res ε α) >>= f) = f a := rfl

/-! ### Numbers -/

def digitsOf (n : Nat) : Bytes := (Nat.toDigits 10 n).map fun c => UInt8.ofNat c.toNat

theorem digitsOf_spec (n : Nat) : digitsOf n ≠ [] ∧ (∀ b ∈ digitsOf n, isDigit b = true) ∧ digitsValue (digitsOf n) = n := by
  induction n using Nat.strongRecOn with
  | ind n ih =>
    have hd : ∀ m, m < 10 → UInt8.ofNat (Nat.digitChar m).toNat = UInt8.ofNat (48 + m) ∧ isDigit (UInt8.ofNat (48 + m)) = true ∧ (UInt8.ofNat (48 + m)).toNat - 48 = m := by decide
    unfold digitsOf
    rw [Nat.toDigits_eq_if (by omega)]
    split
    · next h =>
      obtain ⟨h1, h2, h3⟩ := hd n h
      refine ⟨by simp, ?_, ?_⟩
      · intro b hb
        rw [List.map_cons, List.map_nil, List.mem_singleton, h1] at hb
        rw [hb]
        exact h2
      · simp only [List.map_cons, List.map_nil, h1, digitsValue, List.foldl_cons, List.foldl_nil, h3]
        omega
    · next h =>
      obtain ⟨h1, h2, h3⟩ := hd (n % 10) (Nat.mod_lt _ (by omega))
      obtain ⟨i1, i2, i3⟩ := ih (n / 10) (by omega)
      unfold digitsOf at i1 i2 i3
      rw [List.map_append]
      refine ⟨by simp, ?_, ?_⟩
      · intro b hb
        rcases List.mem_append.mp hb with hb | hb
        · exact i2 b hb
        · rw [List.map_cons, List.map_nil, List.mem_singleton, h1] at hb
          rw [hb]
          exact h2
      · unfold digitsValue at i3 ⊢
        rw [List.foldl_append, i3]
        simp only [List.map_cons, List.map_nil, h1, List.foldl_cons, List.foldl_nil, h3]
        omega

theorem digit_facts : ∀ b : UInt8, isDigit b = true → isSpace b = false ∧ b ≠ 45 ∧ b ≠ 43 ∧ b ∈ atom_chars ∧ b ≠ 92 ∧ b ≠ 46 := by
  intro b
  have : ∀ n : Fin 256, isDigit (UInt8.ofNat n) = true → isSpace (UInt8.ofNat n) = false ∧ UInt8.ofNat n ≠ 45 ∧ UInt8.ofNat n ≠ 43 ∧ UInt8.ofNat n ∈ atom_chars ∧ UInt8.ofNat n ≠ 92 ∧ UInt8.ofNat n ≠ 46 := by
    decide +kernel
  have h := this ⟨b.toNat, b.toNat_lt⟩
  simpa using h

theorem sign_digits {d : Bytes} (h0 : d ≠ []) (hd : ∀ b ∈ d, isDigit b = true) : sign d = (false, d) ∧ sign (45 :: d) = (true, d) := by
  cases d with
  | nil => exact absurd rfl h0
  | cons b d =>
    obtain ⟨h1, h2, h3, _⟩ := digit_facts b (hd b (by simp))
    constructor
    · unfold sign
      rw [List.dropWhile_cons_of_neg (by simp [h1])]
      split
      · rename_i e; injection e with e; exact absurd e h2
      · rename_i e; injection e with e; exact absurd e h3
      · rfl
    · unfold sign
      rw [List.dropWhile_cons_of_neg (by decide)]
      rfl

theorem sign_decimal (n : Int) : sign (decimal n) = (decide (n < 0), digitsOf n.natAbs) := by
  obtain ⟨h0, hd, _⟩ := digitsOf_spec n.natAbs
  obtain ⟨h1, h2⟩ := sign_digits h0 hd
  unfold decimal
  by_cases h : n < 0
  · rw [if_pos h]
    simp only [h, decide_true]
    exact h2
  · rw [if_neg h]
    simp only [h, decide_false]
    exact h1

theorem intText_decimal (n : Int) : intText (decimal n) = true := by
  obtain ⟨h0, hd, _⟩ := digitsOf_spec n.natAbs
  unfold intText
  rw [sign_decimal]
  simp only [decide_eq_true_eq]
  exact ⟨h0, List.all_eq_true.mpr hd⟩

theorem intValue_decimal (n : Int) (h1 : -2 ^ 31 ≤ n) (h2 : n < 2 ^ 31) : intValue (decimal n) = .ok n := by
  obtain ⟨_, _, hv⟩ := digitsOf_spec n.natAbs
  unfold intValue
  rw [sign_decimal]
  simp only [hv, decide_eq_true_eq]
  by_cases h : n < 0
  · have : (-(n.natAbs : Int)) = n := by omega
    rw [if_pos h, this, if_pos ⟨h1, h2⟩]
  · have : ((n.natAbs : Int)) = n := by omega
    rw [if_neg h, this, if_pos ⟨h1, h2⟩]

theorem decimal_chars (n : Int) : decimal n ≠ [] ∧ (∀ b ∈ decimal n, b ∈ atom_chars ∧ b ≠ 92) ∧ (decimal n).head? ≠ some 46 := by
  obtain ⟨h0, hd, _⟩ := digitsOf_spec n.natAbs
  have hc : ∀ b ∈ digitsOf n.natAbs, b ∈ atom_chars ∧ b ≠ 92 := fun b hb => ⟨(digit_facts b (hd b hb)).2.2.2.1, (digit_facts b (hd b hb)).2.2.2.2.1⟩
  unfold decimal
  by_cases h : n < 0
  · rw [if_pos h]
    refine ⟨by simp, ?_, by simp⟩
    intro b hb
    rcases List.mem_cons.mp hb with rfl | hb
    · decide +kernel
    · exact hc b hb
  · rw [if_neg h]
    refine ⟨h0, hc, ?_⟩
    show (digitsOf n.natAbs).head? ≠ some 46
    cases e : digitsOf n.natAbs with
    | nil => simp
    | cons b d =>
      have := (digit_facts b (hd b (by rw [e]; simp))).2.2.2.2.2
      simpa using this

/-! ### Steps -/

/-- `n` turns of the loop. -/
def Runs (r r' : Reader) (n : Nat) : Prop := ∀ k, loop (k + n) r = loop k r'

theorem Runs.trans {a b c : Reader} {n m : Nat} (h1 : Runs a b n) (h2 : Runs b c m) : Runs a c (n + m) := by
  intro k
  rw [show k + (n + m) = (k + m) + n by omega, h1, h2]

theorem Runs.refl (a : Reader) : Runs a a 0 := fun _ => rfl

/-- The loop goes on from here, with a list that can take a value. -/
structure Open (r : Reader) (s : State) (tl : List State) : Prop where
  stack : r.stack = s :: tl
  eof : r.eof = false
  error : r.error = false
  more : s.list = nil ∨ tl ≠ []
  fits : Fits r.eater
  buf : r.eater.buf = []

theorem Open.goes {r : Reader} {s : State} {tl : List State} (h : Open r s tl) : goes r = true := by
  unfold Wisp.goes topOf
  rw [h.stack, h.eof, h.error]
  simp only [decide_eq_true_eq]
  refine ⟨trivial, trivial, ?_⟩
  rcases h.more with h | h
  · exact .inl h
  · right
    cases tl with
    | nil => exact absurd rfl h
    | cons _ _ => simp

theorem Open.run {r r' : Reader} {s : State} {tl : List State} (h : Open r s tl) (hs : step r = .ok r') : Runs r r' 1 := by
  intro k
  show loop (k + 1) r = _
  rw [loop, if_neg (by rw [h.stack]; simp), if_pos h.goes, hs]
  rfl

/-- A value at the end of a list. -/
def State.put (s : State) (v : Val) : State := if s.dotpair_mode = 0 then { s with items := s.items ++ [v] } else { s with tail := v, dotpair_mode := 2 }

theorem addTo_put {s : State} {tl : List State} (v : Val) (hd : s.dotpair_mode ≠ 2) (hq : s.quote_mode = false) : addTo (s :: tl) v = .ok (s.put v :: tl) := by
  unfold addTo
  rw [if_neg hd]
  unfold State.put
  by_cases h : s.dotpair_mode = 0
  · simp [h, hq]
  · simp [h, hq]

theorem put_quote (s : State) (v : Val) : (s.put v).quote_mode = s.quote_mode ∧ (s.put v).vector_mode = s.vector_mode := by
  unfold State.put
  split <;> exact ⟨rfl, rfl⟩

/-- The same characters; `EOF` may have been put back. -/
def Same (rest l : List Int) : Prop := l = rest ∨ (rest = [] ∧ l = [-1])

theorem readTo_atom (t : Bytes) : ∀ (cs rest : List Int), (∀ b ∈ t, b ∈ atom_chars ∧ b ≠ 92) → Spells cs t → Delim rest →
    ∃ rest', readTo (cstr " \t\r\n()[];") (cs ++ rest) = (t, rest') ∧ Same rest rest' := by
  have hn : ∀ b ∈ atom_chars, b ≠ 0 ∧ b ∉ cstr " \t\r\n()[];" := by decide +kernel
  induction t with
  | nil =>
    intro cs rest _ h hd
    rw [spells_nil h]
    rcases hd with rfl | ⟨h, t, rfl, hh⟩
    · exact ⟨[-1], rfl, .inr ⟨rfl, rfl⟩⟩
    · refine ⟨h :: t, ?_, .inl rfl⟩
      have h92 : h ≠ 92 := by
        rintro rfl
        rcases hh with hh | hh
        · cases hh
        · exact absurd hh (by decide)
      show readTo _ (h :: t) = _
      rw [readTo_cons _ _ _ h92, if_pos hh.symm]
  | cons b t ih =>
    intro cs rest hc h hd
    obtain ⟨c, u, rfl, hb, h1, _, _, h⟩ := spells_cons h
    obtain ⟨rest', e, hr⟩ := ih u rest (fun x hx => hc x (by simp [hx])) h hd
    obtain ⟨k1, k2⟩ := hc b (by simp)
    obtain ⟨k3, k4⟩ := hn b k1
    refine ⟨rest', ?_, hr⟩
    show readTo _ (c :: (u ++ rest)) = _
    rw [readTo_cons _ _ _ (fun x => k2 (by rw [← hb, x]; rfl)), if_neg, e, hb]
    rintro (x | x)
    · have x' : toByte c = 0 ∨ toByte c ∈ cstr " \t\r\n()[];" := by simpa [strchr] using x
      rw [hb] at x'
      exact x'.elim k3 k4
    · exact h1 x

theorem textOf_eq {t : Bytes} (h : (0 : UInt8) ∉ t) : textOf t = t := by
  unfold textOf
  have : (t ++ []).takeWhile (· ≠ 0) = t ++ [] := by
    rw [List.takeWhile_append_of_pos (by intro b hb; simp; rintro rfl; exact h hb)]
    rfl
  simpa using this

theorem textOf_zero {t : Bytes} (h : (0 : UInt8) ∉ t) : textOf (t ++ [0]) = t := by
  unfold textOf
  rw [List.takeWhile_append_of_pos (by intro b hb; simp; rintro rfl; exact h hb)]
  simp

/-- The code of a first character that is part of an atom. -/
theorem atom_first {b : UInt8} (h : b ∈ atom_chars) (hp : b ≠ 46) : b.toNat < 128 ∧
    ¬ ((b.toNat : Int) = -1) ∧ ¬ ((b.toNat : Int) = 59) ∧ ¬ ((b.toNat : Int) = 46) ∧ ¬ ((b.toNat : Int) = 10 ∨ (b.toNat : Int) = 32 ∨ (b.toNat : Int) = 9 ∨ (b.toNat : Int) = 13) ∧
    ¬ ((b.toNat : Int) = 40) ∧ ¬ ((b.toNat : Int) = 41) ∧ ¬ ((b.toNat : Int) = 91) ∧ ¬ ((b.toNat : Int) = 93) ∧ ¬ ((b.toNat : Int) = 39) ∧ ¬ ((b.toNat : Int) = 34) := by
  have : ∀ b ∈ atom_chars, b ≠ 46 → b.toNat < 128 ∧
    ¬ ((b.toNat : Int) = -1) ∧ ¬ ((b.toNat : Int) = 59) ∧ ¬ ((b.toNat : Int) = 46) ∧ ¬ ((b.toNat : Int) = 10 ∨ (b.toNat : Int) = 32 ∨ (b.toNat : Int) = 9 ∨ (b.toNat : Int) = 13) ∧
    ¬ ((b.toNat : Int) = 40) ∧ ¬ ((b.toNat : Int) = 41) ∧ ¬ ((b.toNat : Int) = 91) ∧ ¬ ((b.toNat : Int) = 93) ∧ ¬ ((b.toNat : Int) = 39) ∧ ¬ ((b.toNat : Int) = 34) := by
    decide +kernel
  exact this b h hp

/-- What the turns of the loop over the text of a value do. -/
def Takes (stk : List State) (r : Reader) (cs rest : List Int) : Prop :=
  ∃ n e', n ≤ cs.length ∧ Runs r { r with eater := e', stack := stk } n ∧ Fits e' ∧ e'.buf = [] ∧ Same rest (inp e')

theorem takes_atom {v : Val} {t : Bytes} (h0 : t ≠ []) (hc : ∀ b ∈ t, b ∈ atom_chars ∧ b ≠ 92) (hp : t.head? ≠ some 46)
    (hv : ∀ r : Reader, r.eater.buf = t → parse_atom r = .ok ({ r with eater := { r.eater with buf := [] } }, v))
    {r : Reader} {s : State} {tl : List State} (ho : Open r s tl) {stk : List State} (ha : addTo (s :: tl) v = .ok stk)
    {cs rest : List Int} (hi : inp r.eater = cs ++ rest) (hs : Spells cs t) (hr : Delim rest) : Takes stk r cs rest := by
  cases t with
  | nil => exact absurd rfl h0
  | cons b t =>
    obtain ⟨k1, k2⟩ := hc b (by simp)
    obtain ⟨hb, n1, n2, n3, n4, n5, n6, n7, n8, n9, n10⟩ := atom_first k1 (fun e => hp (by simp [e]))
    obtain ⟨cs', rfl, hs'⟩ := spells_lit hs hb
    obtain ⟨e1, g1, i1, b1, f1⟩ := getc_cons ho.fits hi
    obtain ⟨e2, a2, i2, b2, f2⟩ := buf_append_ok f1 (b.toNat : Int)
    obtain ⟨e3, a3, i3, b3, f3⟩ := buf_read_ok f2 (cstr " \t\r\n()[];")
    obtain ⟨rest', hrt, hsame⟩ := readTo_atom t cs' rest (fun x hx => hc x (by simp [hx])) hs' hr
    have hbb : toByte (b.toNat : Int) = b := by
      have h := toByte_toNat (b.toNat : Int)
      have := b.toNat_lt
      exact UInt8.toNat_inj.mp (by omega)
    have hin : inp e2 = cs' ++ rest := by rw [i2, i1]; simp
    rw [hin, hrt] at i3 b3
    rw [b2, b1, ho.buf, hbb] at b3
    refine ⟨1, { e3 with buf := [] }, by simp, ho.run ?_, clearBuf_fits f3, rfl, ?_⟩
    · unfold step
      rw [g1]
      simp only
      rw [if_neg n1, if_neg n2, if_neg n3, if_neg n4, if_neg n5, if_neg n6, if_neg n7, if_neg n8, if_neg n9, if_neg n10]
      unfold readAtom
      simp only
      rw [a2, bind_ok, a3, bind_ok, hv _ b3, bind_ok]
      simp only
      rw [if_neg (by rw [ho.error]; simp)]
      unfold add
      simp only
      rw [ho.stack, ha]
      rfl
    · have : inp { e3 with buf := [] } = inp e3 := rfl
      rw [this, i3]
      exact hsame

theorem takes_str {raw : Bytes} (hz : (0 : UInt8) ∉ raw)
    {r : Reader} {s : State} {tl : List State} (ho : Open r s tl) {stk : List State} (ha : addTo (s :: tl) (.str raw) = .ok stk)
    {cs rest : List Int} (hi : inp r.eater = cs ++ rest) (hs : Spells cs (quoted raw)) : Takes stk r cs rest := by
  unfold quoted at hs
  obtain ⟨cs', rfl, hs'⟩ := spells_lit hs (by decide)
  obtain ⟨x, y, rfl, hx, hy⟩ := spells_append hs'
  obtain ⟨z, rfl, hz'⟩ := spells_lit hy (by decide)
  rw [spells_nil hz'] at *
  have hi' : inp r.eater = 34 :: (x ++ 34 :: rest) := by rw [hi]; simp
  obtain ⟨e1, g1, i1, b1, f1⟩ := getc_cons ho.fits hi'
  obtain ⟨e2, a2, i2, b2, f2⟩ := buf_read_ok f1 (cstr "\"")
  rw [i1, readTo_quoted raw x rest hz hx] at i2 b2
  rw [b1, ho.buf] at b2
  have f3 := clearBuf_fits f2
  have i3 : inp { e2 with buf := [] } = 34 :: rest := i2
  obtain ⟨e3, g3, i3', b3, f3'⟩ := getc_cons f3 i3
  refine ⟨1, e3, by simp, ho.run ?_, f3', b3, .inl i3'⟩
  unfold step
  rw [g1]
  simp only
  rw [if_neg (by decide), if_neg (by decide), if_neg (by decide), if_neg (by decide), if_neg (by decide), if_neg (by decide), if_neg (by decide), if_neg (by decide), if_neg (by decide), if_pos trivial]
  unfold readStr parse_str
  simp only
  rw [a2, bind_ok, b2]
  rw [show ([] : Bytes) ++ raw = raw from rfl, textOf_eq hz]
  unfold add
  rw [ho.stack, ha]
  simp only [settle, bind_ok]
  rw [g3]

/-! ### Lists and vectors -/

theorem run_space {r : Reader} {s : State} {tl : List State} (ho : Open r s tl) {t : List Int} (hi : inp r.eater = 32 :: t) :
    ∃ e', Runs r { r with eater := e' } 1 ∧ Open { r with eater := e' } s tl ∧ inp e' = t := by
  obtain ⟨e1, g1, i1, b1, f1⟩ := getc_cons ho.fits hi
  refine ⟨e1, ho.run ?_, ⟨ho.stack, ho.eof, ho.error, ho.more, f1, b1.trans ho.buf⟩, i1⟩
  unfold step
  rw [g1]
  rfl

theorem run_dot {r : Reader} {s : State} {tl : List State} (ho : Open r s tl) (htl : tl ≠ []) (hd : s.dotpair_mode = 0) (hv : s.vector_mode = false) {t : List Int} (hi : inp r.eater = 46 :: 32 :: t) :
    ∃ e', Runs r { r with eater := e', stack := { s with dotpair_mode := 1 } :: tl } 1 ∧ Open { r with eater := e', stack := { s with dotpair_mode := 1 } :: tl } { s with dotpair_mode := 1 } tl ∧
      inp e' = 32 :: t := by
  obtain ⟨e1, g1, i1, b1, f1⟩ := getc_cons ho.fits hi
  obtain ⟨e2, g2, i2, b2, f2⟩ := getc_cons f1 i1
  obtain ⟨e3, g3, i3, b3, f3⟩ := putc_ok f2 32
  refine ⟨e3, ho.run ?_, ⟨rfl, ho.eof, ho.error, .inr htl, f3, (b3.trans b2).trans (b1.trans ho.buf)⟩, by rw [i3, i2]⟩
  unfold step
  rw [g1]
  simp only
  rw [if_neg (by decide), if_neg (by decide), if_pos trivial]
  unfold readDot
  simp only
  rw [g2]
  simp only
  rw [if_pos (by decide)]
  have ht : ∀ e : Eater, topOf { r with eater := e } = s := by
    intro e
    unfold topOf
    simp only
    rw [ho.stack]
  rw [ht, if_neg (by omega), if_neg (by rw [hv]; simp)]
  unfold setTop
  simp only
  rw [ho.stack]
  simp only [bind_ok]
  rw [g3, bind_ok]

def T1 (v : Val) : Prop := readable v → ∀ (r : Reader) (s : State) (tl stk : List State) (cs rest : List Int), Open r s tl → addTo (s :: tl) v = .ok stk →
  r.stack.length + depth v ≤ 31 → inp r.eater = cs ++ rest → Spells cs (print v) → (isAtom v = true → Delim rest) → Takes stk r cs rest

def T2 (d : Val) : Prop := readable d → ∀ (r : Reader) (s : State) (tl : List State) (cs rest : List Int), Open r s tl → tl ≠ [] → s.dotpair_mode = 0 → s.tail = nil → s.quote_mode = false → s.vector_mode = false →
  r.stack.length + inner d ≤ 31 → inp r.eater = cs ++ 41 :: rest → Spells cs (printTail d) →
  ∃ n e' s', n ≤ cs.length ∧ Runs r { r with eater := e', stack := s' :: tl } n ∧ Fits e' ∧ e'.buf = [] ∧ inp e' = 41 :: rest ∧ s'.list = s.items.foldr .cons d ∧ s'.dotpair_mode ≠ 1 ∧
    s'.quote_mode = false ∧ s'.vector_mode = false

def T3 (p : Val) : Prop := proper p → readable p → ∀ (first : Bool) (r : Reader) (s : State) (tl : List State) (cs rest : List Int), Open r s tl → tl ≠ [] → s.dotpair_mode = 0 → s.tail = nil → s.quote_mode = false →
  s.vector_mode = true → r.stack.length + inner p ≤ 31 → inp r.eater = cs ++ 93 :: rest → Spells cs (printItems first p) →
  ∃ n e' s', n ≤ cs.length ∧ Runs r { r with eater := e', stack := s' :: tl } n ∧ Fits e' ∧ e'.buf = [] ∧ inp e' = 93 :: rest ∧ s'.list = s.items.foldr .cons p ∧ s'.dotpair_mode ≠ 1 ∧
    s'.quote_mode = false ∧ s'.vector_mode = true

theorem same_cons {h : Int} {t l : List Int} (hs : Same (h :: t) l) : l = h :: t := by
  rcases hs with e | ⟨e, _⟩
  · exact e
  · cases e

theorem foldr_put (items : List Val) (a d : Val) : (items ++ [a]).foldr Val.cons d = items.foldr .cons (.cons a d) := by
  rw [List.foldr_append]
  rfl

theorem put_items {s : State} (h : s.dotpair_mode = 0) (v : Val) : s.put v = { s with items := s.items ++ [v] } := by
  unfold State.put
  rw [if_pos h]

/-- What is not a list after a point. -/
theorem tail_of_value {d : Val} (h1 : T1 d) (hp : printTail d = [32, 46, 32] ++ print d) (hi : depth d ≤ inner d) : T2 d := by
  intro hr r s tl cs rest ho htl hd ht hq hv hl hin hs
  rw [hp] at hs
  obtain ⟨cs1, rfl, hs1⟩ := spells_lit hs (by decide)
  obtain ⟨cs2, rfl, hs2⟩ := spells_lit hs1 (by decide)
  obtain ⟨cs3, rfl, hs3⟩ := spells_lit hs2 (by decide)
  have hs : Spells cs3 (print d) := hs3
  obtain ⟨e1, n1, o1, i1⟩ := run_space ho hin
  obtain ⟨e2, n2, o2, i2⟩ := run_dot o1 htl hd hv i1
  obtain ⟨e3, n3, o3, i3⟩ := run_space o2 i2
  obtain ⟨n, e4, hn, n4, f4, b4, i4⟩ := h1 hr _ _ tl _ cs3 (41 :: rest) o3 (addTo_put d (by show (1 : Nat) ≠ 2; decide) hq) (by
    have : r.stack.length = tl.length + 1 := by rw [ho.stack]; rfl
    show tl.length + 1 + depth d ≤ 31
    omega) i3 hs (fun _ => .inr ⟨41, rest, rfl, .inr (by decide)⟩)
  refine ⟨1 + 1 + 1 + n, e4, { s with tail := d, dotpair_mode := 2 }, by simp; omega, (((n1.trans n2).trans n3).trans ?_), f4, b4, same_cons i4, rfl, by show (2 : Nat) ≠ 1; decide, hq, hv⟩
  exact n4

theorem takes_all (v : Val) : T1 v ∧ T2 v ∧ T3 v := by
  have atom : ∀ v : Val, T1 v → printTail v = [32, 46, 32] ++ print v → depth v ≤ inner v → (¬ proper v) → T1 v ∧ T2 v ∧ T3 v :=
    fun v h1 hp hd hn => ⟨h1, tail_of_value h1 hp hd, fun h => absurd h hn⟩
  induction v with
  | int n =>
    refine atom _ ?_ rfl (Nat.le_refl _) (by intro h; cases h)
    intro hr r s tl stk cs rest ho ha _ hin hs hdl
    obtain ⟨h0, hc, hp⟩ := decimal_chars n
    refine takes_atom h0 hc hp ?_ ho ha hin hs (hdl rfl)
    intro r hb
    have hz : (0 : UInt8) ∉ decimal n := fun h => absurd (hc 0 h).1 (by decide +kernel)
    unfold parse_atom
    simp only
    rw [hb, textOf_eq hz, if_pos (intText_decimal n), intValue_decimal n hr.1 hr.2]
    rfl
  | float t =>
    refine atom _ ?_ rfl (Nat.le_refl _) (by intro h; cases h)
    intro hr
    exact absurd hr (fun h => h)
  | str raw =>
    refine atom _ ?_ rfl (Nat.le_refl _) (by intro h; cases h)
    intro hr r s tl stk cs rest ho ha _ hin hs _
    have hr : (0 : UInt8) ∉ raw := hr
    have hp : print (.str raw) = quoted raw := by
      show printStr raw = _
      unfold printStr
      rw [textOf_eq hr, addslashes_eq raw hr]
      simp only
      refine textOf_zero ?_
      unfold quoted
      intro h
      rcases List.mem_append.mp h with h | h
      · rcases List.mem_cons.mp h with h | h
        · cases h
        · exact escape_zero hr h
      · rw [List.mem_singleton] at h; cases h
    rw [hp] at hs
    exact takes_str hr ho ha hin hs
  | sym name =>
    have h1 : T1 (.sym name) := by
      intro hr r s tl stk cs rest ho ha _ hin hs hdl
      obtain ⟨h0, hc, hp, hni, hnf⟩ : goodName name := hr
      refine takes_atom h0 hc hp ?_ ho ha hin hs (hdl rfl)
      intro r hb
      have hz : (0 : UInt8) ∉ name := fun h => absurd (hc 0 h).1 (by decide +kernel)
      unfold parse_atom
      simp only
      rw [hb, textOf_eq hz, if_neg (by rw [hni]; simp), if_neg (by rw [hnf]; simp), if_pos]
      rw [List.all_eq_true]
      intro b hb
      unfold strchr
      rw [(toChar_range b).2.2.2]
      simp only [decide_eq_true_eq]
      exact .inr (hc b hb).1
    by_cases hn : Val.sym name = nil
    · refine ⟨h1, ?_, ?_⟩
      · intro hr r s tl cs rest ho htl hd ht hq hv hl hin hs
        have : printTail (.sym name) = [] := by unfold printTail; rw [if_pos hn]
        rw [this] at hs
        have hcs := spells_nil hs
        subst hcs
        have e : r = { r with eater := r.eater, stack := s :: tl } := by rw [← ho.stack]
        refine ⟨0, r.eater, s, by simp, by rw [← e]; exact Runs.refl r, ho.fits, ho.buf, hin, ?_, by omega, hq, hv⟩
        unfold State.list
        rw [ht, hn]
      · intro _ hr first r s tl cs rest ho htl hd ht hq hv hl hin hs
        have : printItems first (.sym name) = [] := rfl
        rw [this] at hs
        have hcs := spells_nil hs
        subst hcs
        have e : r = { r with eater := r.eater, stack := s :: tl } := by rw [← ho.stack]
        refine ⟨0, r.eater, s, by simp, by rw [← e]; exact Runs.refl r, ho.fits, ho.buf, hin, ?_, by omega, hq, hv⟩
        unfold State.list
        rw [ht, hn]
    · exact atom _ h1 (by unfold printTail print; rw [if_neg hn]) (Nat.le_refl _) (fun h => hn h)
  | cons a d iha ihd =>
    obtain ⟨a1, _, _⟩ := iha
    obtain ⟨_, d2, d3⟩ := ihd
    have tailFirst : ∀ (cs rest : List Int), Spells cs (printTail d) → Delim (cs ++ 41 :: rest) := by
      intro cs rest hs
      have : printTail d = [] ∨ ∃ t, printTail d = 32 :: t := by
        cases d with
        | cons _ _ => exact .inr ⟨_, rfl⟩
        | int _ => exact .inr ⟨_, rfl⟩
        | float _ => exact .inr ⟨_, rfl⟩
        | str _ => exact .inr ⟨_, rfl⟩
        | vec _ => exact .inr ⟨_, rfl⟩
        | sym name =>
          unfold printTail
          by_cases h : Val.sym name = nil
          · exact .inl (by rw [if_pos h])
          · exact .inr ⟨_, by rw [if_neg h]; rfl⟩
      rcases this with h | ⟨t, h⟩
      · rw [h] at hs
        rw [spells_nil hs]
        exact .inr ⟨41, rest, rfl, .inr (by decide)⟩
      · rw [h] at hs
        obtain ⟨t, rfl, _⟩ := spells_lit hs (by decide)
        exact .inr ⟨32, _, rfl, .inr (by decide)⟩
    -- a value and the rest of its list
    have both : ∀ (r : Reader) (s : State) (tl : List State) (cs rest : List Int), readable a → readable d → Open r s tl → tl ≠ [] → s.dotpair_mode = 0 → s.tail = nil → s.quote_mode = false → s.vector_mode = false →
        r.stack.length + depth a ≤ 31 → r.stack.length + inner d ≤ 31 → inp r.eater = cs ++ 41 :: rest → Spells cs (print a ++ printTail d) →
        ∃ n e' s', n ≤ cs.length ∧ Runs r { r with eater := e', stack := s' :: tl } n ∧ Fits e' ∧ e'.buf = [] ∧ inp e' = 41 :: rest ∧ s'.list = s.items.foldr .cons (.cons a d) ∧ s'.dotpair_mode ≠ 1 ∧
          s'.quote_mode = false ∧ s'.vector_mode = false := by
      intro r s tl cs rest ra rd ho htl hd ht hq hv hl1 hl2 hin hs
      obtain ⟨x, y, rfl, hx, hy⟩ := spells_append hs
      obtain ⟨n1, e1, k1, r1, f1, b1, i1⟩ := a1 ra r s tl _ x (y ++ 41 :: rest) ho (addTo_put a (by omega) hq) hl1 (by rw [hin]; simp) hx (fun _ => tailFirst y rest hy)
      have i1 : inp e1 = y ++ 41 :: rest := by
        rcases i1 with e | ⟨e, _⟩
        · exact e
        · cases y <;> cases e
      rw [put_items hd] at r1
      have hlen : r.stack.length = tl.length + 1 := by rw [ho.stack]; rfl
      obtain ⟨n2, e2, s2, k2, r2, f2, b2, i2, q2⟩ := d2 rd { r with eater := e1, stack := { s with items := s.items ++ [a] } :: tl } { s with items := s.items ++ [a] } tl y rest ⟨rfl, ho.eof, ho.error, .inr htl, f1, b1⟩ htl hd ht hq hv (by
        show tl.length + 1 + inner d ≤ 31
        omega) i1 hy
      obtain ⟨q3, q4⟩ := q2
      refine ⟨n1 + n2, e2, s2, by simp; omega, r1.trans r2, f2, b2, i2, ?_, q4⟩
      rw [q3]
      exact foldr_put s.items a d
    refine ⟨?_, ?_, ?_⟩
    · intro hr r s tl stk cs rest ho ha hl hin hs _
      obtain ⟨ra, rd⟩ : readable a ∧ readable d := hr
      have hl : r.stack.length + (1 + max (depth a) (inner d)) ≤ 31 := hl
      have hs : Spells cs (40 :: (print a ++ printTail d ++ [41])) := hs
      obtain ⟨cs1, rfl, hs1⟩ := spells_lit hs (by decide)
      obtain ⟨x, y, rfl, hx, hy⟩ := spells_append hs1
      obtain ⟨z, rfl, hz⟩ := spells_lit hy (by decide)
      rw [spells_nil hz] at *
      have hin' : inp r.eater = 40 :: (x ++ 41 :: rest) := by rw [hin]; simp
      obtain ⟨e1, g1, i1, b1, f1⟩ := getc_cons ho.fits hin'
      have hlen : r.stack.length = tl.length + 1 := by rw [ho.stack]; rfl
      have p1 : Runs r { r with eater := e1, stack := { items := [], tail := nil, quote_mode := false, dotpair_mode := 0, vector_mode := false } :: s :: tl } 1 := by
        refine ho.run ?_
        unfold step
        rw [g1]
        simp only
        rw [if_neg (by decide), if_neg (by decide), if_neg (by decide), if_neg (by decide), if_pos trivial]
        unfold push
        simp only
        rw [if_neg (by omega), ho.stack]
      obtain ⟨n2, e2, s2, k2, r2, f2, b2, i2, q2, q3, q4, q5⟩ := both { r with eater := e1, stack := { items := [], tail := nil, quote_mode := false, dotpair_mode := 0, vector_mode := false } :: s :: tl } _ (s :: tl) x rest ra rd ⟨rfl, ho.eof, ho.error, .inr (by simp), f1, b1.trans ho.buf⟩ (by simp) rfl rfl rfl rfl (by
        show tl.length + 1 + 1 + _ ≤ 31
        omega) (by
        show tl.length + 1 + 1 + _ ≤ 31
        omega) i1 hx
      obtain ⟨e3, g3, i3, b3, f3⟩ := getc_cons f2 i2
      refine ⟨1 + n2 + 1, e3, by simp; omega, (p1.trans r2).trans (Open.run (s := s2) (tl := s :: tl) ⟨rfl, ho.eof, ho.error, .inr (by simp), f2, b2⟩ ?_), f3, b3.trans b2, .inl i3⟩
      unfold step
      simp only
      rw [g3]
      simp only
      rw [if_neg (by decide), if_neg (by decide), if_neg (by decide), if_neg (by decide), if_neg (by decide), if_pos trivial]
      unfold topOf
      simp only
      rw [q4, q5, if_neg (by simp), if_neg (by simp)]
      unfold addpop
      simp only
      rw [if_neg q3]
      have : s2.value = .cons a d := by
        unfold State.value
        rw [q5, if_neg (by simp), q2]
        rfl
      rw [this, ha]
      rfl
    · intro hr r s tl cs rest ho htl hd ht hq hv hl hin hs
      obtain ⟨ra, rd⟩ : readable a ∧ readable d := hr
      have hl : r.stack.length + (max (depth a) (inner d)) ≤ 31 := hl
      have hs : Spells cs (32 :: (print a ++ printTail d)) := hs
      obtain ⟨cs1, rfl, hs1⟩ := spells_lit hs (by decide)
      obtain ⟨e1, n1, o1, i1⟩ := run_space ho hin
      obtain ⟨n2, e2, s2, k2, r2, q⟩ := both { r with eater := e1 } s tl cs1 rest ra rd o1 htl hd ht hq hv (by show r.stack.length + _ ≤ 31; omega) (by show r.stack.length + _ ≤ 31; omega) i1 hs1
      exact ⟨1 + n2, e2, s2, by simp; omega, n1.trans r2, q⟩
    · intro hp hr first r s tl cs rest ho htl hd ht hq hv hl hin hs
      obtain ⟨ra, rd⟩ : readable a ∧ readable d := hr
      have hp : proper d := hp
      have hl : r.stack.length + (max (depth a) (inner d)) ≤ 31 := hl
      have hlen : r.stack.length = tl.length + 1 := by rw [ho.stack]; rfl
      have hs : Spells cs ((if first then [] else [32]) ++ print a ++ printItems false d) := hs
      obtain ⟨n1, e1, cs1, k1, r1, o1, i1, hs1⟩ : ∃ n1 e1 cs1, n1 + cs1.length ≤ cs.length ∧ Runs r { r with eater := e1 } n1 ∧ Open { r with eater := e1 } s tl ∧ inp e1 = cs1 ++ 93 :: rest ∧ Spells cs1 (print a ++ printItems false d) := by
        cases first with
        | true => exact ⟨0, r.eater, cs, by omega, Runs.refl r, ho, hin, by simpa using hs⟩
        | false =>
          have hs : Spells cs (32 :: (print a ++ printItems false d)) := by simpa using hs
          obtain ⟨cs1, rfl, hs1⟩ := spells_lit hs (by decide)
          obtain ⟨e1, n1, o1, i1⟩ := run_space ho hin
          exact ⟨1, e1, cs1, by simp; omega, n1, o1, i1, hs1⟩
      obtain ⟨x, y, rfl, hx, hy⟩ := spells_append hs1
      have hdl : Delim (y ++ 93 :: rest) := by
        have : printItems false d = [] ∨ ∃ t, printItems false d = 32 :: t := by
          cases d with
          | cons _ _ => exact .inr ⟨_, rfl⟩
          | int _ => exact .inl rfl
          | float _ => exact .inl rfl
          | str _ => exact .inl rfl
          | vec _ => exact .inl rfl
          | sym name => exact .inl rfl
        rcases this with h | ⟨t, h⟩
        · rw [h] at hy
          rw [spells_nil hy]
          exact .inr ⟨93, rest, rfl, .inr (by decide)⟩
        · rw [h] at hy
          obtain ⟨t, rfl, _⟩ := spells_lit hy (by decide)
          exact .inr ⟨32, _, rfl, .inr (by decide)⟩
      obtain ⟨n2, e2, k2, r2, f2, b2, i2⟩ := a1 ra { r with eater := e1 } s tl _ x (y ++ 93 :: rest) o1 (addTo_put a (by omega) hq) (by show r.stack.length + _ ≤ 31; omega) (by rw [i1]; simp) hx (fun _ => hdl)
      have i2 : inp e2 = y ++ 93 :: rest := by
        rcases i2 with e | ⟨e, _⟩
        · exact e
        · cases y <;> cases e
      rw [put_items hd] at r2
      obtain ⟨n3, e3, s3, k3, r3, f3, b3, i3, q3, q4⟩ := d3 hp rd false { r with eater := e2, stack := { s with items := s.items ++ [a] } :: tl } { s with items := s.items ++ [a] } tl y rest ⟨rfl, ho.eof, ho.error, .inr htl, f2, b2⟩ htl hd ht hq hv (by
        show tl.length + 1 + _ ≤ 31
        omega) i2 hy
      refine ⟨n1 + n2 + n3, e3, s3, by simp at k1; omega, (r1.trans r2).trans r3, f3, b3, i3, ?_, q4⟩
      rw [q3]
      exact foldr_put s.items a d
  | vec p ih =>
    obtain ⟨_, _, p3⟩ := ih
    refine atom _ ?_ rfl (Nat.le_refl _) (by intro h; cases h)
    intro hr r s tl stk cs rest ho ha hl hin hs _
    obtain ⟨hp, rp⟩ : proper p ∧ readable p := hr
    have hl : r.stack.length + (1 + inner p) ≤ 31 := hl
    have hs : Spells cs (91 :: (printItems true p ++ [93])) := hs
    obtain ⟨cs1, rfl, hs1⟩ := spells_lit hs (by decide)
    obtain ⟨x, y, rfl, hx, hy⟩ := spells_append hs1
    obtain ⟨z, rfl, hz⟩ := spells_lit hy (by decide)
    rw [spells_nil hz] at *
    have hin' : inp r.eater = 91 :: (x ++ 93 :: rest) := by rw [hin]; simp
    obtain ⟨e1, g1, i1, b1, f1⟩ := getc_cons ho.fits hin'
    have hlen : r.stack.length = tl.length + 1 := by rw [ho.stack]; rfl
    have p1 : Runs r { r with eater := e1, stack := { items := [], tail := nil, quote_mode := false, dotpair_mode := 0, vector_mode := true } :: s :: tl } 1 := by
      refine ho.run ?_
      unfold step
      rw [g1]
      simp only
      rw [if_neg (by decide), if_neg (by decide), if_neg (by decide), if_neg (by decide), if_neg (by decide), if_neg (by decide), if_pos trivial]
      unfold push
      simp only
      rw [if_neg (by omega), ho.stack, bind_ok]
      rfl
    obtain ⟨n2, e2, s2, k2, r2, f2, b2, i2, q2, q3, q4, q5⟩ := p3 hp rp true { r with eater := e1, stack := { items := [], tail := nil, quote_mode := false, dotpair_mode := 0, vector_mode := true } :: s :: tl } _ (s :: tl) x rest ⟨rfl, ho.eof, ho.error, .inr (by simp), f1, b1.trans ho.buf⟩ (by simp) rfl rfl rfl rfl (by
      show tl.length + 1 + 1 + _ ≤ 31
      omega) i1 hx
    obtain ⟨e3, g3, i3, b3, f3⟩ := getc_cons f2 i2
    refine ⟨1 + n2 + 1, e3, by simp; omega, (p1.trans r2).trans (Open.run (s := s2) (tl := s :: tl) ⟨rfl, ho.eof, ho.error, .inr (by simp), f2, b2⟩ ?_), f3, b3.trans b2, .inl i3⟩
    unfold step
    simp only
    rw [g3]
    simp only
    rw [if_neg (by decide), if_neg (by decide), if_neg (by decide), if_neg (by decide), if_neg (by decide), if_neg (by decide), if_neg (by decide), if_pos trivial]
    unfold topOf
    simp only
    rw [q4, q5, if_neg (by simp), if_neg (by simp)]
    unfold addpop
    simp only
    rw [if_neg q3]
    have : s2.value = .vec p := by
      unfold State.value
      rw [q5, if_pos rfl, q2]
      rfl
    rw [this, ha]
    rfl

end Che.Prog.Wisp
