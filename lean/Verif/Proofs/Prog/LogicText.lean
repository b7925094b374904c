import Verif.Spec.Prog.Logic
import Verif.Proofs.Lib.Tok

/-!
Reading and printing terms.
-/
namespace Che.Prog.Logic
open Che.Lib Che.Spec.Logic Che.Spec.Lib

/-- The text that is left. -/
def At (b : Tok.T) (s : Bytes) : Prop := ∃ seen, Tok.Is b ⟨seen, s⟩

theorem peek_at {b : Tok.T} {s : Bytes} (h : At b s) : ∃ b', Tok.peek b = (b', code s.head?) ∧ At b' s := by
  obtain ⟨seen, h⟩ := h
  obtain ⟨b', e, h'⟩ := Tok.peek_is h
  exact ⟨b', e, seen, h'⟩

theorem get_at {b : Tok.T} {c : UInt8} {s : Bytes} (h : At b (c :: s)) :
    ∃ b', Tok.get b = (b', (c.toNat : Int)) ∧ At b' s := by
  obtain ⟨seen, h⟩ := h
  obtain ⟨b', e, h'⟩ := Tok.get_is h
  exact ⟨b', e, _, h'⟩

theorem skip_yes {b : Tok.T} {c : UInt8} {s : Bytes} (h : At b (c :: s)) (hc : c < 128) :
    ∃ b', Tok.buf_skip b c = (b', true) ∧ At b' s := by
  obtain ⟨seen, h⟩ := h
  obtain ⟨b', e, h'⟩ := Tok.buf_skip_is h c hc
  simp only [List.head?_cons, decide_true, if_true] at e h'
  exact ⟨b', e, _, h'⟩

theorem skip_no {b : Tok.T} {c : UInt8} {s : Bytes} (h : At b s) (hc : c < 128) (hs : s.head? ≠ some c) :
    ∃ b', Tok.buf_skip b c = (b', false) ∧ At b' s := by
  obtain ⟨seen, h⟩ := h
  obtain ⟨b', e, h'⟩ := Tok.buf_skip_is h c hc
  simp only [hs, decide_false, if_false] at e h'
  exact ⟨b', e, _, h'⟩

theorem skip_set {b : Tok.T} {s : Bytes} (h : At b s) :
    At (Tok.buf_skip_set b [32]) (s.dropWhile (inSet [32])) := by
  obtain ⟨seen, h⟩ := h
  have := Tok.buf_skip_set_is h [32]
  refine ⟨(Cursor.past ⟨seen, s⟩ (s.takeWhile (inSet [32]))).seen, ?_⟩
  have e : (Cursor.past ⟨seen, s⟩ (s.takeWhile (inSet [32]))).rest = s.dropWhile (inSet [32]) := by
    show s.drop (s.takeWhile (inSet [32])).length = _
    generalize inSet [32] = p
    clear this h
    induction s with
    | nil => rfl
    | cons a s ih =>
      rw [List.takeWhile_cons, List.dropWhile_cons]
      split
      · exact ih
      · rfl
  rw [← e]
  exact this

/-- Reading a name. -/
theorem nameLoop_at (k : Nat) : ∀ (b : Tok.T) (s name : Bytes), At b s → s.length < k → name.length ≤ 9 →
    (name.length + (s.takeWhile letter).length ≤ 9 ∧ ∃ b', nameLoop k b name = .ok (b', name ++ s.takeWhile letter) ∧
      At b' (s.dropWhile letter)) ∨
    (9 < name.length + (s.takeWhile letter).length ∧
      nameLoop k b name = .panic "undefined: write past the end of name") := by
  induction k with
  | zero => intro b s name _ h; omega
  | succ k ih =>
    intro b s name hb hk hn
    obtain ⟨b1, e1, h1⟩ := peek_at hb
    rw [nameLoop, e1]
    simp only
    cases s with
    | nil =>
      refine .inl ⟨by simpa using hn, b1, ?_, h1⟩
      rw [if_neg (by show ¬ Tok.isalpha (-1) = true; decide)]
      simp
    | cons c s =>
      have hl : Tok.isalpha (code (c :: s).head?) = letter c := Tok.isalpha_code c
      rw [hl]
      cases hc : letter c with
      | false =>
        rw [if_neg (by simp)]
        refine .inl ⟨by simpa [List.takeWhile_cons, hc] using hn, b1, ?_, ?_⟩
        · simp [List.takeWhile_cons, hc]
        · simpa [List.dropWhile_cons, hc] using h1
      | true =>
        rw [if_pos rfl]
        by_cases h9 : name.length ≥ 9
        · rw [if_pos h9]
          refine .inr ⟨?_, rfl⟩
          simp only [List.takeWhile_cons, hc, if_true, List.length_cons]
          omega
        · rw [if_neg h9]
          obtain ⟨b2, e2, h2⟩ := get_at h1
          rw [e2]
          simp only
          rw [Tok.toByte_code]
          have := ih b2 s (name ++ [c]) h2 (by simpa using hk) (by simp; omega)
          simp only [List.takeWhile_cons, List.dropWhile_cons, hc, if_true, List.length_cons, List.length_append,
            List.length_nil, List.append_assoc, List.cons_append, List.nil_append] at this ⊢
          rcases this with ⟨ha, hb⟩ | ⟨ha, hb⟩
          · exact .inl ⟨by omega, hb⟩
          · exact .inr ⟨by omega, hb⟩

theorem name_at {b : Tok.T} {s : Bytes} (hb : At b s) :
    ((s.takeWhile letter).length ≤ 9 ∧ ∃ b', nameLoop (Tok.rounds b) b [] = .ok (b', s.takeWhile letter) ∧
      At b' (s.dropWhile letter)) ∨
    (9 < (s.takeWhile letter).length ∧
      nameLoop (Tok.rounds b) b [] = .panic "undefined: write past the end of name") := by
  have hr : s.length < Tok.rounds b := by
    obtain ⟨seen, h⟩ := hb
    rw [h.rounds]
    simp
  simpa using nameLoop_at (Tok.rounds b) b s [] hb hr (by simp)

theorem letter_iff (c : UInt8) :
    letter c = true ↔ (65 ≤ c.toNat ∧ c.toNat ≤ 90) ∨ (97 ≤ c.toNat ∧ c.toNat ≤ 122) := by
  simp [letter, UInt8.le_iff_toNat_le]

theorem name_word {n : Bytes} (h : Name n) (tail : Bytes) (ht : ∀ c, tail.head? = some c → letter c = false) :
    (n ++ tail).takeWhile letter = n ∧ (n ++ tail).dropWhile letter = tail := by
  have h' : ∀ c ∈ n, letter c = true := fun c hc => (letter_iff c).mpr (h.2 c hc)
  clear h
  induction n with
  | nil =>
    cases tail with
    | nil => exact ⟨rfl, rfl⟩
    | cons c s =>
      have := ht c rfl
      simp [List.takeWhile_cons, List.dropWhile_cons, this]
  | cons a n ih =>
    have := ih fun c hc => h' c (List.mem_cons_of_mem _ hc)
    simp only [List.cons_append, List.takeWhile_cons, List.dropWhile_cons, h' a List.mem_cons_self, if_true]
    exact ⟨by rw [this.1], this.2⟩

theorem allupper_iff (n : Bytes) : Strings.allupper n = true ↔ ¬ Small n := by
  induction n with
  | nil => simp [Strings.allupper, Small]
  | cons a n ih =>
    rw [Strings.allupper]
    have hl : Strings.islower a = true ↔ 97 ≤ a.toNat ∧ a.toNat ≤ 122 := by
      simp [Strings.islower, UInt8.le_iff_toNat_le]
    by_cases h : Strings.islower a = true
    · rw [if_pos h]
      constructor
      · intro e; cases e
      · intro e; exact absurd ⟨a, List.mem_cons_self, hl.mp h⟩ e
    · rw [if_neg h, ih]
      constructor
      · rintro e ⟨c, hc, hs⟩
        rcases List.mem_cons.mp hc with rfl | hc
        · exact h (hl.mpr hs)
        · exact e ⟨c, hc, hs⟩
      · rintro e ⟨c, hc, hs⟩
        exact e ⟨c, List.mem_cons_of_mem _ hc, hs⟩

theorem parse_term1_succ (n : Nat) (b : Tok.T) : parse_term1 (n + 1) b =
    (nameLoop (Tok.rounds b) b []).bind fun p =>
    if Strings.allupper p.2 then .ok (p.1, .var p.2) else
    if (Tok.buf_skip p.1 40).2 then
      (parseArgs n (Tok.buf_skip p.1 40).1 []).bind fun q =>
      if (Tok.buf_skip q.1 41).2 then .ok ((Tok.buf_skip q.1 41).1, .func p.2 q.2)
      else .panic "logic.c:164: missing closing brace"
    else .ok ((Tok.buf_skip p.1 40).1, .const p.2) := by
  rfl

theorem parseArgs_succ (n : Nat) (b : Tok.T) (args : List Term) : parseArgs (n + 1) b args =
    if args.length ≥ 10 then .panic "undefined: write past the end of args" else
    (parse_term1 n b).bind fun p =>
    if (Tok.buf_skip p.1 44).2 then parseArgs n (Tok.buf_skip_set (Tok.buf_skip p.1 44).1 [32]) (args ++ [p.2])
    else .ok ((Tok.buf_skip p.1 44).1, args ++ [p.2]) := by
  rfl

/-- After a term comes no letter and no bracket. -/
def Ends (tail : Bytes) : Prop := ∀ c, tail.head? = some c → letter c = false ∧ c ≠ 40

/-- A blank (or the end of the string). -/
def blankHead (s : Bytes) : Prop := s.head? = some 32 ∨ s.head? = some 0

theorem head_print (t : Term) (h : Readable t) (tail : Bytes) (ht : ¬ blankHead tail) :
    ¬ blankHead (print_term t ++ tail) := by
  have hn : ∀ n : Bytes, Name n → ∀ tail : Bytes, ¬ blankHead tail → ¬ blankHead (n ++ tail) := by
    intro n hn tail ht
    cases n with
    | nil => exact ht
    | cons a n =>
      intro h
      unfold blankHead at h
      simp only [List.cons_append, List.head?_cons, Option.some.injEq] at h
      have := hn.2 a List.mem_cons_self
      rcases h with h | h
      · subst h
        revert this
        decide
      · subst h
        revert this
        decide
  cases t with
  | var v => rw [Readable] at h; rw [print_term]; exact hn v h.1 tail ht
  | const v => rw [Readable] at h; rw [print_term]; exact hn v h.1 tail ht
  | func f as =>
    rw [Readable] at h
    rw [print_term]
    simp only [List.append_assoc]
    exact hn f h.1 _ (by simp [blankHead])

theorem dropWhile_space (s : Bytes) (h : ¬ blankHead s) : (32 :: s).dropWhile (inSet [32]) = s := by
  have h32 : inSet [32] (32 : UInt8) = true := by decide
  rw [List.dropWhile_cons, if_pos h32]
  cases s with
  | nil => rfl
  | cons c s =>
    rw [List.dropWhile_cons, if_neg]
    intro hc
    have : ∀ c : UInt8, inSet [32] c = true → c = 32 ∨ c = 0 := by
      apply Bits.forall_byte
      decide +kernel
    rcases this c hc with e | e
    · exact h (.inl (by rw [e]; rfl))
    · exact h (.inr (by rw [e]; rfl))

/-- A printed term is read back. -/
theorem parse_print (t : Term) : Readable t → ∀ n b tail, (print_term t).length + 1 ≤ n →
    At b (print_term t ++ tail) → Ends tail →
    ∃ b', parse_term1 n b = .ok (b', t) ∧ At b' tail := by
  refine Term.rec
    (motive_1 := fun t => Readable t → ∀ n b tail, (print_term t).length + 1 ≤ n →
      At b (print_term t ++ tail) → Ends tail → ∃ b', parse_term1 n b = .ok (b', t) ∧ At b' tail)
    (motive_2 := fun ts => ReadableArgs ts → ts ≠ [] → ∀ n b tail args, args.length + ts.length ≤ 10 →
      (printArgs ts).length + 2 ≤ n →
      At b (printArgs ts ++ 41 :: tail) →
      ∃ b', parseArgs n b args = .ok (b', args ++ ts) ∧ At b' (41 :: tail)) ?_ ?_ ?_ ?_ ?_ t
  · intro v hv n b tail hn hb ht
    rw [Readable] at hv
    rw [print_term] at hn hb
    cases n with
    | zero => omega
    | succ n =>
      obtain ⟨w1, w2⟩ := name_word hv.1 tail fun c hc => (ht c hc).1
      rcases name_at hb with ⟨_, b', e, h'⟩ | ⟨h9, _⟩
      · rw [parse_term1_succ, e, w1]
        rw [w2] at h'
        refine ⟨b', ?_, h'⟩
        simp only [Res.bind]
        rw [if_pos ((allupper_iff v).mpr hv.2)]
      · rw [w1] at h9
        have := hv.1.1
        omega
  · intro v hv n b tail hn hb ht
    rw [Readable] at hv
    rw [print_term] at hn hb
    cases n with
    | zero => omega
    | succ n =>
      obtain ⟨w1, w2⟩ := name_word hv.1 tail fun c hc => (ht c hc).1
      rcases name_at hb with ⟨_, b', e, h'⟩ | ⟨h9, _⟩
      · rw [parse_term1_succ, e, w1]
        rw [w2] at h'
        obtain ⟨b2, e2, h2⟩ := skip_no h' (c := 40) (by decide) fun h => (ht 40 h).2 rfl
        refine ⟨b2, ?_, h2⟩
        simp only [Res.bind]
        rw [if_neg (fun h => (allupper_iff v).mp h hv.2), e2]
        rfl
      · rw [w1] at h9
        have := hv.1.1
        omega
  · intro v as ih hv n b tail hn hb ht
    rw [Readable] at hv
    obtain ⟨hv1, hv2, hl1, hl2, has⟩ := hv
    rw [print_term] at hn hb
    have hrw : v ++ [40] ++ printArgs as ++ [41] ++ tail = v ++ (40 :: (printArgs as ++ 41 :: tail)) := by simp
    rw [hrw] at hb
    cases n with
    | zero => omega
    | succ n =>
      obtain ⟨w1, w2⟩ := name_word hv1 (40 :: (printArgs as ++ 41 :: tail)) fun c hc => by
        simp only [List.head?_cons, Option.some.injEq] at hc
        subst hc
        decide
      rcases name_at hb with ⟨_, b', e, h'⟩ | ⟨h9, _⟩
      · rw [parse_term1_succ, e, w1]
        rw [w2] at h'
        obtain ⟨b2, e2, h2⟩ := skip_yes h' (by decide)
        simp only [List.length_append, List.length_cons, List.length_nil] at hn
        obtain ⟨b3, e3, h3⟩ := ih has (by intro h; rw [h] at hl1; simp at hl1) n b2 tail [] (by simpa using hl2)
          (by omega) h2
        obtain ⟨b4, e4, h4⟩ := skip_yes h3 (by decide)
        refine ⟨b4, ?_, h4⟩
        simp only [Res.bind]
        rw [if_neg (fun h => (allupper_iff v).mp h hv2), e2]
        simp only [if_true]
        rw [e3]
        simp only [Res.bind]
        rw [e4]
        rfl
      · rw [w1] at h9
        have := hv1.1
        omega
  · intro _ h
    exact absurd rfl h
  · intro t ts iht ihs hr _ n b tail args hl hn hb
    rw [ReadableArgs] at hr
    simp only [List.length_cons] at hl
    cases n with
    | zero => omega
    | succ n =>
      rw [parseArgs_succ, if_neg (by omega)]
      cases ts with
      | nil =>
        rw [printArgs] at hn hb
        obtain ⟨b', e, h'⟩ := iht hr.1 n b (41 :: tail) (by omega) hb (by
          intro c hc
          simp only [List.head?_cons, Option.some.injEq] at hc
          subst hc
          decide)
        obtain ⟨b2, e2, h2⟩ := skip_no h' (c := 44) (by decide) (by simp)
        refine ⟨b2, ?_, h2⟩
        rw [e]
        simp only [Res.bind]
        rw [e2]
        rfl
      | cons u us =>
        rw [printArgs] at hn hb
        have hrw : print_term t ++ [44, 32] ++ printArgs (u :: us) ++ 41 :: tail =
            print_term t ++ (44 :: 32 :: (printArgs (u :: us) ++ 41 :: tail)) := by simp
        rw [hrw] at hb
        simp only [List.length_append, List.length_cons, List.length_nil] at hn
        obtain ⟨b', e, h'⟩ := iht hr.1 n b _ (by omega) hb (by
          intro c hc
          simp only [List.head?_cons, Option.some.injEq] at hc
          subst hc
          decide)
        obtain ⟨b2, e2, h2⟩ := skip_yes h' (by decide)
        have h3 := skip_set h2
        rw [dropWhile_space] at h3
        · obtain ⟨b4, e4, h4⟩ := ihs hr.2 (by simp) n _ tail (args ++ [t])
            (by simp only [List.length_append, List.length_cons, List.length_nil] at hl ⊢; omega) (by omega) h3
          refine ⟨b4, ?_, h4⟩
          rw [e]
          simp only [Res.bind]
          rw [e2]
          simp only [if_true]
          rw [e4]
          simp
        · have hu := hr.2
          rw [ReadableArgs] at hu
          cases us with
          | nil =>
            rw [printArgs]
            exact head_print u hu.1 _ (by simp [blankHead])
          | cons w ws =>
            rw [printArgs]
            simp only [List.append_assoc]
            exact head_print u hu.1 _ (by simp [blankHead])

/-! ## Everything that is read can be read again -/

theorem readableArgs_append (as bs : List Term) : ReadableArgs (as ++ bs) ↔ ReadableArgs as ∧ ReadableArgs bs := by
  induction as with
  | nil => simp [ReadableArgs]
  | cons a as ih => rw [List.cons_append, ReadableArgs, ReadableArgs, ih, and_assoc]

theorem name_take {s : Bytes} (h : (s.takeWhile letter).length ≤ 9) : Name (s.takeWhile letter) := by
  refine ⟨h, fun c hc => (letter_iff c).mp ?_⟩
  clear h
  induction s with
  | nil => simp at hc
  | cons a s ih =>
    rw [List.takeWhile_cons] at hc
    split at hc
    · rename_i ha
      rcases List.mem_cons.mp hc with rfl | hc
      · exact ha
      · exact ih hc
    · simp at hc

theorem bind_ok {α β : Type} {a : Res String α} {f : α → Res String β} {y : β} (h : a.bind f = .ok y) :
    ∃ x, a = .ok x ∧ f x = .ok y := by
  cases a with
  | ok x => exact ⟨x, rfl, h⟩
  | err e => cases h
  | panic m => cases h
  | diverge => cases h

/-- How a call ends: with a result and no more text than before, or by a panic. -/
def Ended {α : Type} (P : α → Prop) (s : Bytes) : Res String (Tok.T × α) → Prop
  | .ok (b, x) => P x ∧ ∃ s', s'.length ≤ s.length ∧ At b s'
  | .panic m => m = "undefined: write past the end of name" ∨ m = "undefined: write past the end of args" ∨
      m = "logic.c:164: missing closing brace"
  | _ => False

theorem skip_at {b : Tok.T} {s : Bytes} (h : At b s) (c : UInt8) (hc : c < 128) :
    (∃ b' s', s = c :: s' ∧ Tok.buf_skip b c = (b', true) ∧ At b' s') ∨
    (∃ b', Tok.buf_skip b c = (b', false) ∧ At b' s) := by
  by_cases hs : s.head? = some c
  · cases s with
    | nil => cases hs
    | cons a s =>
      simp only [List.head?_cons, Option.some.injEq] at hs
      subst hs
      obtain ⟨b', e, h'⟩ := skip_yes h hc
      exact .inl ⟨b', s, rfl, e, h'⟩
  · exact .inr (skip_no h hc hs)

theorem parse_ended (n : Nat) :
    (∀ b s, At b s → 2 * s.length + 2 ≤ n → Ended Readable s (parse_term1 n b)) ∧
    (∀ b s args, At b s → 2 * s.length + 3 ≤ n → args.length ≤ 10 → ReadableArgs args →
      Ended (fun as => 1 ≤ as.length ∧ as.length ≤ 10 ∧ ReadableArgs as) s (parseArgs n b args)) := by
  induction n with
  | zero => exact ⟨fun b s _ h => by omega, fun b s args _ h => by omega⟩
  | succ n ih =>
    refine ⟨fun b s hb hn => ?_, fun b s args hb hn hl hr => ?_⟩
    · rw [parse_term1_succ]
      rcases name_at hb with ⟨h9, b1, e1, h1⟩ | ⟨_, e1⟩
      · rw [e1]
        simp only [Res.bind]
        have hlen : (s.dropWhile letter).length ≤ s.length := by
          conv => rhs; rw [← List.takeWhile_append_dropWhile (p := letter) (l := s)]
          rw [List.length_append]
          omega
        by_cases hu : Strings.allupper (s.takeWhile letter) = true
        · rw [if_pos hu]
          refine ⟨?_, _, hlen, h1⟩
          rw [Readable]
          exact ⟨name_take h9, (allupper_iff _).mp hu⟩
        · rw [if_neg hu]
          have hsm : Small (s.takeWhile letter) := Classical.byContradiction fun h => hu ((allupper_iff _).mpr h)
          rcases skip_at h1 40 (by decide) with ⟨b2, s2, es, e2, h2⟩ | ⟨b2, e2, h2⟩
          · rw [e2]
            simp only [if_true]
            rw [es, List.length_cons] at hlen
            have h3 := ih.2 b2 s2 [] h2 (by omega) (by simp) (by rw [ReadableArgs]; trivial)
            cases hp : parseArgs n b2 [] with
            | ok q =>
              obtain ⟨b3, as⟩ := q
              rw [hp] at h3
              obtain ⟨⟨ha1, ha2, ha3⟩, s3, hl3, h3⟩ := h3
              simp only
              rcases skip_at h3 41 (by decide) with ⟨b4, s4, es4, e4, h4⟩ | ⟨b4, e4, h4⟩
              · rw [e4]
                refine ⟨?_, s4, ?_, h4⟩
                · rw [Readable]
                  exact ⟨name_take h9, hsm, ha1, ha2, ha3⟩
                · rw [es4, List.length_cons] at hl3
                  omega
              · rw [e4]
                exact .inr (.inr rfl)
            | err e => rw [hp] at h3; exact h3.elim
            | panic m => rw [hp] at h3; exact h3
            | diverge => rw [hp] at h3; exact h3.elim
          · rw [e2]
            refine ⟨?_, _, hlen, h2⟩
            rw [Readable]
            exact ⟨name_take h9, hsm⟩
      · rw [e1]
        exact .inl rfl
    · rw [parseArgs_succ]
      by_cases h10 : args.length ≥ 10
      · rw [if_pos h10]
        exact .inr (.inl rfl)
      · rw [if_neg h10]
        have h1 := ih.1 b s hb (by omega)
        cases hp : parse_term1 n b with
        | ok p =>
          obtain ⟨b1, t⟩ := p
          rw [hp] at h1
          obtain ⟨ht, s1, hl1, h1⟩ := h1
          simp only [Res.bind]
          have hra : ReadableArgs (args ++ [t]) := by
            rw [readableArgs_append]
            exact ⟨hr, by rw [ReadableArgs, ReadableArgs]; exact ⟨ht, trivial⟩⟩
          rcases skip_at h1 44 (by decide) with ⟨b2, s2, es, e2, h2⟩ | ⟨b2, e2, h2⟩
          · rw [e2]
            simp only [if_true]
            rw [es, List.length_cons] at hl1
            have hd : (s2.dropWhile (inSet [32])).length ≤ s2.length := by
              conv => rhs; rw [← List.takeWhile_append_dropWhile (p := inSet [32]) (l := s2)]
              rw [List.length_append]
              omega
            have h3 := ih.2 _ _ (args ++ [t]) (skip_set h2) (by omega)
              (by simp only [List.length_append, List.length_cons, List.length_nil]; omega) hra
            generalize parseArgs n (Tok.buf_skip_set b2 [32]) (args ++ [t]) = r at h3
            cases r with
            | ok q =>
              obtain ⟨hP, s', hs', h'⟩ := h3
              exact ⟨hP, s', by omega, h'⟩
            | err e => exact h3.elim
            | panic m => exact h3
            | diverge => exact h3.elim
          · rw [e2]
            refine ⟨⟨?_, ?_, hra⟩, s1, hl1, h2⟩
            · simp
            · simp only [List.length_append, List.length_cons, List.length_nil]; omega
        | err e => rw [hp] at h1; exact h1.elim
        | panic m => rw [hp] at h1; exact h1
        | diverge => rw [hp] at h1; exact h1.elim

theorem from_str_at (s : Bytes) : At (Tok.from_str s) s := ⟨[], Tok.new_is (Reader.ofBuffer s) rfl⟩

end Che.Prog.Logic
