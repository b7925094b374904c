import Verif.Proofs.Prog.Regexp9Code

/-!
The parts of a program that is being made: each stands in an interval of the instructions,
and only the `next` of its last instruction is open.
-/
namespace Che.Proofs.Regexp9
open Che Che.Lib Che.Prog.Regexp9 Che.Spec.Regexp9

/-- `next` is set. -/
def upd (k : Nat) (x : Inst) : Inst := { x with next := some k }

/-- The instruction is there and is not `NOP`. -/
def NN (I : List Inst) (r : Nat) : Prop := ∃ y, I[r]? = some y ∧ y.op ≠ .nop

/-- What holds of each instruction of a part. -/
structure InstOk (I : List Inst) (lo hi n : Nat) (x : Inst) : Prop where
  fin : x.op ≠ .fin
  right : ∀ r, x.op = .or r → lo ≤ r ∧ r < hi ∧ NN I r
  ids : ∀ g, x.op = .lbra g ∨ x.op = .rbra g → 1 ≤ g ∧ g < 32
  rune : ∀ r, x.op = .rune r → r ≠ 0
  next : ∀ m, x.next = some m → lo ≤ m ∧ m < hi ∧ (x.op = .nop → n < m)

/-- Along `next` some number goes down; it is less than the length of the part. -/
def Ranked (I : List Inst) (lo hi : Nat) : Prop :=
  ∃ ρ : Nat → Nat, (∀ n, lo ≤ n → n < hi → ρ n < hi - lo) ∧
    ∀ (n : Nat) (x : Inst) m, lo ≤ n → n < hi → I[n]? = some x → x.next = some m → ρ m < ρ n

/-- The part of the program with the last instruction linked to `k`. -/
def Agree (I I' : List Inst) (lo hi l k : Nat) : Prop :=
  ∀ n, lo ≤ n → n < hi → I'[n]? = if n = l then (I[n]?).map (upd k) else I[n]?

/-- A part of the program: it stands in `lo ≤ n < hi`, begins at `f` and ends at `l`. -/
structure Frag (I : List Inst) (lo hi : Nat) (e : Re) (f l : Nat) : Prop where
  f1 : lo ≤ f
  f2 : f < hi
  l1 : lo ≤ l
  l2 : l < hi
  nn : NN I f
  code : ∀ I' k, Agree I I' lo hi l k → Code I' e f k
  body : ∀ n, lo ≤ n → n < hi → ∃ x, I[n]? = some x ∧ InstOk I lo hi n x ∧ (x.next = none ↔ n = l)
  rank : Ranked I lo hi

/-- The stack of operands. -/
def Stk (I : List Inst) : Nat → List (Nat × Nat) → List Re → Prop
  | hi, [], [] => hi = 0
  | hi, (f, l) :: as, e :: es => ∃ lo, Frag I lo hi e f l ∧ Stk I lo as es
  | _, _, _ => False

theorem InstOk.congr {I J : List Inst} {lo hi n x} (h : InstOk I lo hi n x) (hj : ∀ n, lo ≤ n → n < hi → J[n]? = I[n]?) :
    InstOk J lo hi n x := by
  refine ⟨h.fin, fun r hr => ?_, h.ids, h.rune, h.next⟩
  obtain ⟨a, b, y, c, d⟩ := h.right r hr
  exact ⟨a, b, y, by rw [hj r a b]; exact c, d⟩

theorem Frag.congr {I J : List Inst} {lo hi e f l} (h : Frag I lo hi e f l) (hj : ∀ n, lo ≤ n → n < hi → J[n]? = I[n]?) :
    Frag J lo hi e f l := by
  refine ⟨h.f1, h.f2, h.l1, h.l2, ?_, ?_, ?_, ?_⟩
  · obtain ⟨y, h1, h2⟩ := h.nn
    exact ⟨y, by rw [hj f h.f1 h.f2]; exact h1, h2⟩
  · intro I' k ha
    apply h.code
    intro n h1 h2
    rw [ha n h1 h2, hj n h1 h2]
  · intro n h1 h2
    obtain ⟨x, a, b, c⟩ := h.body n h1 h2
    exact ⟨x, by rw [hj n h1 h2]; exact a, b.congr hj, c⟩
  · obtain ⟨ρ, r1, r2⟩ := h.rank
    exact ⟨ρ, r1, fun n x m h1 h2 h3 h4 => r2 n x m h1 h2 (by rw [← hj n h1 h2]; exact h3) h4⟩

theorem Stk.congr {I J : List Inst} : ∀ {as es hi}, Stk I hi as es → (∀ n, n < hi → J[n]? = I[n]?) → Stk J hi as es := by
  intro as
  induction as with
  | nil => intro es hi h _; cases es <;> simpa [Stk] using h
  | cons a as ih =>
    intro es hi h hj
    cases es with
    | nil => simp [Stk] at h
    | cons e es =>
      obtain ⟨f, l⟩ := a
      obtain ⟨lo, h1, h2⟩ := h
      have := h1.f1
      have := h1.f2
      exact ⟨lo, h1.congr fun n _ h => hj n h, ih h2 fun n h => hj n (by omega)⟩

theorem Stk.length {I : List Inst} : ∀ {as es hi}, Stk I hi as es → as.length = es.length := by
  intro as
  induction as with
  | nil => intro es hi h; cases es <;> simp_all [Stk]
  | cons a as ih =>
    intro es hi h
    cases es with
    | nil => simp [Stk] at h
    | cons e es =>
      obtain ⟨lo, _, h2⟩ := h
      simp [ih h2]

/-- The instructions of a part whose last instruction has been linked. -/
theorem Frag.linked {I J : List Inst} {lo hi e f l k lo' hi'} (h : Frag I lo hi e f l) (hj : Agree I J lo hi l k)
    (hlo : lo' ≤ lo) (hhi : hi ≤ hi') (hk : lo' ≤ k) (hk' : k < hi') (hlk : l < k) :
    ∀ n, lo ≤ n → n < hi → ∃ x, J[n]? = some x ∧ InstOk J lo' hi' n x ∧ x.next ≠ none := by
  have hop : ∀ n, lo ≤ n → n < hi → NN I n → NN J n := by
    rintro n h1 h2 ⟨y, h3, h4⟩
    rw [NN, hj n h1 h2, h3]
    split
    · exact ⟨_, rfl, h4⟩
    · exact ⟨_, rfl, h4⟩
  intro n h1 h2
  obtain ⟨x, a, b, c⟩ := h.body n h1 h2
  have hr : ∀ r, x.op = .or r → lo' ≤ r ∧ r < hi' ∧ NN J r := by
    intro r e
    obtain ⟨g1, g2, g3⟩ := b.right r e
    exact ⟨by omega, by omega, hop r g1 g2 g3⟩
  rw [hj n h1 h2, a]
  by_cases hn : n = l
  · rw [if_pos hn]
    exact ⟨_, rfl, ⟨b.fin, hr, b.ids, b.rune, by
      intro m hm
      cases hm
      exact ⟨hk, hk', fun _ => by omega⟩⟩, by simp [upd]⟩
  · rw [if_neg hn]
    refine ⟨_, rfl, ⟨b.fin, hr, b.ids, b.rune, ?_⟩, fun e => hn (c.1 e)⟩
    intro m hm
    obtain ⟨g1, g2, g3⟩ := b.next m hm
    exact ⟨by omega, by omega, g3⟩

theorem Frag.nn_linked {I J : List Inst} {lo hi e f l k} (h : Frag I lo hi e f l) (hj : Agree I J lo hi l k) : NN J f := by
  obtain ⟨y, h3, h4⟩ := h.nn
  rw [NN, hj f h.f1 h.f2, h3]
  split
  · exact ⟨_, rfl, h4⟩
  · exact ⟨_, rfl, h4⟩

/-- The numbers of a part whose last instruction has been linked. -/
theorem Frag.rank_linked {I J : List Inst} {lo hi e f l k} (h : Frag I lo hi e f l) (hj : Agree I J lo hi l k) :
    ∃ ρ : Nat → Nat, (∀ n, lo ≤ n → n < hi → ρ n < hi - lo) ∧
      ∀ (n : Nat) (x : Inst) m, lo ≤ n → n < hi → J[n]? = some x → x.next = some m → m = k ∨ lo ≤ m ∧ m < hi ∧ ρ m < ρ n := by
  obtain ⟨ρ, r1, r2⟩ := h.rank
  refine ⟨ρ, r1, fun n x m h1 h2 h3 h4 => ?_⟩
  rw [hj n h1 h2] at h3
  obtain ⟨y, y1, y2, _⟩ := h.body n h1 h2
  rw [y1] at h3
  split at h3
  · cases h3; cases h4; exact Or.inl rfl
  · cases h3
    have := y2.next m h4
    exact Or.inr ⟨this.1, this.2.1, r2 n _ m h1 h2 y1 h4⟩

/-- A code made of linked parts. -/
theorem Frag.code_in {I J K : List Inst} {lo hi e f l k lo' hi' l' k'} (h : Frag I lo hi e f l) (hj : Agree I J lo hi l k)
    (hk : Agree J K lo' hi' l' k') (hlo : lo' ≤ lo) (hhi : hi ≤ hi') (hl : l' < lo ∨ hi ≤ l') : Code K e f k := by
  apply h.code
  intro n h1 h2
  rw [hk n (by omega) (by omega), if_neg (by omega), hj n h1 h2]

/-- One instruction. -/
theorem frag_one {I J : List Inst} {e : Re} {x : Inst} (hlen : J[I.length]? = some x) (hn : x.next = none)
    (hx : InstOk J I.length (I.length + 1) I.length x) (hop : x.op ≠ .nop)
    (hc : ∀ (K : List Inst) pc k, K[pc]? = some (upd k x) → Code K e pc k) :
    Frag J I.length (I.length + 1) e I.length I.length := by
  refine ⟨by omega, by omega, by omega, by omega, ⟨x, hlen, hop⟩, ?_, ?_, ?_⟩
  · intro K k hk
    apply hc
    rw [hk _ (by omega) (by omega), if_pos rfl, hlen]
    rfl
  · intro n h1 h2
    have : n = I.length := by omega
    subst this
    exact ⟨x, hlen, hx, by simp [hn]⟩
  · refine ⟨fun _ => 0, fun n h1 h2 => by show 0 < _; omega, fun n y m h1 h2 h3 h4 => ?_⟩
    have : n = I.length := by omega
    subst this
    rw [hlen] at h3; cases h3
    rw [hn] at h4; cases h4

theorem rank_star {I J : List Inst} {lo e f l} (h : Frag I lo I.length e f l)
    (h1 : Agree I J lo I.length l I.length) (h2 : J[I.length]? = some ⟨.or f, none⟩) : Ranked J lo (I.length + 1) := by
  have := h.f1; have := h.f2
  obtain ⟨ρ, r1, r2⟩ := h.rank_linked h1
  refine ⟨fun n => if n < I.length then ρ n + 1 else 0, fun n g1 g2 => ?_, fun n x m g1 g2 g3 g4 => ?_⟩
  · simp only; split
    · have := r1 n g1 (by assumption); omega
    · omega
  · by_cases hn : n = I.length
    · subst hn; rw [h2] at g3; cases g3; cases g4
    · simp only
      rw [if_pos (show n < I.length by omega)]
      rcases r2 n x m g1 (by omega) g3 g4 with rfl | ⟨q1, q2, q3⟩
      · rw [if_neg (by omega)]; omega
      · rw [if_pos q2]; omega

theorem frag_star {I J : List Inst} {lo e f l} (h : Frag I lo I.length e f l)
    (h1 : Agree I J lo I.length l I.length) (h2 : J[I.length]? = some ⟨.or f, none⟩) :
    Frag J lo (I.length + 1) (.star e) I.length I.length := by
  have := h.f1; have := h.f2; have := h.l1; have := h.l2
  refine ⟨by omega, by omega, by omega, by omega, ⟨_, h2, by simp⟩, ?_, ?_, rank_star h h1 h2⟩
  · intro K k hk
    refine ⟨f, ?_, h.code_in h1 hk (by omega) (by omega) (by omega)⟩
    rw [hk _ (by omega) (by omega), if_pos rfl, h2]
    rfl
  · intro n g1 g2
    by_cases hn : n = I.length
    · subst hn
      refine ⟨_, h2, ⟨by simp, ?_, by simp, by simp, by simp⟩, by simp⟩
      intro r hr
      cases hr
      exact ⟨h.f1, by omega, h.nn_linked h1⟩
    · obtain ⟨x, a, b, c⟩ := h.linked h1 (lo' := lo) (hi' := I.length + 1) (by omega) (by omega) (by omega) (by omega) (by omega) n g1 (by omega)
      exact ⟨x, a, b, by simp [hn, c]⟩

theorem frag_plus {I J : List Inst} {lo e f l} (h : Frag I lo I.length e f l)
    (h1 : Agree I J lo I.length l I.length) (h2 : J[I.length]? = some ⟨.or f, none⟩) :
    Frag J lo (I.length + 1) (.plus e) f I.length := by
  have := h.f1; have := h.f2; have := h.l1; have := h.l2
  refine ⟨by omega, by omega, by omega, by omega, h.nn_linked h1, ?_, (frag_star h h1 h2).body, rank_star h h1 h2⟩
  intro K k hk
  refine ⟨I.length, h.code_in h1 hk (by omega) (by omega) (by omega), ?_⟩
  rw [hk _ (by omega) (by omega), if_pos rfl, h2]
  rfl

theorem frag_opt {I J : List Inst} {lo e f l} (h : Frag I lo I.length e f l)
    (h1 : Agree I J lo I.length l (I.length + 1)) (h2 : J[I.length]? = some ⟨.or f, some (I.length + 1)⟩)
    (h3 : J[I.length + 1]? = some ⟨.nop, none⟩) :
    Frag J lo (I.length + 2) (.opt e) I.length (I.length + 1) := by
  have := h.f1; have := h.f2; have := h.l1; have := h.l2
  refine ⟨by omega, by omega, by omega, by omega, ⟨_, h2, by simp⟩, ?_, ?_, ?_⟩
  · intro K k hk
    refine ⟨f, I.length + 1, ?_, h.code_in h1 hk (by omega) (by omega) (by omega), ?_⟩
    · rw [hk _ (by omega) (by omega), if_neg (by omega), h2]
    · rw [hk _ (by omega) (by omega), if_pos rfl, h3]
      rfl
  · intro n g1 g2
    by_cases hn : n = I.length
    · subst hn
      refine ⟨_, h2, ⟨by simp, ?_, by simp, by simp, ?_⟩, by simp⟩
      · intro r hr
        cases hr
        exact ⟨h.f1, by omega, h.nn_linked h1⟩
      · intro m hm
        cases hm
        exact ⟨by omega, by omega, by simp⟩
    · by_cases hn2 : n = I.length + 1
      · subst hn2
        exact ⟨_, h3, ⟨by simp, by simp, by simp, by simp, by simp⟩, by simp⟩
      · obtain ⟨x, a, b, c⟩ := h.linked h1 (lo' := lo) (hi' := I.length + 2) (by omega) (by omega) (by omega) (by omega) (by omega) n g1 (by omega)
        exact ⟨x, a, b, by simp [hn2, c]⟩
  · obtain ⟨ρ, r1, r2⟩ := h.rank_linked h1
    refine ⟨fun n => if n < I.length then ρ n + 2 else if n = I.length then 1 else 0, fun n g1 g2 => ?_, fun n x m g1 g2 g3 g4 => ?_⟩
    · simp only; split
      · have := r1 n g1 (by assumption); omega
      · split <;> omega
    · by_cases hn : n = I.length
      · subst hn; rw [h2] at g3; cases g3; cases g4
        simp
      · by_cases hn2 : n = I.length + 1
        · subst hn2; rw [h3] at g3; cases g3; cases g4
        · simp only
          rw [if_pos (show n < I.length by omega)]
          rcases r2 n x m g1 (by omega) g3 g4 with rfl | ⟨q1, q2, q3⟩
          · rw [if_neg (by omega), if_neg (by omega)]; omega
          · rw [if_pos q2]; omega

theorem frag_grp {I J : List Inst} {lo e f l g} (h : Frag I lo I.length e f l) (hg : 1 ≤ g) (hg' : g < 32)
    (h1 : Agree I J lo I.length l I.length) (h2 : J[I.length]? = some ⟨.rbra g, none⟩)
    (h3 : J[I.length + 1]? = some ⟨.lbra g, some f⟩) :
    Frag J lo (I.length + 2) (.grp g e) (I.length + 1) I.length := by
  have := h.f1; have := h.f2; have := h.l1; have := h.l2
  refine ⟨by omega, by omega, by omega, by omega, ⟨_, h3, by simp⟩, ?_, ?_, ?_⟩
  · intro K k hk
    refine ⟨f, I.length, ?_, h.code_in h1 hk (by omega) (by omega) (by omega), ?_⟩
    · rw [hk _ (by omega) (by omega), if_neg (by omega), h3]
    · rw [hk _ (by omega) (by omega), if_pos rfl, h2]
      rfl
  · intro n g1 g2
    by_cases hn : n = I.length
    · subst hn
      exact ⟨_, h2, ⟨by simp, by simp, by simp; omega, by simp, by simp⟩, by simp⟩
    · by_cases hn2 : n = I.length + 1
      · subst hn2
        refine ⟨_, h3, ⟨by simp, by simp, by simp; omega, by simp, ?_⟩, by simp⟩
        intro m hm
        cases hm
        exact ⟨by omega, by omega, by simp⟩
      · obtain ⟨x, a, b, c⟩ := h.linked h1 (lo' := lo) (hi' := I.length + 2) (by omega) (by omega) (by omega) (by omega) (by omega) n g1 (by omega)
        exact ⟨x, a, b, by simp [hn, c]⟩
  · obtain ⟨ρ, r1, r2⟩ := h.rank_linked h1
    refine ⟨fun n => if n < I.length then ρ n + 1 else if n = I.length then 0 else I.length - lo + 1, fun n g1 g2 => ?_, fun n x m g1 g2 g3 g4 => ?_⟩
    · simp only; split
      · have := r1 n g1 (by assumption); omega
      · split <;> omega
    · by_cases hn : n = I.length
      · subst hn; rw [h2] at g3; cases g3; cases g4
      · by_cases hn2 : n = I.length + 1
        · subst hn2; rw [h3] at g3; cases g3; cases g4
          simp only
          rw [if_pos h.f2, if_neg (by omega), if_neg (by omega)]
          have := r1 f h.f1 h.f2
          omega
        · simp only
          rw [if_pos (show n < I.length by omega)]
          rcases r2 n x m g1 (by omega) g3 g4 with rfl | ⟨q1, q2, q3⟩
          · rw [if_neg (by omega), if_pos rfl]; omega
          · rw [if_pos q2]; omega

theorem frag_cat {I J : List Inst} {lo mid a b f1 l1 f2 l2} (ha : Frag I lo mid a f1 l1) (hb : Frag I mid I.length b f2 l2)
    (h1 : Agree I J lo mid l1 f2) (h2 : ∀ n, mid ≤ n → J[n]? = I[n]?) :
    Frag J lo I.length (.cat a b) f1 l2 := by
  have := ha.f1; have := ha.f2; have := ha.l1; have := ha.l2
  have := hb.f1; have := hb.f2; have := hb.l1; have := hb.l2
  refine ⟨by omega, by omega, by omega, by omega, ha.nn_linked h1, ?_, ?_, ?_⟩
  · intro K k hk
    refine ⟨f2, ha.code_in h1 hk (by omega) (by omega) (by omega), ?_⟩
    apply hb.code
    intro n g1 g2
    rw [hk n (by omega) (by omega), h2 n g1]
  · intro n g1 g2
    by_cases hn : n < mid
    · obtain ⟨x, a, b, c⟩ := ha.linked h1 (lo' := lo) (hi' := I.length) (by omega) (by omega) (by omega) (by omega) (by omega) n g1 (by omega)
      have : n ≠ l2 := by omega
      exact ⟨x, a, b, by simp [this, c]⟩
    · obtain ⟨x, a, b, c⟩ := hb.body n (by omega) g2
      refine ⟨x, by rw [h2 n (by omega)]; exact a, ⟨b.fin, ?_, b.ids, b.rune, ?_⟩, c⟩
      · intro r hr
        obtain ⟨g1, g2, y, g3, g4⟩ := b.right r hr
        exact ⟨by omega, by omega, y, by rw [h2 r g1]; exact g3, g4⟩
      · intro m hm
        obtain ⟨g1, g2, g3⟩ := b.next m hm
        exact ⟨by omega, by omega, g3⟩
  · obtain ⟨ρ, r1, r2⟩ := ha.rank_linked h1
    obtain ⟨σ, s1, s2⟩ := hb.rank
    refine ⟨fun n => if n < mid then ρ n + (I.length - mid) else σ n, fun n g1 g2 => ?_, fun n x m g1 g2 g3 g4 => ?_⟩
    · simp only; split
      · have := r1 n g1 (by assumption); omega
      · have := s1 n (by omega) g2; omega
    · simp only
      by_cases hn : n < mid
      · rw [if_pos hn]
        rcases r2 n x m g1 hn g3 g4 with rfl | ⟨q1, q2, q3⟩
        · rw [if_neg (by omega)]
          have := s1 m (by omega) (by omega); omega
        · rw [if_pos q2]; omega
      · rw [h2 n (by omega)] at g3
        obtain ⟨y, y1, y2, _⟩ := hb.body n (by omega) g2
        rw [y1] at g3; cases g3
        have := y2.next m g4
        rw [if_neg hn, if_neg (by omega)]
        exact s2 n _ m (by omega) g2 y1 g4

theorem frag_alt {I J : List Inst} {lo mid a b f1 l1 f2 l2} (ha : Frag I lo mid a f1 l1) (hb : Frag I mid I.length b f2 l2)
    (h1 : Agree I J lo mid l1 I.length) (h2 : Agree I J mid I.length l2 I.length) (h3 : J[I.length]? = some ⟨.nop, none⟩)
    (h4 : J[I.length + 1]? = some ⟨.or f1, some f2⟩) :
    Frag J lo (I.length + 2) (.alt a b) (I.length + 1) I.length := by
  have := ha.f1; have := ha.f2; have := ha.l1; have := ha.l2
  have := hb.f1; have := hb.f2; have := hb.l1; have := hb.l2
  refine ⟨by omega, by omega, by omega, by omega, ⟨_, h4, by simp⟩, ?_, ?_, ?_⟩
  · intro K k hk
    refine ⟨f1, f2, I.length, ?_, ha.code_in h1 hk (by omega) (by omega) (by omega), hb.code_in h2 hk (by omega) (by omega) (by omega), ?_⟩
    · rw [hk _ (by omega) (by omega), if_neg (by omega), h4]
    · rw [hk _ (by omega) (by omega), if_pos rfl, h3]
      rfl
  · intro n g1 g2
    by_cases hn : n = I.length
    · subst hn
      exact ⟨_, h3, ⟨by simp, by simp, by simp, by simp, by simp⟩, by simp⟩
    · by_cases hn2 : n = I.length + 1
      · subst hn2
        refine ⟨_, h4, ⟨by simp, ?_, by simp, by simp, ?_⟩, by simp⟩
        · intro r hr
          cases hr
          exact ⟨by omega, by omega, ha.nn_linked h1⟩
        · intro m hm
          cases hm
          exact ⟨by omega, by omega, by simp⟩
      · by_cases hm : n < mid
        · obtain ⟨x, a, b, c⟩ := ha.linked h1 (lo' := lo) (hi' := I.length + 2) (by omega) (by omega) (by omega) (by omega) (by omega) n g1 (by omega)
          exact ⟨x, a, b, by simp [hn, c]⟩
        · obtain ⟨x, a, b, c⟩ := hb.linked h2 (lo' := lo) (hi' := I.length + 2) (by omega) (by omega) (by omega) (by omega) (by omega) n (by omega) (by omega)
          exact ⟨x, a, b, by simp [hn, c]⟩
  · obtain ⟨ρ, r1, r2⟩ := ha.rank_linked h1
    obtain ⟨σ, s1, s2⟩ := hb.rank_linked h2
    refine ⟨fun n => if n < mid then ρ n + 1 else if n < I.length then σ n + 1 else if n = I.length then 0 else I.length - lo + 1,
      fun n g1 g2 => ?_, fun n x m g1 g2 g3 g4 => ?_⟩
    · simp only; split
      · have := r1 n g1 (by assumption); omega
      · split
        · have := s1 n (by omega) (by assumption); omega
        · split <;> omega
    · by_cases hn : n = I.length
      · subst hn; rw [h3] at g3; cases g3; cases g4
      · by_cases hn2 : n = I.length + 1
        · subst hn2; rw [h4] at g3; cases g3; cases g4
          simp only
          rw [if_neg (by omega), if_pos hb.f2, if_neg (by omega), if_neg (by omega), if_neg (by omega)]
          have := s1 f2 hb.f1 hb.f2
          omega
        · simp only
          by_cases hm : n < mid
          · rw [if_pos hm]
            rcases r2 n x m g1 hm g3 g4 with rfl | ⟨q1, q2, q3⟩
            · rw [if_neg (by omega), if_neg (by omega), if_pos rfl]; omega
            · rw [if_pos q2]; omega
          · rw [if_neg hm, if_pos (show n < I.length by omega)]
            rcases s2 n x m (by omega) (by omega) g3 g4 with rfl | ⟨q1, q2, q3⟩
            · rw [if_neg (by omega), if_neg (by omega), if_pos rfl]; omega
            · rw [if_neg (by omega), if_pos q2]; omega

end Che.Proofs.Regexp9
