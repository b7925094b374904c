import Verif.Model.Prog.Regexp9
import Verif.Spec.Prog.Regexp9

/-!
Programs and the trees they were made from: a run of the program and a match of the tree are
the same.
-/
namespace Che.Proofs.Regexp9
open Che.Prog.Regexp9 Che.Spec.Regexp9

/-- Whether an instruction takes a rune. -/
def takes : Op → Nat → Bool
  | .rune c, r => decide (c = r)
  | .any, r => decide (r ≠ 10)
  | .anynl, _ => true
  | .cclass s, r => inSpans s r
  | .ncclass s, r => ! inSpans s r
  | _, _ => false

/-- Whether an instruction is for one character. -/
def single : Op → Bool
  | .rune _ | .any | .anynl | .cclass _ | .ncclass _ => true
  | _ => false

/-- A place of a run: the instruction, the place in the text, the groups. -/
abbrev Conf := Nat × Nat × Caps

/-- One step of a run; `b` says whether `NOP` is passed. -/
inductive Step (b : Bool) (I : List Inst) (t : Text) : Conf → Conf → Prop
  | take {pc x r k i j c} : I[pc]? = some x → takes x.op r = true → x.next = some k → t.chr i r j → Step b I t (pc, i, c) (k, j, c)
  | lbra {pc x k i c} (id : Nat) : I[pc]? = some x → x.op = .lbra id → x.next = some k → Step b I t (pc, i, c) (k, i, c.opened id i)
  | rbra {pc x k i c} (id : Nat) : I[pc]? = some x → x.op = .rbra id → x.next = some k → Step b I t (pc, i, c) (k, i, c.closed id i)
  | bol {pc x k i c} : I[pc]? = some x → x.op = .bol → x.next = some k → t.bol i → Step b I t (pc, i, c) (k, i, c)
  | eol {pc x k i c} : I[pc]? = some x → x.op = .eol → x.next = some k → t.eol i → Step b I t (pc, i, c) (k, i, c)
  | orL {pc x k i c} (right : Nat) : I[pc]? = some x → x.op = .or right → x.next = some k → Step b I t (pc, i, c) (k, i, c)
  | orR {pc x i c} (right : Nat) : I[pc]? = some x → x.op = .or right → Step b I t (pc, i, c) (right, i, c)
  | nop {pc x k i c} : b = true → I[pc]? = some x → x.op = .nop → x.next = some k → Step b I t (pc, i, c) (k, i, c)

/-- Some number of steps. -/
inductive Steps (b : Bool) (I : List Inst) (t : Text) : Nat → Conf → Conf → Prop
  | refl : Steps b I t 0 x x
  | head : Step b I t x y → Steps b I t n y z → Steps b I t (n + 1) x z

theorem Steps.trans {b I t n m x y z} (h : Steps b I t n x y) (h2 : Steps b I t m y z) : Steps b I t (n + m) x z := by
  induction h with
  | refl => simpa using h2
  | head s _ ih => have := Steps.head s (ih h2); rwa [Nat.add_right_comm] at this

theorem Steps.one {b I t x y} (h : Step b I t x y) : Steps b I t 1 x y := .head h .refl

/-- The place is the end of the program. -/
def AtFin (I : List Inst) (pc : Nat) : Prop := ∃ x, I[pc]? = some x ∧ x.op = .fin

/-- The code of a tree: where it begins, and the instruction that follows it. -/
def Code (I : List Inst) : Re → Nat → Nat → Prop
  | .eps, pc, k => pc = k
  | .one a, pc, k => ∃ o, I[pc]? = some ⟨o, some k⟩ ∧ single o = true ∧ ∀ r, takes o r = true ↔ a.has r
  | .bol, pc, k => I[pc]? = some ⟨.bol, some k⟩
  | .eol, pc, k => I[pc]? = some ⟨.eol, some k⟩
  | .grp id e, pc, k => ∃ f l, I[pc]? = some ⟨.lbra id, some f⟩ ∧ Code I e f l ∧ I[l]? = some ⟨.rbra id, some k⟩
  | .alt a b, pc, k => ∃ f1 f2 n, I[pc]? = some ⟨.or f1, some f2⟩ ∧ Code I a f1 n ∧ Code I b f2 n ∧ I[n]? = some ⟨.nop, some k⟩
  | .cat a b, pc, k => ∃ m, Code I a pc m ∧ Code I b m k
  | .star a, pc, k => ∃ f, I[pc]? = some ⟨.or f, some k⟩ ∧ Code I a f pc
  | .plus a, pc, k => ∃ o, Code I a pc o ∧ I[o]? = some ⟨.or pc, some k⟩
  | .opt a, pc, k => ∃ f n, I[pc]? = some ⟨.or f, some n⟩ ∧ Code I a f n ∧ I[n]? = some ⟨.nop, some k⟩

/-- A match is a run. -/
theorem run_of_match {I t e i j c c'} (h : M t e i j c c') : ∀ {pc k}, Code I e pc k →
    ∃ n, Steps true I t n (pc, i, c) (k, j, c') := by
  induction h with
  | eps => intro pc k hc; cases hc; exact ⟨0, .refl⟩
  | one ha hs =>
    rintro pc k ⟨o, hi, _, ho⟩
    exact ⟨1, .one (.take hi ((ho _).2 ha) rfl hs)⟩
  | bol hb => intro pc k hc; exact ⟨1, .one (.bol hc rfl rfl hb)⟩
  | eol hb => intro pc k hc; exact ⟨1, .one (.eol hc rfl rfl hb)⟩
  | grp _ ih =>
    rintro pc k ⟨f, l, h1, h2, h3⟩
    obtain ⟨n, hn⟩ := ih h2
    exact ⟨_, (Steps.head (.lbra _ h1 rfl rfl) hn).trans (.one (.rbra _ h3 rfl rfl))⟩
  | altL _ ih =>
    rintro pc k ⟨f1, f2, n, h1, h2, h3, h4⟩
    obtain ⟨m, hm⟩ := ih h2
    exact ⟨_, (Steps.head (.orR _ h1 rfl) hm).trans (.one (.nop rfl h4 rfl rfl))⟩
  | altR _ ih =>
    rintro pc k ⟨f1, f2, n, h1, h2, h3, h4⟩
    obtain ⟨m, hm⟩ := ih h3
    exact ⟨_, (Steps.head (.orL _ h1 rfl rfl) hm).trans (.one (.nop rfl h4 rfl rfl))⟩
  | cat _ _ ih1 ih2 =>
    rintro pc k ⟨m, h1, h2⟩
    obtain ⟨n1, hn1⟩ := ih1 h1
    obtain ⟨n2, hn2⟩ := ih2 h2
    exact ⟨_, hn1.trans hn2⟩
  | starNil =>
    rintro pc k ⟨f, h1, h2⟩
    exact ⟨1, .one (.orL _ h1 rfl rfl)⟩
  | starCons _ _ ih1 ih2 =>
    rintro pc k ⟨f, h1, h2⟩
    obtain ⟨n1, hn1⟩ := ih1 h2
    obtain ⟨n2, hn2⟩ := ih2 ⟨f, h1, h2⟩
    exact ⟨_, (Steps.head (.orR _ h1 rfl) hn1).trans hn2⟩
  | plus _ _ ih1 ih2 =>
    rintro pc k ⟨o, h1, h2⟩
    obtain ⟨n1, hn1⟩ := ih1 h1
    obtain ⟨n2, hn2⟩ := ih2 ⟨_, h2, h1⟩
    exact ⟨_, hn1.trans hn2⟩
  | optNil =>
    rintro pc k ⟨f, n, h1, h2, h3⟩
    exact ⟨_, Steps.head (.orL _ h1 rfl rfl) (.one (.nop rfl h3 rfl rfl))⟩
  | optSome _ ih =>
    rintro pc k ⟨f, n, h1, h2, h3⟩
    obtain ⟨m, hm⟩ := ih h2
    exact ⟨_, (Steps.head (.orR _ h1 rfl) hm).trans (.one (.nop rfl h3 rfl rfl))⟩

/-- A step from a known instruction. -/
theorem step_inv {b I t pc i c y x} (h : Step b I t (pc, i, c) y) (hx : I[pc]? = some x) :
    match x.op with
    | .lbra id => ∃ k, x.next = some k ∧ y = (k, i, c.opened id i)
    | .rbra id => ∃ k, x.next = some k ∧ y = (k, i, c.closed id i)
    | .bol => ∃ k, x.next = some k ∧ y = (k, i, c) ∧ t.bol i
    | .eol => ∃ k, x.next = some k ∧ y = (k, i, c) ∧ t.eol i
    | .or right => y = (right, i, c) ∨ ∃ k, x.next = some k ∧ y = (k, i, c)
    | .nop => b = true ∧ ∃ k, x.next = some k ∧ y = (k, i, c)
    | .fin => False
    | o => ∃ k r j, x.next = some k ∧ takes o r = true ∧ t.chr i r j ∧ y = (k, j, c) := by
  cases h with
  | take h1 h2 h3 h4 =>
    rw [hx] at h1; cases h1
    obtain ⟨o, nx⟩ := x
    cases o <;> simp_all [takes]
    all_goals first | exact ⟨_, h2, h4⟩ | exact ⟨_, h2, _, h4, rfl⟩ | exact ⟨_, _, h4⟩ | exact ⟨_, h4⟩ | trace_state
  | lbra id h1 h2 h3 => rw [hx] at h1; cases h1; rw [h2]; exact ⟨_, h3, rfl⟩
  | rbra id h1 h2 h3 => rw [hx] at h1; cases h1; rw [h2]; exact ⟨_, h3, rfl⟩
  | bol h1 h2 h3 h4 => rw [hx] at h1; cases h1; rw [h2]; exact ⟨_, h3, rfl, h4⟩
  | eol h1 h2 h3 h4 => rw [hx] at h1; cases h1; rw [h2]; exact ⟨_, h3, rfl, h4⟩
  | orL r h1 h2 h3 => rw [hx] at h1; cases h1; rw [h2]; exact .inr ⟨_, h3, rfl⟩
  | orR r h1 h2 => rw [hx] at h1; cases h1; rw [h2]; exact .inl rfl
  | nop h0 h1 h2 h3 => rw [hx] at h1; cases h1; rw [h2]; exact ⟨h0, _, h3, rfl⟩

/-- Steps from a place that is not the end. -/
theorem steps_inv {b I t n x y pc i c} (h : Steps b I t n x y) (hx : x = (pc, i, c)) (hf : AtFin I y.1) (hn : ¬ AtFin I pc) :
    ∃ m z, n = m + 1 ∧ Step b I t (pc, i, c) z ∧ Steps b I t m z y := by
  cases h with
  | refl => subst hx; exact absurd hf hn
  | head s h => subst hx; exact ⟨_, _, rfl, s, h⟩

theorem not_fin {I : List Inst} {pc o k} (h : I[pc]? = some ⟨o, k⟩) (ho : o ≠ .fin) : ¬ AtFin I pc := by
  rintro ⟨x, h1, h2⟩
  rw [h] at h1; cases h1; exact ho h2

/-- The first step of a run from a known instruction. -/
theorem steps_from {b I t n y pc i c x} (h : Steps b I t n (pc, i, c) y) (hf : AtFin I y.1) (hx : I[pc]? = some x)
    (ho : x.op ≠ .fin) : ∃ m z, n = m + 1 ∧ Step b I t (pc, i, c) z ∧ Steps b I t m z y :=
  steps_inv h rfl hf (not_fin (o := x.op) (k := x.next) hx ho)

/-- The step of an instruction for one character. -/
theorem step_single {b I t pc i c y x} (h : Step b I t (pc, i, c) y) (hx : I[pc]? = some x) (ho : single x.op = true) :
    ∃ k r j, x.next = some k ∧ takes x.op r = true ∧ t.chr i r j ∧ y = (k, j, c) := by
  have := step_inv h hx
  obtain ⟨o, nx⟩ := x
  cases o <;> simp_all [single]

theorem single_not_fin {o : Op} (h : single o = true) : o ≠ .fin := by rintro rfl; simp [single] at h

/-- A run that begins with the code of a tree begins with a match of the tree. -/
theorem match_of_run {I t} (e : Re) : ∀ {n pc k i c y}, Code I e pc k → Steps true I t n (pc, i, c) y → AtFin I y.1 →
    ∃ m j c', m ≤ n ∧ M t e i j c c' ∧ Steps true I t m (k, j, c') y := by
  induction e with
  | eps => intro n pc k i c y hc hs hf; cases hc; exact ⟨n, i, c, Nat.le_refl _, .eps, hs⟩
  | one a =>
    rintro n pc k i c y ⟨o, hi, h0, ho⟩ hs hf
    obtain ⟨m, z, rfl, h1, h2⟩ := steps_from hs hf hi (single_not_fin h0)
    obtain ⟨k', r, j, e1, e2, e3, rfl⟩ := step_single h1 hi h0
    cases e1
    exact ⟨m, j, c, by omega, .one ((ho r).1 e2) e3, h2⟩
  | bol =>
    intro n pc k i c y hc hs hf
    obtain ⟨m, z, rfl, h1, h2⟩ := steps_from hs hf hc (by simp)
    obtain ⟨k', e1, rfl, e3⟩ := step_inv h1 hc
    cases e1
    exact ⟨m, i, c, by omega, .bol e3, h2⟩
  | eol =>
    intro n pc k i c y hc hs hf
    obtain ⟨m, z, rfl, h1, h2⟩ := steps_from hs hf hc (by simp)
    obtain ⟨k', e1, rfl, e3⟩ := step_inv h1 hc
    cases e1
    exact ⟨m, i, c, by omega, .eol e3, h2⟩
  | grp g e ih =>
    rintro n pc k i c y ⟨f, l, hb, he, hr⟩ hs hf
    obtain ⟨m, z, rfl, h1, h2⟩ := steps_from hs hf hb (by simp)
    obtain ⟨k', e1, rfl⟩ := step_inv h1 hb
    cases e1
    obtain ⟨m2, j, c', l2, hm, h3⟩ := ih he h2 hf
    obtain ⟨m3, z, rfl, h4, h5⟩ := steps_from h3 hf hr (by simp)
    obtain ⟨k', e1, rfl⟩ := step_inv h4 hr
    cases e1
    exact ⟨m3, j, _, by omega, .grp hm, h5⟩
  | alt a b iha ihb =>
    rintro n pc k i c y ⟨f1, f2, q, hb, ha, hb', hr⟩ hs hf
    obtain ⟨m, z, rfl, h1, h2⟩ := steps_from hs hf hb (by simp)
    have key : ∃ m2 j c', m2 ≤ m ∧ M t (.alt a b) i j c c' ∧ Steps true I t m2 (q, j, c') y := by
      rcases step_inv h1 hb with rfl | ⟨k', e1, rfl⟩
      · obtain ⟨m2, j, c', l2, hm, h3⟩ := iha ha h2 hf
        exact ⟨m2, j, c', l2, .altL hm, h3⟩
      · cases e1
        obtain ⟨m2, j, c', l2, hm, h3⟩ := ihb hb' h2 hf
        exact ⟨m2, j, c', l2, .altR hm, h3⟩
    obtain ⟨m2, j, c', l2, hm, h3⟩ := key
    obtain ⟨m3, z, rfl, h4, h5⟩ := steps_from h3 hf hr (by simp)
    obtain ⟨_, k', e1, rfl⟩ := step_inv h4 hr
    cases e1
    exact ⟨m3, j, _, by omega, hm, h5⟩
  | cat a b iha ihb =>
    rintro n pc k i c y ⟨q, ha, hb⟩ hs hf
    obtain ⟨m, j, c', l, hm, h⟩ := iha ha hs hf
    obtain ⟨m2, j2, c2, l2, hm2, h2⟩ := ihb hb h hf
    exact ⟨m2, j2, c2, by omega, .cat hm hm2, h2⟩
  | star a ih =>
    intro n
    induction n using Nat.strongRecOn with
    | ind n ihn =>
      rintro pc k i c y ⟨f, hb, ha⟩ hs hf
      obtain ⟨m, z, rfl, h1, h2⟩ := steps_from hs hf hb (by simp)
      rcases step_inv h1 hb with rfl | ⟨k', e1, rfl⟩
      · obtain ⟨m2, j, c', l2, hm, h3⟩ := ih ha h2 hf
        obtain ⟨m3, j3, c3, l3, hm3, h4⟩ := ihn m2 (by omega) ⟨f, hb, ha⟩ h3 hf
        exact ⟨m3, j3, c3, by omega, .starCons hm hm3, h4⟩
      · cases e1
        exact ⟨m, i, c, by omega, .starNil, h2⟩
  | plus a ih =>
    intro n
    induction n using Nat.strongRecOn with
    | ind n ihn =>
      rintro pc k i c y ⟨o, ha, hb⟩ hs hf
      obtain ⟨m, j, c', l, hm, h⟩ := ih ha hs hf
      obtain ⟨m2, z, rfl, h1, h2⟩ := steps_from h hf hb (by simp)
      rcases step_inv h1 hb with rfl | ⟨k', e1, rfl⟩
      · obtain ⟨m3, j3, c3, l3, hm3, h4⟩ := ihn m2 (by omega) ⟨o, ha, hb⟩ h2 hf
        refine ⟨m3, j3, c3, by omega, .plus hm ?_, h4⟩
        cases hm3 with
        | plus x y => exact .starCons x y
      · cases e1
        exact ⟨m2, j, c', by omega, .plus hm .starNil, h2⟩
  | opt a ih =>
    rintro n pc k i c y ⟨f, q, hb, ha, hr⟩ hs hf
    obtain ⟨m, z, rfl, h1, h2⟩ := steps_from hs hf hb (by simp)
    have key : ∃ m2 j c', m2 ≤ m ∧ M t (.opt a) i j c c' ∧ Steps true I t m2 (q, j, c') y := by
      rcases step_inv h1 hb with rfl | ⟨k', e1, rfl⟩
      · obtain ⟨m2, j, c', l2, hm, h3⟩ := ih ha h2 hf
        exact ⟨m2, j, c', l2, .optSome hm, h3⟩
      · cases e1
        exact ⟨m, i, c, Nat.le_refl _, .optNil, h2⟩
    obtain ⟨m2, j, c', l2, hm, h3⟩ := key
    obtain ⟨m3, z, rfl, h4, h5⟩ := steps_from h3 hf hr (by simp)
    obtain ⟨_, k', e1, rfl⟩ := step_inv h4 hr
    cases e1
    exact ⟨m3, j, _, by omega, hm, h5⟩

/-- The end of a program has no steps. -/
theorem steps_fin {b I t n pc i c y} (h : Steps b I t n (pc, i, c) y) (hf : AtFin I pc) : y = (pc, i, c) := by
  cases h with
  | refl => rfl
  | head s _ =>
    obtain ⟨x, h1, h2⟩ := hf
    have := step_inv s h1
    rw [h2] at this
    exact this.elim

/-- Runs of a whole program and matches. -/
theorem run_iff {I t e pc k i j c c'} (hc : Code I e pc k) (hk : AtFin I k) :
    (∃ n q, AtFin I q ∧ Steps true I t n (pc, i, c) (q, j, c')) ↔ M t e i j c c' := by
  constructor
  · rintro ⟨n, q, hq, h⟩
    obtain ⟨m, j2, c2, _, hm, h2⟩ := match_of_run e hc h hq
    cases steps_fin h2 hk
    exact hm
  · intro h
    obtain ⟨n, hn⟩ := run_of_match h hc
    exact ⟨n, k, hk, hn⟩

/-! ## Leaving out `NOP` -/

/-- Where a chain of `NOP` leads. -/
inductive Leads (I : List Inst) : Nat → Nat → Prop
  | stop {p x} : I[p]? = some x → x.op ≠ .nop → Leads I p p
  | skip {p x q r} : I[p]? = some x → x.op = .nop → x.next = some q → Leads I q r → Leads I p r

/-- `J` is `I` with all `NOP` skipped. -/
structure Skipped (I J : List Inst) : Prop where
  op : ∀ p : Nat, (J[p]?).map (·.op) = (I[p]?).map (·.op)
  next : ∀ (p : Nat) (x : Inst) (k : Nat), I[p]? = some x → x.op ≠ .fin → x.next = some k → ∃ q, Leads I k q ∧ J[p]? = some ⟨x.op, some q⟩
  none : ∀ (p : Nat) (x : Inst), I[p]? = some x → x.op ≠ .fin → x.next = .none → False
  right : ∀ (p : Nat) (x : Inst) (r : Nat), I[p]? = some x → x.op = .or r → ∃ y, I[r]? = some y ∧ y.op ≠ .nop

theorem leads_unique {I p q r} (h : Leads I p q) : Leads I p r → q = r := by
  induction h with
  | stop h1 h2 =>
    intro h; cases h with
    | stop => rfl
    | skip h3 h4 => rw [h1] at h3; cases h3; exact absurd h4 h2
  | skip h1 h2 h3 _ ih =>
    intro h; cases h with
    | stop h4 h5 => rw [h1] at h4; cases h4; exact absurd h2 h5
    | skip h4 h5 h6 h7 => rw [h1] at h4; cases h4; rw [h3] at h6; cases h6; exact ih h7

theorem leads_run {I t p q i c} (h : Leads I p q) : ∃ n, Steps true I t n (p, i, c) (q, i, c) := by
  induction h with
  | stop => exact ⟨0, .refl⟩
  | skip h1 h2 h3 _ ih =>
    obtain ⟨n, hn⟩ := ih
    exact ⟨_, .head (.nop rfl h1 h2 h3) hn⟩

theorem skipped_fin {I J} (h : Skipped I J) {p} : AtFin J p ↔ AtFin I p := by
  have := h.op p
  constructor
  · rintro ⟨x, h1, h2⟩
    rw [h1] at this
    cases hi : I[p]? with
    | none => rw [hi] at this; simp at this
    | some y => rw [hi] at this; simp at this; exact ⟨y, hi, this ▸ h2⟩
  · rintro ⟨x, h1, h2⟩
    rw [h1] at this
    cases hi : J[p]? with
    | none => rw [hi] at this; simp at this
    | some y => rw [hi] at this; simp at this; exact ⟨y, hi, this ▸ h2⟩

/-- Runs of the two programs. -/
theorem skipped_of {I J t} (h : Skipped I J) {n x y} (hs : Steps true I t n x y) (hf : AtFin I y.1) :
    ∀ {q}, Leads I x.1 q → ∃ m, Steps false J t m (q, x.2) y := by
  induction hs with
  | refl =>
    intro q hl
    obtain ⟨z, h1, h2⟩ := hf
    cases hl with
    | stop => exact ⟨0, .refl⟩
    | skip h3 h4 => rw [h1] at h3; cases h3; rw [h2] at h4; cases h4
  | head s _ ih =>
    intro q hl
    have ih := fun {q} => @ih hf q
    cases s with
    | take h1 h2 h3 h4 =>
      cases hl with
      | skip h5 h6 => rw [h1] at h5; cases h5; rw [h6] at h2; simp [takes] at h2
      | stop h5 h6 =>
        obtain ⟨q, l, hj⟩ := h.next _ _ _ h1 (by rintro e; rw [e] at h2; simp [takes] at h2) h3
        obtain ⟨m, hm⟩ := ih l
        exact ⟨_, .head (.take hj h2 rfl h4) hm⟩
    | lbra g h1 h2 h3 =>
      cases hl with
      | skip h5 h6 => rw [h1] at h5; cases h5; rw [h6] at h2; cases h2
      | stop h5 h6 =>
        obtain ⟨q, l, hj⟩ := h.next _ _ _ h1 (by rw [h2]; simp) h3
        obtain ⟨m, hm⟩ := ih l
        exact ⟨_, .head (.lbra g hj h2 rfl) hm⟩
    | rbra g h1 h2 h3 =>
      cases hl with
      | skip h5 h6 => rw [h1] at h5; cases h5; rw [h6] at h2; cases h2
      | stop h5 h6 =>
        obtain ⟨q, l, hj⟩ := h.next _ _ _ h1 (by rw [h2]; simp) h3
        obtain ⟨m, hm⟩ := ih l
        exact ⟨_, .head (.rbra g hj h2 rfl) hm⟩
    | bol h1 h2 h3 h4 =>
      cases hl with
      | skip h5 h6 => rw [h1] at h5; cases h5; rw [h6] at h2; cases h2
      | stop h5 h6 =>
        obtain ⟨q, l, hj⟩ := h.next _ _ _ h1 (by rw [h2]; simp) h3
        obtain ⟨m, hm⟩ := ih l
        exact ⟨_, .head (.bol hj h2 rfl h4) hm⟩
    | eol h1 h2 h3 h4 =>
      cases hl with
      | skip h5 h6 => rw [h1] at h5; cases h5; rw [h6] at h2; cases h2
      | stop h5 h6 =>
        obtain ⟨q, l, hj⟩ := h.next _ _ _ h1 (by rw [h2]; simp) h3
        obtain ⟨m, hm⟩ := ih l
        exact ⟨_, .head (.eol hj h2 rfl h4) hm⟩
    | orL g h1 h2 h3 =>
      cases hl with
      | skip h5 h6 => rw [h1] at h5; cases h5; rw [h6] at h2; cases h2
      | stop h5 h6 =>
        obtain ⟨q, l, hj⟩ := h.next _ _ _ h1 (by rw [h2]; simp) h3
        obtain ⟨m, hm⟩ := ih l
        exact ⟨_, .head (.orL g hj h2 rfl) hm⟩
    | @orR _ x _ _ g h1 h2 =>
      cases hl with
      | skip h5 h6 => rw [h1] at h5; cases h5; rw [h6] at h2; cases h2
      | stop h5 h6 =>
        obtain ⟨y, e1, e2⟩ := h.right _ _ _ h1 h2
        obtain ⟨m, hm⟩ := ih (.stop e1 e2)
        cases hx : x.next with
        | none => exact (h.none _ _ h1 (by rw [h2]; simp) hx).elim
        | some k =>
          obtain ⟨q, l, hj⟩ := h.next _ _ _ h1 (by rw [h2]; simp) hx
          exact ⟨_, .head (.orR g hj h2) hm⟩
    | nop h0 h1 h2 h3 =>
      cases hl with
      | stop h5 h6 => rw [h1] at h5; cases h5; exact absurd h2 h6
      | skip h5 h6 h7 h8 =>
        rw [h1] at h5; cases h5; rw [h3] at h7; cases h7
        exact ih h8

theorem leads_end {I p q} (h : Leads I p q) : ∃ x, I[q]? = some x ∧ x.op ≠ .nop := by
  induction h with
  | stop h1 h2 => exact ⟨_, h1, h2⟩
  | skip _ _ _ _ ih => exact ih

/-- What stands in the two programs. -/
theorem skipped_inst {I J} (h : Skipped I J) {p : Nat} {y : Inst} (hy : J[p]? = some y) (ho : y.op ≠ .fin) :
    ∃ x k q, I[p]? = some x ∧ y.op = x.op ∧ x.next = some k ∧ Leads I k q ∧ y.next = some q := by
  have := h.op p
  rw [hy] at this
  cases hi : I[p]? with
  | none => rw [hi] at this; simp at this
  | some x =>
    rw [hi] at this; simp at this
    cases hx : x.next with
    | none => exact (h.none _ _ hi (this ▸ ho) hx).elim
    | some k =>
      obtain ⟨q, l, hj⟩ := h.next _ _ _ hi (this ▸ ho) hx
      rw [hy] at hj; cases hj
      exact ⟨x, k, q, rfl, this, hx, l, rfl⟩

theorem skipped_to {I J t} (h : Skipped I J) {n x y} (hs : Steps false J t n x y) :
    ∃ m, Steps true I t m x y := by
  induction hs with
  | refl => exact ⟨0, .refl⟩
  | head s _ ih =>
    obtain ⟨m, ih⟩ := ih
    cases s with
    | take h1 h2 h3 h4 =>
      obtain ⟨x, k, q, e1, e2, e3, l, e4⟩ := skipped_inst h h1 (by rintro e; rw [e] at h2; simp [takes] at h2)
      rw [h3] at e4; cases e4
      obtain ⟨m2, hm⟩ := leads_run l
      exact ⟨_, .head (.take e1 (e2 ▸ h2) e3 h4) (hm.trans ih)⟩
    | lbra g h1 h2 h3 =>
      obtain ⟨x, k, q, e1, e2, e3, l, e4⟩ := skipped_inst h h1 (by rw [h2]; simp)
      rw [h3] at e4; cases e4
      obtain ⟨m2, hm⟩ := leads_run l
      exact ⟨_, .head (.lbra g e1 (e2 ▸ h2) e3) (hm.trans ih)⟩
    | rbra g h1 h2 h3 =>
      obtain ⟨x, k, q, e1, e2, e3, l, e4⟩ := skipped_inst h h1 (by rw [h2]; simp)
      rw [h3] at e4; cases e4
      obtain ⟨m2, hm⟩ := leads_run l
      exact ⟨_, .head (.rbra g e1 (e2 ▸ h2) e3) (hm.trans ih)⟩
    | bol h1 h2 h3 h4 =>
      obtain ⟨x, k, q, e1, e2, e3, l, e4⟩ := skipped_inst h h1 (by rw [h2]; simp)
      rw [h3] at e4; cases e4
      obtain ⟨m2, hm⟩ := leads_run l
      exact ⟨_, .head (.bol e1 (e2 ▸ h2) e3 h4) (hm.trans ih)⟩
    | eol h1 h2 h3 h4 =>
      obtain ⟨x, k, q, e1, e2, e3, l, e4⟩ := skipped_inst h h1 (by rw [h2]; simp)
      rw [h3] at e4; cases e4
      obtain ⟨m2, hm⟩ := leads_run l
      exact ⟨_, .head (.eol e1 (e2 ▸ h2) e3 h4) (hm.trans ih)⟩
    | orL g h1 h2 h3 =>
      obtain ⟨x, k, q, e1, e2, e3, l, e4⟩ := skipped_inst h h1 (by rw [h2]; simp)
      rw [h3] at e4; cases e4
      obtain ⟨m2, hm⟩ := leads_run l
      exact ⟨_, .head (.orL g e1 (e2 ▸ h2) e3) (hm.trans ih)⟩
    | orR g h1 h2 =>
      obtain ⟨x, k, q, e1, e2, e3, l, e4⟩ := skipped_inst h h1 (by rw [h2]; simp)
      exact ⟨_, .head (.orR g e1 (e2 ▸ h2)) ih⟩
    | nop h0 => cases h0

/-- Runs of a program without `NOP` and matches. -/
theorem skipped_run_iff {I J t e pc k i j c c'} (h : Skipped I J) (hc : Code I e pc k) (hk : AtFin I k)
    (hp : ∃ x, I[pc]? = some x ∧ x.op ≠ .nop) :
    (∃ n q, AtFin J q ∧ Steps false J t n (pc, i, c) (q, j, c')) ↔ M t e i j c c' := by
  rw [← run_iff hc hk]
  constructor
  · rintro ⟨n, q, hq, hs⟩
    obtain ⟨m, hm⟩ := skipped_to h hs
    exact ⟨m, q, (skipped_fin h).1 hq, hm⟩
  · rintro ⟨n, q, hq, hs⟩
    obtain ⟨x, h1, h2⟩ := hp
    obtain ⟨m, hm⟩ := skipped_of h hs hq (.stop h1 h2)
    exact ⟨m, q, (skipped_fin h).2 hq, hm⟩

end Che.Proofs.Regexp9
