import Verif.Proofs.Prog.Regexp9Comp

/-!
The end of the compiler, and the optimiser.
-/
namespace Che.Proofs.Regexp9
open Che Che.Lib Che.Prog.Regexp9 Che.Spec.Regexp9

/-- A program before it is optimised: `n` instructions and the end. -/
structure Whole (J : List Inst) (n : Nat) : Prop where
  body : ∀ p, p < n → ∃ x, J[p]? = some x ∧ InstOk J 0 (n + 1) p x ∧ x.next ≠ none
  fin : J[n]? = some ⟨.fin, none⟩
  len : J.length = n + 1
  rank : Ranked J 0 (n + 1)

/-- A program of which a part may be optimised. -/
structure Partly (J K : List Inst) (n k : Nat) : Prop where
  body : ∀ p, p < n → ∃ x m q, J[p]? = some x ∧ x.next = some m ∧ K[p]? = some ⟨x.op, some q⟩ ∧ (Leads J m q ∨ (k ≤ p ∧ q = m))
  fin : K[n]? = some ⟨.fin, none⟩
  len : K.length = n + 1

theorem leads_le {J n} (hw : Whole J n) {p q} (h : Leads J p q) : p ≤ n → p ≤ q ∧ q ≤ n := by
  induction h with
  | stop => omega
  | @skip p x k q h1 h2 h3 _ ih =>
    intro hp
    rcases Nat.lt_or_ge p n with hlt | hge
    · obtain ⟨x', h4, h5, _⟩ := hw.body p hlt
      rw [h1] at h4; cases h4
      have := h5.next k h3
      have := this.2.2 h2
      have := ih (by omega)
      omega
    · obtain rfl : p = n := by omega
      rw [hw.fin] at h1; cases h1; cases h2

theorem leads_trans {J p q r} (h : Leads J p q) (h2 : Leads J q r) : Leads J p r := by
  induction h with
  | stop => exact h2
  | skip a b c _ ih => exact .skip a b c (ih h2)

theorem skipNops_spec {J K n k} (hw : Whole J n) (hp : Partly J K n k) : ∀ (fuel i : Nat), i ≤ n → n - i < fuel →
    ∃ t, skipNops K fuel i = .ok t ∧ Leads J i t := by
  intro fuel
  induction fuel with
  | zero => intro i _ h; omega
  | succ f ih =>
    intro i hi hf
    rcases Nat.lt_or_ge i n with hlt | hge
    · obtain ⟨x, m, q, h1, h2, h3, h4⟩ := hp.body i hlt
      obtain ⟨x', h5, h6, _⟩ := hw.body i hlt
      rw [h1] at h5; cases h5
      have hm := h6.next m h2
      simp only [skipNops, h3]
      cases hop : x.op with
      | nop =>
        have hq : m ≤ q ∧ q ≤ n := by
          rcases h4 with h4 | h4
          · exact leads_le hw h4 (by omega)
          · omega
        have := hm.2.2 hop
        obtain ⟨t, t1, t2⟩ := ih q hq.2 (by omega)
        refine ⟨t, t1, .skip h1 hop h2 ?_⟩
        rcases h4 with h4 | h4
        · exact leads_trans h4 t2
        · rw [← h4.2]; exact t2
      | _ => exact ⟨i, rfl, .stop h1 (by rw [hop]; simp)⟩
    · obtain rfl : i = n := by omega
      simp only [skipNops, hp.fin]
      exact ⟨i, rfl, .stop hw.fin (by simp)⟩

theorem optLoop_spec {J n} (hw : Whole J n) : ∀ (fuel k : Nat) (K : List Inst), Partly J K n k → k ≤ n → n - k < fuel →
    ∃ K', optLoop fuel k K = .ok K' ∧ Partly J K' n n := by
  intro fuel
  induction fuel with
  | zero => intro k K _ _ h; omega
  | succ f ih =>
    intro k K hp hk hf
    rcases Nat.lt_or_ge k n with hlt | hge
    · obtain ⟨x, m, q, h1, h2, h3, h4⟩ := hp.body k hlt
      obtain ⟨x', h5, h6, _⟩ := hw.body k hlt
      rw [h1] at h5; cases h5
      have hfin := h6.fin
      obtain ⟨t, t1, t2⟩ := skipNops_spec hw hp (K.length + 1) q (by
        rcases h4 with h4 | h4
        · exact (leads_le hw h4 (by have := h6.next m h2; omega)).2
        · have := h6.next m h2; omega) (by rw [hp.len]; omega)
      have hJ : Leads J m t := by
        rcases h4 with h4 | h4
        · exact leads_trans h4 t2
        · rw [← h4.2]; exact t2
      have hnew : Partly J (K.set k ⟨x.op, some t⟩) n (k + 1) := by
        refine ⟨fun p hpn => ?_, ?_, by simp [hp.len]⟩
        · by_cases hpk : p = k
          · subst hpk
            refine ⟨x, m, t, h1, h2, ?_, Or.inl hJ⟩
            rw [List.getElem?_set_self (by rw [hp.len]; omega)]
          · obtain ⟨y, m', q', g1, g2, g3, g4⟩ := hp.body p hpn
            refine ⟨y, m', q', g1, g2, ?_, ?_⟩
            · rw [List.getElem?_set_ne (by omega)]; exact g3
            · rcases g4 with g4 | g4
              · exact Or.inl g4
              · exact Or.inr ⟨by omega, g4.2⟩
        · rw [List.getElem?_set_ne (by omega)]; exact hp.fin
      obtain ⟨K', k1, k2⟩ := ih (k + 1) _ hnew (by omega) (by omega)
      refine ⟨K', ?_, k2⟩
      simp only [optLoop, h3]
      cases hop : x.op with
      | fin => exact absurd hop hfin
      | _ => simp only [t1, Res.bind]; rw [← hop]; exact k1
    · obtain rfl : k = n := by omega
      refine ⟨K, ?_, hp⟩
      simp only [optLoop, hp.fin]

theorem partly_skipped {J K n} (hw : Whole J n) (hp : Partly J K n n) : Skipped J K := by
  have key : ∀ (p : Nat) (x : Inst), J[p]? = some x → x.op ≠ .fin → p < n := by
    intro p x h1 h2
    have hl := (List.getElem?_eq_some_iff.1 h1).1
    rw [hw.len] at hl
    rcases Nat.lt_or_ge p n with h | h
    · exact h
    · obtain rfl : p = n := by omega
      rw [hw.fin] at h1; cases h1; exact absurd rfl h2
  refine ⟨fun p => ?_, fun p x k h1 h2 h3 => ?_, fun p x h1 h2 h3 => ?_, fun p x r h1 h2 => ?_⟩
  · rcases Nat.lt_trichotomy p n with h | h | h
    · obtain ⟨x, m, q, h1, h2, h3, h4⟩ := hp.body p h
      rw [h1, h3]; rfl
    · subst h; rw [hw.fin, hp.fin]
    · rw [List.getElem?_eq_none (by rw [hp.len]; omega), List.getElem?_eq_none (by rw [hw.len]; omega)]
  · obtain ⟨x', m, q, g1, g2, g3, g4⟩ := hp.body p (key p x h1 h2)
    rw [h1] at g1; cases g1
    rw [h3] at g2; cases g2
    rcases g4 with g4 | g4
    · exact ⟨q, g4, g3⟩
    · have := key p x h1 h2; omega
  · obtain ⟨x', g1, _, g2⟩ := hw.body p (key p x h1 h2)
    rw [h1] at g1; cases g1
    exact g2 h3
  · have hlt := key p x h1 (by rw [h2]; simp)
    obtain ⟨x', g1, g2, _⟩ := hw.body p hlt
    rw [h1] at g1; cases g1
    obtain ⟨_, _, y, h3, h4⟩ := g2.right r h2
    exact ⟨y, h3, h4⟩

theorem leads_rank {J : List Inst} {n} {ρ : Nat → Nat} (hw : Whole J n)
    (hr : ∀ (n' : Nat) (x : Inst) m, 0 ≤ n' → n' < n + 1 → J[n']? = some x → x.next = some m → ρ m < ρ n') {p q} (h : Leads J p q) : ρ q ≤ ρ p := by
  induction h with
  | stop => exact Nat.le_refl _
  | @skip p x k q h1 h2 h3 _ ih =>
    have hl := (List.getElem?_eq_some_iff.1 h1).1
    rw [hw.len] at hl
    have := hr p x k (Nat.zero_le _) hl h1 h3
    omega

/-- Along `next` the runs of the program come to an end. -/
def Flow (I : List Inst) : Prop :=
  ∃ ρ : Nat → Nat, (∀ p, p < I.length → ρ p < I.length) ∧ ∀ (p : Nat) (x : Inst), I[p]? = some x → x.op ≠ .fin →
    (∃ m, x.next = some m ∧ m < I.length ∧ ρ m < ρ p) ∧ ∀ r, x.op = .or r → r < I.length

theorem partly_flow {J K n} (hw : Whole J n) (hp : Partly J K n n) : Flow K := by
  obtain ⟨ρ, r1, r2⟩ := hw.rank
  refine ⟨ρ, fun p h => ?_, fun p x h1 h2 => ?_⟩
  · rw [hp.len] at h ⊢
    have := r1 p (Nat.zero_le _) h
    omega
  · have hl := (List.getElem?_eq_some_iff.1 h1).1
    rw [hp.len] at hl ⊢
    have hlt : p < n := by
      rcases Nat.lt_or_ge p n with h | h
      · exact h
      · obtain rfl : p = n := by omega
        rw [hp.fin] at h1; cases h1; exact absurd rfl h2
    obtain ⟨y, m, q, g1, g2, g3, g4⟩ := hp.body p hlt
    rw [h1] at g3; cases g3
    obtain ⟨y', g5, g6, _⟩ := hw.body p hlt
    rw [g1] at g5; cases g5
    have hl : Leads J m q := by
      rcases g4 with g4 | g4
      · exact g4
      · omega
    have hm := g6.next m g2
    have hq := leads_le hw hl (by omega)
    have h3 := leads_rank hw r2 hl
    have h4 := r2 p y m (Nat.zero_le _) (by omega) g1 g2
    exact ⟨⟨q, rfl, by omega, by omega⟩, fun r hr => (g6.right r hr).2.1⟩

/-- The program is one of the expression. -/
structure Good (prog : Prog) (e : Re) : Prop where
  run : ∀ (t : Text) i j (c c' : Caps), (∃ n q, AtFin prog.insts q ∧ Steps false prog.insts t n (prog.start, i, c) (q, j, c')) ↔ M t e i j c c'
  ids : IdsOk prog.insts
  rune : ∀ (p : Nat) x r, prog.insts[p]? = some x → x.op = .rune r → r ≠ 0
  start : prog.start < prog.insts.length
  flow : Flow prog.insts

theorem whole_good {J : List Inst} {n : Nat} {e : Re} {f : Nat} (hw : Whole J n) (hc : Code J e f n) (hn : NN J f) :
    ∃ insts, optLoop (J.length + 1) 0 J = .ok insts ∧ Good ⟨f, insts⟩ e := by
  have hp : Partly J J n 0 := by
    refine ⟨fun p hp => ?_, hw.fin, hw.len⟩
    obtain ⟨x, h1, h2, h3⟩ := hw.body p hp
    cases hx : x.next with
    | none => exact absurd hx h3
    | some m => exact ⟨x, m, m, h1, hx, by rw [h1, ← hx], Or.inr ⟨by omega, rfl⟩⟩
  obtain ⟨K, k1, k2⟩ := optLoop_spec hw (J.length + 1) 0 J hp (by omega) (by rw [hw.len]; omega)
  have hs := partly_skipped hw k2
  have hops : ∀ (p : Nat) x, K[p]? = some x → ∃ y, J[p]? = some y ∧ y.op = x.op := by
    intro p x hx
    have := hs.op p
    rw [hx] at this
    cases hj : J[p]? with
    | none => rw [hj] at this; simp at this
    | some y => rw [hj] at this; simp at this; exact ⟨y, rfl, this.symm⟩
  have hin : ∀ (p : Nat) y, J[p]? = some y → y.op = .fin ∨ InstOk J 0 (n + 1) p y := by
    intro p y hy
    have hl := (List.getElem?_eq_some_iff.1 hy).1
    rw [hw.len] at hl
    rcases Nat.lt_or_ge p n with h | h
    · obtain ⟨x, h1, h2, _⟩ := hw.body p h
      rw [hy] at h1; cases h1; exact Or.inr h2
    · obtain rfl : p = n := by omega
      rw [hw.fin] at hy; cases hy; exact Or.inl rfl
  refine ⟨K, k1, ⟨fun t i j c c' => skipped_run_iff hs hc ⟨_, hw.fin, rfl⟩ hn, ?_, ?_, ?_, partly_flow hw k2⟩⟩
  · intro p x hx g hg
    obtain ⟨y, h1, h2⟩ := hops p x hx
    rw [← h2] at hg
    rcases hin p y h1 with h | h
    · rw [h] at hg; rcases hg with hg | hg <;> cases hg
    · exact h.ids g hg
  · intro p x r hx hr
    obtain ⟨y, h1, h2⟩ := hops p x hx
    rw [← h2] at hr
    rcases hin p y h1 with h | h
    · rw [h] at hr; cases hr
    · exact h.rune r hr
  · obtain ⟨y, h1, _⟩ := hn
    have := (List.getElem?_eq_some_iff.1 h1).1
    show f < K.length
    rw [k2.len, ← hw.len]; exact this

/-- The end of `regcomp1`. -/
def finishC (c : Comp) : Res String Prog :=
  (evaluntil c START).bind fun c =>
  (operand c .fin).bind fun c =>
  (evaluntil c START).bind fun c =>
  if c.nbra ≠ 0 then .err "unmatched left paren" else
  match c.ands with
  | [] => .panic "undefined: read below the stack of operands"
  | (f, _) :: _ =>
    (optLoop (c.insts.length + 1) 0 c.insts).bind fun insts => .ok { start := f, insts := insts }

theorem finish_spec {c a e'} (h : Rel c a) (hl : a.last = true) (hn : a.nbra = 0)
    (he : evalA START a.ators a.es = some ([(START - 1, 0)], [e'])) : ∃ prog, finishC c = .ok prog ∧ Good prog e' := by
  have h1 := evaluntil_ref h START
  rw [he] at h1
  obtain ⟨c1, hc1, r1⟩ := h1
  rw [finishC, hc1]
  simp only [Res.bind]
  have hat : ∃ g, c1.ators = [(START - 1, g)] := by
    have := r1.ators
    simp only at this
    cases hca : c1.ators with
    | nil => rw [hca] at this; simp at this
    | cons p rest =>
      rw [hca] at this
      simp only [List.map_cons, List.cons.injEq] at this
      have h2 : rest = [] := by
        cases rest with
        | nil => rfl
        | cons _ _ => exact absurd this.2 (by simp)
      have h3 := norm_fst p
      rw [← this.1] at h3
      obtain ⟨p1, p2⟩ := p
      simp only at h3
      exact ⟨p2, by rw [h2, ← h3]⟩
  have hs := r1.holds.stk
  have hlast := r1.last
  have hnb := r1.nbra
  simp only at hs hlast hnb
  rw [hl] at hlast
  rw [hn] at hnb
  obtain ⟨I, ands, ators, sub, last, nb⟩ := c1
  simp only at hat hs hlast hnb
  obtain ⟨g, rfl⟩ := hat
  subst hlast hnb
  cases ands with
  | nil => simp [Stk] at hs
  | cons p as =>
    obtain ⟨f, l⟩ := p
    obtain ⟨lo, hf, hr⟩ := hs
    cases as with
    | cons _ _ => simp [Stk] at hr
    | nil =>
      have hlo : lo = 0 := by simpa [Stk] using hr
      subst hlo
      have h1 := hf.f2
      have h2 := hf.l2
      have hop : operand ⟨I, [(f, l)], [(START - 1, g)], sub, true, 0⟩ .fin =
          .ok ⟨I ++ [⟨.fin, none⟩], [(I.length, I.length), (f, l)], [(CAT, sub), (START - 1, g)], sub, true, 0⟩ := by
        simp [operand, operator1, evaluntil, evalLoop, CAT, RBRA, START, pushator, newinst, pushand, Res.bind]
      rw [hop]
      simp only
      have hev : evaluntil ⟨I ++ [⟨.fin, none⟩], [(I.length, I.length), (f, l)], [(CAT, sub), (START - 1, g)], sub, true, 0⟩ START =
          .ok (⟨(setNext ⟨I ++ [⟨.fin, none⟩], [], [(START - 1, g)], sub, true, 0⟩ l I.length).insts, [(f, I.length)], [(START - 1, g)], sub, true, 0⟩ : Comp) := by
        simp [evaluntil, evalLoop, CAT, OR, LBRA, RBRA, START, evalOp, popand, pushand, setNext, Res.bind]
      rw [hev]
      simp only [ne_eq, not_true_eq_false, if_false]
      generalize hJ : (setNext ⟨I ++ [⟨.fin, none⟩], [], [(START - 1, g)], sub, true, 0⟩ l I.length).insts = J
      have get : ∀ n, J[n]? = if n = l then ((I ++ [⟨.fin, none⟩])[n]?).map (upd I.length) else (I ++ [⟨.fin, none⟩])[n]? := by
        intro n; rw [← hJ, setNext_get]
      have hag : Agree I J 0 I.length l I.length := by
        intro n _ hn
        rw [get, List.getElem?_append_left hn]
      have hw : Whole J I.length := by
        have hfin : J[I.length]? = some ⟨.fin, none⟩ := by rw [get, if_neg (by omega)]; simp
        refine ⟨fun p hp => ?_, hfin, by rw [← hJ, setNext_length]; simp, ?_⟩
        · exact hf.linked hag (Nat.le_refl _) (by omega) (by omega) (by omega) h2 p (by omega) hp
        · obtain ⟨ρ, r1, r2⟩ := hf.rank_linked hag
          refine ⟨fun n => if n < I.length then ρ n + 1 else 0, fun n g1 g2 => ?_, fun n x m g1 g2 g3 g4 => ?_⟩
          · simp only; split
            · have := r1 n g1 (by assumption); omega
            · omega
          · by_cases hn : n = I.length
            · subst hn; rw [hfin] at g3; cases g3; cases g4
            · simp only
              rw [if_pos (show n < I.length by omega)]
              rcases r2 n x m g1 (by omega) g3 g4 with rfl | ⟨q1, q2, q3⟩
              · rw [if_neg (by omega)]; omega
              · rw [if_pos q2]; omega
      obtain ⟨insts, i1, i2⟩ := whole_good hw (hf.code J I.length hag) (hf.nn_linked hag)
      rw [i1]
      exact ⟨_, rfl, i2⟩

theorem finish_empty {g : Nat} (hg : g = 0) : ∃ prog, finishC ⟨[], [], [(START - 1, g)], 0, false, 0⟩ = .ok prog ∧ Good prog .eps := by
  subst hg
  have hev : ∀ ands insts, evaluntil ⟨insts, ands, [(START - 1, 0)], 0, false, 0⟩ START = .ok ⟨insts, ands, [(START - 1, 0)], 0, false, 0⟩ := by
    intro ands insts
    simp [evaluntil, evalLoop, RBRA, START]
  have hev2 : ∀ ands insts, evaluntil ⟨insts, ands, [(START - 1, 0)], 0, true, 0⟩ START = .ok ⟨insts, ands, [(START - 1, 0)], 0, true, 0⟩ := by
    intro ands insts
    simp [evaluntil, evalLoop, RBRA, START]
  have hop : operand ⟨[], [], [(START - 1, 0)], 0, false, 0⟩ .fin = .ok ⟨[⟨.fin, none⟩], [(0, 0)], [(START - 1, 0)], 0, true, 0⟩ := by
    simp [operand, newinst, pushand, Res.bind]
  rw [finishC, hev]
  simp only [Res.bind]
  rw [hop]
  simp only
  rw [hev2]
  simp only [ne_eq, not_true_eq_false, if_false]
  have hw : Whole [⟨.fin, none⟩] 0 := ⟨fun p hp => by omega, rfl, rfl, fun _ => 0, fun n _ h => by show 0 < _; omega, fun n x m _ h1 h2 h3 => by
    obtain rfl : n = 0 := by omega
    simp at h2; subst h2; cases h3⟩
  obtain ⟨insts, i1, i2⟩ := whole_good (e := .eps) hw rfl ⟨⟨.fin, none⟩, rfl, by simp⟩
  rw [i1]
  exact ⟨_, rfl, i2⟩

end Che.Proofs.Regexp9
