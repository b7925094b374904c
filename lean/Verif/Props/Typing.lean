import Verif.Spec.Typing
import Verif.Proofs.TrModule
import Verif.Spec.DemoRun
import Mathlib.Data.List.Nodup
import Mathlib.Data.List.Perm.Subperm
/-!
# C22-C25: types of comparisons, arithmetic, addresses and calls
-/
namespace Che.Props
open Che.Spec

/-! ## How the types of operations are found -/

/-- A binary operation translates exactly when its operands do, one after the
other, and the type of the operation is defined. -/
theorem trExpr_binary {pos : Pos} {op : String} {a b : Expr} {c c' : TrCtx} {t : Ty} {r : CExpr} :
    trExpr (.binaryOp pos op a b) c = .ok ((t, r), c') ↔
      ∃ ta va tb vb c1, trExpr a c = .ok ((ta, va), c1) ∧ trExpr b c1 = .ok ((tb, vb), c') ∧
        typeofBinop c' op ta tb = .ok t ∧ r = .binaryOp op va vb := by
  rw [trExpr]
  constructor
  · intro h
    obtain ⟨⟨ta, va⟩, c1, h1, g1⟩ := Tr.bind_ok.1 h
    obtain ⟨⟨tb, vb⟩, c2, h2, g2⟩ := Tr.bind_ok.1 g1
    obtain ⟨x, c3, h3, g3⟩ := Tr.bind_ok.1 g2
    obtain ⟨hx, hc⟩ := Tr.get_ok.1 h3
    rw [hx, hc] at g3
    cases hb : typeofBinop c2 op ta tb with
    | ok u =>
      simp only [hb] at g3
      obtain ⟨h4, h5⟩ := Tr.pure_ok.1 g3
      cases h4
      subst h5
      exact ⟨ta, va, tb, vb, c1, h1, h2, hb, rfl⟩
    | err e =>
      simp only [hb] at g3
      rcases Tr.ite_ok.1 g3 with ⟨_, g4⟩ | ⟨_, g4⟩
      · exact (Tr.panic_ok.1 g4).elim
      · exact (Tr.fail_ok.1 g4).elim
    | panic m => simp only [hb] at g3; exact (Tr.panic_ok.1 g3).elim
    | diverge => simp only [hb] at g3; cases g3
  · rintro ⟨ta, va, tb, vb, c1, h1, h2, h3, rfl⟩
    refine Tr.bind_ok.2 ⟨_, _, h1, Tr.bind_ok.2 ⟨_, _, h2, Tr.bind_ok.2 ⟨c', c', rfl, ?_⟩⟩⟩
    simp only [h3]
    rfl

/-! ## C22 -/

/-- The comparison operators. -/
def comparisons : List String := ["==", "<", ">", "!=", ">=", "<="]

/-- C22: a comparison that translates has type `bool`.  What is missing: the
comparison of two `bool`s has the type `boo` (`C22_counterexample`). -/
theorem C22_partial {pos : Pos} {op : String} {a b : Expr} {c c' : TrCtx} {t : Ty} {r : CExpr}
    (hop : op ∈ comparisons) (h : trExpr (.binaryOp pos op a b) c = .ok ((t, r), c')) :
    t = tJust "bool" ∨
    (t = tJust "boo" ∧ ∃ ta va tb vb c1, trExpr a c = .ok ((ta, va), c1) ∧
      trExpr b c1 = .ok ((tb, vb), c') ∧
      (rootType ta c').fmt = "bool" ∧ (rootType tb c').fmt = "bool") := by
  obtain ⟨ta, va, tb, vb, c1, h1, h2, h3, rfl⟩ := trExpr_binary.1 h
  have hb : typeofBinop c' op ta tb = typeofCmp (rootType ta c') (rootType tb c') := by
    simp only [comparisons, List.mem_cons, List.not_mem_nil, or_false] at hop
    rcases hop with rfl | rfl | rfl | rfl | rfl | rfl <;> rfl
  rw [hb] at h3
  have key : ∀ x : Ty, classify x = .bool → x.fmt = "bool" := by
    intro x hx
    unfold classify at hx
    split at hx
    · cases hx
    · cases hx
    · repeat' split at hx
      all_goals first | assumption | cases hx
  unfold typeofCmp at h3
  split at h3
  all_goals first
    | (cases h3; exact .inl rfl)
    | (cases h3; exact .inr ⟨rfl, ta, va, tb, vb, c1, h1, h2, key _ ‹_›, key _ ‹_›⟩)
    | cases h3

/-! ## C23 -/

/-- The class of a kind of number. -/
def classOf : NumKind → Class
  | .const => .constnum
  | .signed => .sint
  | .unsigned => .uint
  | .floating => .flt

theorem num_form {t : Ty} {k : NumKind × Nat} (h : numOf t = some k) :
    ∃ pos name, t = .mk ⟨pos, "", name⟩ [] ∧ numNamed name = some k := by
  obtain ⟨⟨pos, ns, name⟩, ops⟩ := t
  cases ops with
  | cons o os => simp [numOf, Ty.ops] at h
  | nil =>
    change (if ns = "" then numNamed name else none) = _ at h
    by_cases hns : ns = ""
    · rw [if_pos hns] at h
      subst hns
      exact ⟨_, _, rfl, h⟩
    · rw [if_neg hns] at h; cases h

theorem num_class {t : Ty} {k : NumKind} {w : Nat} (h : numOf t = some (k, w)) :
    classify t = classOf k ∧ (k ≠ .const → typesize t = some w) := by
  obtain ⟨pos, name, ht, hk⟩ := num_form h
  subst ht
  have hf : (Ty.mk ⟨pos, "", name⟩ []).fmt = name := by simp [Ty.fmt, Ty.fmtOps]
  simp only [classify, Ty.ops, typesize, hf, isTodo]
  unfold numNamed at hk
  split at hk <;> cases hk <;> simp [classOf]

theorem num_const {t : Ty} {w : Nat} (h : numOf t = some (.const, w)) : w = 0 := by
  unfold numOf at h
  split at h
  · split at h
    · unfold numNamed at h
      split at h <;> simp_all
    · cases h
  · cases h

theorem widest_num {a b : Ty} {ka kb : NumKind} {wa wb : Nat} (ha : numOf a = some (ka, wa))
    (hb : numOf b = some (kb, wb)) (na : ka ≠ .const) (nb : kb ≠ .const) :
    widestType a b = .ok (if wa > wb then a else b) := by
  simp [widestType, (num_class ha).2 na, (num_class hb).2 nb]

theorem arith_result {a b : Ty} {ka kb : NumKind} {wa wb : Nat} (ha : numOf a = some (ka, wa))
    (hb : numOf b = some (kb, wb)) :
    ∃ r, typeofArith a b = .ok r ∧ ArithResult a b r (ka, wa) (kb, wb) := by
  have ca := (num_class ha).1
  have cb := (num_class hb).1
  unfold typeofArith
  rw [ca, cb]
  cases ka <;> cases kb <;> simp only [classOf] <;>
    (try rw [widest_num ha hb (by decide) (by decide)]) <;>
    by_cases hw : wa > wb <;> (try simp only [hw, if_true, if_false]) <;>
    refine ⟨_, rfl, ?_, ?_, ?_, ?_, ?_, ?_⟩ <;> simp [NumKind.whole, ha, hb] <;>
    first
    | omega
    | (rw [num_const ha, num_const hb]; done)
    | (have := num_const ha; have := num_const hb; omega)

/-- The result of arithmetic as a number does not depend on the order of the
operands, up to the sign. -/
theorem ArithResult.swap {a b r r' : Ty} {ka kb : NumKind × Nat} (ha : numOf a = some ka)
    (hb : numOf b = some kb) (h : ArithResult a b r ka kb) (h' : ArithResult b a r' kb ka) :
    ∃ k k' w, numOf r = some (k, w) ∧ numOf r' = some (k', w) ∧
      (k = k' ∨ (k.whole ∧ k'.whole)) := by
  obtain ⟨ka, wa⟩ := ka
  obtain ⟨kb, wb⟩ := kb
  by_cases hc : kb = .const
  · subst hc
    have e := h.const_right rfl
    rcases h'.const_left rfl with e' | e'
    · rw [e, e']; exact ⟨_, _, _, ha, ha, .inl rfl⟩
    · have := h'.const_right e'
      simp only at e'
      subst e'
      rw [e, this, num_const ha] at *
      have := num_const hb
      subst this
      exact ⟨_, _, _, ha, hb, .inl rfl⟩
  by_cases hc' : ka = .const
  · subst hc'
    have e := h'.const_right rfl
    rcases h.const_left rfl with e' | e'
    · rw [e, e']; exact ⟨_, _, _, hb, hb, .inl rfl⟩
    · exact absurd e' hc
  by_cases hk : ka = kb
  · subst hk
    obtain ⟨k, h1⟩ := h.same_kind rfl
    obtain ⟨k', h2⟩ := h'.same_kind rfl
    refine ⟨k, k', max wa wb, h1, by rw [h2, Nat.max_comm], ?_⟩
    have e1 : k = ka := by
      rcases h.one_of with e | e <;> rw [e] at h1
      · rw [ha] at h1; simpa using (congrArg (·.map Prod.fst) h1).symm
      · rw [hb] at h1; simpa using (congrArg (·.map Prod.fst) h1).symm
    have e2 : k' = ka := by
      rcases h'.one_of with e | e <;> rw [e] at h2
      · rw [hb] at h2; simpa using (congrArg (·.map Prod.fst) h2).symm
      · rw [ha] at h2; simpa using (congrArg (·.map Prod.fst) h2).symm
    exact .inl (e1.trans e2.symm)
  by_cases hf : ka = .floating ∨ kb = .floating
  · obtain ⟨w, h1⟩ := h.float hf
    obtain ⟨w', h2⟩ := h'.float hf.symm
    have : r = r' := by
      rcases hf with rfl | rfl
      · rcases h.one_of with e | e
        · rcases h'.one_of with e' | e'
          · rw [e', hb] at h2; cases h2; exact absurd rfl hk
          · rw [e, e']
        · rw [e, hb] at h1; cases h1; exact absurd rfl hk
      · rcases h.one_of with e | e
        · rw [e, ha] at h1; cases h1; exact absurd rfl hk
        · rcases h'.one_of with e' | e'
          · rw [e, e']
          · rw [e', ha] at h2; cases h2; exact absurd rfl hk
    subst this
    exact ⟨_, _, _, h1, h1, .inl rfl⟩
  · have w1 : ka.whole := by cases ka <;> simp_all [NumKind.whole]
    have w2 : kb.whole := by cases kb <;> simp_all [NumKind.whole]
    obtain ⟨k, h1⟩ := h.whole w1 w2
    obtain ⟨k', h2⟩ := h'.whole w2 w1
    refine ⟨k, k', max wa wb, h1, by rw [h2, Nat.max_comm], .inr ⟨?_, ?_⟩⟩
    · rcases h.one_of with e | e <;> rw [e] at h1
      · rw [ha] at h1; injection h1 with h1; injection h1 with h1; exact h1 ▸ w1
      · rw [hb] at h1; injection h1 with h1; injection h1 with h1; exact h1 ▸ w2
    · rcases h'.one_of with e | e <;> rw [e] at h2
      · rw [hb] at h2; injection h2 with h2; injection h2 with h2; exact h2 ▸ w2
      · rw [ha] at h2; injection h2 with h2; injection h2 with h2; exact h2 ▸ w1

/-- The arithmetic operators other than `+` and `-`. -/
def arithOps : List String := ["*", "/", "%", "<<", ">>", "&", "|", "^"]

theorem typeofBinop_arith {c : TrCtx} {op : String} (hop : op ∈ arithOps) (a b : Ty) :
    typeofBinop c op a b = typeofArith (rootType a c) (rootType b c) := by
  simp only [arithOps, List.mem_cons, List.not_mem_nil, or_false] at hop
  rcases hop with rfl | rfl | rfl | rfl | rfl | rfl | rfl | rfl <;> rfl

theorem typeofBinop_plusminus {c : TrCtx} {op : String} (hop : op = "+" ∨ op = "-") (a b : Ty) :
    typeofBinop c op a b = typeofPlusminus op (rootType a c) (rootType b c) := by
  rcases hop with rfl | rfl <;> rfl

/-- C23: an arithmetic operation other than `+` and `-` on operands that
translate and whose types stand for numbers translates, and has the type of one
of them: the wider, the float, the one that is no constant. -/
theorem C23_arith {pos : Pos} {op : String} {a b : Expr} {c c1 c' : TrCtx} {ta tb : Ty}
    {va vb : CExpr} {ka kb : NumKind × Nat} (hop : op ∈ arithOps)
    (ha : trExpr a c = .ok ((ta, va), c1)) (hb : trExpr b c1 = .ok ((tb, vb), c'))
    (na : numOf (rootType ta c') = some ka) (nb : numOf (rootType tb c') = some kb) :
    ∃ t, trExpr (.binaryOp pos op a b) c = .ok ((t, .binaryOp op va vb), c') ∧
      ArithResult (rootType ta c') (rootType tb c') t ka kb := by
  obtain ⟨ka, wa⟩ := ka
  obtain ⟨kb, wb⟩ := kb
  obtain ⟨t, h1, h2⟩ := arith_result na nb
  exact ⟨t, trExpr_binary.2 ⟨_, _, _, _, _, ha, hb, (typeofBinop_arith hop _ _).trans h1, rfl⟩, h2⟩

/-- C23: and with the operands swapped the result has the same width, and the
same kind up to the sign. -/
theorem C23_order {c : TrCtx} {op : String} (hop : op ∈ arithOps) {a b : Ty}
    {ka kb : NumKind × Nat} (na : numOf (rootType a c) = some ka) (nb : numOf (rootType b c) = some kb) :
    ∃ t t' k k' w, typeofBinop c op a b = .ok t ∧ typeofBinop c op b a = .ok t' ∧
      numOf t = some (k, w) ∧ numOf t' = some (k', w) ∧ (k = k' ∨ (k.whole ∧ k'.whole)) := by
  obtain ⟨ka, wa⟩ := ka
  obtain ⟨kb, wb⟩ := kb
  obtain ⟨t, h1, h2⟩ := arith_result na nb
  obtain ⟨t', h1', h2'⟩ := arith_result nb na
  obtain ⟨k, k', w, h3⟩ := ArithResult.swap na nb h2 h2'
  exact ⟨t, t', k, k', w, (typeofBinop_arith hop _ _).trans h1, (typeofBinop_arith hop _ _).trans h1', h3⟩

/-- For numbers of one kind and for a constant with a number, `+` and `-` are
typed like the other operations; with a constant on the right alone the result
is a constant; and numbers of different kinds are rejected. -/
theorem plusminus_num {a b : Ty} {ka kb : NumKind × Nat} (ha : numOf a = some ka)
    (hb : numOf b = some kb) (op : String) :
    typeofPlusminus op a b =
      if ka.1 = kb.1 ∨ ka.1 = .const then typeofArith a b
      else if kb.1 = .const then .ok b
      else .err ("'" ++ op ++ "' operation between " ++ a.fmt ++ " and " ++ b.fmt) := by
  obtain ⟨ka, wa⟩ := ka
  obtain ⟨kb, wb⟩ := kb
  have ca := (num_class ha).1
  have cb := (num_class hb).1
  unfold typeofPlusminus typeofArith
  rw [ca, cb]
  cases ka <;> cases kb <;> simp [classOf]

/-- C23: `+` and `-` on numbers never crash, and are typed like the other
operations if the numbers are of one kind or the left one is a constant.  What is
missing: with a constant on the right alone the type is that of the constant, and
otherwise numbers of different kinds are rejected (`C23_counterexample`,
`C23_counterexample_mixed`). -/
theorem C23_partial {pos : Pos} {op : String} {a b : Expr} {c c1 c' : TrCtx} {ta tb : Ty}
    {va vb : CExpr} {ka kb : NumKind × Nat} (hop : op = "+" ∨ op = "-")
    (ha : trExpr a c = .ok ((ta, va), c1)) (hb : trExpr b c1 = .ok ((tb, vb), c'))
    (na : numOf (rootType ta c') = some ka) (nb : numOf (rootType tb c') = some kb) :
    (ka.1 = kb.1 ∨ ka.1 = .const →
      ∃ t, trExpr (.binaryOp pos op a b) c = .ok ((t, .binaryOp op va vb), c') ∧
        ArithResult (rootType ta c') (rootType tb c') t ka kb) ∧
    (kb.1 = .const → ∃ t, trExpr (.binaryOp pos op a b) c = .ok ((t, .binaryOp op va vb), c') ∧
        numOf t = some kb) ∧
    (ka.1 ≠ kb.1 → ka.1 ≠ .const → kb.1 ≠ .const →
      ∀ r, trExpr (.binaryOp pos op a b) c ≠ .ok r) := by
  have hp := plusminus_num na nb op
  obtain ⟨t, h1, h2⟩ := arith_result (ka := ka.1) (wa := ka.2) (kb := kb.1) (wb := kb.2) na nb
  refine ⟨fun hk => ?_, fun hk => ?_, fun k1 k2 k3 r hr => ?_⟩
  · rw [if_pos hk] at hp
    exact ⟨t, trExpr_binary.2 ⟨_, _, _, _, _, ha, hb,
      (typeofBinop_plusminus hop _ _).trans (hp.trans h1), rfl⟩, h2⟩
  · by_cases hk' : ka.1 = kb.1 ∨ ka.1 = .const
    · rw [if_pos hk'] at hp
      have hka : ka.1 = .const := by rcases hk' with h | h; exact h.trans hk; exact h
      refine ⟨t, trExpr_binary.2 ⟨_, _, _, _, _, ha, hb,
        (typeofBinop_plusminus hop _ _).trans (hp.trans h1), rfl⟩, ?_⟩
      rcases h2.one_of with e | e
      · obtain ⟨ka, wa⟩ := ka
        obtain ⟨kb, wb⟩ := kb
        simp only at hka hk
        subst hka hk
        rw [e, na, num_const na, num_const nb]
      · rw [e, nb]
    · rw [if_neg hk', if_pos hk] at hp
      exact ⟨_, trExpr_binary.2 ⟨_, _, _, _, _, ha, hb,
        (typeofBinop_plusminus hop _ _).trans hp, rfl⟩, nb⟩
  · obtain ⟨⟨t', v'⟩, c2⟩ := r
    obtain ⟨ta', va', tb', vb', c1', g1, g2, g3, _⟩ := trExpr_binary.1 hr
    rw [ha] at g1
    cases g1
    rw [hb] at g2
    cases g2
    rw [typeofBinop_plusminus hop, hp, if_neg (by tauto), if_neg k3] at g3
    cases g3

/-- The numeric types of C stand for themselves; `number` does unless the module
defines a type of that name. -/
theorem rootType_num {t : Ty} {k : NumKind × Nat} (h : numOf t = some k) (c : TrCtx)
    (hn : k.1 = .const → mapGet c.otherTypedefs "number" = none) : rootType t c = t := by
  obtain ⟨pos, name, ht, hk⟩ := num_form h
  subst ht
  have hr : rootType (.mk ⟨pos, "", name⟩ []) c =
      if Cspec.hasType name then .mk ⟨pos, "", name⟩ []
      else match mapGet c.otherTypedefs name with
        | some b => .mk b.t.base b.t.ops
        | none => .mk ⟨pos, "", name⟩ [] := rfl
  rw [hr]
  unfold numNamed at hk
  split at hk <;> cases hk
  · rw [if_neg (by decide +kernel), hn rfl]
  all_goals rw [if_pos (by decide +kernel)]

/-! ## C24 -/

theorem notTodo_of_ops {t : Ty} (h : t.ops ≠ []) : isTodo t = false := by
  obtain ⟨b, ops⟩ := t
  cases ops with
  | nil => exact absurd rfl h
  | cons o os =>
    unfold isTodo
    rw [beq_eq_false_iff_ne]
    intro he
    have := congrArg String.toList he
    rw [Ty.fmt, Ty.fmtOps] at this
    cases o <;> simp [Ty.fmtOp] at this

theorem replicate_shift {α : Type} {x : α} : ∀ {l : List α}, l ++ [x] = x :: l ↔ ∀ y ∈ l, y = x
  | [] => by simp
  | a :: l => by
    have := @replicate_shift α x l
    constructor
    · intro h
      simp only [List.cons_append, List.cons.injEq] at h
      obtain ⟨rfl, h⟩ := h
      simpa using this.1 h
    · intro h
      have h1 := h a (by simp)
      subst h1
      simp only [List.cons_append, List.cons.injEq, true_and]
      exact this.2 (fun y hy => h y (by simp [hy]))

/-- The type of `*&x`. -/
theorem deref_addr (t : Ty) :
    (∃ u, typeofDeref (typeofAddr t) = .ok u ∧ SameType u t) ↔ ∀ o ∈ t.ops, o = .deref := by
  obtain ⟨b, ops⟩ := t
  unfold typeofDeref
  rw [if_neg (by rw [notTodo_of_ops]; simp; simp [typeofAddr, Ty.ops])]
  cases ops with
  | nil => simp [typeofAddr, Ty.ops, SameType, Ty.base, nsname]
  | cons o os =>
    cases o with
    | deref =>
      have := @replicate_shift _ TypeOp.deref os
      simp only [typeofAddr, Ty.ops, SameType, Ty.base, nsname, List.cons_append, Res.ok.injEq,
        exists_eq_left', true_and, this]
      simp
    | index => simp [typeofAddr, Ty.ops]
    | call as => simp [typeofAddr, Ty.ops]

/-- C24: for an expression `e` that translates, `*&e` translates to the type of
`e` exactly if that is a type name with any number of pointers.  What is missing:
arrays and functions and whatever involves them (`C24_counterexample`). -/
theorem C24_partial {e : Expr} {p q : Pos} {c c' : TrCtx} {t : Ty} {v : CExpr}
    (h : trExpr e c = .ok ((t, v), c')) :
    (∃ u, trExpr (.prefixOp p "*" (.prefixOp q "&" e)) c =
        .ok ((u, .prefixOp "*" (.prefixOp "&" v)), c') ∧ SameType u t) ↔
      ∀ o ∈ t.ops, o = .deref := by
  rw [← deref_addr]
  apply exists_congr
  intro u
  rw [and_congr_left_iff]
  intro _
  rw [trExpr, trExpr]
  constructor
  · intro h'
    obtain ⟨⟨t1, v1⟩, c1, h1, h'⟩ := Tr.bind_ok.1 h'
    obtain ⟨⟨t2, v2⟩, c2, h2, h1⟩ := Tr.bind_ok.1 h1
    rw [h] at h2
    cases h2
    obtain ⟨t3, c3, h3, h1⟩ := Tr.bind_ok.1 h1
    have g3 := (Tr.lift_ok.1 h3).1
    have g4 := (Tr.pure_ok.1 h1).1
    obtain ⟨t5, c5, h5, h6⟩ := Tr.bind_ok.1 h'
    have g5 := (Tr.lift_ok.1 h5).1
    have g6 := (Tr.pure_ok.1 h6).1
    have e3 : typeofAddr t = t3 := by simpa [typeofPrefop] using g3
    simp only [Prod.mk.injEq] at g4 g6
    rw [← g6.1, e3, g4.1]
    simpa [typeofPrefop] using g5
  · intro h'
    refine Tr.bind_ok.2 ⟨(typeofAddr t, .prefixOp "&" v), c', ?_, ?_⟩
    · refine Tr.bind_ok.2 ⟨_, _, h, Tr.bind_ok.2 ⟨typeofAddr t, c', Tr.lift_ok.2 ⟨?_, rfl⟩, rfl⟩⟩
      simp [typeofPrefop]
    · refine Tr.bind_ok.2 ⟨u, c', Tr.lift_ok.2 ⟨?_, rfl⟩, rfl⟩
      simpa [typeofPrefop] using h'

/-! ## C25 -/

/-- The typedefs of a module. -/
def defsOf (c : TrCtx) : String → Option Ty := fun x => (mapGet c.otherTypedefs x).map (·.t)

/-- What a call of a value of type `t` with `n` arguments gives: nothing is known
about `t`, or `t` stands for a function type, the number of arguments suits its
parameters and the result is its return type. -/
inductive CallResult (defs : String → Option Ty) (t : Ty) (n : Nat) : Ty → Prop
  | unknown {u} : StandsFor defs t u → isTodo u = true → CallResult defs t n tTodo
  | known {base params rest} : StandsFor defs t (.mk base (.call params :: rest)) →
      ArityOk (fun d => isEllipsis d = true) params n → CallResult defs t n (.mk base rest)

theorem arity_none {params : List Ty} {n : Nat} :
    arityError params n = none ↔ ArityOk (fun d => isEllipsis d = true) params n := by
  unfold arityError ArityOk
  rcases List.eq_nil_or_concat params with rfl | ⟨ps, d, rfl⟩
  · simp
  · simp only [List.concat_eq_append, List.getLast?_append, List.getLast?_singleton,
      Option.some_or, List.length_append, List.length_singleton]
    have e : ∀ (ps' : List Ty) (d' : Ty), ps ++ [d] = ps' ++ [d'] ↔ ps = ps' ∧ d = d' := by
      intro ps' d'
      constructor
      · intro h
        have := List.append_inj' h rfl
        simpa using this
      · rintro ⟨rfl, rfl⟩; rfl
    simp only [e]
    cases hd : isEllipsis d
    · simp [hd]
    · simp [hd]

theorem unalias_func {defs : String → Option Ty} {base : NsName} {ps : List Ty}
    {rest : List TypeOp} {u : Ty} : ¬ Unalias defs (.mk base (.call ps :: rest)) u := by
  rintro ⟨_, h | h, _⟩ <;> simp [Ty.ops] at h

theorem typeofCall_step {c : TrCtx} {n aa : Nat} {t u : Ty} (ht : isTodo t = false)
    (h : Unalias (defsOf c) t u) : typeofCall c (n + 1) t aa = typeofCall c n u aa := by
  obtain ⟨h1, h2, h3⟩ := h
  simp only [defsOf, Option.map_eq_some_iff] at h3
  obtain ⟨d, h3, rfl⟩ := h3
  rw [typeofCall]
  simp only [ht, Bool.false_eq_true, if_false]
  rcases h2 with h2 | h2 <;> simp [h2, h1, h3]

theorem typeofCall_end {c : TrCtx} {n aa : Nat} {t : Ty} (ht : isTodo t = false)
    (h : ∀ u, ¬ Unalias (defsOf c) t u) :
    typeofCall c (n + 1) t aa =
      match t.ops with
      | .call args :: rest =>
        match arityError args aa with
        | some e => .err e
        | none => .ok (.mk t.base rest)
      | _ => .err ("call of a non-function (" ++ t.fmt ++ ")") := by
  have key : t.ops = [] ∨ t.ops = [.deref] → t.base.ns = "" → mapGet c.otherTypedefs t.base.name = none := by
    intro h1 h2
    cases hm : mapGet c.otherTypedefs t.base.name with
    | none => rfl
    | some d => exact absurd ⟨h2, h1, by rw [defsOf, hm]; rfl⟩ (h d.t)
  rw [typeofCall]
  simp only [ht, Bool.false_eq_true, if_false]
  split
  · next args _ ho => simp only [ho]; cases arityError args aa <;> rfl
  · next ho =>
    simp only [ho]
    split
    · next hns => rw [key (.inl ho) hns]
    · rfl
  · next ho =>
    simp only [ho]
    split
    · next hns => rw [key (.inr ho) hns]
    · rfl
  · next h1 h2 h3 =>
    split
    · next ho => exact absurd ho (h1 _ _)
    · rfl

/-- C25: a call is accepted with a result exactly when it should be. -/
theorem typeofCall_ok {c : TrCtx} {n aa : Nat} {t r : Ty} (h : typeofCall c n t aa = .ok r) :
    CallResult (defsOf c) t aa r := by
  induction n generalizing t with
  | zero => simp [typeofCall] at h
  | succ n ih =>
    cases ht : isTodo t with
    | true =>
      rw [typeofCall, if_pos ht] at h
      cases h
      exact .unknown (.refl t) ht
    | false =>
      by_cases hu : ∃ u, Unalias (defsOf c) t u
      · obtain ⟨u, hu⟩ := hu
        rw [typeofCall_step ht hu] at h
        cases ih h with
        | unknown h1 h2 => exact .unknown (.step hu h1) h2
        | known h1 h2 => exact .known (.step hu h1) h2
      · rw [typeofCall_end ht (not_exists.1 hu)] at h
        split at h
        · next args rest ho =>
          split at h
          · cases h
          · next ha =>
            cases h
            obtain ⟨base, ops⟩ := t
            simp only [Ty.ops] at ho
            subst ho
            exact .known (.refl _) (arity_none.1 ha)
        · cases h

/-- How far a called type is from what it stands for. -/
inductive Steps (defs : String → Option Ty) : Nat → Ty → Prop
  | todo {t} : isTodo t = true → Steps defs 0 t
  | done {t} : (∀ u, ¬ Unalias defs t u) → Steps defs 0 t
  | step {t u n} : isTodo t = false → Unalias defs t u → Steps defs n u → Steps defs (n + 1) t

theorem Steps.unique {defs : String → Option Ty} {n m : Nat} {t : Ty} (h : Steps defs n t)
    (h' : Steps defs m t) : n = m := by
  induction h generalizing m with
  | todo ht => cases h' with
    | todo _ => rfl
    | done _ => rfl
    | step h1 _ _ => rw [ht] at h1; cases h1
  | done hd => cases h' with
    | todo _ => rfl
    | done _ => rfl
    | step _ h1 _ => exact absurd h1 (hd _)
  | step h1 h2 h3 ih => cases h' with
    | todo ht => rw [ht] at h1; cases h1
    | done hd => exact absurd h2 (hd _)
    | step _ h2' h3' =>
      have := h2.2.2.symm.trans h2'.2.2
      cases this
      rw [ih h3']

/-- The names passed on the way are different typedefs, each with its own
distance. -/
theorem Steps.names {defs : String → Option Ty} {n : Nat} {t : Ty} (h : Steps defs n t) :
    ∃ L : List String, L.length = n ∧ L.Nodup ∧
      ∀ x ∈ L, ∃ u k, defs x = some u ∧ Steps defs k u ∧ k < n := by
  induction h with
  | todo _ => exact ⟨[], rfl, List.nodup_nil, by simp⟩
  | done _ => exact ⟨[], rfl, List.nodup_nil, by simp⟩
  | @step t u n h1 h2 h3 ih =>
    obtain ⟨L, hl, hn, hx⟩ := ih
    refine ⟨t.base.name :: L, by simp [hl], List.nodup_cons.2 ⟨?_, hn⟩, ?_⟩
    · intro hm
      obtain ⟨u', k, e, hs, hk⟩ := hx _ hm
      rw [h2.2.2] at e
      cases e
      have := hs.unique h3
      omega
    · intro x hm
      rcases List.mem_cons.1 hm with rfl | hm
      · exact ⟨u, n, h2.2.2, h3, by omega⟩
      · obtain ⟨u', k, e, hs, hk⟩ := hx _ hm
        exact ⟨u', k, e, hs, by omega⟩

theorem mapGet_key {α} : ∀ {m : List (String × α)} {x : String} {v : α}, mapGet m x = some v →
    x ∈ m.map Prod.fst
  | (k, w) :: m, x, v, h => by
    rw [mapGet] at h
    split at h
    · next hk => simp [hk]
    · exact List.mem_cons_of_mem _ (mapGet_key h)

theorem Steps.bound {c : TrCtx} {n : Nat} {t : Ty} (h : Steps (defsOf c) n t) :
    n ≤ c.otherTypedefs.length := by
  obtain ⟨L, hl, hn, hx⟩ := h.names
  have : L ⊆ c.otherTypedefs.map Prod.fst := by
    intro x hm
    obtain ⟨u, k, e, _⟩ := hx x hm
    simp only [defsOf, Option.map_eq_some_iff] at e
    obtain ⟨d, e, _⟩ := e
    exact mapGet_key e
  have := (hn.subperm this).length_le
  simpa [hl] using this

theorem Steps.of_standsFor {defs : String → Option Ty} {t u : Ty} (h : StandsFor defs t u)
    (hu : Steps defs 0 u) : ∃ n, Steps defs n t := by
  induction h with
  | refl => exact ⟨0, hu⟩
  | @step t u v h1 h2 ih =>
    obtain ⟨n, hn⟩ := ih hu
    cases ht : isTodo t with
    | true => exact ⟨0, .todo ht⟩
    | false => exact ⟨n + 1, .step ht h1 hn⟩

theorem Steps.call {c : TrCtx} {n k aa : Nat} {t : Ty} (h : Steps (defsOf c) n t) :
    typeofCall c (n + 1 + k) t aa ≠ .diverge := by
  induction h with
  | todo ht => rw [show 0 + 1 + k = k + 1 by omega, typeofCall, if_pos ht]; simp
  | @done t hd =>
    rw [show 0 + 1 + k = k + 1 by omega]
    cases ht : isTodo t with
    | true => rw [typeofCall, if_pos ht]; simp
    | false =>
      rw [typeofCall_end ht hd]
      split
      · split <;> simp
      · simp
  | @step t u n h1 h2 h3 ih =>
    rw [show n + 1 + 1 + k = (n + 1 + k) + 1 by omega, typeofCall_step h1 h2]
    exact ih

theorem Steps.of_call {c : TrCtx} {n aa : Nat} {t : Ty} (h : typeofCall c n t aa ≠ .diverge) :
    ∃ k, Steps (defsOf c) k t := by
  induction n generalizing t with
  | zero => simp [typeofCall] at h
  | succ n ih =>
    cases ht : isTodo t with
    | true => exact ⟨0, .todo ht⟩
    | false =>
      by_cases hu : ∃ u, Unalias (defsOf c) t u
      · obtain ⟨u, hu⟩ := hu
        rw [typeofCall_step ht hu] at h
        obtain ⟨k, hk⟩ := ih h
        exact ⟨k + 1, .step ht hu hk⟩
      · exact ⟨0, .done (not_exists.1 hu)⟩

/-- The budget given to `typeof_call` is enough: with it the model diverges only
if the program recurses forever. -/
theorem typeofCall_fuel {c : TrCtx} {t : Ty} {aa : Nat}
    (h : typeofCall c (typeofCallFuel c) t aa = .diverge) (n : Nat) :
    typeofCall c n t aa = .diverge := by
  by_contra hn
  obtain ⟨k, hk⟩ := Steps.of_call hn
  have hb := hk.bound
  have := hk.call (k := c.otherTypedefs.length + 1 - k) (aa := aa)
  rw [show k + 1 + (c.otherTypedefs.length + 1 - k) = typeofCallFuel c by
    simp only [typeofCallFuel]; omega] at this
  exact this h

theorem typeofCall_todo {c : TrCtx} {n aa : Nat} {t : Ty} (ht : isTodo t = true) :
    typeofCall c (n + 1) t aa = .ok tTodo := by
  rw [typeofCall, if_pos ht]

/-- Nothing with an unknown type stands for anything else on the way to `u`. -/
def Known (defs : String → Option Ty) (t : Ty) : Prop :=
  ∀ u, StandsFor defs t u → isTodo u = false

theorem known_call {c : TrCtx} {t : Ty} {base : NsName} {ps : List Ty} {rest : List TypeOp}
    (hs : StandsFor (defsOf c) t (.mk base (.call ps :: rest))) (hk : Known (defsOf c) t)
    (aa : Nat) : ∃ n, ∀ k, typeofCall c (n + 1 + k) t aa =
      match arityError ps aa with
      | some e => .err e
      | none => .ok (.mk base rest) := by
  generalize hf : Ty.mk base (.call ps :: rest) = f at hs
  induction hs with
  | refl t =>
    refine ⟨0, fun k => ?_⟩
    rw [show 0 + 1 + k = k + 1 by omega, typeofCall_end (hk _ (.refl _))]
    · subst hf; rfl
    · subst hf; exact fun u => unalias_func
  | @step t u v h1 h2 ih =>
    obtain ⟨n, hn⟩ := ih (fun w hw => hk w (.step h1 hw)) hf
    refine ⟨n + 1, fun k => ?_⟩
    rw [show n + 1 + 1 + k = (n + 1 + k) + 1 by omega, typeofCall_step (hk _ (.refl _)) h1]
    exact hn k

theorem typeofCall_mono {c : TrCtx} {n k aa : Nat} {t : Ty} (h : typeofCall c n t aa ≠ .diverge) :
    typeofCall c (n + k) t aa = typeofCall c n t aa := by
  induction n generalizing t with
  | zero => simp [typeofCall] at h
  | succ n ih =>
    rw [show n + 1 + k = n + k + 1 by omega]
    cases ht : isTodo t with
    | true => rw [typeofCall_todo ht, typeofCall_todo ht]
    | false =>
      by_cases hu : ∃ u, Unalias (defsOf c) t u
      · obtain ⟨u, hu⟩ := hu
        rw [typeofCall_step ht hu] at h ⊢
        rw [typeofCall_step ht hu]
        exact ih h
      · rw [typeofCall_end ht (not_exists.1 hu), typeofCall_end ht (not_exists.1 hu)]

/-- C25: a call of a value whose type is known to be that of a function is
accepted exactly if the number of arguments suits the parameters, and has the
return type of the function. -/
theorem C25_known {c : TrCtx} {t : Ty} {base : NsName} {ps : List Ty} {rest : List TypeOp}
    (hs : StandsFor (defsOf c) t (.mk base (.call ps :: rest))) (hk : Known (defsOf c) t)
    (aa : Nat) (r : Ty) :
    typeofCall c (typeofCallFuel c) t aa = .ok r ↔
      ArityOk (fun d => isEllipsis d = true) ps aa ∧ r = .mk base rest := by
  obtain ⟨n, hn⟩ := known_call hs hk aa
  have hnd : typeofCall c (typeofCallFuel c) t aa ≠ .diverge := by
    intro h
    have := typeofCall_fuel h (n + 1 + 0)
    rw [hn 0] at this
    split at this <;> cases this
  have e : typeofCall c (typeofCallFuel c) t aa =
      match arityError ps aa with
      | some e => .err e
      | none => .ok (.mk base rest) := by
    rw [← hn (typeofCallFuel c), ← typeofCall_mono (k := n + 1) hnd]
    congr 1; omega
  rw [e, ← arity_none]
  cases arityError ps aa with
  | some e => simp
  | none => simp [@eq_comm _ r]

theorem trArgs_length : ∀ {args : List Expr} {as : List (Ty × CExpr)} {c c1 : TrCtx},
    trArgs args c = .ok (as, c1) → as.length = args.length
  | [], as, c, c1, h => by
    rw [trArgs] at h
    rw [← (Tr.pure_ok.1 h).1]; rfl
  | e :: es, as, c, c1, h => by
    rw [trArgs] at h
    obtain ⟨a1, d1, k1, k2⟩ := Tr.bind_ok.1 h
    obtain ⟨a2, d2, k3, k4⟩ := Tr.bind_ok.1 k2
    rw [← (Tr.pure_ok.1 k4).1, List.length_cons, List.length_cons, trArgs_length k3]

/-- How the type of a call is found. -/
theorem trExpr_call {pos : Pos} {f : Expr} {args : List Expr} {c c' : TrCtx} {t : Ty} {r : CExpr}
    (hf : isIdent f "calloc!" = false) (h : trExpr (.call pos f args) c = .ok ((t, r), c')) :
    ∃ ft fv c1 as, trArgs args c = .ok (as, c1) ∧ trExpr f c1 = .ok ((ft, fv), c') ∧
      typeofCall c' (typeofCallFuel c') ft args.length = .ok t := by
  rw [trExpr] at h
  rcases Tr.ite_ok.1 h with ⟨h0, _⟩ | ⟨_, h⟩
  · rw [hf] at h0; cases h0
  obtain ⟨as, c1, h1, g1⟩ := Tr.bind_ok.1 h
  obtain ⟨⟨ft, fv⟩, c2, h2, g2⟩ := Tr.bind_ok.1 g1
  obtain ⟨x, c3, h3, g3⟩ := Tr.bind_ok.1 g2
  obtain ⟨hx, hc⟩ := Tr.get_ok.1 h3
  obtain ⟨y, c4, h4, g4⟩ := Tr.bind_ok.1 g3
  obtain ⟨h5, hc4⟩ := Tr.lift_ok.1 h4
  obtain ⟨h6, h7⟩ := Tr.pure_ok.1 g4
  cases h6
  subst hx hc hc4 h7
  rw [← trArgs_length h1]
  exact ⟨ft, fv, c1, as, h1, h2, h5⟩

/-- C25: a translated call other than `calloc!` calls a value of unknown type, or
one whose type stands for a function type whose parameters suit the arguments;
then the type of the call is the return type. -/
theorem C25_call {pos : Pos} {f : Expr} {args : List Expr} {c c' : TrCtx} {t : Ty} {r : CExpr}
    (hf : isIdent f "calloc!" = false) (h : trExpr (.call pos f args) c = .ok ((t, r), c')) :
    ∃ ft fv c1 as, trArgs args c = .ok (as, c1) ∧ trExpr f c1 = .ok ((ft, fv), c') ∧
      CallResult (defsOf c') ft args.length t := by
  obtain ⟨ft, fv, c1, as, h1, h2, h3⟩ := trExpr_call hf h
  exact ⟨ft, fv, c1, as, h1, h2, typeofCall_ok h3⟩

/-- The declared names of a parameter list. -/
def declared (ps : FuncParams) : Nat := (ps.list.map (fun p => p.forms.length)).sum

theorem paramTypes_length (ps : FuncParams) :
    (paramTypes ps).length = declared ps + if ps.ellipsis then 1 else 0 := by
  unfold paramTypes declared
  rw [List.length_append, List.length_flatMap]
  simp only [List.length_map]
  split <;> rfl

/-- C25: a call of a declared function is accepted exactly with as many arguments
as the function declares parameters, or with at least as many if it is variadic,
and has the declared return type.  A type cannot be called `...`. -/
theorem C25_declared {c : TrCtx} {f : FuncDecl} {aa : Nat} {r : Ty}
    (hn : ∀ p ∈ f.params.list, ∀ x ∈ p.forms, isEllipsis (typefromTypename p.typename x) = false) :
    typeofCall c (typeofCallFuel c) (typefromFuncDecl f) aa = .ok r ↔
      (if f.params.ellipsis then declared f.params ≤ aa else aa = declared f.params) ∧
      r = typefromTypename f.typename f.form := by
  have hk : Known (defsOf c) (typefromFuncDecl f) := by
    intro u hu
    cases hu with
    | refl => exact notTodo_of_ops (by simp [typefromFuncDecl, Ty.ops])
    | step h1 _ => exact absurd h1 unalias_func
  refine (C25_known (t := typefromFuncDecl f) (.refl _) hk aa r).trans ?_
  have hr : (Ty.mk (typefromTypename f.typename f.form).base (typefromTypename f.typename f.form).ops) =
      typefromTypename f.typename f.form := by
    cases typefromTypename f.typename f.form; rfl
  rw [hr]
  apply and_congr_left
  intro _
  have hl := paramTypes_length f.params
  unfold ArityOk
  cases he : f.params.ellipsis with
  | true =>
    simp only [he, if_true] at hl ⊢
    have hp : paramTypes f.params =
        f.params.list.flatMap (fun p => p.forms.map (fun f => typefromTypename p.typename f)) ++ [tEllipsis] := by
      simp [paramTypes, he]
    constructor
    · rintro (⟨ps, d, h1, _, h2⟩ | ⟨h1, _⟩)
      · rw [h1] at hl; simp at hl; omega
      · exact absurd (by decide +kernel) (h1 _ _ hp)
    · intro h
      refine .inl ⟨_, _, hp, by decide +kernel, ?_⟩
      rw [hp] at hl
      simp at hl
      simp
      omega
  | false =>
    simp only [he, Bool.false_eq_true, if_false, Nat.add_zero] at hl ⊢
    rw [hl]
    have hno : ∀ ps d, paramTypes f.params = ps ++ [d] → ¬ isEllipsis d = true := by
      intro ps d h
      have : d ∈ paramTypes f.params := by rw [h]; simp
      simp only [paramTypes, he, Bool.false_eq_true, if_false, List.append_nil, List.mem_flatMap,
        List.mem_map] at this
      obtain ⟨p, hp, x, hx, rfl⟩ := this
      rw [hn p hp x hx]; simp
    constructor
    · rintro (⟨ps, d, h1, h2, _⟩ | ⟨_, h⟩)
      · exact absurd h2 (hno _ _ h1)
      · exact h
    · exact fun h => .inr ⟨hno, h⟩

theorem trExpr_name {n : NsName} {c c' : TrCtx} {t : Ty} {r : CExpr}
    (h : trExpr (.name n) c = .ok ((t, r), c')) :
    n.ns = "OS" ∨
    (n.ns = "" ∧ ((∃ b, findBinding c.scopes n.name = some b ∧ t = b.typ) ∨
      findBinding c.scopes n.name = none)) ∨
    (n.ns ≠ "" ∧ ∃ i m, getNsPos c n.ns = some i ∧ c.mods[i]? = some m ∧
      typeofExport m.exports n.name c' = .ok (t, c')) := by
  rw [trExpr] at h
  obtain ⟨⟨t', v⟩, c1, h1, g1⟩ := Tr.bind_ok.1 h
  have g2 := (Tr.pure_ok.1 g1).1
  have g3 := (Tr.pure_ok.1 g1).2
  subst g3
  have e : t' = t := congrArg Prod.fst g2
  subst e
  simp only [trNsidInExpr, Tr.bind_ok] at h1
  obtain ⟨w, c2, hv, h2⟩ := h1
  have hs := (trNsid_spec hv).2
  rcases Tr.ite_ok.1 h2 with ⟨h3, _⟩ | ⟨_, h4⟩
  · exact .inl h3
  right
  obtain ⟨x, c3, h5, h6⟩ := Tr.bind_ok.1 h4
  obtain ⟨rfl, e3⟩ := Tr.get_ok.1 h5
  rw [e3] at h6
  have hf := findBinding_shape (s := c.scopes) (s' := x.scopes)
    (by rw [hs.shape, growScopes_nil]) n.name
  rcases Tr.ite_ok.1 h6 with ⟨h7, h8⟩ | ⟨h7, h8⟩
  · left
    refine ⟨h7, ?_⟩
    cases hb : findBinding x.scopes n.name with
    | some b =>
      simp only [hb] at h8
      have h9 := congrArg Prod.fst (Tr.pure_ok.1 h8).1
      rw [hb] at hf
      cases hb' : findBinding c.scopes n.name with
      | none => rw [hb'] at hf; cases hf
      | some b' =>
        rw [hb'] at hf
        simp only [Option.map_some, Option.some.injEq] at hf
        have : b.typ = b'.typ := by
          have := congrArg Binding.typ hf
          simpa [Binding.sig] using this
        exact .inl ⟨b', rfl, h9.symm.trans this⟩
    | none =>
      rw [hb] at hf
      cases hb' : findBinding c.scopes n.name with
      | none => exact .inr rfl
      | some b' => rw [hb'] at hf; cases hf
  · right
    refine ⟨h7, ?_⟩
    simp only [Tr.bind_ok, Tr.unwrap_ok] at h8
    obtain ⟨i, c5, ⟨k1, rfl⟩, m, c6, ⟨k2, rfl⟩, t2, c7, k3, k4⟩ := h8
    obtain ⟨k5, k6⟩ := Tr.pure_ok.1 k4
    have : t2 = t' := congrArg Prod.fst k5
    subst this k6
    have : c7 = c6 := by
      rw [typeofExport, Tr.ite_ok] at k3
      rcases k3 with ⟨_, ht⟩ | ⟨_, ht⟩
      · rw [Tr.pure_ok] at ht; exact ht.2.symm
      · cases hf : m.exports.fns.find? (fun f => f.form.name == n.name) with
        | some b => simp only [hf] at ht; rw [Tr.pure_ok] at ht; exact ht.2.symm
        | none => simp [hf, Tr.panic] at ht
    subst this
    refine ⟨i, m, ?_, ?_, k3⟩
    · rw [← k1]
      simp only [getNsPos, hs.head, hs.heads]
    · rw [← k2, hs.mods]

/-- C25: a translated call of a name that is bound to a declared function has the
right number of arguments and the declared return type. -/
theorem C25_local {pos : Pos} {n : NsName} {args : List Expr} {c c' : TrCtx} {t : Ty} {r : CExpr}
    {b : Binding} {f : FuncDecl} (hns : n.ns = "") (hname : n.name ≠ "calloc!")
    (hb : findBinding c.scopes n.name = some b) (hf : b.typ = typefromFuncDecl f)
    (hn : ∀ p ∈ f.params.list, ∀ x ∈ p.forms, isEllipsis (typefromTypename p.typename x) = false)
    (h : trExpr (.call pos (.name n) args) c = .ok ((t, r), c')) :
    (if f.params.ellipsis then declared f.params ≤ args.length
      else args.length = declared f.params) ∧ t = typefromTypename f.typename f.form := by
  obtain ⟨ft, fv, c1, as, h1, h2, h3⟩ := trExpr_call (by simp [isIdent, hname]) h
  have hs : Step _ [] c c1 := (trArgs_spec args h1).2
  have hsh := findBinding_shape (s := c.scopes) (s' := c1.scopes)
    (by rw [hs.shape, growScopes_nil]) n.name
  rw [hb] at hsh
  rcases trExpr_name h2 with h4 | ⟨_, h4⟩ | ⟨h4, _⟩
  · rw [hns] at h4; simp at h4
  · rcases h4 with ⟨b', h5, rfl⟩ | h5
    · rw [h5] at hsh
      simp only [Option.map_some, Option.some.injEq] at hsh
      have : b'.typ = b.typ := by
        have := congrArg Binding.typ hsh
        simpa [Binding.sig] using this
      rw [this, hf] at h3
      exact (C25_declared hn).1 h3
    · rw [h5] at hsh; cases hsh
  · exact absurd hns h4

/-- C25: a translated call of an imported function likewise. -/
theorem C25_imported {pos : Pos} {n : NsName} {args : List Expr} {c c' : TrCtx} {t : Ty} {r : CExpr}
    {i : Nat} {m : Module} {f : FuncDecl} (hns : n.ns ≠ "") (hos : n.ns ≠ "OS")
    (hi : getNsPos c n.ns = some i) (hm : c.mods[i]? = some m)
    (hc : m.exports.consts.any (fun k => k.name == n.name) = false)
    (hf : m.exports.fns.find? (fun f => f.form.name == n.name) = some f)
    (hn : ∀ p ∈ f.params.list, ∀ x ∈ p.forms, isEllipsis (typefromTypename p.typename x) = false)
    (h : trExpr (.call pos (.name n) args) c = .ok ((t, r), c')) :
    (if f.params.ellipsis then declared f.params ≤ args.length
      else args.length = declared f.params) ∧ t = typefromTypename f.typename f.form := by
  obtain ⟨ft, fv, c1, as, h1, h2, h3⟩ := trExpr_call (by simp [isIdent, hns]) h
  have hs : Step _ [] c c1 := (trArgs_spec args h1).2
  rcases trExpr_name h2 with h4 | ⟨h4, _⟩ | ⟨_, i', m', h4, h5, h6⟩
  · exact absurd h4 hos
  · exact absurd h4 hns
  · have : getNsPos c1 n.ns = getNsPos c n.ns := by simp only [getNsPos, hs.head, hs.heads]
    rw [this, hi] at h4
    cases h4
    rw [hs.mods, hm] at h5
    cases h5
    simp only [typeofExport, hc, Bool.false_eq_true, if_false, hf] at h6
    have h7 := (Tr.pure_ok.1 h6).1
    rw [← h7] at h3
    exact (C25_declared hn).1 h3

/-! ## Examples -/

section Examples
attribute [local instance] asciiOnly

/-- Comparisons of numbers are boolean. -/
example : outcome "int main() { int a = 1; if ((a == 2) && a) { return 1; } return 0; }\n" = "ok" := by
  decide +kernel

/-- C22 is false for two `bool`s: the comparison cannot even be used as a
condition. -/
theorem C22_counterexample :
    outcome "int main() { bool a = true; bool b = false; if ((a == b) && a) { return 1; } return 0; }\n" =
      "1:58 boo used as boolean: a == b && a;" := by decide +kernel

/-- An `int` and a `size_t`: the result is the wider one, whatever the order. -/
example : numOf (tJust "int") = some (.signed, 32) ∧ numOf (tJust "size_t") = some (.unsigned, 64) ∧
    (match typeofArith (tJust "int") (tJust "size_t"), typeofArith (tJust "size_t") (tJust "int") with
      | .ok a, .ok b => (numOf a, numOf b)
      | _, _ => (none, none)) = (some (.unsigned, 64), some (.unsigned, 64)) := by decide +kernel

/-- C23 is false for `+` with a constant on the right: `n + 1` is a constant and
not a `size_t`, while `1 + n` is a `size_t`. -/
theorem C23_counterexample :
    (match typeofPlusminus "+" (tJust "size_t") tNumber, typeofPlusminus "+" tNumber (tJust "size_t") with
      | .ok a, .ok b => (numOf a, numOf b)
      | _, _ => (none, none)) = (some (.const, 0), some (.unsigned, 64)) := by decide +kernel

/-- C23 is false for `+` on a `size_t` and an `int`, which is rejected although
`*` is accepted; and `n + 1 + i` is accepted although `n + i` is not. -/
theorem C23_counterexample_mixed :
    outcome "int main() { size_t n = 1; int i = 2; return n * i; }\n" = "ok" ∧
    outcome "int main() { size_t n = 1; int i = 2; return n + i; }\n" =
      "1:48 '+' operation between size_t and int: n + i;" ∧
    outcome "int main() { size_t n = 1; int i = 2; return n + 1 + i; }\n" = "ok" := by
  decide +kernel

example : outcome "int main() { int *p = NULL; return **&p; }\n" = "ok" := by decide +kernel

/-- C24 is false for arrays: the address of `a` is taken for an array of
pointers. -/
theorem C24_counterexample :
    outcome "int main() { int a[3] = {}; return (*&a)[0]; }\n" =
      "1:37 dereference of a non-pointer (array of pointer to int);" := by decide +kernel

/-- Calls of functions, of pointers to function types and of variadic functions. -/
example :
    outcome "int f(int x) { return x; } int main() { return f(1); }\n" = "ok" ∧
    outcome "int f(int x) { return x; } int main() { return f(1, 2); }\n" =
      "1:49 expected 1 arguments, got 2;" ∧
    outcome "typedef int t(int, ...); int main() { t *f = NULL; return f(1, 2); }\n" = "ok" ∧
    outcome "int main() { printf(); return 1; }\n" =
      "1:20 expected at least 1 arguments, got 0;" := by decide +kernel

/-- A typedef that stands for itself: the compiler never finishes when it is
called (`typeofCall_fuel` says that the model's budget is not to blame). -/
theorem call_of_cyclic_typedef_hangs :
    outcome "typedef t t; int main() { t *f = NULL; return f(1, 2); }\n" = "no end" := by decide +kernel

end Examples

end Che.Props
