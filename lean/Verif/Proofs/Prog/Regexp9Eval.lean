import Verif.Proofs.Prog.Regexp9Frag

/-!
The operators of the compiler, with trees in place of parts of the program.
-/
namespace Che.Proofs.Regexp9
open Che Che.Lib Che.Prog.Regexp9 Che.Spec.Regexp9

/-- An operator on trees. -/
def applyOp (op : Nat) (es : List Re) : Option (List Re) :=
  if op = OR then match es with
    | b :: a :: r => some (.alt a b :: r)
    | _ => none
  else if op = CAT then match es with
    | b :: a :: r => some (.cat a b :: r)
    | _ => none
  else if op = STAR then match es with
    | a :: r => some (.star a :: r)
    | _ => none
  else if op = PLUS then match es with
    | a :: r => some (.plus a :: r)
    | _ => none
  else if op = QUEST then match es with
    | a :: r => some (.opt a :: r)
    | _ => none
  else none

/-- `evaluntil` on trees. -/
def evalA (pri : Nat) : List (Nat × Nat) → List Re → Option (List (Nat × Nat) × List Re)
  | [], _ => none
  | (op, id) :: rest, es =>
    if pri = RBRA ∨ op ≥ pri then
      if op = LBRA then match es with
        | a :: r => some (rest, .grp id a :: r)
        | [] => none
      else (applyOp op es).bind (evalA pri rest)
    else some ((op, id) :: rest, es)

theorem evalA_cons (pri op g : Nat) (rest : List (Nat × Nat)) (es : List Re) :
    evalA pri ((op, g) :: rest) es =
      if pri = RBRA ∨ op ≥ pri then
        if op = LBRA then match es with
          | a :: r => some (rest, .grp g a :: r)
          | [] => none
        else (applyOp op es).bind (evalA pri rest)
      else some ((op, g) :: rest, es) := rfl

/-- The compiler holds the trees. -/
structure Holds (c : Comp) (ators : List (Nat × Nat)) (es : List Re) : Prop where
  ators : c.ators = ators
  stk : Stk c.insts c.insts.length c.ands es
  len : c.ands.length ≤ 20
  ids : ∀ a ∈ c.ators, a.1 = LBRA → 1 ≤ a.2 ∧ a.2 < 32

/-- The variables of the compiler that the operators leave. -/
def SameVars (c c' : Comp) : Prop := c'.cursubid = c.cursubid ∧ c'.lastwasand = c.lastwasand ∧ c'.nbra = c.nbra

theorem setNext_get (c : Comp) (i k n : Nat) : (setNext c i k).insts[n]? = if n = i then (c.insts[n]?).map (upd k) else c.insts[n]? := by
  simp only [setNext, List.getElem?_modify]
  by_cases h : n = i
  · simp [h]; rfl
  · simp [h, Ne.symm h]

theorem setNext_length (c : Comp) (i k : Nat) : (setNext c i k).insts.length = c.insts.length := by simp [setNext]

theorem pushand_ok {c : Comp} {f l : Nat} (h : c.ands.length < 20) : pushand c f l = .ok { c with ands := (f, l) :: c.ands } := by
  rw [pushand, if_neg (by omega)]

/-- `case LBRA`. -/
theorem evalBra_spec {c : Comp} {es : List Re} {g : Nat} (hs : Stk c.insts c.insts.length c.ands es) (hl : c.ands.length ≤ 20)
    (hg : 1 ≤ g) (hg' : g < 32) :
    match es with
    | a :: r => ∃ c', evalBra c g = .ok c' ∧ Stk c'.insts c'.insts.length c'.ands (.grp g a :: r) ∧ c'.ands.length ≤ 20 ∧
        c'.ators = c.ators ∧ SameVars c c'
    | [] => ∀ c', evalBra c g ≠ .ok c' := by
  obtain ⟨I, ands, ators, sub, last, nb⟩ := c
  cases es with
  | nil =>
    cases ands with
    | nil => intro c' h; simp [evalBra, popand, Res.bind] at h
    | cons a as => simp [Stk] at hs
  | cons e es =>
    cases ands with
    | nil => simp [Stk] at hs
    | cons p as =>
      obtain ⟨f, l⟩ := p
      obtain ⟨lo, hf, hr⟩ := hs
      simp only at hf hr hl
      have := hf.f1; have := hf.f2; have := hf.l1; have := hf.l2
      simp only [List.length_cons] at hl
      simp only [evalBra, popand, Res.bind, newinst]
      rw [pushand_ok (by simp [setNext]; omega)]
      refine ⟨_, rfl, ?_, by simp [setNext]; omega, by simp [setNext], by simp [SameVars, setNext]⟩
      generalize hc1 : setNext { insts := I ++ [⟨.rbra g, none⟩], ands := as, ators := ators, cursubid := sub, lastwasand := last, nbra := nb } l I.length = c1
      have hlen1 : c1.insts.length = I.length + 1 := by rw [← hc1, setNext_length]; simp
      have hands1 : c1.ands = as := by rw [← hc1]; rfl
      have get1 : ∀ n, c1.insts[n]? = if n = l then ((I ++ [⟨.rbra g, none⟩])[n]?).map (upd I.length) else (I ++ [⟨.rbra g, none⟩])[n]? := by
        intro n; rw [← hc1, setNext_get]
      simp only [setNext_length]
      show Stk _ _ ((c1.insts.length, I.length) :: (setNext _ _ _).ands) _
      have e1 : (setNext { c1 with insts := c1.insts ++ [⟨.lbra g, none⟩] } c1.insts.length f).ands = as := hands1
      rw [e1]
      generalize hJ : (setNext { c1 with insts := c1.insts ++ [⟨.lbra g, none⟩] } c1.insts.length f).insts = J
      have getJ : ∀ n, J[n]? = if n = I.length + 1 then some ⟨.lbra g, some f⟩ else c1.insts[n]? := by
        intro n
        rw [← hJ, setNext_get, hlen1]
        by_cases hn : n = I.length + 1
        · subst hn
          simp [hlen1, upd]
        · rw [if_neg hn, if_neg hn]
          show (c1.insts ++ _)[n]? = _
          rw [List.getElem?_append]
          split
          · rfl
          · rw [List.getElem?_eq_none (by simp; omega), List.getElem?_eq_none (by omega)]
      have getJ' : ∀ n, n < I.length → J[n]? = if n = l then (I[n]?).map (upd I.length) else I[n]? := by
        intro n hn
        rw [getJ, if_neg (by omega), get1, List.getElem?_append_left hn]
      simp only [List.length_append, List.length_cons, List.length_nil, hlen1]
      refine ⟨lo, frag_grp hf hg hg' (fun n _ h => getJ' n h) ?_ ?_, ?_⟩
      · rw [getJ, if_neg (by omega), get1, if_neg (by omega)]
        simp
      · rw [getJ, if_pos rfl]
      · refine hr.congr fun n hn => ?_
        rw [getJ' n (by omega), if_neg (by omega)]

theorem stk_cons {I hi as es} (h : Stk I hi as es) (ha : as ≠ []) : ∃ f l as' e es', as = (f, l) :: as' ∧ es = e :: es' := by
  cases as with
  | nil => exact absurd rfl ha
  | cons a as =>
    cases es with
    | nil => simp [Stk] at h
    | cons e es => exact ⟨a.1, a.2, as, e, es, rfl, rfl⟩

/-- The operators with two operands. -/
theorem evalOp_two {c : Comp} {es : List Re} (hs : Stk c.insts c.insts.length c.ands es) (hl : c.ands.length ≤ 20) {op : Nat}
    (hop : op = OR ∨ op = CAT) :
    match applyOp op es with
    | some es' => ∃ c', evalOp c op = .ok c' ∧ Stk c'.insts c'.insts.length c'.ands es' ∧ c'.ands.length ≤ 20 ∧
        c'.ators = c.ators ∧ SameVars c c'
    | none => ∀ c', evalOp c op ≠ .ok c' := by
  obtain ⟨I, ands, ators, sub, last, nb⟩ := c
  cases es with
  | nil =>
    cases ands with
    | nil => rcases hop with rfl | rfl <;> simp [applyOp, OR, CAT, evalOp, popand, Res.bind]
    | cons a as => simp [Stk] at hs
  | cons b es =>
    cases ands with
    | nil => simp [Stk] at hs
    | cons p as =>
      obtain ⟨f2, l2⟩ := p
      obtain ⟨mid, hb, hs⟩ := hs
      cases es with
      | nil =>
        cases as with
        | nil => rcases hop with rfl | rfl <;> simp [applyOp, OR, CAT, evalOp, popand, Res.bind]
        | cons a as => simp [Stk] at hs
      | cons a es =>
        cases as with
        | nil => simp [Stk] at hs
        | cons p as =>
          obtain ⟨f1, l1⟩ := p
          obtain ⟨lo, ha, hr⟩ := hs
          simp only at ha hb hr hl
          have := ha.f1; have := ha.f2; have := ha.l1; have := ha.l2
          have := hb.f1; have := hb.f2; have := hb.l1; have := hb.l2
          simp only [List.length_cons] at hl
          rcases hop with rfl | rfl
          · have e : applyOp OR (b :: a :: es) = some (.alt a b :: es) := by simp [applyOp]
            rw [e]
            simp only [evalOp, if_true, popand, Res.bind, newinst, newor]
            rw [pushand_ok (by simp [setNext]; omega)]
            refine ⟨_, rfl, ?_, by simp [setNext]; omega, by simp [setNext], by simp [SameVars, setNext]⟩
            generalize hc1 : setNext { insts := I ++ [⟨.nop, none⟩], ands := as, ators := ators, cursubid := sub, lastwasand := last, nbra := nb } l2 I.length = c1
            have hlen1 : c1.insts.length = I.length + 1 := by rw [← hc1, setNext_length]; simp
            have hands1 : c1.ands = as := by rw [← hc1]; rfl
            have get1 : ∀ n, c1.insts[n]? = if n = l2 then ((I ++ [⟨.nop, none⟩])[n]?).map (upd I.length) else (I ++ [⟨.nop, none⟩])[n]? := by
              intro n; rw [← hc1, setNext_get]
            generalize hc2 : setNext c1 l1 I.length = c2
            have hlen2 : c2.insts.length = I.length + 1 := by rw [← hc2, setNext_length, hlen1]
            have hands2 : c2.ands = as := by rw [← hc2]; exact hands1
            have get2 : ∀ n, c2.insts[n]? = if n = l1 then (c1.insts[n]?).map (upd I.length) else c1.insts[n]? := by
              intro n; rw [← hc2, setNext_get]
            simp only [hands2, hlen2, List.length_append, List.length_cons, List.length_nil]
            have getJ : ∀ n, n < I.length → (c2.insts ++ [⟨.or f1, some f2⟩])[n]? =
                if n = l1 ∨ n = l2 then (I[n]?).map (upd I.length) else I[n]? := by
              intro n hn
              rw [List.getElem?_append_left (by omega), get2, get1, List.getElem?_append_left hn]
              by_cases h1 : n = l1
              · have h2 : n ≠ l2 := by omega
                simp [h1, show l1 ≠ l2 by omega]
              · rw [if_neg h1]
                by_cases h2 : n = l2
                · rw [if_pos h2, if_pos (Or.inr h2)]
                · rw [if_neg h2, if_neg (by simp [h1, h2])]
            refine ⟨lo, frag_alt ha hb ?_ ?_ ?_ ?_, ?_⟩
            · intro n h1 h2
              rw [getJ n (by omega)]
              have : n ≠ l2 := by omega
              simp [this]
            · intro n h1 h2
              rw [getJ n h2]
              have : n ≠ l1 := by omega
              simp [this]
            · rw [List.getElem?_append_left (by omega), get2, if_neg (by omega), get1, if_neg (by omega)]
              simp
            · rw [List.getElem?_append_right (by omega), hlen2]
              simp
            · refine hr.congr fun n hn => ?_
              rw [getJ n (by omega), if_neg (by omega)]
          · have e : applyOp CAT (b :: a :: es) = some (.cat a b :: es) := by simp [applyOp, CAT, OR]
            rw [e]
            have e2 : ¬ CAT = OR := by decide
            simp only [evalOp, if_neg e2, if_true, popand, Res.bind]
            rw [pushand_ok (by simp [setNext]; omega)]
            refine ⟨_, rfl, ?_, by simp [setNext]; omega, by simp [setNext], by simp [SameVars, setNext]⟩
            simp only [setNext_length]
            refine ⟨lo, frag_cat ha hb ?_ ?_, ?_⟩
            · intro n h1 h2
              rw [setNext_get]
            · intro n h1
              rw [setNext_get, if_neg (by omega)]
            · refine Stk.congr hr fun n hn => ?_
              rw [setNext_get, if_neg (by omega)]

/-- The operators with one operand. -/
theorem evalOp_one {c : Comp} {es : List Re} (hs : Stk c.insts c.insts.length c.ands es) (hl : c.ands.length ≤ 20) {op : Nat}
    (hop : op = STAR ∨ op = PLUS ∨ op = QUEST) :
    match applyOp op es with
    | some es' => ∃ c', evalOp c op = .ok c' ∧ Stk c'.insts c'.insts.length c'.ands es' ∧ c'.ands.length ≤ 20 ∧
        c'.ators = c.ators ∧ SameVars c c'
    | none => ∀ c', evalOp c op ≠ .ok c' := by
  obtain ⟨I, ands, ators, sub, last, nb⟩ := c
  cases es with
  | nil =>
    cases ands with
    | nil => rcases hop with rfl | rfl | rfl <;> simp [applyOp, OR, CAT, STAR, PLUS, QUEST, evalOp, popand, Res.bind]
    | cons a as => simp [Stk] at hs
  | cons a es =>
    cases ands with
    | nil => simp [Stk] at hs
    | cons p as =>
      obtain ⟨f, l⟩ := p
      obtain ⟨lo, hf, hr⟩ := hs
      simp only at hf hr hl
      have := hf.f1; have := hf.f2; have := hf.l1; have := hf.l2
      simp only [List.length_cons] at hl
      have get1 : ∀ (as : List (Nat × Nat)) n, (setNext { insts := I ++ [⟨.or f, none⟩], ands := as, ators := ators, cursubid := sub, lastwasand := last, nbra := nb } l I.length).insts[n]? =
          if n = I.length then some ⟨.or f, none⟩ else if n = l then (I[n]?).map (upd I.length) else I[n]? := by
        intro as n
        rw [setNext_get]
        by_cases h1 : n = I.length
        · subst h1
          rw [if_neg (by omega)]
          simp
        · rw [if_neg h1]
          show (if n = l then Option.map _ (I ++ _)[n]? else (I ++ _)[n]?) = _
          have : (I ++ [⟨.or f, none⟩])[n]? = I[n]? := by
            rw [List.getElem?_append]
            split
            · rfl
            · rw [List.getElem?_eq_none (by simp; omega), List.getElem?_eq_none (by omega)]
          rw [this]
      rcases hop with rfl | rfl | rfl
      · have e : applyOp STAR (a :: es) = some (.star a :: es) := by simp [applyOp, CAT, OR, STAR]
        rw [e]
        have e1 : ¬ STAR = OR := by decide
        have e2 : ¬ STAR = CAT := by decide
        simp only [evalOp, if_neg e1, if_neg e2, if_true, popand, Res.bind, newor]
        rw [pushand_ok (by simp [setNext]; omega)]
        refine ⟨_, rfl, ?_, by simp [setNext]; omega, by simp [setNext], by simp [SameVars, setNext]⟩
        simp only [setNext_length, List.length_append, List.length_cons, List.length_nil]
        refine ⟨lo, frag_star hf ?_ ?_, ?_⟩
        · intro n h1 h2
          rw [get1, if_neg (by omega)]
        · rw [get1, if_pos rfl]
        · refine Stk.congr hr fun n hn => ?_
          rw [get1, if_neg (by omega), if_neg (by omega)]
      · have e : applyOp PLUS (a :: es) = some (.plus a :: es) := by simp [applyOp, CAT, OR, STAR, PLUS]
        rw [e]
        have e1 : ¬ PLUS = OR := by decide
        have e2 : ¬ PLUS = CAT := by decide
        have e3 : ¬ PLUS = STAR := by decide
        simp only [evalOp, if_neg e1, if_neg e2, if_neg e3, if_true, popand, Res.bind, newor]
        rw [pushand_ok (by simp [setNext]; omega)]
        refine ⟨_, rfl, ?_, by simp [setNext]; omega, by simp [setNext], by simp [SameVars, setNext]⟩
        simp only [setNext_length, List.length_append, List.length_cons, List.length_nil]
        refine ⟨lo, frag_plus hf ?_ ?_, ?_⟩
        · intro n h1 h2
          rw [get1, if_neg (by omega)]
        · rw [get1, if_pos rfl]
        · refine Stk.congr hr fun n hn => ?_
          rw [get1, if_neg (by omega), if_neg (by omega)]
      · have e : applyOp QUEST (a :: es) = some (.opt a :: es) := by simp [applyOp, CAT, OR, STAR, PLUS, QUEST]
        rw [e]
        have e1 : ¬ QUEST = OR := by decide
        have e2 : ¬ QUEST = CAT := by decide
        have e3 : ¬ QUEST = STAR := by decide
        have e4 : ¬ QUEST = PLUS := by decide
        simp only [evalOp, if_neg e1, if_neg e2, if_neg e3, if_neg e4, if_true, popand, Res.bind, newor, newinst]
        rw [pushand_ok (by simp [setNext]; omega)]
        refine ⟨_, rfl, ?_, by simp [setNext]; omega, by simp [setNext], by simp [SameVars, setNext]⟩
        simp only [setNext_length, List.length_append, List.length_cons, List.length_nil]
        have get2 : ∀ n, (setNext (setNext { insts := I ++ [⟨.or f, none⟩] ++ [⟨.nop, none⟩], ands := as, ators := ators, cursubid := sub, lastwasand := last, nbra := nb } I.length (I.length + 1)) l (I.length + 1)).insts[n]? =
            if n = I.length then some ⟨.or f, some (I.length + 1)⟩ else if n = I.length + 1 then some ⟨.nop, none⟩ else if n = l then (I[n]?).map (upd (I.length + 1)) else I[n]? := by
          intro n
          rw [setNext_get, setNext_get]
          by_cases h1 : n = I.length
          · subst h1
            rw [if_neg (by omega)]
            simp [upd]
          · by_cases h2 : n = I.length + 1
            · subst h2
              rw [if_neg (by omega)]
              simp
            · simp only [if_neg h1, if_neg h2]
              have : (I ++ [⟨.or f, none⟩] ++ [⟨.nop, none⟩])[n]? = I[n]? := by
                rw [List.append_assoc, List.getElem?_append]
                split
                · rfl
                · rw [List.getElem?_eq_none (by simp; omega), List.getElem?_eq_none (by omega)]
              rw [this]
        refine ⟨lo, frag_opt hf ?_ ?_ ?_, ?_⟩
        · intro n h1 h2
          have := get2 n
          simp only [if_neg (show n ≠ I.length by omega), if_neg (show n ≠ I.length + 1 by omega)] at this
          exact this
        · have := get2 I.length
          rw [if_pos rfl] at this
          exact this
        · have := get2 (I.length + 1)
          rw [if_neg (by omega), if_pos rfl] at this
          exact this
        · refine Stk.congr hr fun n hn => ?_
          have := get2 n
          simp only [if_neg (show n ≠ I.length by omega), if_neg (show n ≠ I.length + 1 by omega), if_neg (show n ≠ l by omega)] at this
          exact this

theorem evalOp_spec {c : Comp} {es : List Re} (hs : Stk c.insts c.insts.length c.ands es) (hl : c.ands.length ≤ 20) (op : Nat) :
    match applyOp op es with
    | some es' => ∃ c', evalOp c op = .ok c' ∧ Stk c'.insts c'.insts.length c'.ands es' ∧ c'.ands.length ≤ 20 ∧
        c'.ators = c.ators ∧ SameVars c c'
    | none => ∀ c', evalOp c op ≠ .ok c' := by
  by_cases h1 : op = OR ∨ op = CAT
  · exact evalOp_two hs hl h1
  · by_cases h2 : op = STAR ∨ op = PLUS ∨ op = QUEST
    · exact evalOp_one hs hl h2
    · simp only [not_or] at h1 h2
      have e : applyOp op es = none := by simp [applyOp, h1, h2]
      rw [e]
      intro c' h
      simp [evalOp, h1, h2] at h

/-- The loop of `evaluntil`. -/
theorem evalLoop_spec (pri : Nat) : ∀ (ators : List (Nat × Nat)) (c : Comp) (es : List Re), Holds c ators es →
    match evalA pri ators es with
    | some (ators', es') => ∃ c', evalLoop pri ators c = .ok c' ∧ Holds c' ators' es' ∧ SameVars c c' ∧
        (∀ a ∈ ators', a ∈ ators)
    | none => ∀ c', evalLoop pri ators c ≠ .ok c' := by
  intro ators
  induction ators with
  | nil => intro c es _; simp [evalA, evalLoop]
  | cons a rest ih =>
    intro c es h
    obtain ⟨op, g⟩ := a
    rw [evalA_cons]
    by_cases hp : pri = RBRA ∨ op ≥ pri
    · rw [if_pos hp, evalLoop, if_pos hp]
      by_cases hb : op = LBRA
      · rw [if_pos hb, if_pos hb]
        obtain ⟨g1, g2⟩ := h.ids (op, g) (by rw [h.ators]; simp) hb
        have := evalBra_spec (c := { c with ators := rest }) h.stk h.len g1 g2
        cases es with
        | nil => exact this
        | cons e es =>
          obtain ⟨c', h1, h2, h3, h4, h5⟩ := this
          refine ⟨c', h1, ⟨h4, h2, h3, ?_⟩, h5, fun a ha => List.mem_cons_of_mem _ ha⟩
          intro a ha
          exact h.ids a (by rw [h.ators]; rw [h4] at ha; exact List.mem_cons_of_mem _ ha)
      · rw [if_neg hb, if_neg hb]
        have := evalOp_spec (c := { c with ators := rest }) h.stk h.len op
        cases ha : applyOp op es with
        | none =>
          rw [ha] at this
          simp only [Option.bind_none]
          intro c' hc
          cases he : evalOp { c with ators := rest } op with
          | ok c1 => exact this _ he
          | err _ => rw [he] at hc; cases hc
          | panic _ => rw [he] at hc; cases hc
          | diverge => rw [he] at hc; cases hc
        | some es1 =>
          rw [ha] at this
          obtain ⟨c1, h1, h2, h3, h4, h5⟩ := this
          simp only [Option.bind_some]
          rw [h1]
          simp only [Res.bind]
          have hh : Holds c1 rest es1 := ⟨h4, h2, h3, fun a ha => h.ids a (by rw [h.ators]; rw [h4] at ha; exact List.mem_cons_of_mem _ ha)⟩
          have := ih c1 es1 hh
          cases hr : evalA pri rest es1 with
          | none => rw [hr] at this; exact this
          | some p =>
            rw [hr] at this
            obtain ⟨ators', es'⟩ := p
            obtain ⟨c', q1, q2, q3, q4⟩ := this
            exact ⟨c', q1, q2, ⟨q3.1.trans h5.1, q3.2.1.trans h5.2.1, q3.2.2.trans h5.2.2⟩, fun a ha => List.mem_cons_of_mem _ (q4 a ha)⟩
    · rw [if_neg hp, evalLoop, if_neg hp]
      exact ⟨c, rfl, h, ⟨rfl, rfl, rfl⟩, fun a ha => ha⟩

end Che.Proofs.Regexp9
