import Verif.Spec.Prog.Tsmeta

namespace Che.Prog.Tsmeta
open Che.Lib Che.Spec.Tsmeta

theorem bind_eq {α β : Type} {x : Res String α} {g : α → Res String β} {y : β} (h : x.bind g = .ok y) : ∃ a, x = .ok a ∧ g a = .ok y := by
  cases x with
  | ok a => exact ⟨a, rfl, h⟩
  | err => cases h
  | panic => cases h
  | diverge => cases h

theorem evalAll_imp {f g : E → Res String E} : ∀ (es : List E) (rs : List E), (∀ e ∈ es, ∀ r, f e = .ok r → g e = .ok r) → evalAll f es = .ok rs → evalAll g es = .ok rs
  | [], rs, _, h => h
  | e :: es, rs, hf, h => by
    rw [evalAll] at h ⊢
    obtain ⟨r, h1, h⟩ := bind_eq h
    obtain ⟨rs', h2, h⟩ := bind_eq h
    rw [hf e List.mem_cons_self r h1, evalAll_imp es rs' (fun e he => hf e (List.mem_cons_of_mem _ he)) h2]
    exact h

/-- A greater bound gives the same. -/
theorem eval_mono : ∀ (k : Nat) (types : List Def) (e r : E), eval k types e = .ok r → eval (k + 1) types e = .ok r
  | 0, _, _, _, h => by rw [eval] at h; cases h
  | k + 1, types, e, r, h => by
    cases e with
    | t => exact h
    | f => exact h
    | num s => exact h
    | str s => exact h
    | list es =>
      rw [eval] at h ⊢
      obtain ⟨rs, h1, h⟩ := bind_eq h
      rw [evalAll_imp es rs (fun e _ r hr => eval_mono k types e r hr) h1]
      exact h
    | union es =>
      rw [eval] at h ⊢
      obtain ⟨rs, h1, h⟩ := bind_eq h
      rw [evalAll_imp es rs (fun e _ r hr => eval_mono k types e r hr) h1]
      exact h
    | call n es =>
      rw [eval] at h ⊢
      cases hg : get_tdef types n with
      | none => rw [hg] at h; cases h
      | some d =>
        rw [hg] at h
        simp only at h ⊢
        cases he : d.expr with
        | none => rw [he] at h; cases h
        | some b =>
          rw [he] at h
          exact eval_mono k _ b r h

mutual
theorem subst_same {s : Bytes → Option E} : ∀ (e : E), (∀ n ∈ names e, s n = none) → subst s e = e
  | .t, _ => by rw [subst]
  | .f, _ => by rw [subst]
  | .num _, _ => by rw [subst]
  | .str _, _ => by rw [subst]
  | .list es, h => by rw [subst, substAll_same es (by rwa [names] at h)]
  | .union es, h => by rw [subst, substAll_same es (by rwa [names] at h)]
  | .call n es, h => by
    rw [names] at h
    rw [subst, h n List.mem_cons_self]
    simp only
    rw [substAll_same es (fun x hx => h x (List.mem_cons_of_mem _ hx))]

theorem substAll_same {s : Bytes → Option E} : ∀ (es : List E), (∀ n ∈ namesAll es, s n = none) → substAll s es = es
  | [], _ => by rw [substAll]
  | e :: es, h => by
    rw [namesAll] at h
    rw [substAll, subst_same e (fun n hn => h n (List.mem_append_left _ hn)), substAll_same es (fun n hn => h n (List.mem_append_right _ hn))]
end

theorem argument_none : ∀ (ps : List Bytes) (args : List E) (n : Bytes), n ∉ ps → argument ps args n = none
  | [], args, n, _ => by rw [argument]; simp
  | p :: ps, [], n, _ => by rw [argument]; simp
  | p :: ps, a :: as, n, h => by
    rw [argument, if_neg (fun e => h (by rw [e]; exact List.mem_cons_self)), argument_none ps as n (fun hn => h (List.mem_cons_of_mem _ hn))]

theorem argument_nil (ps : List Bytes) (n : Bytes) : argument ps [] n = none := by
  cases ps <;> rw [argument] <;> simp

theorem argument_mem : ∀ (ps : List Bytes) (args : List E) (n : Bytes) (a : E), argument ps args n = some a → ∀ m ∈ names a, m ∈ namesAll args
  | [], args, n, a, h => by rw [argument_none [] args n (by simp)] at h; cases h
  | p :: ps, [], n, a, h => by rw [argument_nil] at h; cases h
  | p :: ps, b :: as, n, a, h => by
    rw [argument] at h
    intro m hm
    rw [namesAll]
    split at h
    · cases h; exact List.mem_append_left _ hm
    · exact List.mem_append_right _ (argument_mem ps as n a h m hm)

theorem get_push : ∀ (ps : List Bytes) (args : List E) (types : List Def) (x : Bytes), ps.Nodup →
    get_tdef (push ps args types) x = if x ∈ ps then some ⟨x, [], argument ps args x⟩ else get_tdef types x
  | [], args, types, x, _ => by rw [push, if_neg (by simp)]
  | p :: ps, args, types, x, h => by
    obtain ⟨h1, h2⟩ := List.nodup_cons.mp h
    rw [push, get_push ps args.tail _ x h2]
    by_cases hx : x ∈ ps
    · have hp : p ≠ x := fun e => h1 (by rw [e]; exact hx)
      rw [if_pos hx, if_pos (List.mem_cons_of_mem _ hx)]
      cases args with
      | nil => rw [List.tail_nil, argument_nil, argument_nil]
      | cons a as => rw [argument, if_neg hp]; rfl
    · rw [if_neg hx, get_tdef]
      by_cases hp : p = x
      · rw [if_pos hp, if_pos (by rw [hp]; exact List.mem_cons_self)]
        cases args with
        | nil => rw [argument_nil, hp]; rfl
        | cons a as => rw [argument, if_pos hp, hp]; rfl
      · rw [if_neg hp, if_neg]
        intro hm
        rcases List.mem_cons.mp hm with e | e
        · exact hp e.symm
        · exact hx e

theorem get_mem : ∀ {types : List Def} {x : Bytes} {d : Def}, get_tdef types x = some d → d ∈ types ∧ d.name = x
  | [], _, _, h => by cases h
  | c :: types, x, d, h => by
    rw [get_tdef] at h
    split at h
    · next e => cases h; exact ⟨List.mem_cons_self, e⟩
    · obtain ⟨a, b⟩ := get_mem h; exact ⟨List.mem_cons_of_mem _ a, b⟩

section
variable {types : List Def} {name : Bytes} {ps : List Bytes} {body : E} {args : List E}

/-- Types with and without the arguments of the call. -/
inductive Rel (types : List Def) (name : Bytes) (ps : List Bytes) (args : List E) : List Def → List Def → Prop
  | base : Rel types name ps args (push ps args types) types
  | more (n : Bytes) (b : Option E) (t1 t2 : List Def) : n ≠ name → n ∉ ps → (∀ e, b = some e → name ∉ names e) → Rel types name ps args t1 t2 →
      Rel types name ps args (⟨n, [], b⟩ :: t1) (⟨n, [], b.map (subst (argument ps args))⟩ :: t2)

theorem rel_param (hn : ps.Nodup) {t1 t2 : List Def} (h : Rel types name ps args t1 t2) (x : Bytes) (hx : x ∈ ps) : get_tdef t1 x = some ⟨x, [], argument ps args x⟩ := by
  induction h with
  | base => rw [get_push ps args types x hn, if_pos hx]
  | more n b t1 t2 _ h2 _ _ ih => rw [get_tdef, if_neg (fun e => h2 (by rw [show n = x from e]; exact hx))]; exact ih

theorem rel_other (ha : Apart types name ps body args) (hn : ps.Nodup) {t1 t2 : List Def} (h : Rel types name ps args t1 t2) (x : Bytes) (hx : x ∉ ps) (hx' : x ≠ name) :
    (get_tdef t1 x = none ∧ get_tdef t2 x = none) ∨
    ∃ d, get_tdef t1 x = some d ∧ get_tdef t2 x = some { d with expr := d.expr.map (subst (argument ps args)) } ∧ (∀ p ∈ d.args, p ≠ name ∧ p ∉ ps) ∧
      ∀ e, d.expr = some e → name ∉ names e := by
  induction h with
  | base =>
    rw [get_push ps args types x hn, if_neg hx]
    cases hg : get_tdef types x with
    | none => exact .inl ⟨rfl, rfl⟩
    | some d =>
      obtain ⟨hm, he⟩ := get_mem hg
      obtain ⟨_, h2, h3⟩ := ha.other d hm (by rw [he]; exact hx')
      refine .inr ⟨d, rfl, ?_, h2, fun e hd hmem => (h3 e hd name hmem).1 rfl⟩
      obtain ⟨dn, da, de⟩ := d
      cases de with
      | none => rfl
      | some e =>
        simp only [Option.map_some]
        rw [subst_same e (fun n hn => argument_none ps args n (h3 e rfl n hn).2)]
  | more n b t1 t2 h1 h2 h3 _ ih =>
    rw [get_tdef, get_tdef]
    by_cases he : n = x
    · rw [if_pos he, if_pos he]
      exact .inr ⟨_, rfl, rfl, by simp, h3⟩
    · rw [if_neg he, if_neg he]
      exact ih

theorem rel_push : ∀ (qs : List Bytes) (es : List E) {t1 t2 : List Def}, (∀ q ∈ qs, q ≠ name ∧ q ∉ ps) → name ∉ namesAll es → Rel types name ps args t1 t2 →
    Rel types name ps args (push qs es t1) (push qs (substAll (argument ps args) es) t2)
  | [], _, _, _, _, _, h => h
  | q :: qs, [], t1, t2, hq, he, h => by
    rw [substAll, push, push]
    have := rel_push qs [] (fun p hp => hq p (List.mem_cons_of_mem _ hp)) he (Rel.more q none t1 t2 (hq q List.mem_cons_self).1 (hq q List.mem_cons_self).2 (fun _ h => by cases h) h)
    rwa [substAll] at this
  | q :: qs, e :: es, t1, t2, hq, he, h => by
    rw [namesAll, List.mem_append, not_or] at he
    rw [substAll, push, push]
    exact rel_push qs es (fun p hp => hq p (List.mem_cons_of_mem _ hp)) he.2
      (Rel.more q (some e) t1 t2 (hq q List.mem_cons_self).1 (hq q List.mem_cons_self).2 (fun _ h => by cases h; exact he.1) h)

/-- What an expression is with the arguments among the types is what it is with the arguments in it. -/
theorem sim (ha : Apart types name ps body args) (hn : ps.Nodup) : ∀ (k : Nat) (t1 t2 : List Def) (e r : E), Rel types name ps args t1 t2 → name ∉ names e →
    eval k t1 e = .ok r → eval k t2 (subst (argument ps args) e) = .ok r
  | 0, _, _, _, _, _, _, h => by rw [eval] at h; cases h
  | k + 1, t1, t2, e, r, hr, he, h => by
    have all : ∀ (es : List E) (rs : List E), name ∉ namesAll es → evalAll (eval k t1) es = .ok rs → evalAll (eval k t2) (substAll (argument ps args) es) = .ok rs := by
      intro es
      induction es with
      | nil => intro rs _ h; rw [substAll]; exact h
      | cons e es ih =>
        intro rs hm h
        rw [namesAll, List.mem_append, not_or] at hm
        rw [evalAll] at h
        obtain ⟨x, h1, h⟩ := bind_eq h
        obtain ⟨xs, h2, h⟩ := bind_eq h
        rw [substAll, evalAll, sim ha hn k t1 t2 e x hr hm.1 h1, ih xs hm.2 h2]
        exact h
    cases e with
    | t => rw [subst]; exact h
    | f => rw [subst]; exact h
    | num s => rw [subst]; exact h
    | str s => rw [subst]; exact h
    | list es =>
      rw [names] at he
      rw [eval] at h
      obtain ⟨rs, h1, h⟩ := bind_eq h
      rw [subst, eval, all es rs he h1]
      exact h
    | union es =>
      rw [names] at he
      rw [eval] at h
      obtain ⟨rs, h1, h⟩ := bind_eq h
      rw [subst, eval, all es rs he h1]
      exact h
    | call x es =>
      rw [names, List.mem_cons, not_or] at he
      rw [eval] at h
      by_cases hx : x ∈ ps
      · rw [rel_param hn hr x hx] at h
        simp only at h
        cases hs : argument ps args x with
        | none => rw [hs] at h; cases h
        | some a =>
          rw [hs] at h
          have hm := argument_mem ps args x a hs
          have h1 := sim ha hn k t1 t2 a r hr (fun hmem => (ha.args name (hm name hmem)).1 rfl) h
          rw [subst_same a (fun n hmem => argument_none ps args n (ha.args n (hm n hmem)).2)] at h1
          rw [subst, hs]
          exact eval_mono k t2 a r h1
      · rw [subst, argument_none ps args x hx]
        simp only
        rw [eval]
        rcases rel_other ha hn hr x hx (fun e => he.1 e.symm) with ⟨g1, _⟩ | ⟨d, g1, g2, g3, g4⟩
        · rw [g1] at h; cases h
        · rw [g1] at h
          rw [g2]
          simp only at h ⊢
          cases hd : d.expr with
          | none => rw [hd] at h; cases h
          | some b =>
            rw [hd] at h
            simp only [Option.map_some] at h ⊢
            exact sim ha hn k _ _ b r (rel_push d.args es g3 he.2 hr) (g4 b hd) h
theorem rel_none (ha : Apart types name ps body args) {t1 t2 : List Def} (h : Rel types name ps args t1 t2) (x : Bytes) (hx : x ∈ ps) : get_tdef t2 x = none := by
  induction h with
  | base =>
    cases hg : get_tdef types x with
    | none => rfl
    | some d =>
      obtain ⟨hm, he⟩ := get_mem hg
      exact absurd hx (he ▸ (ha.other d hm (fun e => ha.own.2 (by rw [← e, he]; exact hx))).1)
  | more n b t1 t2 _ h2 _ _ ih => rw [get_tdef, if_neg (fun e => h2 (by rw [show n = x from e]; exact hx))]; exact ih

/-- What an expression is with the arguments in it is what it is with the arguments among the types, in at most twice as many steps. -/
theorem sim_back (ha : Apart types name ps body args) (hn : ps.Nodup) : ∀ (k : Nat) (t1 t2 : List Def) (e r : E), Rel types name ps args t1 t2 → name ∉ names e →
    eval k t2 (subst (argument ps args) e) = .ok r → eval (2 * k) t1 e = .ok r
  | 0, _, _, _, _, _, _, h => by rw [eval] at h; cases h
  | k + 1, t1, t2, e, r, hr, he, h => by
    have all : ∀ (es : List E) (rs : List E), name ∉ namesAll es → evalAll (eval k t2) (substAll (argument ps args) es) = .ok rs → evalAll (eval (2 * k) t1) es = .ok rs := by
      intro es
      induction es with
      | nil => intro rs _ h; rw [substAll] at h; exact h
      | cons e es ih =>
        intro rs hm h
        rw [namesAll, List.mem_append, not_or] at hm
        rw [substAll, evalAll] at h
        obtain ⟨x, h1, h⟩ := bind_eq h
        obtain ⟨xs, h2, h⟩ := bind_eq h
        rw [evalAll, sim_back ha hn k t1 t2 e x hr hm.1 h1, ih xs hm.2 h2]
        exact h
    -- anything but a parameter
    have plain : ∀ (e r : E), name ∉ names e → (∀ n es, e = .call n es → n ∉ ps) → eval (k + 1) t2 (subst (argument ps args) e) = .ok r → eval (2 * k + 1) t1 e = .ok r := by
      intro e r he hp h
      cases e with
      | t => rw [subst] at h; exact h
      | f => rw [subst] at h; exact h
      | num s => rw [subst] at h; exact h
      | str s => rw [subst] at h; exact h
      | list es =>
        rw [names] at he
        rw [subst, eval] at h
        obtain ⟨rs, h1, h⟩ := bind_eq h
        rw [eval, all es rs he h1]
        exact h
      | union es =>
        rw [names] at he
        rw [subst, eval] at h
        obtain ⟨rs, h1, h⟩ := bind_eq h
        rw [eval, all es rs he h1]
        exact h
      | call x es =>
        have hx := hp x es rfl
        rw [names, List.mem_cons, not_or] at he
        rw [subst, argument_none ps args x hx] at h
        simp only at h
        rw [eval] at h
        rw [eval]
        rcases rel_other ha hn hr x hx (fun e => he.1 e.symm) with ⟨_, g2⟩ | ⟨d, g1, g2, g3, g4⟩
        · rw [g2] at h; cases h
        · rw [g2] at h
          rw [g1]
          simp only at h ⊢
          cases hd : d.expr with
          | none => rw [hd] at h; cases h
          | some b =>
            rw [hd] at h
            simp only [Option.map_some] at h ⊢
            exact sim_back ha hn k _ _ b r (rel_push d.args es g3 he.2 hr) (g4 b hd) h
    by_cases hc : ∀ n es, e = .call n es → n ∉ ps
    · exact eval_mono _ t1 e r (plain e r he hc h)
    · simp only [Classical.not_forall, Classical.not_not] at hc
      obtain ⟨x, es, rfl, hx⟩ := hc
      rw [show 2 * (k + 1) = 2 * k + 1 + 1 by omega, eval, rel_param hn hr x hx]
      simp only
      rw [subst] at h
      cases hs : argument ps args x with
      | none =>
        rw [hs] at h
        simp only at h
        rw [eval, rel_none ha hr x hx] at h
        cases h
      | some a =>
        rw [hs] at h
        simp only at h ⊢
        have hm := argument_mem ps args x a hs
        refine plain a r (fun hmem => (ha.args name (hm name hmem)).1 rfl) ?_ ?_
        · intro n es e hp
          exact (ha.args n (hm n (by rw [e, names]; exact List.mem_cons_self))).2 hp
        · rw [subst_same a (fun n hmem => argument_none ps args n (ha.args n (hm n hmem)).2)]
          exact h
end

mutual
theorem value_eval (types : List Def) : ∀ e : E, names e = [] → ∃ k, ∀ m, k ≤ m → ∀ t, eval m t e = .ok e
  | .t, _ => ⟨1, fun m hm t => by obtain ⟨m, rfl⟩ : ∃ j, m = j + 1 := ⟨m - 1, by omega⟩; rw [eval]⟩
  | .f, _ => ⟨1, fun m hm t => by obtain ⟨m, rfl⟩ : ∃ j, m = j + 1 := ⟨m - 1, by omega⟩; rw [eval]⟩
  | .num s, _ => ⟨1, fun m hm t => by obtain ⟨m, rfl⟩ : ∃ j, m = j + 1 := ⟨m - 1, by omega⟩; rw [eval]⟩
  | .str s, _ => ⟨1, fun m hm t => by obtain ⟨m, rfl⟩ : ∃ j, m = j + 1 := ⟨m - 1, by omega⟩; rw [eval]⟩
  | .list es, h => by
    rw [names] at h
    obtain ⟨k, hk⟩ := value_evalAll types es h
    exact ⟨k + 1, fun m hm t => by obtain ⟨m, rfl⟩ : ∃ j, m = j + 1 := ⟨m - 1, by omega⟩; rw [eval, hk m (by omega) t]; rfl⟩
  | .union es, h => by
    rw [names] at h
    obtain ⟨k, hk⟩ := value_evalAll types es h
    exact ⟨k + 1, fun m hm t => by obtain ⟨m, rfl⟩ : ∃ j, m = j + 1 := ⟨m - 1, by omega⟩; rw [eval, hk m (by omega) t]; rfl⟩
  | .call n es, h => by rw [names] at h; cases h

theorem value_evalAll (types : List Def) : ∀ es : List E, namesAll es = [] → ∃ k, ∀ m, k ≤ m → ∀ t, evalAll (eval m t) es = .ok es
  | [], _ => ⟨0, fun _ _ _ => by rw [evalAll]⟩
  | e :: es, h => by
    rw [namesAll] at h
    obtain ⟨h1, h2⟩ := List.append_eq_nil_iff.mp h
    obtain ⟨a, ha⟩ := value_eval types e h1
    obtain ⟨b, hb⟩ := value_evalAll types es h2
    exact ⟨max a b, fun m hm t => by rw [evalAll, ha m (by omega) t, hb m (by omega) t]; rfl⟩
end

theorem argument_some : ∀ (ps : List Bytes) (args : List E) (n : Bytes), ps.length = args.length → n ∈ ps → ∃ a, argument ps args n = some a
  | [], _, _, _, h => by cases h
  | p :: ps, [], _, hl, _ => by cases hl
  | p :: ps, a :: as, n, hl, h => by
    rw [argument]
    split
    · exact ⟨a, rfl⟩
    · next hp =>
      rcases List.mem_cons.mp h with e | e
      · exact absurd e.symm hp
      · exact argument_some ps as n (by simpa using hl) e

mutual
theorem closed_eval (types : List Def) {ps : List Bytes} {args : List E} (hn : ps.Nodup) (hl : ps.length = args.length) (ha : namesAll args = []) : ∀ e : E, (∀ n ∈ names e, n ∈ ps) →
    ∃ k, ∀ m, k ≤ m → eval m (push ps args types) e = .ok (subst (argument ps args) e)
  | .t, _ => ⟨1, fun m hm => by obtain ⟨m, rfl⟩ : ∃ j, m = j + 1 := ⟨m - 1, by omega⟩; rw [eval, subst]⟩
  | .f, _ => ⟨1, fun m hm => by obtain ⟨m, rfl⟩ : ∃ j, m = j + 1 := ⟨m - 1, by omega⟩; rw [eval, subst]⟩
  | .num s, _ => ⟨1, fun m hm => by obtain ⟨m, rfl⟩ : ∃ j, m = j + 1 := ⟨m - 1, by omega⟩; rw [eval, subst]⟩
  | .str s, _ => ⟨1, fun m hm => by obtain ⟨m, rfl⟩ : ∃ j, m = j + 1 := ⟨m - 1, by omega⟩; rw [eval, subst]⟩
  | .list es, h => by
    rw [names] at h
    obtain ⟨k, hk⟩ := closed_evalAll types hn hl ha es h
    exact ⟨k + 1, fun m hm => by obtain ⟨m, rfl⟩ : ∃ j, m = j + 1 := ⟨m - 1, by omega⟩; rw [eval, hk m (by omega), subst]; rfl⟩
  | .union es, h => by
    rw [names] at h
    obtain ⟨k, hk⟩ := closed_evalAll types hn hl ha es h
    exact ⟨k + 1, fun m hm => by obtain ⟨m, rfl⟩ : ∃ j, m = j + 1 := ⟨m - 1, by omega⟩; rw [eval, hk m (by omega), subst]; rfl⟩
  | .call n es, h => by
    rw [names] at h
    have hp := h n List.mem_cons_self
    obtain ⟨a, e⟩ := argument_some ps args n hl hp
    have hv : names a = [] := List.eq_nil_iff_forall_not_mem.mpr fun x hx => by
      have := argument_mem ps args n a e x hx
      rw [ha] at this
      cases this
    obtain ⟨k, hk⟩ := value_eval types a hv
    refine ⟨k + 1, fun m hm => ?_⟩
    obtain ⟨m, rfl⟩ : ∃ j, m = j + 1 := ⟨m - 1, by omega⟩
    rw [eval, get_push ps args types n hn, if_pos hp, subst, e]
    exact hk m (by omega) _

theorem closed_evalAll (types : List Def) {ps : List Bytes} {args : List E} (hn : ps.Nodup) (hl : ps.length = args.length) (ha : namesAll args = []) : ∀ es : List E, (∀ n ∈ namesAll es, n ∈ ps) →
    ∃ k, ∀ m, k ≤ m → evalAll (eval m (push ps args types)) es = .ok (substAll (argument ps args) es)
  | [], _ => ⟨0, fun _ _ => by rw [evalAll, substAll]⟩
  | e :: es, h => by
    rw [namesAll] at h
    obtain ⟨a, h1⟩ := closed_eval types hn hl ha e (fun n hn => h n (List.mem_append_left _ hn))
    obtain ⟨b, h2⟩ := closed_evalAll types hn hl ha es (fun n hn => h n (List.mem_append_right _ hn))
    exact ⟨max a b, fun m hm => by rw [evalAll, h1 m (by omega), h2 m (by omega), substAll]; rfl⟩
end
end Che.Prog.Tsmeta
