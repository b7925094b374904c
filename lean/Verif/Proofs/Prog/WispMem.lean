import Verif.Proofs.Prog.Wisp

/-!
The values of symbols, pools of objects and quoted texts of `prog/wisp`.
-/
namespace Che.Prog.Wisp
open Che Che.Lib Che.Spec.Wisp

private theorem bind_ok {ε α β : Type} (a : α) (f : α → Res ε β) : ((Res.ok a : Res ε α) >>= f) = f a := rfl

/-! ### Values of symbols -/

/-- One step. -/
def apply (s : Symbol) : Op → Res Unit Symbol
  | .set v => SET s v
  | .push v => sympush s v
  | .pop => sympop s

/-- The bindings in the array. -/
structure Rep (s : Symbol) (st : List Nat) : Prop where
  size : s.stack.length = 8
  depth : s.vals + 1 = st.length
  fits : st.length ≤ 8
  same : s.stack.take st.length = st.reverse

theorem get_rep {s : Symbol} {v : Nat} {st : List Nat} (h : Rep s (v :: st)) : GET s = .ok v := by
  have hd := h.depth
  have hf := h.fits
  have hs := h.same
  have : s.stack[s.vals]? = some v := by
    have e : (s.stack.take (v :: st).length)[s.vals]? = s.stack[s.vals]? := List.getElem?_take_of_lt (by omega)
    rw [← e, hs, List.reverse_cons, List.getElem?_append_right (by simp at hd ⊢; omega)]
    simp at hd
    simp [hd]
  unfold GET
  rw [this]

theorem set_rep {s : Symbol} {u : Nat} {st : List Nat} (h : Rep s (u :: st)) (v : Nat) : ∃ s', SET s v = .ok s' ∧ Rep s' (v :: st) := by
  have hd := h.depth
  have hf := h.fits
  have hs := h.same
  have hz := h.size
  simp only [List.length_cons] at hd hf
  refine ⟨{ s with stack := s.stack.set s.vals v }, ?_, ⟨by simpa using hz, hd, hf, ?_⟩⟩
  · unfold SET
    rw [if_pos (by omega)]
  · show (s.stack.set s.vals v).take (st.length + 1) = _
    have hv : s.vals = st.length := by omega
    rw [List.reverse_cons] at hs ⊢
    have : s.stack.take st.length = st.reverse := by
      have e := congrArg (List.take st.length) hs
      rw [List.take_take, List.take_left' (by simp)] at e
      simpa using e
    rw [hv, List.take_set, List.take_add_one, this]
    rw [List.set_append, if_neg (by simp)]
    simp
    rw [List.getElem?_eq_getElem (by omega)]
    simp

theorem push_rep {s : Symbol} {st : List Nat} (h : Rep s st) (v : Nat) (hl : st.length < 8) : ∃ s', sympush s v = .ok s' ∧ Rep s' (v :: st) := by
  have hd := h.depth
  have hs := h.same
  have hz := h.size
  refine ⟨{ s with vals := s.vals + 1, stack := s.stack.set (s.vals + 1) v }, ?_, ⟨by simpa using hz, by simp; omega, by simp; omega, ?_⟩⟩
  · unfold sympush
    simp only
    rw [if_pos (by omega)]
  · show (s.stack.set (s.vals + 1) v).take (st.length + 1) = _
    rw [hd, List.reverse_cons, List.take_set, List.take_add_one, hs]
    rw [List.set_append, if_neg (by simp)]
    simp
    rw [List.getElem?_eq_getElem (by omega)]
    simp

theorem pop_rep {s : Symbol} {u v : Nat} {st : List Nat} (h : Rep s (u :: v :: st)) : ∃ s', sympop s = .ok s' ∧ Rep s' (v :: st) := by
  have hd := h.depth
  have hf := h.fits
  have hs := h.same
  have hz := h.size
  simp only [List.length_cons] at hd hf
  refine ⟨{ s with vals := s.vals - 1 }, ?_, ⟨hz, by simp; omega, by simp; omega, ?_⟩⟩
  · unfold sympop
    rw [get_rep h, bind_ok, if_neg (by omega)]
  · show s.stack.take (st.length + 1) = _
    rw [List.reverse_cons] at hs
    have e := congrArg (List.take (st.length + 1)) hs
    rw [List.take_take, List.take_left' (by simp)] at e
    simpa using e

theorem scope_rep (ops : List Op) : ∀ (s : Symbol) (st st' : List Nat), Rep s st → scope 8 st ops = some st' → ∃ s', ops.foldlM apply s = .ok s' ∧ Rep s' st' := by
  induction ops with
  | nil =>
    intro s st st' h e
    have : st = st' := by
      cases st <;> simpa [scope] using e
    exact ⟨s, rfl, this ▸ h⟩
  | cons o ops ih =>
    intro s st st' h e
    have go : ∀ s1 st1, apply s o = .ok s1 → Rep s1 st1 → scope 8 st1 ops = some st' → ∃ s', (o :: ops).foldlM apply s = .ok s' ∧ Rep s' st' := by
      intro s1 st1 e1 h1 e2
      obtain ⟨s2, e3, h3⟩ := ih s1 st1 st' h1 e2
      refine ⟨s2, ?_, h3⟩
      show (apply s o).bind _ = _
      rw [e1]
      exact e3
    cases o with
    | set v =>
      cases st with
      | nil => simp [scope] at e
      | cons u st =>
        obtain ⟨s1, e1, h1⟩ := set_rep h v
        exact go s1 _ e1 h1 (by simpa [scope] using e)
    | push v =>
      have e' : (if st.length < 8 then scope 8 (v :: st) ops else none) = some st' := by
        cases st <;> simpa [scope] using e
      by_cases hl : st.length < 8
      · rw [if_pos hl] at e'
        obtain ⟨s1, e1, h1⟩ := push_rep h v hl
        exact go s1 _ e1 h1 e'
      · rw [if_neg hl] at e'
        cases e'
    | pop =>
      cases st with
      | nil => simp [scope] at e
      | cons u st =>
        cases st with
        | nil => simp [scope] at e
        | cons v st =>
          obtain ⟨s1, e1, h1⟩ := pop_rep h
          exact go s1 _ e1 h1 (by simpa [scope] using e)

/-! ### Pools -/

variable {α : Type}

/-- What the program can do with a pool: the objects that it has are in the list. -/
inductive Reach (clean : α) : Pool α → List Nat → Prop
  | create (heap : Nat → α) (mm : Pool α) : mm_create clean heap = .ok mm → Reach clean mm []
  | alloc (mm mm' : Pool α) (used : List Nat) (p : Nat) : Reach clean mm used → mm_alloc clean mm = .ok (mm', p) → Reach clean mm' (p :: used)
  | free (mm mm' : Pool α) (used : List Nat) (p : Nat) : Reach clean mm used → p ∈ used → mm_free clean mm p = .ok mm' → Reach clean mm' (used.erase p)
  | write (mm : Pool α) (used : List Nat) (p : Nat) (a : α) : Reach clean mm used → p ∈ used → Reach clean { mm with heap := fun q => if q = p then a else mm.heap q } used

structure Inv (clean : α) (mm : Pool α) (used : List Nat) : Prop where
  big : 2 ≤ mm.base.length
  inside : mm.stack < mm.base.length
  free : ∀ i, i ≤ mm.stack → ∃ p, mm.base[i]? = some (some p) ∧ p ∉ used ∧ p < mm.fresh ∧ mm.heap p = clean
  inj : ∀ i j, i ≤ mm.stack → j ≤ mm.stack → mm.base[i]? = mm.base[j]? → i = j
  old : ∀ q ∈ used, q < mm.fresh
  nodup : used.Nodup

theorem fillLoop_spec (clean : α) (n : Nat) : ∀ mm : Pool α, mm.stack + n ≤ mm.base.length →
    (fillLoop clean n mm).base.length = mm.base.length ∧ (fillLoop clean n mm).stack = mm.stack + n ∧ (fillLoop clean n mm).fresh = mm.fresh + n ∧
    (∀ i, (fillLoop clean n mm).base[i]? = if mm.stack ≤ i ∧ i < mm.stack + n then some (some (mm.fresh + (i - mm.stack))) else mm.base[i]?) ∧
    (∀ q, (fillLoop clean n mm).heap q = if mm.fresh ≤ q ∧ q < mm.fresh + n then clean else mm.heap q) := by
  induction n with
  | zero =>
    intro mm _
    refine ⟨rfl, rfl, rfl, ?_, ?_⟩
    · intro i; rw [if_neg (by omega)]; rfl
    · intro i; rw [if_neg (by omega)]; rfl
  | succ n ih =>
    intro mm h
    obtain ⟨h1, h2, h3, h4, h5⟩ := ih { mm.clear clean mm.fresh with base := mm.base.set mm.stack (some mm.fresh), stack := mm.stack + 1, fresh := mm.fresh + 1 } (by simp; omega)
    simp only [List.length_set] at h1 h2 h3 h4 h5
    refine ⟨h1, by rw [show fillLoop clean (n + 1) mm = fillLoop clean n _ from rfl]; exact h2.trans (by omega), by exact h3.trans (by omega), ?_, ?_⟩
    · intro i
      refine (h4 i).trans ?_
      by_cases e : i = mm.stack
      · subst e
        rw [if_neg (by omega), if_pos (by omega), List.getElem?_set_self (by omega)]
        simp
      · rw [List.getElem?_set_ne (fun x => e x.symm)]
        by_cases hi : mm.stack ≤ i ∧ i < mm.stack + (n + 1)
        · rw [if_pos hi, if_pos (by omega)]
          congr 2
          omega
        · rw [if_neg hi, if_neg (by omega)]
    · intro q
      refine (h5 q).trans ?_
      show (if _ then clean else if q = mm.fresh then clean else mm.heap q) = _
      by_cases e : q = mm.fresh
      · rw [if_neg (by omega), if_pos e, if_pos (by omega)]
      · rw [if_neg e]
        by_cases hi : mm.fresh ≤ q ∧ q < mm.fresh + (n + 1)
        · rw [if_pos hi, if_pos (by omega)]
        · rw [if_neg hi, if_neg (by omega)]

theorem fill_spec (clean : α) (mm : Pool α) (used : List Nat) (h0 : mm.stack = 0) (hb : 2 ≤ mm.base.length) (ho : ∀ q ∈ used, q < mm.fresh) (hn : used.Nodup) :
    ∃ mm', mm_fill_stack clean mm = .ok mm' ∧ Inv clean mm' used ∧ 0 < mm'.stack ∧ ∀ q, q < mm.fresh → mm'.heap q = mm.heap q := by
  obtain ⟨h1, h2, h3, h4, h5⟩ := fillLoop_spec clean (mm.base.length - mm.stack) mm (by omega)
  unfold mm_fill_stack
  simp only
  rw [if_neg (by omega)]
  generalize fillLoop clean (mm.base.length - mm.stack) mm = m at *
  refine ⟨_, rfl, ⟨by simp only; omega, by simp only; omega, ?_, ?_, ?_, hn⟩, by simp only; omega, ?_⟩
  · intro i hi
    simp only at hi ⊢
    refine ⟨mm.fresh + (i - mm.stack), ?_, ?_, by omega, ?_⟩
    · rw [h4, if_pos (by omega)]
    · intro hm
      have := ho _ hm
      omega
    · rw [h5, if_pos (by omega)]
  · intro i j hi hj e
    simp only at hi hj e
    rw [h4, h4, if_pos (by omega), if_pos (by omega)] at e
    injection e with e
    injection e with e
    omega
  · intro q hq
    have := ho q hq
    simp only
    omega
  · intro q hq
    simp only
    rw [h5, if_neg (by omega)]

theorem create_inv (clean : α) (heap : Nat → α) : ∃ mm, mm_create clean heap = .ok mm ∧ Inv clean mm [] := by
  obtain ⟨mm, e, h, _⟩ := fill_spec clean { base := List.replicate 1024 none, stack := 0, fresh := 0, heap } [] rfl (by rw [List.length_replicate]; omega) (by simp) List.nodup_nil
  exact ⟨mm, e, h⟩

theorem take_inv (clean : α) {mm : Pool α} {used : List Nat} (h : Inv clean mm used) (h0 : 0 < mm.stack) :
    ∃ mm' p, take mm = .ok (mm', p) ∧ Inv clean mm' (p :: used) ∧ p ∉ used ∧ mm'.heap = mm.heap ∧ mm.heap p = clean := by
  obtain ⟨p, e, hu, hf, hc⟩ := h.free mm.stack (Nat.le_refl _)
  refine ⟨{ mm with stack := mm.stack - 1 }, p, ?_, ⟨h.big, ?_, ?_, ?_, ?_, ?_⟩, hu, rfl, hc⟩
  · unfold take
    rw [e]
    simp only
    rw [if_neg (by omega)]
  · have := h.inside
    simp only
    omega
  · intro i hi
    simp only at hi
    obtain ⟨q, e', hu', hf', hc'⟩ := h.free i (by omega)
    refine ⟨q, e', ?_, hf', hc'⟩
    rw [List.mem_cons]
    rintro (rfl | hq)
    · have := h.inj i mm.stack (by omega) (by omega) (e'.trans e.symm)
      omega
    · exact hu' hq
  · intro i j hi hj
    simp only at hi hj
    exact h.inj i j (by omega) (by omega)
  · intro q hq
    rcases List.mem_cons.mp hq with rfl | hq
    · exact hf
    · exact h.old q hq
  · exact List.nodup_cons.mpr ⟨hu, h.nodup⟩

theorem alloc_inv (clean : α) {mm : Pool α} {used : List Nat} (h : Inv clean mm used) :
    ∃ mm' p, mm_alloc clean mm = .ok (mm', p) ∧ Inv clean mm' (p :: used) ∧ p ∉ used ∧ mm'.heap p = clean ∧ ∀ q ∈ used, mm'.heap q = mm.heap q := by
  unfold mm_alloc
  by_cases h0 : mm.stack = 0
  · rw [if_pos h0]
    obtain ⟨m1, e1, i1, s1, k1⟩ := fill_spec clean mm used h0 h.big h.old h.nodup
    obtain ⟨m2, p, e2, i2, hu, hh, hc⟩ := take_inv clean i1 s1
    refine ⟨m2, p, by rw [e1, bind_ok, e2], i2, hu, by rw [hh, hc], ?_⟩
    intro q hq
    rw [hh, k1 q (h.old q hq)]
  · rw [if_neg h0]
    obtain ⟨m2, p, e2, i2, hu, hh, hc⟩ := take_inv clean h (by omega)
    exact ⟨m2, p, e2, i2, hu, by rw [hh, hc], fun q _ => by rw [hh]⟩

theorem free_inv (clean : α) {mm : Pool α} {used : List Nat} (h : Inv clean mm used) {p : Nat} (hp : p ∈ used) :
    ∃ mm', mm_free clean mm p = .ok mm' ∧ Inv clean mm' (used.erase p) ∧ ∀ q, q ≠ p → mm'.heap q = mm.heap q := by
  obtain ⟨base, hb1, hb2, hb3, hb4⟩ : ∃ base : List (Option Nat), mm_free clean mm p = .ok (Pool.clear clean { mm with stack := mm.stack + 1, base := base.set (mm.stack + 1) (some p) } p) ∧
      mm.stack + 1 < base.length ∧ mm.base.length ≤ base.length ∧ ∀ i, i ≤ mm.stack → base[i]? = mm.base[i]? := by
    have hi := h.inside
    unfold mm_free
    by_cases e : mm.stack + 1 = mm.base.length
    · refine ⟨mm.base ++ List.replicate mm.base.length none, ?_, ?_, by simp, ?_⟩
      · simp only [if_pos e, mm_resize_stack]
        rw [if_pos (by simp; omega)]
      · simp; omega
      · intro i hi'
        exact List.getElem?_append_left (by omega)
    · refine ⟨mm.base, ?_, by omega, Nat.le_refl _, fun _ _ => rfl⟩
      simp only [if_neg e]
      rw [if_pos (by omega)]
  have he : ∀ q, q ∈ used.erase p ↔ q ≠ p ∧ q ∈ used := fun q => List.Nodup.mem_erase_iff h.nodup
  refine ⟨_, hb1, ⟨?_, ?_, ?_, ?_, ?_, h.nodup.erase p⟩, ?_⟩
  · simp [Pool.clear]
    have := h.big
    omega
  · simp [Pool.clear]
    omega
  · intro i hi
    simp only [Pool.clear] at hi ⊢
    by_cases e : i = mm.stack + 1
    · subst e
      refine ⟨p, List.getElem?_set_self (by omega), ?_, h.old p hp, by simp⟩
      rw [he]
      exact fun x => x.1 rfl
    · obtain ⟨q, e', hu', hf', hc'⟩ := h.free i (by omega)
      refine ⟨q, ?_, ?_, hf', ?_⟩
      · rw [List.getElem?_set_ne (fun x => e x.symm), hb4 i (by omega), e']
      · rw [he]
        exact fun x => hu' x.2
      · rw [hc']
        simp
  · have key : ∀ i, i ≤ mm.stack → ¬ mm.base[i]? = some (some p) := by
      intro i hi e
      obtain ⟨q, e', hu', _⟩ := h.free i hi
      rw [e] at e'
      injection e' with e'
      injection e' with e'
      exact hu' (e' ▸ hp)
    intro i j hi hj e
    simp only [Pool.clear] at hi hj e
    by_cases ei : i = mm.stack + 1
    · by_cases ej : j = mm.stack + 1
      · omega
      · rw [ei, List.getElem?_set_self (by omega), List.getElem?_set_ne (fun x => ej x.symm), hb4 j (by omega)] at e
        exact absurd e.symm (key j (by omega))
    · by_cases ej : j = mm.stack + 1
      · rw [ej, List.getElem?_set_self (by omega), List.getElem?_set_ne (fun x => ei x.symm), hb4 i (by omega)] at e
        exact absurd e (key i (by omega))
      · rw [List.getElem?_set_ne (fun x => ei x.symm), List.getElem?_set_ne (fun x => ej x.symm), hb4 i (by omega), hb4 j (by omega)] at e
        exact h.inj i j (by omega) (by omega) e
  · intro q hq
    exact h.old q ((he q).mp hq).2
  · intro q hq
    simp [Pool.clear, hq]

theorem reach_inv (clean : α) {mm : Pool α} {used : List Nat} (h : Reach clean mm used) : Inv clean mm used := by
  induction h with
  | create heap mm e =>
    obtain ⟨m, e', h⟩ := create_inv clean heap
    rw [e] at e'
    injection e' with e'
    exact e' ▸ h
  | alloc mm mm' used p _ e ih =>
    obtain ⟨m, q, e', h, _⟩ := alloc_inv clean ih
    rw [e] at e'
    injection e' with e'
    injection e' with e1 e2
    subst e1 e2
    exact h
  | free mm mm' used p _ hp e ih =>
    obtain ⟨m, e', h, _⟩ := free_inv clean ih hp
    rw [e] at e'
    injection e' with e'
    exact e' ▸ h
  | write mm used p a _ hp ih =>
    refine ⟨ih.big, ih.inside, ?_, ih.inj, ih.old, ih.nodup⟩
    intro i hi
    obtain ⟨q, e, hu, hf, hc⟩ := ih.free i hi
    refine ⟨q, e, hu, hf, ?_⟩
    show (if q = p then a else mm.heap q) = clean
    rw [if_neg, hc]
    rintro rfl
    exact hu hp

/-! ### Quoted texts -/

theorem lenFrom_eq (a b c : Bytes) (h : (0 : UInt8) ∉ b) : lenFrom (a ++ b ++ 0 :: c) a.length = b.length := by
  unfold lenFrom
  rw [List.append_assoc, List.drop_left, List.takeWhile_append_of_pos (by intro x hx; simp; rintro rfl; exact h hx)]
  simp

theorem slashLoop_spec (s : Bytes) : ∀ (k : Nat) (done : Bytes), (0 : UInt8) ∉ s → s.length < k →
    slashLoop k (done ++ s ++ 0 :: List.replicate (countSlashes s + 1) 0) done.length = .ok (done ++ escape s ++ [0, 0]) := by
  induction s with
  | nil =>
    intro k done _ hk
    obtain ⟨k, rfl⟩ : ∃ k', k = k' + 1 := ⟨k - 1, by simp at hk; omega⟩
    unfold slashLoop
    simp [countSlashes, escape]
  | cons b s ih =>
    intro k done hz hk
    obtain ⟨k, rfl⟩ : ∃ k', k = k' + 1 := ⟨k - 1, by simp at hk; omega⟩
    have hb : b ≠ 0 := fun e => hz (by simp [e])
    have hz' : (0 : UInt8) ∉ s := fun e => hz (by simp [e])
    have hlen := lenFrom_eq done (b :: s) (List.replicate (countSlashes (b :: s) + 1) 0) hz
    have get : (done ++ b :: s ++ 0 :: List.replicate (countSlashes (b :: s) + 1) 0)[done.length]? = some b := by simp
    unfold slashLoop
    rw [get]
    simp only
    rw [if_neg hb]
    by_cases hs : b = 92 ∨ b = 34
    · rw [if_pos hs, hlen]
      have hc : countSlashes (b :: s) = countSlashes s + 1 := by
        unfold countSlashes
        rw [List.filter_cons, if_pos (by simpa using hs), List.length_cons]
      have : shift (done ++ b :: s ++ 0 :: List.replicate (countSlashes (b :: s) + 1) 0) done.length ((b :: s).length + 1) =
          .ok (done ++ b :: b :: s ++ 0 :: List.replicate (countSlashes s + 1) 0) := by
        unfold shift
        rw [if_neg (by rw [hc]; simp; omega), hc]
        congr 1
        have e1 : (done ++ b :: s ++ 0 :: List.replicate (countSlashes s + 1 + 1) 0).take (done.length + 1) = done ++ [b] := by
          rw [show done ++ b :: s ++ 0 :: List.replicate (countSlashes s + 1 + 1) 0 = (done ++ [b]) ++ (s ++ 0 :: List.replicate (countSlashes s + 1 + 1) 0) by simp]
          exact List.take_left' (by simp)
        have e2 : ((done ++ b :: s ++ 0 :: List.replicate (countSlashes s + 1 + 1) 0).drop done.length).take ((b :: s).length + 1) = b :: s ++ [0] := by
          rw [List.append_assoc, List.drop_left, show b :: s ++ 0 :: List.replicate (countSlashes s + 1 + 1) 0 = (b :: s ++ [0]) ++ List.replicate (countSlashes s + 1 + 1) 0 by simp]
          exact List.take_left' (by simp)
        have e3 : (done ++ b :: s ++ 0 :: List.replicate (countSlashes s + 1 + 1) 0).drop (done.length + 1 + ((b :: s).length + 1)) = List.replicate (countSlashes s + 1) 0 := by
          rw [show done ++ b :: s ++ 0 :: List.replicate (countSlashes s + 1 + 1) 0 = (done ++ b :: s ++ [0, 0]) ++ List.replicate (countSlashes s + 1) 0 by simp [List.replicate_succ]]
          exact List.drop_left' (by simp; omega)
        rw [e1, e2, e3]
        simp
      rw [this, bind_ok]
      have set : (done ++ b :: b :: s ++ 0 :: List.replicate (countSlashes s + 1) 0).set done.length 92 = (done ++ [92, b]) ++ s ++ 0 :: List.replicate (countSlashes s + 1) 0 := by
        simp
      rw [set]
      have := ih k (done ++ [92, b]) hz' (by simp at hk; omega)
      rw [show done.length + 2 = (done ++ [92, b]).length by simp, this]
      simp [escape, hs]
    · rw [if_neg hs]
      have hc : countSlashes (b :: s) = countSlashes s := by
        unfold countSlashes
        rw [List.filter_cons, if_neg (by simpa using hs)]
      have := ih k (done ++ [b]) hz' (by simp at hk; omega)
      rw [hc, show done.length + 1 = (done ++ [b]).length by simp, show done ++ b :: s ++ 0 :: List.replicate (countSlashes s + 1) 0 = (done ++ [b]) ++ s ++ 0 :: List.replicate (countSlashes s + 1) 0 by simp, this]
      simp [escape, hs]

theorem escape_zero {s : Bytes} (h : (0 : UInt8) ∉ s) : (0 : UInt8) ∉ escape s := by
  unfold escape
  rw [List.mem_flatMap]
  rintro ⟨b, hb, hm⟩
  by_cases hs : b = 92 ∨ b = 34
  · rw [if_pos hs] at hm
    rcases List.mem_cons.mp hm with e | e
    · cases e
    · rw [List.mem_singleton] at e
      exact h (e ▸ hb)
  · rw [if_neg hs, List.mem_singleton] at hm
    exact h (hm ▸ hb)

theorem addslashes_eq (s : Bytes) (h : (0 : UInt8) ∉ s) : addslashes s = .ok (quoted s ++ [0]) := by
  unfold addslashes
  have e0 : (List.replicate (s.length + countSlashes s + 2 + 1) (0 : UInt8)).take 1 ++ s ++ [0] ++ (List.replicate (s.length + countSlashes s + 2 + 1) (0 : UInt8)).drop (s.length + 2) =
      [0] ++ s ++ 0 :: List.replicate (countSlashes s + 1) 0 := by
    rw [List.drop_replicate, List.take_replicate, show min 1 (s.length + countSlashes s + 2 + 1) = 1 by omega, show s.length + countSlashes s + 2 + 1 - (s.length + 2) = countSlashes s + 1 by omega]
    simp
  simp only
  rw [e0]
  have e1 := slashLoop_spec s (s.length + 1) [0] h (by omega)
  rw [show ([0] : Bytes).length = 1 from rfl] at e1
  rw [e1, bind_ok]
  have hz := escape_zero h
  have hz1 : (0 : UInt8) ∉ 34 :: escape s := by
    rw [List.mem_cons]
    rintro (e | e)
    · cases e
    · exact hz e
  have e2 : put ([0] ++ escape s ++ [0, 0]) 0 34 = .ok ((34 :: escape s) ++ [0, 0]) := by
    unfold put
    rw [if_pos (by simp)]
    rfl
  rw [e2, bind_ok]
  have l1 := lenFrom_eq [] (34 :: escape s) [0] hz1
  simp only [List.nil_append, List.length_nil] at l1
  rw [l1]
  have e3 : put ((34 :: escape s) ++ [0, 0]) ((34 :: escape s).length + 1) 0 = .ok ((34 :: escape s) ++ [0, 0]) := by
    unfold put
    rw [if_pos (by simp)]
    congr 1
    rw [List.set_append, if_neg (by omega)]
    congr 1
    rw [show (34 :: escape s).length + 1 - (34 :: escape s).length = 1 by omega]
    rfl
  rw [e3, bind_ok, l1]
  unfold put
  rw [if_pos (by simp), List.set_append, if_neg (by omega), Nat.sub_self]
  simp [quoted]

end Che.Prog.Wisp
