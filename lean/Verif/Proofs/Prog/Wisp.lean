import Verif.Spec.Prog.Wisp
import Mathlib.Data.List.Induction

/-!
Symbols, their values, pools of objects and quoted texts of `prog/wisp`.
-/
namespace Che.Prog.Wisp
open Che Che.Lib Che.Spec.Wisp

/-! ### The table -/

private theorem bind_ok {ε α β : Type} (a : α) (f : α → Res ε β) : ((Res.ok a : Res ε α) >>= f) = f a := rfl

theorem searchIn_insertIn (ns : List Node) (k k' : Bytes) (v : Nat) :
    searchIn (insertIn ns k v).1 k' = if k' = k then v else searchIn ns k' := by
  induction ns with
  | nil =>
    show (if k.length = k'.length ∧ k = k' then v else searchIn [] k') = _
    by_cases h : k' = k
    · subst h; simp
    · rw [if_neg (show ¬ (k.length = k'.length ∧ k = k') from fun e => h e.2.symm), if_neg h]
  | cons n ns ih =>
    simp only [insertIn]
    by_cases h : n.key.length = k.length ∧ n.key = k
    · rw [if_pos h]
      show (if n.key.length = k'.length ∧ n.key = k' then v else searchIn ns k') = _
      rw [h.2]
      by_cases h' : k' = k
      · subst h'; simp
      · rw [if_neg (show ¬ (k.length = k'.length ∧ k = k') from fun e => h' e.2.symm), if_neg h']
        show _ = (if n.key.length = k'.length ∧ n.key = k' then n.value else searchIn ns k')
        rw [if_neg]
        rintro ⟨_, e⟩
        exact h' (e ▸ h.2)
    · rw [if_neg h]
      show (if n.key.length = k'.length ∧ n.key = k' then n.value else searchIn (insertIn ns k v).1 k') = _
      rw [ih]
      show _ = if k' = k then v else (if n.key.length = k'.length ∧ n.key = k' then n.value else searchIn ns k')
      by_cases h' : n.key.length = k'.length ∧ n.key = k'
      · rw [if_pos h', if_pos h', if_neg]
        rintro rfl
        exact h h'
      · rw [if_neg h', if_neg h']

theorem insertIn_keys (ns : List Node) (k : Bytes) (v : Nat) :
    (insertIn ns k v).2 = decide (k ∉ ns.map (·.key)) ∧ ∀ k', k' ∈ (insertIn ns k v).1.map (·.key) ↔ k' = k ∨ k' ∈ ns.map (·.key) := by
  induction ns with
  | nil => simp [insertIn]
  | cons n ns ih =>
    simp only [insertIn]
    by_cases h : n.key.length = k.length ∧ n.key = k
    · rw [if_pos h]
      constructor
      · simp [h.2]
      · intro k'
        simp only [List.map_cons, List.mem_cons, h.2]
        constructor
        · exact fun e => Or.inr e
        · rintro (e | e)
          · exact .inl e
          · exact e
    · rw [if_neg h]
      have hk : ¬ k = n.key := fun e => h ⟨by rw [e], e.symm⟩
      constructor
      · show (insertIn ns k v).2 = _
        rw [ih.1]
        simp [hk]
      · intro k'
        show k' ∈ n.key :: (insertIn ns k v).1.map (·.key) ↔ _
        rw [List.mem_cons, ih.2 k']
        simp only [List.map_cons, List.mem_cons]
        constructor
        · rintro (e | e | e) <;> simp [e]
        · rintro (e | e | e) <;> simp [e]

/-- What is in the table after some insertions. -/
structure Holds (t : Table) (ops : List (Bytes × Nat)) : Prop where
  size : t.arr.length = 2048
  search : ∀ k, ht_search t k = .ok ((lastOf ops k).getD 0)
  keys : ∀ k ns, t.arr[ht_hash k 2048]? = some ns → (k ∈ ns.map (·.key) ↔ k ∈ ops.map (·.1))
  count : t.count = ((ops.map (·.1)).eraseDups).length

theorem ht_hash_lt (k : Bytes) : ht_hash k 2048 < 2048 := Nat.mod_lt _ (by decide)

theorem lastOf_snoc (ops : List (Bytes × Nat)) (k k' : Bytes) (v : Nat) :
    lastOf (ops ++ [(k, v)]) k' = if k' = k then some v else lastOf ops k' := by
  unfold lastOf
  rw [List.reverse_append]
  show (List.find? _ ((k, v) :: ops.reverse)).map _ = _
  rw [List.find?_cons]
  by_cases h : k' = k
  · subst h; simp
  · have : ¬ k = k' := fun e => h e.symm
    simp [this, h]

theorem new_holds : Holds Table.new [] := by
  refine ⟨by decide +kernel, ?_, ?_, rfl⟩
  · intro k
    unfold ht_search
    have hl : Table.new.arr.length = 2048 := by decide +kernel
    rw [hl]
    have : Table.new.arr[ht_hash k 2048]? = some [] := by
      unfold Table.new
      rw [List.getElem?_replicate, if_pos (ht_hash_lt k)]
    rw [this]
    rfl
  · intro k ns h
    unfold Table.new at h
    rw [List.getElem?_replicate, if_pos (ht_hash_lt k)] at h
    cases h
    simp

theorem insert_holds {t : Table} {ops : List (Bytes × Nat)} (h : Holds t ops) (k : Bytes) (v : Nat) :
    ∃ t', ht_insert t k v = .ok t' ∧ Holds t' (ops ++ [(k, v)]) := by
  have hlt := ht_hash_lt k
  obtain ⟨ns, hns⟩ : ∃ ns, t.arr[ht_hash k 2048]? = some ns := ⟨t.arr[ht_hash k 2048]'(by rw [h.size]; exact hlt), List.getElem?_eq_getElem _⟩
  have e : ht_insert t k v = .ok { arr := t.arr.set (ht_hash k 2048) (insertIn ns k v).1, count := if (insertIn ns k v).2 then t.count + 1 else t.count } := by
    unfold ht_insert
    simp only [h.size, hns]
  refine ⟨_, e, ⟨by simp [h.size], ?_, ?_, ?_⟩⟩
  · intro k'
    have hs := h.search k'
    unfold ht_search at hs ⊢
    simp only [List.length_set, h.size] at hs ⊢
    rw [lastOf_snoc]
    by_cases hi : ht_hash k' 2048 = ht_hash k 2048
    · rw [hi, List.getElem?_set_self (by rw [h.size]; exact hlt)]
      rw [hi, hns] at hs
      injection hs with hs
      show Res.ok (searchIn (insertIn ns k v).1 k') = _
      rw [searchIn_insertIn, hs]
      by_cases hk : k' = k <;> simp [hk]
    · rw [List.getElem?_set_ne (fun e => hi e.symm), hs]
      have hk : ¬ k' = k := fun e => hi (by rw [e])
      simp [hk]
  · intro k' ns' hn'
    simp only at hn'
    rw [List.map_append, List.mem_append]
    by_cases hi : ht_hash k' 2048 = ht_hash k 2048
    · rw [hi, List.getElem?_set_self (by rw [h.size]; exact hlt)] at hn'
      injection hn' with hn'
      subst hn'
      rw [(insertIn_keys ns k v).2, h.keys k' ns (by rw [hi]; exact hns)]
      simp [or_comm]
    · rw [List.getElem?_set_ne (fun e => hi e.symm)] at hn'
      have hk : ¬ k' = k := fun e => hi (by rw [e])
      rw [h.keys k' ns' hn']
      simp [hk]
  · show (if (insertIn ns k v).2 then t.count + 1 else t.count) = _
    rw [List.map_append, List.eraseDups_append, List.length_append, (insertIn_keys ns k v).1]
    have := h.keys k ns hns
    by_cases hk : k ∈ ops.map (·.1)
    · have h1 : k ∈ ns.map (·.key) := this.mpr hk
      have h2 : List.removeAll (List.map (·.1) [(k, v)]) (List.map (·.1) ops) = [] := by
        simp only [List.map_cons, List.map_nil, List.removeAll, List.filter_cons, List.filter_nil]
        rw [if_neg]
        simp only [Bool.not_eq_true', Bool.not_eq_false, List.elem_eq_mem, decide_eq_true_eq]
        exact hk
      rw [h2, if_neg (by simpa using h1), h.count]
      simp
    · have h1 : k ∉ ns.map (·.key) := fun e => hk (this.mp e)
      have h2 : List.removeAll (List.map (·.1) [(k, v)]) (List.map (·.1) ops) = [k] := by
        simp only [List.map_cons, List.map_nil, List.removeAll, List.filter_cons, List.filter_nil]
        rw [if_pos]
        simp only [Bool.not_eq_true', List.elem_eq_mem, decide_eq_false_iff_not]
        exact hk
      rw [h2, if_pos (by simpa using h1), h.count]
      rfl

theorem insertAll_holds (ops : List (Bytes × Nat)) : ∃ t, ops.foldlM (fun t o => ht_insert t o.1 o.2) Table.new = .ok t ∧ Holds t ops := by
  have gen : ∀ (l done : List (Bytes × Nat)) (t : Table), Holds t done → ∃ t', l.foldlM (fun t o => ht_insert t o.1 o.2) t = .ok t' ∧ Holds t' (done ++ l) := by
    intro l
    induction l with
    | nil => intro done t h; exact ⟨t, rfl, by simpa using h⟩
    | cons o l ih =>
      intro done t h
      obtain ⟨t1, e1, h1⟩ := insert_holds h o.1 o.2
      obtain ⟨t2, e2, h2⟩ := ih _ _ h1
      refine ⟨t2, ?_, by simpa using h2⟩
      show (ht_insert t o.1 o.2).bind _ = _
      rw [e1]
      exact e2
  exact gen ops [] _ new_holds

/-! ### Symbols -/

/-- The table holds each symbol under its name. -/
structure Interned (s : Symbols) : Prop where
  holds : Holds s.table (s.syms.zipIdx.map fun p => (p.1.name, p.2 + 1))
  nodup : (s.syms.map (·.name)).Nodup

theorem lastOf_zip (l : List Symbol) (hn : (l.map (·.name)).Nodup) (k : Bytes) (n : Nat) :
    lastOf (l.zipIdx.map fun p => (p.1.name, p.2 + 1)) k = some n ↔ ∃ s, 0 < n ∧ l[n - 1]? = some s ∧ s.name = k := by
  induction l using List.reverseRecOn generalizing n with
  | nil => simp [lastOf]
  | append_singleton l s ih =>
    rw [List.map_append, List.nodup_append] at hn
    obtain ⟨h1, _, h3⟩ := hn
    rw [List.zipIdx_append, List.map_append]
    simp only [List.zipIdx_singleton, List.map_cons, List.map_nil, Nat.zero_add]
    rw [lastOf_snoc]
    by_cases hk : k = s.name
    · rw [if_pos hk]
      constructor
      · intro e
        injection e with e
        refine ⟨s, by omega, ?_, hk.symm⟩
        rw [← e]
        simp
      · rintro ⟨s', h0, e, hs⟩
        by_cases hl : n - 1 < l.length
        · rw [List.getElem?_append_left hl] at e
          have : s'.name ∈ l.map (·.name) := List.mem_map_of_mem (List.mem_of_getElem? e)
          exact absurd (hs.trans hk) (h3 _ this _ (by simp))
        · have hn : n - 1 < (l ++ [s]).length := (List.getElem?_eq_some_iff.mp e).1
          rw [List.length_append, List.length_singleton] at hn
          have : n = l.length + 1 := by omega
          rw [this]
    · rw [if_neg hk, ih h1]
      constructor
      · rintro ⟨s', h0, e, hs⟩
        exact ⟨s', h0, by rw [List.getElem?_append_left (List.getElem?_eq_some_iff.mp e).1]; exact e, hs⟩
      · rintro ⟨s', h0, e, hs⟩
        refine ⟨s', h0, ?_, hs⟩
        by_cases hl : n - 1 < l.length
        · rw [List.getElem?_append_left hl] at e
          exact e
        · have hn : n - 1 < (l ++ [s]).length := (List.getElem?_eq_some_iff.mp e).1
          rw [List.length_append, List.length_singleton] at hn
          have hn' : n - 1 = l.length := by omega
          rw [hn'] at e
          simp at e
          exact absurd (by rw [← hs, ← e]) hk

theorem new_interned : Interned Symbols.new := ⟨new_holds, List.nodup_nil⟩

/-- The symbol with a number. -/
def Symbols.get? (s : Symbols) (o : Nat) : Option Symbol := if o = 0 then none else s.syms[o - 1]?

theorem lastOf_none (l : List Symbol) (hn : (l.map (·.name)).Nodup) (k : Bytes) :
    lastOf (l.zipIdx.map fun p => (p.1.name, p.2 + 1)) k = none ↔ k ∉ l.map (·.name) := by
  constructor
  · intro h hm
    obtain ⟨s, hs, rfl⟩ := List.mem_map.mp hm
    obtain ⟨i, hi, e⟩ := List.getElem_of_mem hs
    have := (lastOf_zip l hn s.name (i + 1)).mpr ⟨s, by omega, by simp [hi, e], rfl⟩
    rw [h] at this
    cases this
  · intro h
    cases e : lastOf (l.zipIdx.map fun p => (p.1.name, p.2 + 1)) k with
    | none => rfl
    | some n =>
      obtain ⟨s, _, hs, hk⟩ := (lastOf_zip l hn k n).mp e
      exact absurd (hk ▸ List.mem_map_of_mem (List.mem_of_getElem? hs)) h

theorem symbol_interned {s : Symbols} (h : Interned s) (nil : Nat) (name : Bytes) :
    ∃ s' o x, symbol s nil name = .ok (s', o) ∧ Interned s' ∧ s'.get? o = some x ∧ x.name = name ∧
      (∀ o', s.get? o' ≠ none → s'.get? o' = s.get? o') ∧
      (name ∈ s.syms.map (·.name) → s' = s) ∧ (name ∉ s.syms.map (·.name) → s'.syms = s.syms ++ [x] ∧ x = symbol_create name o nil ∧ s.get? o = none) := by
  have hs := h.holds.search name
  unfold symbol
  rw [hs]
  simp only [bind_ok]
  cases e : lastOf (s.syms.zipIdx.map fun p => (p.1.name, p.2 + 1)) name with
  | some n =>
    obtain ⟨x, h0, hx, hk⟩ := (lastOf_zip _ h.nodup name n).mp e
    have hn : n ≠ 0 := by omega
    have hm : name ∈ s.syms.map (·.name) := hk ▸ List.mem_map_of_mem (List.mem_of_getElem? hx)
    refine ⟨s, n, x, by simp [hn], h, by simp [Symbols.get?, hn, hx], hk, fun _ _ => rfl, fun _ => rfl, fun hc => absurd hm hc⟩
  | none =>
    have hm : name ∉ s.syms.map (·.name) := (lastOf_none _ h.nodup name).mp e
    obtain ⟨t, et, ht⟩ := insert_holds h.holds name (s.syms.length + 1)
    refine ⟨_, _, symbol_create name (s.syms.length + 1) nil, by simp only [Option.getD_none, ne_eq, not_true_eq_false, if_false, et, bind_ok]; rfl, ⟨?_, ?_⟩, ?_, rfl, ?_, fun hc => absurd hc hm, fun _ => ⟨rfl, rfl, ?_⟩⟩
    · rw [List.zipIdx_append, List.map_append]
      simpa [symbol_create] using ht
    · rw [List.map_append, List.nodup_append]
      refine ⟨h.nodup, by simp, ?_⟩
      intro a ha b hb
      simp [symbol_create] at hb
      rintro rfl
      exact hm (hb ▸ ha)
    · simp [Symbols.get?]
    · intro o' ho'
      unfold Symbols.get? at ho' ⊢
      by_cases h0 : o' = 0
      · simp [h0]
      · rw [if_neg h0] at ho' ⊢
        rw [if_neg h0]
        have : o' - 1 < s.syms.length := by
          rcases Nat.lt_or_ge (o' - 1) s.syms.length with hlt | hge
          · exact hlt
          · exact absurd (List.getElem?_eq_none hge) ho'
        exact List.getElem?_append_left this
    · simp [Symbols.get?]

end Che.Prog.Wisp
