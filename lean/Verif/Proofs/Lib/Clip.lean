import Verif.Proofs.Lib.Coll

namespace Che.Lib
open Che.Spec.Lib

theorem modify_last {α : Type} (l : List α) (a : α) (f : α → α) : (l ++ [a]).modify l.length f = l ++ [f a] := by
  induction l with
  | nil => rfl
  | cons b l ih => simp [ih]

namespace Map

theorem find_some (key : Bytes) (es : List Entry) (i r : Nat) (h : findLoop key es i = some r) :
    ∃ j e, r = i + j ∧ es[j]? = some e ∧ e.key = key ∧ ∀ j' < j, ∀ e', es[j']? = some e' → e'.key ≠ key := by
  induction es generalizing i with
  | nil => simp [findLoop] at h
  | cons a es ih =>
    rw [findLoop] at h
    by_cases hk : a.key = key
    · rw [if_neg (by rw [hk]; simp), if_pos hk.symm] at h
      injection h with h
      exact ⟨0, a, by omega, rfl, hk, by intro j' hj'; omega⟩
    · have hstep : findLoop key es (i + 1) = some r := by
        by_cases hl : a.key.length ≠ key.length
        · rwa [if_pos hl] at h
        · rwa [if_neg hl, if_neg (fun e => hk e.symm)] at h
      obtain ⟨j, e, h1, h2, h3, h4⟩ := ih (i + 1) hstep
      refine ⟨j + 1, e, by omega, h2, h3, ?_⟩
      intro j' hj' e' he'
      cases j' with
      | zero => simp at he'; subst he'; exact hk
      | succ j' => exact h4 j' (by omega) e' he'

theorem find_none (key : Bytes) (es : List Entry) (i : Nat) (h : findLoop key es i = none) :
    ∀ e ∈ es, e.key ≠ key := by
  induction es generalizing i with
  | nil => simp
  | cons a es ih =>
    rw [findLoop] at h
    by_cases hk : a.key = key
    · rw [if_neg (by rw [hk]; simp), if_pos hk.symm] at h
      simp at h
    · have hstep : findLoop key es (i + 1) = none := by
        by_cases hl : a.key.length ≠ key.length
        · rwa [if_pos hl] at h
        · rwa [if_neg hl, if_neg (fun e => hk e.symm)] at h
      intro e he
      rcases List.mem_cons.1 he with rfl | he
      · exact hk
      · exact ih _ hstep e he

/-- Keys and values of the map. -/
def ab (m : T) : List (Bytes × Bytes) := m.entries.map fun e => (e.key, e.value.take m.valsize)

/-- What holds of every map. -/
structure Ok (m : T) : Prop where
  size : m.valsize ≤ 8
  vals : ∀ e ∈ m.entries, e.value.length = 8

theorem copy_take (dst src : Bytes) (n : Nat) (h : src.length = n) (hd : n ≤ dst.length) :
    (copyInto dst src n).take n = src ∧ (copyInto dst src n).length = dst.length := by
  subst h
  simp [copyInto]; omega

theorem set_spec (m : T) (key val : Bytes) (ho : Ok m) (hv : val.length = m.valsize) :
    Ok (set m key val) ∧ (set m key val).valsize = m.valsize ∧ ab (set m key val) = upd (ab m) key val := by
  unfold set find
  cases hf : findLoop key m.entries 0 with
  | some i =>
    obtain ⟨j, e, h1, h2, h3, h4⟩ := find_some _ _ _ _ hf
    have hij : i = j := by omega
    subst hij
    have hemem : e ∈ m.entries := List.mem_of_getElem? h2
    refine ⟨⟨ho.size, ?_⟩, rfl, ?_⟩
    · intro x hx
      simp only [assign] at hx
      rw [List.mem_iff_getElem?] at hx
      obtain ⟨k, hk⟩ := hx
      rw [List.getElem?_modify] at hk
      by_cases hki : i = k
      · subst hki
        simp only [↓reduceIte, h2, Option.map_eq_map, Option.map_some, Option.some.injEq] at hk
        subst hk
        exact (copy_take e.value val m.valsize hv (by rw [ho.vals e hemem]; exact ho.size)).2.trans (ho.vals e hemem)
      · simp only [hki, ↓reduceIte, Option.map_eq_map, Option.map_id'] at hk
        exact ho.vals x (List.mem_of_getElem? hk)
    · have hup := upd_mem (ab m) i key val (e.value.take m.valsize) (by
        intro j' hj' x hx
        simp only [ab, List.getElem?_map] at hx
        cases he' : m.entries[j']? with
        | none => rw [he'] at hx; simp at hx
        | some e' =>
          rw [he'] at hx
          simp at hx
          rw [← hx]
          exact h4 j' hj' e' he') (by simp [ab, h2, h3])
      rw [hup]
      apply List.ext_getElem?
      intro k
      simp only [ab, assign, List.getElem?_map, List.getElem?_modify]
      by_cases hki : i = k
      · subst hki
        simp only [↓reduceIte, h2, Option.map_eq_map, Option.map_some, Option.some.injEq, Prod.mk.injEq, true_and]
        exact (copy_take e.value val m.valsize hv (by rw [ho.vals e hemem]; exact ho.size)).1
      · simp [hki]
  | none =>
    have hnone := find_none _ _ _ hf
    obtain ⟨c', hc'⟩ : ∃ c', create m = { m with cap := c', entries := m.entries ++ [{ key := [], value := List.replicate 8 0 }] } := by
      unfold create
      by_cases hcap : m.entries.length = m.cap
      · exact ⟨m.cap * 2, by simp [hcap]⟩
      · exact ⟨m.cap, by simp [hcap]⟩
    have hent : (assign (create m) ((create m).entries.length - 1) key val).entries =
        m.entries ++ [{ key := key, value := copyInto (List.replicate 8 0) val m.valsize }] := by
      rw [hc']
      simp only [assign, List.length_append, List.length_cons, List.length_nil, Nat.zero_add, Nat.add_sub_cancel]
      exact modify_last _ _ _
    have hvs : (assign (create m) ((create m).entries.length - 1) key val).valsize = m.valsize := by
      rw [hc']; rfl
    obtain ⟨t1, t2⟩ := copy_take (List.replicate 8 0) val m.valsize hv (by simpa using ho.size)
    refine ⟨⟨by simp only [hvs]; exact ho.size, ?_⟩, hvs, ?_⟩
    · simp only [hent]
      intro x hx
      rcases List.mem_append.1 hx with hx | hx
      · exact ho.vals x hx
      · rw [List.mem_singleton] at hx
        subst hx
        rw [t2]; simp
    · rw [upd_new]
      · simp only [ab, hent, hvs, List.map_append, List.map_cons, List.map_nil, t1]
      · intro x hx
        obtain ⟨e, he, rfl⟩ := List.mem_map.1 hx
        exact hnone e he

theorem get_spec (m : T) (key : Bytes) : get m key = look (ab m) key := by
  have key1 : ∀ (es : List Entry) (i : Nat),
      (match findLoop key es i with
        | some r => (es[r - i]?).map fun e => e.value.take m.valsize
        | none => none) = look (es.map fun e => (e.key, e.value.take m.valsize)) key := by
    intro es
    induction es with
    | nil => intro i; rfl
    | cons a es ih =>
      intro i
      rw [findLoop]
      by_cases hk : a.key = key
      · rw [if_neg (by rw [hk]; simp), if_pos hk.symm]
        simp [look, hk]
      · have hcond : (if a.key.length ≠ key.length then findLoop key es (i + 1)
            else if key = a.key then some i else findLoop key es (i + 1)) = findLoop key es (i + 1) := by
          split
          · rfl
          · rw [if_neg (fun e => hk e.symm)]
        rw [hcond]
        simp only [List.map_cons, look, hk, if_false]
        rw [← ih (i + 1)]
        cases hf : findLoop key es (i + 1) with
        | none => rfl
        | some r =>
          obtain ⟨j, e, h1, _, _, _⟩ := find_some _ _ _ _ hf
          have : r - i = (r - (i + 1)) + 1 := by omega
          simp only [this, List.getElem?_cons_succ]
  have h := key1 m.entries 0
  unfold get find ab
  rw [← h]
  cases findLoop key m.entries 0 <;> rfl

theorem has_spec (m : T) (key : Bytes) : has m key = (get m key).isSome := by
  unfold has get
  cases hf : find m key with
  | none => rfl
  | some i =>
    obtain ⟨j, e, h1, h2, _, _⟩ := find_some _ _ _ _ hf
    have : i = j := by omega
    subst this
    simp [h2]

end Map

namespace StringTable

theorem search_some (k : Bytes) (l : List (Bytes × Bytes)) (i r : Nat) (h : search k l i = some r) :
    ∃ j v, r = i + j ∧ l[j]? = some (k, v) ∧ ∀ j' < j, ∀ x, l[j']? = some x → x.1 ≠ k := by
  induction l generalizing i with
  | nil => simp [search] at h
  | cons a l ih =>
    obtain ⟨a, b⟩ := a
    rw [search] at h
    by_cases hk : a = k
    · rw [if_pos hk] at h
      injection h with h
      exact ⟨0, b, by omega, by simp [hk], by intro j' hj'; omega⟩
    · rw [if_neg hk] at h
      obtain ⟨j, v, h1, h2, h3⟩ := ih (i + 1) h
      refine ⟨j + 1, v, by omega, h2, ?_⟩
      intro j' hj' x hx
      cases j' with
      | zero => simp at hx; subst hx; exact hk
      | succ j' => exact h3 j' (by omega) x hx

theorem search_none (k : Bytes) (l : List (Bytes × Bytes)) (i : Nat) (h : search k l i = none) : ∀ x ∈ l, x.1 ≠ k := by
  induction l generalizing i with
  | nil => simp
  | cons a l ih =>
    obtain ⟨a, b⟩ := a
    rw [search] at h
    by_cases hk : a = k
    · rw [if_pos hk] at h; simp at h
    · rw [if_neg hk] at h
      intro x hx
      rcases List.mem_cons.1 hx with rfl | hx
      · exact hk
      · exact ih _ h x hx

theorem set_spec (st : T) (k v : Bytes) : (set st k v).items = upd st.items k v := by
  unfold set
  cases hf : search k st.items 0 with
  | some i =>
    obtain ⟨j, w, h1, h2, h3⟩ := search_some _ _ _ _ hf
    have : i = j := by omega
    subst this
    rw [upd_mem st.items i k v w h3 h2]
    apply List.ext_getElem?
    intro n
    simp only [List.getElem?_modify]
    by_cases hn : i = n
    · subst hn; simp [h2]
    · simp [hn]
  | none =>
    rw [upd_new _ _ _ (search_none _ _ _ hf)]
    simp only
    split <;> rfl

theorem get_spec (st : T) (k : Bytes) : get st k = look st.items k := by
  have key1 : ∀ (l : List (Bytes × Bytes)) (i : Nat),
      (match search k l i with
        | some r => (l[r - i]?).map (·.2)
        | none => none) = look l k := by
    intro l
    induction l with
    | nil => intro i; rfl
    | cons a l ih =>
      obtain ⟨a, b⟩ := a
      intro i
      rw [search]
      by_cases hk : a = k
      · simp [hk, look]
      · rw [if_neg hk, look, if_neg hk, ← ih (i + 1)]
        cases hf : search k l (i + 1) with
        | none => rfl
        | some r =>
          obtain ⟨j, e, h1, _, _⟩ := search_some _ _ _ _ hf
          have : r - i = (r - (i + 1)) + 1 := by omega
          simp only [this, List.getElem?_cons_succ]
  have h := key1 st.items 0
  unfold get
  rw [← h]
  cases search k st.items 0 <;> rfl

end StringTable
end Che.Lib
