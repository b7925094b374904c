import Verif.Spec.Lib.Coll
import Verif.Model.Lib.Clip
import Mathlib.Data.List.Induction

namespace Che.Lib
open Che.Spec.Lib

variable {K V : Type} [DecidableEq K]

theorem lastValue_nil (k : K) : lastValue ([] : List (K × V)) k = none := rfl

theorem lastValue_snoc (h : List (K × V)) (op : K × V) (k : K) :
    lastValue (h ++ [op]) k = if op.1 = k then some op.2 else lastValue h k := by
  simp only [lastValue, List.reverse_append, List.reverse_cons, List.reverse_nil, List.nil_append, List.cons_append,
    List.find?_cons]
  by_cases hk : op.1 = k <;> simp [hk]

theorem keysInOrder_snoc (h : List (K × V)) (op : K × V) :
    keysInOrder (h ++ [op]) = if op.1 ∈ keysInOrder h then keysInOrder h else keysInOrder h ++ [op.1] := by
  have e : keysInOrder (h ++ [op]) = (fun ks (op : K × V) => if op.1 ∈ ks then ks else ks ++ [op.1]) (keysInOrder h) op := by
    rw [keysInOrder, List.foldl_append]; rfl
  rw [e]

/-- Replace in place, or append. -/
def upd : List (K × V) → K → V → List (K × V)
  | [], k, v => [(k, v)]
  | (k', v') :: rest, k, v => if k' = k then (k, v) :: rest else (k', v') :: upd rest k v

/-- First value for the key. -/
def look : List (K × V) → K → Option V
  | [], _ => none
  | (k', v') :: rest, k => if k' = k then some v' else look rest k

theorem look_upd (l : List (K × V)) (k : K) (v : V) (k' : K) :
    look (upd l k v) k' = if k = k' then some v else look l k' := by
  induction l with
  | nil => simp [upd, look]
  | cons a l ih =>
    obtain ⟨a, b⟩ := a
    rw [upd]
    by_cases h : a = k
    · subst h; rw [if_pos rfl, look, look]
      split <;> simp [*]
    · rw [if_neg h, look, look, ih]
      by_cases h2 : a = k'
      · subst h2
        rw [if_pos rfl, if_neg (fun e => h e.symm), if_pos rfl]
      · rw [if_neg h2, if_neg h2]

theorem keys_upd (l : List (K × V)) (k : K) (v : V) :
    (upd l k v).map (·.1) = if k ∈ l.map (·.1) then l.map (·.1) else l.map (·.1) ++ [k] := by
  induction l with
  | nil => simp [upd]
  | cons a l ih =>
    obtain ⟨a, b⟩ := a
    rw [upd]
    by_cases h : a = k
    · subst h; simp
    · rw [if_neg h]
      have h' : k ≠ a := fun e => h e.symm
      simp only [List.map_cons, ih, List.mem_cons, h', false_or]
      split <;> simp

theorem upd_mem (l : List (K × V)) (i : Nat) (k : K) (v w : V)
    (h : ∀ j, j < i → ∀ x, l[j]? = some x → x.1 ≠ k) (hi : l[i]? = some (k, w)) :
    upd l k v = l.modify i fun _ => (k, v) := by
  induction l generalizing i with
  | nil => simp at hi
  | cons a l ih =>
    obtain ⟨a, b⟩ := a
    cases i with
    | zero =>
      simp at hi
      rw [upd, if_pos hi.1]
      simp
    | succ i =>
      have h0 := h 0 (by omega) (a, b) rfl
      rw [upd, if_neg h0, ih i (fun j hj x hx => h (j + 1) (by omega) x hx) hi]
      simp

theorem upd_new (l : List (K × V)) (k : K) (v : V) (h : ∀ x ∈ l, x.1 ≠ k) : upd l k v = l ++ [(k, v)] := by
  induction l with
  | nil => rfl
  | cons a l ih =>
    obtain ⟨a, b⟩ := a
    rw [upd, if_neg (h (a, b) List.mem_cons_self), ih (fun x hx => h x (List.mem_cons_of_mem _ hx))]
    rfl

/-- The table after a history. -/
def table (h : List (K × V)) : List (K × V) := h.foldl (fun l op => upd l op.1 op.2) []

theorem table_snoc (h : List (K × V)) (op : K × V) : table (h ++ [op]) = upd (table h) op.1 op.2 := by
  simp [table, List.foldl_append]

theorem look_table (h : List (K × V)) (k : K) : look (table h) k = lastValue h k := by
  induction h using List.reverseRecOn with
  | nil => rfl
  | append_singleton h op ih => rw [table_snoc, look_upd, lastValue_snoc, ih]

theorem keys_table (h : List (K × V)) : (table h).map (·.1) = keysInOrder h := by
  induction h using List.reverseRecOn with
  | nil => rfl
  | append_singleton h op ih => rw [table_snoc, keys_upd, keysInOrder_snoc, ih]

theorem keysInOrder_nodup (h : List (K × V)) : (keysInOrder h).Nodup := by
  induction h using List.reverseRecOn with
  | nil => exact List.nodup_nil
  | append_singleton h op ih =>
    rw [keysInOrder_snoc]
    split
    · exact ih
    · rename_i hn
      rw [List.nodup_append]
      refine ⟨ih, by simp, ?_⟩
      intro a ha b hb
      rw [List.mem_singleton] at hb
      subst hb
      exact fun e => hn (e ▸ ha)

theorem mem_keysInOrder (h : List (K × V)) (k : K) : k ∈ keysInOrder h ↔ k ∈ h.map (·.1) := by
  induction h using List.reverseRecOn with
  | nil => simp [keysInOrder]
  | append_singleton h op ih =>
    rw [keysInOrder_snoc]
    split
    · rename_i hm
      simp only [List.map_append, List.mem_append, List.map_cons, List.map_nil, List.mem_singleton]
      constructor
      · intro hk; exact Or.inl (ih.1 hk)
      · rintro (hk | rfl)
        · exact ih.2 hk
        · exact hm
    · simp [ih]

theorem look_of_mem (l : List (K × V)) (hn : (l.map (·.1)).Nodup) (x : K × V) (hx : x ∈ l) : look l x.1 = some x.2 := by
  induction l with
  | nil => simp at hx
  | cons a l ih =>
    obtain ⟨a, b⟩ := a
    simp only [List.map_cons, List.nodup_cons] at hn
    rcases List.mem_cons.1 hx with rfl | hx'
    · simp [look]
    · rw [look, if_neg, ih hn.2 hx']
      intro e
      subst e
      exact hn.1 (List.mem_map_of_mem hx')

/-- The table is the keys in order with their last values. -/
theorem table_eq (h : List (K × V)) :
    (table h).map (fun x => (x.1, some x.2)) = (keysInOrder h).map fun k => (k, lastValue h k) := by
  rw [← keys_table, List.map_map]
  apply List.map_congr_left
  intro x hx
  simp only [Function.comp_apply]
  rw [← look_table, look_of_mem _ (by rw [keys_table]; exact keysInOrder_nodup h) x hx]

end Che.Lib
