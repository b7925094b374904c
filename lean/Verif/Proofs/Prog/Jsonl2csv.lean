import Verif.Model.Prog.Jsonl2csv
import Verif.Spec.Prog.Jsonl2csv
import Verif.Proofs.Lib.Vtt
import Verif.Props.Lib.Json

namespace Che.Prog.Jsonl2csv
open Che.Lib Che.Lib.Json Che.Spec.Lib Che.Spec.Jsonl2csv Che.Props

variable {D : Type}

theorem str_clean : ∀ {l : Bytes}, (0 : UInt8) ∉ l → Vtt.str l = l
  | [], _ => rfl
  | c :: l, h => by
    rw [List.mem_cons, not_or] at h
    have hc : (decide (c ≠ 0)) = true := decide_eq_true (fun e => h.1 e.symm)
    unfold Vtt.str
    rw [List.takeWhile_cons, if_pos hc]
    exact congrArg (c :: ·) (str_clean h.2)

theorem doc_newline {j : JVal} {t : Bytes} (h : JDoc simple j t) : JDoc simple j (t ++ [10]) := by
  obtain ⟨a, x, b, h1, h2, h3, rfl⟩ := h
  refine ⟨a, x, b ++ [10], h1, h2, ?_, by simp⟩
  intro c hc
  rcases List.mem_append.mp hc with h | h
  · exact h3 c h
  · rw [List.mem_singleton] at h
    subst h
    exact .inr (.inr (.inl rfl))

theorem lastFor_snoc {V : Type} (k : Bytes) (es : List (Bytes × V)) (e : Bytes × V) : lastFor k (es ++ [e]) = if e.1 = k then some e.2 else lastFor k es := by
  unfold lastFor
  rw [List.reverse_append, List.reverse_singleton, List.singleton_append, List.find?_cons]
  by_cases h : e.1 = k
  · simp [h]
  · simp [h]

theorem get_lastWins {V : Type} (k : Bytes) (es : List (Bytes × V)) : Json.get k (lastWins es) = lastFor k es := by
  have : ∀ rs : List (Bytes × V), Json.get k (lastWins rs.reverse) = lastFor k rs.reverse := by
    intro rs
    induction rs with
    | nil => rfl
    | cons e rs ih =>
      obtain ⟨a, v⟩ := e
      rw [List.reverse_cons, lastWins_snoc, lastFor_snoc, get_put, ih]
      by_cases h : a = k
      · simp [h]
      · simp [h, Ne.symm h]
  simpa using this es.reverse

theorem lastWins_keys {V : Type} (es : List (Bytes × V)) : (lastWins es).map Prod.fst = firsts (es.map Prod.fst) := by
  unfold lastWins
  rw [List.map_filterMap]
  conv => rhs; rw [← List.filterMap_some (l := firsts (es.map Prod.fst))]
  apply filterMap_same
  intro k hk
  obtain ⟨v, hv⟩ := lastFor_some ((mem_firsts _ _).mp hk)
  simp [hv]

theorem members_map (num : Bytes → D) : ∀ es : List (Bytes × JVal), JVal.members num es = es.map fun e => (e.1, e.2.value num)
  | [] => rfl
  | (k, v) :: es => by rw [JVal.members, members_map num es]; rfl

theorem lastFor_members (num : Bytes → D) (k : Bytes) (es : List (Bytes × JVal)) : lastFor k (JVal.members num es) = (lastFor k es).map (JVal.value num) := by
  rw [members_map]
  unfold lastFor
  rw [← List.map_reverse, List.find?_map, Option.map_map, Option.map_map]
  rfl

theorem lastFor_mem {V : Type} {k : Bytes} {es : List (Bytes × V)} {v : V} (h : lastFor k es = some v) : ∃ e ∈ es, e.2 = v := by
  unfold lastFor at h
  obtain ⟨e, h1, h2⟩ := Option.map_eq_some_iff.mp h
  exact ⟨e, List.mem_reverse.mp (List.mem_of_find?_eq_some h1), h2⟩

/-- Numbers are printed as they are read. -/
def Exact (dbl : Dbl D) (items : List Item) : Prop := ∀ i ∈ items, ∀ es, i.2 = some es → ∀ e ∈ es, ∀ t, e.2 = .num t → numText dbl (dbl.scan t) = t

theorem row_ok (dbl : Dbl D) (es : List (Bytes × JVal)) (hf : ∀ e ∈ es, Flat e.2) (hn : ∀ e ∈ es, ∀ t, e.2 = .num t → numText dbl (dbl.scan t) = t) :
    ∀ header : List Bytes, row dbl (JVal.value dbl.scan (.obj es)) header = some (record header es)
  | [] => rfl
  | k :: header => by
    have hc : cell dbl (lookup (JVal.value dbl.scan (.obj es)) k) = some (field (lastFor k es)) := by
      rw [JVal.value, lookup]
      rw [get_lastWins, lastFor_members]
      cases hl : lastFor k es with
      | none => rfl
      | some v =>
        obtain ⟨e, he, rfl⟩ := lastFor_mem hl
        have h1 := hf e he
        have h2 := hn e he
        generalize e.2 = v at h1 h2
        cases h1 with
        | null => simp [JVal.value, cell, field]
        | bool b => cases b <;> (simp only [Option.map_some, JVal.value, cell, format, writenode, field]; decide +kernel)
        | num t ht =>
          simp only [Option.map_some, JVal.value, cell, format, writenode, field]
          unfold writenum
          rw [h2 t rfl, if_pos ht]
        | str s => simp [JVal.value, cell, field]
    rw [row, hc, row_ok dbl es hf hn header]
    rfl

theorem line_ne (t rest : Bytes) : (t ++ [10]) ++ rest ≠ [] := by simp

theorem read_line {t : Bytes} (h10 : (10 : UInt8) ∉ t) (h0 : (0 : UInt8) ∉ t) (hl : t.length < 4095) (rest : Bytes) :
    Vtt.fgets 4095 ((t ++ [10]) ++ rest) = (t ++ [10], rest) ∧ Vtt.str (t ++ [10]) = t ++ [10] := by
  refine ⟨?_, str_clean ?_⟩
  · rw [List.append_assoc]
    exact Vtt.fgets_line h10 hl
  · rw [List.mem_append, not_or]
    exact ⟨h0, by decide⟩

theorem text_cons (i : Item) (items : List Item) : text (i :: items) = (i.1 ++ [10]) ++ text items := by
  unfold text
  rw [List.flatMap_cons]

theorem read_none (dbl : Dbl D) : ∀ (items : List Item) (k : Nat), (∀ i ∈ items, Good i) → (∀ i ∈ items, i.2 = none) → items.length ≤ k →
    readLoop dbl k (text items) = .ok (none, [], complaints items)
  | [], k, _, _, _ => by
    cases k with
    | zero => rfl
    | succ k => rw [readLoop, if_pos (show text [] = [] from rfl)]; rfl
  | (t, o) :: items, 0, _, _, hk => by simp at hk
  | (t, o) :: items, k + 1, hg, hn, hk => by
    obtain ⟨h1, h2, h3, h4⟩ := hg _ List.mem_cons_self
    have ho : o = none := hn _ List.mem_cons_self
    subst ho
    obtain ⟨r1, r2⟩ := read_line h1 h2 h3 (text items)
    rw [readLoop, text_cons, if_neg (line_ne _ _), r1]
    simp only
    rw [r2, C70_refused dbl (t ++ [10]) h4.1 h4.2]
    simp only
    rw [read_none dbl items k (fun i hi => hg i (List.mem_cons_of_mem _ hi)) (fun i hi => hn i (List.mem_cons_of_mem _ hi)) (by simpa using hk)]
    show Res.ok _ = Res.ok _
    simp [message, complaints, show cstr "\n\"\n" = 10 :: cstr "\"\n" by decide +kernel]

theorem read_some (dbl : Dbl D) (t : Bytes) (es : List (Bytes × JVal)) (rest : List Item) (hg' : Good (t, some es)) : ∀ (items : List Item) (k : Nat),
    (∀ i ∈ items, Good i) → (∀ i ∈ items, i.2 = none) → items.length < k →
    readLoop dbl k (text (items ++ (t, some es) :: rest)) = .ok (some (JVal.value dbl.scan (.obj es)), text rest, complaints items)
  | _, 0, _, _, hk => by simp at hk
  | [], k + 1, _, _, _ => by
    obtain ⟨h1, h2, h3, h4⟩ := hg'
    obtain ⟨r1, r2⟩ := read_line h1 h2 h3 (text rest)
    obtain ⟨_, p, hp, hs⟩ := C69_partial dbl (.obj es) (t ++ [10]) (doc_newline h4.1)
    rw [readLoop, List.nil_append, text_cons, if_neg (line_ne _ _), r1]
    simp only
    rw [r2, hp]
    simp only
    rw [if_pos hs]
    rfl
  | (t', o) :: items, k + 1, hg, hn, hk => by
    obtain ⟨h1, h2, h3, h4⟩ := hg _ List.mem_cons_self
    have ho : o = none := hn _ List.mem_cons_self
    subst ho
    obtain ⟨r1, r2⟩ := read_line h1 h2 h3 (text (items ++ (t, some es) :: rest))
    rw [readLoop, List.cons_append, text_cons, if_neg (line_ne _ _), r1]
    simp only
    rw [r2, C70_refused dbl (t' ++ [10]) h4.1 h4.2]
    simp only
    rw [read_some dbl t es rest hg' items k (fun i hi => hg i (List.mem_cons_of_mem _ hi)) (fun i hi => hn i (List.mem_cons_of_mem _ hi)) (by simpa using hk)]
    show Res.ok _ = Res.ok _
    simp [message, complaints, show cstr "\n\"\n" = 10 :: cstr "\"\n" by decide +kernel]

theorem split : ∀ items : List Item, (∀ i ∈ items, i.2 = none) ∨ ∃ sk t es rest, items = sk ++ (t, some es) :: rest ∧ ∀ i ∈ sk, i.2 = none
  | [] => .inl (by simp)
  | (t, some es) :: items => .inr ⟨[], t, es, items, rfl, by simp⟩
  | (t, none) :: items => by
    rcases split items with h | ⟨sk, t', es, rest, rfl, h⟩
    · left
      intro i hi
      rcases List.mem_cons.mp hi with rfl | hi
      · rfl
      · exact h i hi
    · refine .inr ⟨(t, none) :: sk, t', es, rest, rfl, ?_⟩
      intro i hi
      rcases List.mem_cons.mp hi with rfl | hi
      · rfl
      · exact h i hi

theorem text_length (items : List Item) : items.length ≤ (text items).length := by
  induction items with
  | nil => exact Nat.le_refl _
  | cons i items ih =>
    rw [text_cons, List.length_append, List.length_append, List.length_cons, List.length_singleton]
    omega

theorem objects_none {items : List Item} (h : ∀ i ∈ items, i.2 = none) : objects items = [] := by
  unfold objects
  rw [List.filterMap_eq_nil_iff]
  exact h

theorem objects_split (sk : List Item) (t : Bytes) (es : List (Bytes × JVal)) (rest : List Item) (h : ∀ i ∈ sk, i.2 = none) :
    objects (sk ++ (t, some es) :: rest) = es :: objects rest := by
  unfold objects
  rw [List.filterMap_append, show sk.filterMap Prod.snd = [] from objects_none h]
  rfl

theorem complaints_split (sk : List Item) (t : Bytes) (es : List (Bytes × JVal)) (rest : List Item) :
    complaints (sk ++ (t, some es) :: rest) = complaints sk ++ complaints rest := by
  unfold complaints
  rw [List.flatMap_append, List.flatMap_cons]
  rfl

theorem loop_ok (dbl : Dbl D) (header : List Bytes) : ∀ (n : Nat) (items : List Item) (k : Nat) (v : Val D) (r : List Bytes), items.length ≤ n → items.length < k →
    (∀ i ∈ items, Good i) → Exact dbl items → row dbl v header = some r →
    loop dbl header k v (text items) = .ok (Csv.writeline r ++ ((objects items).map (record header)).flatMap Csv.writeline, complaints items)
  | _, items, 0, _, _, _, hk, _, _, _ => by simp at hk
  | n, items, k + 1, v, r, hn, hk, hg, hx, hr => by
    rw [loop, hr]
    simp only
    unfold readobj
    rcases split items with h | ⟨sk, t, es, rest, rfl, h⟩
    · rw [read_none dbl items _ hg h (text_length items), objects_none h]
      show Res.ok _ = Res.ok _
      simp
    · have hl := text_length (sk ++ (t, some es) :: rest)
      have hlen : (sk ++ (t, some es) :: rest).length = sk.length + 1 + rest.length := by simp; omega
      have he : Good (t, some es) := hg _ (by simp)
      rw [read_some dbl t es rest he sk _ (fun i hi => hg i (List.mem_append_left _ hi)) h (by omega)]
      show ((loop dbl header k _ (text rest)).bind fun x => Res.ok (Csv.writeline r ++ x.1, complaints sk ++ x.2)) = _
      match n, hn with
      | 0, hn => omega
      | n + 1, hn =>
        rw [loop_ok dbl header n rest k _ (record header es) (by omega) (by omega) (fun i hi => hg i (List.mem_append_right _ (List.mem_cons_of_mem _ hi)))
          (fun i hi => hx i (List.mem_append_right _ (List.mem_cons_of_mem _ hi)))
          (row_ok dbl es he.2.2.2.2 (fun e hm => hx (t, some es) (by simp) es rfl e hm) header), objects_split sk t es rest h, complaints_split]
        show Res.ok _ = Res.ok _
        rw [List.map_cons, List.flatMap_cons]
end Che.Prog.Jsonl2csv
