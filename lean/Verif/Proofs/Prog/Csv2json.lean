import Verif.Proofs.Lib.Csv
import Verif.Proofs.Lib.JsonWrite
import Verif.Model.Prog.Csv2json

namespace Che.Prog.Csv2json
open Che.Lib Che.Lib.Csv
open Che.Spec.Lib

theorem colname_length (i : Nat) : 4 ≤ (colname i).length := by
  unfold colname; split <;> simp

theorem colname_print (i : Nat) (hi : i < 100) : ∀ c ∈ colname i, 32 ≤ c ∨ c = 9 ∨ c = 10 ∨ c = 13 := by
  revert i; decide +kernel

/-- The members of a row, as they are printed. -/
def Out.vals (o : Out) (names : List Bytes) : Nat → List Bytes → Out
  | _, [] => o
  | i, v :: vs => Out.vals (o.val names i v) names (i + 1) vs

theorem vals_snoc (names : List Bytes) (vs : List Bytes) (v : Bytes) (o : Out) (i : Nat) :
    o.vals names i (vs ++ [v]) = (o.vals names i vs).val names (i + vs.length) v := by
  induction vs generalizing o i with
  | nil => rfl
  | cons w vs ih => simp only [List.cons_append, Out.vals, ih, List.length_cons]; congr 1; omega

theorem valsLoop_line (names : List Bytes) (o : Out) (n : Nat) (r r' : R) (acc vs : List Bytes)
    (h : lineLoop n r acc = .ok (r', vs)) :
    valsLoop names n r acc.length (o.vals names 0 acc) = .ok (r', o.vals names 0 vs) := by
  induction n generalizing r acc with
  | zero => cases h
  | succ n ih =>
    rw [lineLoop] at h
    rw [valsLoop]
    generalize readval r = x at h
    cases x with
    | ok x =>
      obtain ⟨r1, ok⟩ := x
      simp only [ok_bind] at h ⊢
      cases ok with
      | false =>
        simp only [Bool.not_false, if_true] at h ⊢
        injection h with h; injection h with h1 h2
        rw [h1, h2]
      | true =>
        simp only [Bool.not_true, Bool.false_eq_true, if_false] at h ⊢
        have := ih r1 (acc ++ [val r1]) h
        rw [vals_snoc, List.length_append] at this
        simpa using this
    | err _ => cases h
    | panic _ => cases h
    | diverge => cases h

/-- The lines as they are printed. -/
def Out.rows (o : Out) (names : List Bytes) : List (List Bytes) → Out
  | [] => o
  | vs :: rs => Out.rows (o.vals names 0 vs).finish names rs

theorem rows_snoc (names : List Bytes) (rs : List (List Bytes)) (vs : List Bytes) (o : Out) :
    o.rows names (rs ++ [vs]) = ((o.rows names rs).vals names 0 vs).finish := by
  induction rs generalizing o with
  | nil => rfl
  | cons w rs ih => simp only [List.cons_append, Out.rows, ih]

theorem finish_finish (o : Out) : o.finish.finish = o.finish := by
  unfold Out.finish
  by_cases h : o.started <;> simp [h]

theorem rows_finish (names : List Bytes) (rs : List (List Bytes)) (o : Out) (h : o.finish = o) :
    (o.rows names rs).finish = o.rows names rs := by
  induction rs generalizing o with
  | nil => exact h
  | cons vs rs ih => exact ih _ (finish_finish _)

theorem rowsLoop_lines (names : List Bytes) (o : Out) (ho : o.finish = o) (n : Nat) (r r' : R) (acc rs : List (List Bytes))
    (h : linesLoop n r acc = .ok (r', rs)) :
    rowsLoop names n r (o.rows names acc) = .ok (r', o.rows names rs) := by
  induction n generalizing r acc with
  | zero => cases h
  | succ n ih =>
    rw [linesLoop] at h
    rw [rowsLoop]
    have hl := valsLoop_line names (o.rows names acc) (Tok.rounds r.b) r
    generalize hx : lineLoop (Tok.rounds r.b) r [] = x at h
    cases x with
    | ok x =>
      obtain ⟨r1, vs⟩ := x
      have hl := hl r1 [] vs hx
      simp only [ok_bind] at h
      have e : valsLoop names (Tok.rounds r.b) r 0 (o.rows names acc) = .ok (r1, (o.rows names acc).vals names 0 vs) := hl
      rw [e]
      simp only [ok_bind]
      have e2 : ((o.rows names acc).vals names 0 vs).finish = o.rows names (if vs = [] then acc else acc ++ [vs]) := by
        by_cases hv : vs = []
        · rw [if_pos hv, hv]; exact rows_finish names acc o ho
        · rw [if_neg hv, rows_snoc]
      rw [e2]
      generalize nextline r1 = y at h
      cases y with
      | ok y =>
        obtain ⟨r2, ok⟩ := y
        simp only [ok_bind] at h ⊢
        cases ok with
        | false =>
          simp only [Bool.not_false, if_true] at h ⊢
          injection h with h; injection h with h1 h2
          rw [h1, h2]
        | true =>
          simp only [Bool.not_true, Bool.false_eq_true, if_false] at h ⊢
          exact ih r2 _ h
      | err _ => cases h
      | panic _ => cases h
      | diverge => cases h
    | err _ => cases h
    | panic _ => cases h
    | diverge => cases h

theorem lineLoop_prefix {n : Nat} {r r' : R} {acc vs : List Bytes} (h : lineLoop n r acc = .ok (r', vs)) : acc <+: vs := by
  induction n generalizing r acc with
  | zero => cases h
  | succ n ih =>
    rw [lineLoop] at h
    generalize readval r = x at h
    cases x with
    | ok x =>
      obtain ⟨r1, ok⟩ := x
      simp only [ok_bind] at h
      cases ok with
      | false =>
        simp only [Bool.not_false, if_true] at h
        injection h with h; injection h with h1 h2
        rw [h2]; exact List.prefix_refl _
      | true =>
        simp only [Bool.not_true, Bool.false_eq_true, if_false] at h
        exact (List.prefix_append _ _).trans (ih h)
    | err _ => cases h
    | panic _ => cases h
    | diverge => cases h

/-- The header line. -/
theorem headLoop_line (n : Nat) (r r' : R) (acc vs : List Bytes) (names0 : List Bytes)
    (h : lineLoop n r acc = .ok (r', vs)) (names : List Bytes) (sound : Bool)
    (hl : names0.length = 100)
    (hn : names = acc ++ names0.drop acc.length) (hs : sound = true)
    (hfit : vs.length ≤ 100 ∧ ∀ i v, vs[i]? = some v → v.length ≤ (colname i).length) :
    headLoop n r acc.length names sound = .ok (r', vs ++ names0.drop vs.length, true) := by
  induction n generalizing r acc names sound with
  | zero => cases h
  | succ n ih =>
    rw [lineLoop] at h
    rw [headLoop]
    generalize readval r = x at h
    cases x with
    | ok x =>
      obtain ⟨r1, ok⟩ := x
      simp only [ok_bind] at h ⊢
      cases ok with
      | false =>
        simp only [Bool.not_false, if_true] at h ⊢
        injection h with h; injection h with h1 h2
        rw [h1, hn, h2, hs]
      | true =>
        simp only [Bool.not_true, Bool.false_eq_true, if_false] at h ⊢
        have hp : acc ++ [val r1] <+: vs := lineLoop_prefix h
        have hlen : acc.length < vs.length := by have := hp.length_le; simp at this; omega
        have hget : vs[acc.length]? = some (val r1) := by
          obtain ⟨w, rfl⟩ := hp
          simp
        have hrec := ih r1 (acc ++ [val r1]) h (names.set acc.length (val r1))
          (sound && decide (acc.length < 100) && decide ((val r1).length ≤ (colname acc.length).length)) ?_ ?_
        · simpa using hrec
        · rw [hn]
          have : names0.drop acc.length = names0[acc.length]'(by omega) :: names0.drop (acc.length + 1) :=
            List.drop_eq_getElem_cons (by omega)
          rw [List.set_append_right _ _ (Nat.le_refl _), Nat.sub_self, this, List.set_cons_zero, List.length_append, List.append_assoc]; rfl
        · have h2 := hfit.2 _ _ hget
          have h1 : acc.length < 100 := by omega
          simp [hs, h1, h2]
    | err _ => cases h
    | panic _ => cases h
    | diverge => cases h

/-! ### What is printed -/

theorem vals_started (names : List Bytes) (vs : List Bytes) (o : Out) (i : Nat) (hs : o.started = true)
    (hl : i + vs.length ≤ names.length) :
    o.vals names i vs = { o with text := o.text ++ ((names.drop i).zip vs).flatMap fun e => [44] ++ write_kv e.1 e.2 } := by
  induction vs generalizing o i with
  | nil => simp [Out.vals]
  | cons v vs ih =>
    simp only [List.length_cons] at hl
    have hi : i < names.length := by omega
    have e : o.val names i v = { o with text := o.text ++ [44] ++ write_kv names[i] v } := by
      unfold Out.val
      rw [List.getElem?_eq_getElem hi]
      simp [hs]
    rw [Out.vals, e, ih _ (i + 1) (by exact hs) (by omega), List.drop_eq_getElem_cons hi, List.zip_cons_cons, List.flatMap_cons]
    simp

/-- The text of an object. -/
def objText : List (Bytes × Bytes) → Bytes
  | [] => [123, 125]
  | e :: es => [123] ++ write_kv e.1 e.2 ++ (es.flatMap fun e => [44] ++ write_kv e.1 e.2) ++ [125]

theorem row_printed (names : List Bytes) (v : Bytes) (vs : List Bytes) (o : Out) (hs : o.started = false)
    (hl : vs.length + 1 ≤ names.length) :
    (o.vals names 0 (v :: vs)).finish = { o with text := o.text ++ objText (names.zip (v :: vs)) ++ [10] } := by
  cases names with
  | nil => simp at hl
  | cons k names =>
    have e : o.val (k :: names) 0 v = { o with text := o.text ++ [123] ++ write_kv k v, started := true } := by
      simp [Out.val, hs]
    rw [Out.vals, e, vals_started _ _ _ _ rfl (by simp at hl ⊢; omega)]
    simp [Out.finish, hs, objText]

theorem rows_printed (names : List Bytes) (rs : List (List Bytes)) (o : Out) (hs : o.started = false)
    (hl : ∀ r ∈ rs, r ≠ [] ∧ r.length ≤ names.length) :
    o.rows names rs = { o with text := o.text ++ rs.flatMap fun r => objText (names.zip r) ++ [10] } := by
  induction rs generalizing o with
  | nil => simp [Out.rows]
  | cons r rs ih =>
    obtain ⟨h1, h2⟩ := hl r (by simp)
    cases r with
    | nil => exact absurd rfl h1
    | cons v vs =>
      rw [Out.rows, row_printed names v vs o hs (by simpa using h2), ih _ (by exact hs) fun x hx => hl x (by simp [hx])]
      simp

theorem kv_members (k v : Bytes) (es : List (Bytes × Bytes))
    (h : ∀ e ∈ (k, v) :: es, (∃ t, JString rfc e.1 t ∧ t = Json.write_string e.1) ∧ JString rfc e.2 (Json.write_string e.2)) :
    JMembers rfc (k, .str v) (es.map fun e => (e.1, JVal.str e.2)) (write_kv k v ++ es.flatMap fun e => [44] ++ write_kv e.1 e.2) := by
  have none : Blanks rfc [] := by simp [Blanks]
  induction es generalizing k v with
  | nil =>
    obtain ⟨⟨t, h1, rfl⟩, h2⟩ := h (k, v) (by simp)
    simpa [write_kv] using JMembers.one none h1 none none (.str h2) none
  | cons e es ih =>
    obtain ⟨⟨t, h1, rfl⟩, h2⟩ := h (k, v) (by simp)
    have := ih e.1 e.2 fun x hx => h x (by simp only [List.mem_cons] at hx ⊢; exact .inr hx)
    simpa [write_kv] using JMembers.more none h1 none none (.str h2) none this

theorem objText_doc (es : List (Bytes × Bytes)) (h : ∀ e ∈ es, JString rfc e.1 (Json.write_string e.1) ∧ JString rfc e.2 (Json.write_string e.2)) :
    JDoc rfc (.obj (es.map fun e => (e.1, JVal.str e.2))) (objText es) := by
  have none : Blanks rfc [] := by simp [Blanks]
  refine ⟨[], objText es, [], none, ?_, none, by simp⟩
  cases es with
  | nil => exact JText.obj0 none
  | cons e es =>
    have := kv_members e.1 e.2 es fun x hx => ⟨⟨_, (h x hx).1, rfl⟩, (h x hx).2⟩
    simpa [objText] using JText.obj this

/-- The name of a column. -/
def nameAt (h : List Bytes) (i : Nat) : Bytes := h[i]?.getD ("col" ++ toString i).toUTF8.toList

theorem colname_text (i : Nat) (hi : i < 100) : colname i = ("col" ++ toString i).toUTF8.toList := by
  revert i; decide +kernel

theorem names_zip (h r : List Bytes) (hh : h.length ≤ 100) (hr : r.length ≤ 100) :
    (h ++ ((List.range 100).map colname).drop h.length).zip r = r.zipIdx.map fun x => (nameAt h x.2, x.1) := by
  apply List.ext_getElem
  · simp; omega
  · intro i h1 h2
    simp only [List.length_map, List.length_zipIdx] at h2
    simp only [List.getElem_zip, List.getElem_map, List.getElem_zipIdx, Nat.zero_add]
    congr 1
    unfold nameAt
    by_cases hi : i < h.length
    · rw [List.getElem_append_left hi, List.getElem?_eq_getElem hi]; rfl
    · rw [List.getElem_append_right (by omega), List.getElem?_eq_none (by omega)]
      simp only [List.getElem_drop, List.getElem_map, List.getElem_range, Option.getD_none]
      rw [← colname_text i (by omega)]
      congr 1; omega

theorem first_line {rs : List (List Bytes)} {t : Bytes} (hf : CsvFile (· ≠ []) rs t) (hv : ∀ r ∈ rs, ∀ v ∈ r, Fits v)
    {x : R} (h : Reads x t true) : ∃ x1 x2 ok u, lineLoop (Tok.rounds x.b) x [] = .ok (x1, rs.headD []) ∧
      nextline x1 = .ok (x2, ok) ∧ CsvFile (· ≠ []) rs.tail u ∧ Reads x2 u true := by
  cases hf with
  | nil =>
    obtain ⟨x1, e1, h1⟩ := readval_end (by intro c hc; cases hc) h
    obtain ⟨x2, e2, h2⟩ := nextline_eof h1
    exact ⟨x1, x2, _, [], by rw [Json.at_rounds h.at_, lineLoop, e1]; rfl, e2, .nil, h2⟩
  | @one r t hr =>
    obtain ⟨x1, e1, h1⟩ := lineLoop_at hr (r := []) (by intro c hc; cases hc) (hv r (by simp)) (by simpa using h)
    obtain ⟨x2, e2, h2⟩ := nextline_eof h1
    exact ⟨x1, x2, _, [], e1, e2, .nil, h2⟩
  | @more r t e rs u hr he hf =>
    have hle : LineEnd (e ++ u) := by
      intro c hc
      rcases he with rfl | rfl
      · simp at hc; exact .inl hc.symm
      · simp at hc; exact .inr hc.symm
    obtain ⟨x1, e1, h1⟩ := lineLoop_at hr (r := e ++ u) hle (hv r (by simp)) (by simpa using h)
    obtain ⟨x2, e2, h2⟩ := nextline_at he (file_head hf) h1
    exact ⟨x1, x2, _, u, e1, e2, hf, h2⟩

theorem file_rows {last : Bytes → Prop} {rs : List (List Bytes)} {t : Bytes} (h : CsvFile last rs t) : ∀ r ∈ rs, r ≠ [] := by
  induction h with
  | nil => simp
  | one hr => intro r h; simp at h; rw [h]; exact record_ne hr
  | more hr _ _ ih =>
    intro r h
    rcases List.mem_cons.mp h with rfl | h
    · exact record_ne hr
    · exact ih r h

/-- What the program prints for a file. -/
theorem main_prints (noheader : Bool) {rs : List (List Bytes)} {t : Bytes} (hf : CsvFile (· ≠ []) rs t)
    (hv : ∀ r ∈ rs, ∀ v ∈ r, Fits v) (hl : ∀ r ∈ rs, r.length ≤ 100)
    (hh : noheader = false → ∀ i v, (rs.headD [])[i]? = some v → v.length ≤ (colname i).length) :
    main noheader t = .ok ((if noheader then rs else rs.tail).flatMap (fun r =>
      objText (r.zipIdx.map fun x => (nameAt (if noheader then [] else rs.headD []) x.2, x.1)) ++ [10]), true) := by
  have h0 := newreader_reads t
  unfold main
  cases noheader with
  | true =>
    simp only [Bool.not_true, Bool.false_eq_true, if_false, if_true, ok_bind]
    obtain ⟨x, e, h⟩ := linesLoop_at hf hv (Tok.rounds (newreader t).b) (by rw [Json.at_rounds h0.at_]; omega) h0 []
    have := rowsLoop_lines ((List.range 100).map colname) { text := [], started := false, sound := true } rfl _ _ _ [] _ e
    simp only [Out.rows, List.nil_append] at this
    rw [this, rows_printed _ _ _ rfl fun r hr => ⟨file_rows hf r hr, by simpa using hl r hr⟩]
    simp only [ok_bind, h.sound, Bool.and_true, List.nil_append]
    congr 2
    apply congrArg List.flatten
    apply List.map_congr_left
    intro r hr
    rw [← names_zip [] r (by simp) (hl r hr)]; rfl
  | false =>
    simp only [Bool.not_false, Bool.false_eq_true, if_false, if_true]
    obtain ⟨x1, x2, ok, u, e1, e2, hu, h2⟩ := first_line hf hv h0
    have hhl : (rs.headD []).length ≤ 100 := by
      cases rs with
      | nil => simp
      | cons r rs => exact hl r (by simp)
    have he := headLoop_line _ _ _ [] _ ((List.range 100).map colname) e1 ((List.range 100).map colname) true (by simp) (by simp) rfl
      ⟨hhl, hh rfl⟩
    rw [show headLoop (Tok.rounds (newreader t).b) (newreader t) 0 ((List.range 100).map colname) true = _ from he]
    simp only [ok_bind, e2]
    have ht : ∀ r ∈ rs.tail, r ∈ rs := fun r hr => List.mem_of_mem_tail hr
    obtain ⟨x, e, h⟩ := linesLoop_at hu (fun r hr => hv r (ht r hr)) (Tok.rounds x2.b) (by rw [Json.at_rounds h2.at_]; omega) h2 []
    have := rowsLoop_lines (rs.headD [] ++ ((List.range 100).map colname).drop (rs.headD []).length)
      { text := [], started := false, sound := true } rfl _ _ _ [] _ e
    simp only [Out.rows, List.nil_append] at this
    rw [this, rows_printed _ _ _ rfl fun r hr => ⟨file_rows hu r hr, by have := hl r (ht r hr); simp; omega⟩]
    simp only [ok_bind, h.sound, Bool.and_true, List.nil_append]
    congr 2
    apply congrArg List.flatten
    apply List.map_congr_left
    intro r hr
    rw [← names_zip _ r hhl (hl r (ht r hr))]

end Che.Prog.Csv2json
