import Verif.Proofs.Prog.Jsonl2csv
import Verif.Props.Lib.Csv

/-!
C167: what jsonl2csv prints.
-/
namespace Che.Props
open Che.Lib Che.Lib.Json Che.Spec.Lib Che.Prog.Jsonl2csv Che.Spec.Jsonl2csv

variable {D : Type}

/-- The start: the keys of the first object are the header. -/
private theorem jsonl_main (dbl : Dbl D) (items : List Item) (es : List (Bytes × JVal)) (more : List (List (Bytes × JVal))) (ho : objects items = es :: more)
    (hg : ∀ i ∈ items, Good i) (hx : Exact dbl items) (hlen : ¬ (firsts (es.map Prod.fst)).length > 100) : Che.Prog.Jsonl2csv.main dbl (text items) =
      .ok (((es :: more).map (record (firsts (es.map Prod.fst)))).flatMap Csv.writeline, complaints items, 0) := by
  rcases split items with h | ⟨sk, t, es', rest, rfl, h⟩
  · rw [objects_none h] at ho; cases ho
  · rw [objects_split sk t es' rest h] at ho
    obtain ⟨e1, e2⟩ := List.cons.inj ho
    subst e1
    subst e2
    have hl := text_length (sk ++ (t, some es') :: rest)
    have hlen' : (sk ++ (t, some es') :: rest).length = sk.length + 1 + rest.length := by simp; omega
    have he : Good (t, some es') := hg _ (by simp)
    have hk : (lastWins (JVal.members dbl.scan es')).map Prod.fst = firsts (es'.map Prod.fst) := by
      rw [lastWins_keys, members_map, List.map_map]
      rfl
    unfold Che.Prog.Jsonl2csv.main readobj
    rw [read_some dbl t es' rest he sk _ (fun i hi => hg i (List.mem_append_left _ hi)) h (by omega)]
    show start dbl _ (some (JVal.value dbl.scan (.obj es')), text rest, complaints sk) = _
    rw [start, JVal.value, keys]
    simp only
    rw [hk, if_neg hlen, ← JVal.value, loop_ok dbl _ rest.length rest _ _ (record (firsts (es'.map Prod.fst)) es') (Nat.le_refl _) (by omega)
      (fun i hi => hg i (List.mem_append_right _ (List.mem_cons_of_mem _ hi))) (fun i hi => hx i (List.mem_append_right _ (List.mem_cons_of_mem _ hi)))
      (row_ok dbl es' he.2.2.2.2 (fun e hm => hx (t, some es') (by simp) es' rfl e hm) _), complaints_split]
    show Res.ok _ = Res.ok _
    rw [List.map_cons, List.flatMap_cons]

/-- jsonl2csv prints a record of RFC 4180 for every object, with what the object has for the names in the first one; other lines are skipped with a message.
Missing: values with others inside, and what is false of the code (see the counterexamples). -/
theorem C167_partial (dbl : Dbl D) (items : List Item) (es : List (Bytes × JVal)) (more : List (List (Bytes × JVal))) (ho : objects items = es :: more)
    (hg : ∀ i ∈ items, Good i) (hx : Exact dbl items) (hl : (firsts (es.map Prod.fst)).length ≤ 100) (hne : es ≠ [])
    (hq : ∀ o ∈ es :: more, ∀ v ∈ record (firsts (es.map Prod.fst)) o, (34 : UInt8) ∉ v) :
    ∃ out, Che.Prog.Jsonl2csv.main dbl (text items) = .ok (out, complaints items, 0) ∧
      CsvFile (fun _ => True) ((es :: more).map (record (firsts (es.map Prod.fst)))) out := by
  have h := jsonl_main dbl items es more ho hg hx (by omega)
  refine ⟨_, h, (C75_partial _ ?_ ?_).1⟩
  · intro r hr
    obtain ⟨o, _, rfl⟩ := List.mem_map.mp hr
    cases es with
    | nil => exact absurd rfl hne
    | cons e es => simp [record, firsts]
  · intro r hr
    obtain ⟨o, hm, rfl⟩ := List.mem_map.mp hr
    exact hq o hm

/-- An input without objects is an error. -/
theorem C167_empty (dbl : Dbl D) (items : List Item) (ho : objects items = []) (hg : ∀ i ∈ items, Good i) :
    Che.Prog.Jsonl2csv.main dbl (text items) = .ok ([], complaints items ++ cstr "no objects read\n", 1) := by
  have h : ∀ i ∈ items, i.2 = none := by
    unfold objects at ho
    rw [List.filterMap_eq_nil_iff] at ho
    exact ho
  unfold Che.Prog.Jsonl2csv.main readobj
  rw [read_none dbl items _ hg h (text_length items)]
  rfl

/-- More than 100 names in the first object are an error. -/
theorem C167_many (dbl : Dbl D) (sk : List Item) (t : Bytes) (es : List (Bytes × JVal)) (rest : List Item) (hsk : ∀ i ∈ sk, Good i ∧ i.2 = none) (he : Good (t, some es))
    (hl : (firsts (es.map Prod.fst)).length > 100) :
    Che.Prog.Jsonl2csv.main dbl (text (sk ++ (t, some es) :: rest)) = .ok ([], complaints sk ++ cstr "reached max header size (100)\n", 1) := by
  have hlen := text_length (sk ++ (t, some es) :: rest)
  have hlen' : (sk ++ (t, some es) :: rest).length = sk.length + 1 + rest.length := by simp; omega
  have hk : (lastWins (JVal.members dbl.scan es)).map Prod.fst = firsts (es.map Prod.fst) := by
    rw [lastWins_keys, members_map, List.map_map]
    rfl
  unfold Che.Prog.Jsonl2csv.main readobj
  rw [read_some dbl t es rest he sk _ (fun i hi => (hsk i hi).1) (fun i hi => (hsk i hi).2) (by omega)]
  show start dbl _ (some (JVal.value dbl.scan (.obj es)), text rest, complaints sk) = _
  rw [start, JVal.value, keys]
  simp only
  rw [hk, if_pos hl]

/-- Quotes in values are not doubled: the output is not a text of RFC 4180. -/
theorem C167_counterexample_quote : Che.Prog.Jsonl2csv.main asText (cstr "{\"a\":\"b\\\"\"}\n") = .ok (cstr "\"b\\\"\"\n", [], 0) ∧
    ∀ rs, ¬ CsvFile (fun _ => True) rs (cstr "\"b\\\"\"\n") := by
  refine ⟨by decide +kernel, fun rs h => ?_⟩
  rw [show cstr "\"b\\\"\"\n" = [34, 98, 92, 34, 34, 10] by decide +kernel] at h
  exact Che.Lib.Csv.unterminated_not_file (v := [98, 92, 34, 10]) (t := [98, 92, 34, 34, 10])
    (.plain (by decide) (.plain (by decide) (.quote (.plain (by decide) .nil)))) h

/-- A number after an object does not have its names: it is printed as an empty record. -/
theorem C167_counterexample_number : Che.Prog.Jsonl2csv.main asText (cstr "{\"a\":1}\n2\n") = .ok (cstr "\"1\"\n\"\"\n", [], 0) := by decide +kernel

/-- An array in the first line. -/
theorem C167_counterexample_array : Che.Prog.Jsonl2csv.main asText (cstr "[1]\n") = .panic "undefined: item without a key" := by decide +kernel

/-- Two objects with a line between them that is not JSON. -/
example : Che.Prog.Jsonl2csv.main asText (cstr "{\"a\":1,\"b\":\"x\"}\nfoo\n{\"b\":null,\"a\":true,\"c\":2}\n") =
    .ok (cstr "\"1\",\"x\"\n\"true\",\"\"\n", cstr "failed to parse line as json: \"foo\n\"\n", 0) := by decide +kernel

example : record [cstr "a", cstr "b"] [(cstr "b", .null), (cstr "a", .bool true), (cstr "c", .num (cstr "2"))] = [cstr "true", []] := by decide +kernel

example : Good (cstr "{\"a\":1}", some [([97], .num [49])]) := by
  refine ⟨by decide +kernel, by decide +kernel, by decide +kernel, ?_, ?_⟩
  · have n : JText simple (.num [49]) [49] := .num ⟨⟨[], [49], [], [], rfl, .inl rfl, .inr ⟨49, [], rfl, by decide, by decide, by simp⟩, .inl rfl, .inl rfl⟩, by decide⟩
    have k : JString simple [97] [34, 97, 34] := ⟨[97], .plain (show (32 : UInt8) ≤ 97 by decide) (by decide) (by decide) .nil, rfl⟩
    refine ⟨[], [123, 34, 97, 34, 58, 49, 125], [], by simp [Blanks], ?_, by simp [Blanks], by decide +kernel⟩
    exact JText.obj (e := ([97], .num [49])) (es := []) (t := [34, 97, 34, 58, 49])
      (JMembers.one (a := []) (b := []) (c := []) (d := []) (by simp [Blanks]) k (by simp [Blanks]) (by simp [Blanks]) n (by simp [Blanks]))
  · intro e he
    rw [List.mem_singleton] at he
    subst he
    exact .num _ (by decide)
end Che.Props
