import Verif.Proofs.Lib.JsonWrite

/-!
C69-C72: `lib/formats/json.c` reads and writes JSON texts.
-/
namespace Che.Props
open Che.Lib Che.Lib.Json Che.Spec.Lib

variable {D : Type}

/-- Numbers kept as their texts, for the examples. -/
def asText : Dbl Bytes := { scan := id, round := fun _ => true, fmt0 := id, fmt6 := id }

/-- C69.  Every JSON text of RFC 8259 is read as the value it stands for; of a name given
twice the last value counts, in the place of the first.

This is shown for the texts with no escapes but `\"`, `\\` and `\/` and no numbers of 100
bytes or more.  It is false of other escapes (`C69_counterexample`), and longer numbers
are written past the end of a buffer (`C69_long_number`). -/
theorem C69_partial (dbl : Dbl D) (j : JVal) (text : Bytes) (h : JDoc simple j text) :
    JDoc rfc j text ∧ ∃ p, parse dbl text = .ok (p, j.value dbl.scan) ∧ p.sound = true :=
  ⟨simple_rfc.doc h, parse_doc dbl (simple_lax.doc h)⟩

/-- `"\n"` is a line feed; it is read as the letter `n`. -/
theorem C69_counterexample (dbl : Dbl D) :
    JDoc rfc (.str [10]) [34, 92, 110, 34] ∧ ∃ p, parse dbl [34, 92, 110, 34] = .ok (p, .str [110]) := by
  refine ⟨⟨[], _, [], by simp [Blanks], .str ⟨[92, 110], ?_, rfl⟩, by simp [Blanks], rfl⟩, ?_⟩
  · exact JChars.esc (L := rfc) (e := [110]) (x := [10]) (t := []) (s := []) RfcEsc.n .nil
  · obtain ⟨p, h, _⟩ := parse_doc dbl (j := .str [110]) (text := [34, 92, 110, 34])
      ⟨[], _, [], by simp [Blanks], .str ⟨[92, 110], JChars.esc (L := lax) (e := [110]) (x := [110]) (t := []) (s := [])
        ⟨_, rfl, rfl⟩ .nil, rfl⟩, by simp [Blanks], rfl⟩
    exact ⟨p, h⟩

/-- A number of 100 digits is written past the end of a buffer. -/
theorem C69_long_number : ∃ p v, parse asText (List.replicate 100 49) = .ok (p, v) ∧ p.sound = false := by
  have h : (match parse asText (List.replicate 100 49) with | .ok (p, _) => !p.sound | _ => false) = true := by decide +kernel
  generalize parse asText (List.replicate 100 49) = r at h
  cases r with
  | ok x => exact ⟨x.1, x.2, rfl, by simpa using h⟩
  | err _ => cases h
  | panic _ => cases h
  | diverge => cases h

/-- ` {"a":[1,-2.5e3], "b":"\"x", "a":null}` is an object with a null and a string. -/
example : (∃ j, JDoc simple j [32, 123, 34, 97, 34, 58, 91, 49, 44, 45, 50, 46, 53, 101, 51, 93, 44, 32, 34, 98, 34, 58,
      34, 92, 34, 120, 34, 44, 32, 34, 97, 34, 58, 110, 117, 108, 108, 125] ∧
    j.value asText.scan = .obj [([97], .null), ([98], .str [34, 120])]) := by
  have none : Blanks simple [] := by simp [Blanks]
  have one : Blanks simple [32] := by intro c hc; simp only [List.mem_singleton] at hc; subst hc; exact .inl rfl
  have p : ∀ c, 32 ≤ c → simple.plain c := fun _ h => h
  have a : JString simple [97] [34, 97, 34] := ⟨[97], .plain (p _ (by decide)) (by decide) (by decide) .nil, rfl⟩
  have b : JString simple [98] [34, 98, 34] := ⟨[98], .plain (p _ (by decide)) (by decide) (by decide) .nil, rfl⟩
  have s : JString simple [34, 120] [34, 92, 34, 120, 34] :=
    ⟨[92, 34, 120], .esc (e := [34]) (x := [34]) SelfEsc.quote (.plain (p _ (by decide)) (by decide) (by decide) .nil), rfl⟩
  have n1 : simple.number [49] := ⟨⟨[], [49], [], [], rfl, .inl rfl, .inr ⟨49, [], rfl, by decide, by decide, by simp⟩, .inl rfl, .inl rfl⟩,
    by decide⟩
  have n2 : simple.number [45, 50, 46, 53, 101, 51] :=
    ⟨⟨[45], [50], [46, 53], [101, 51], rfl, .inr rfl, .inr ⟨50, [], rfl, by decide, by decide, by simp⟩,
      .inr ⟨[53], rfl, by simp, by simp [JDigit]⟩,
      .inr ⟨101, [], [51], rfl, .inl rfl, .inl rfl, by simp, by simp [JDigit]⟩⟩, by decide⟩
  refine ⟨_, ⟨[32], _, [], one, .obj (JMembers.more none a none none
    (.arr (JItems.more none (.num n1) none (JItems.one none (.num n2) none))) none
    (JMembers.more one b none none (.str s) none (JMembers.one one a none none .null none))), none, rfl⟩, by rfl⟩

/-- C70.  A text with no number of 100 bytes or more is either read or refused; and what
is read is the value of a text at the beginning of it, after blanks.

What is read need not be JSON: zeros may stand before a number, any character may stand
in a string, and after a backslash any character stands for itself.  Whatever follows the
text is ignored. -/
theorem C70_partial (dbl : Dbl D) (text : Bytes) (hn : ∀ u, u <:+ text → (numberAt u).1.length < 100) :
    ((∃ p v, parse dbl text = .ok (p, v)) ∨ parse dbl text = .err ()) ∧
    ∀ p v, parse dbl text = .ok (p, v) →
      ∃ a t rest j, text = a ++ t ++ rest ∧ Blanks lax a ∧ JText lax j t ∧ j.value dbl.scan = v ∧ p.sound = true :=
  ⟨parse_answers dbl hn, fun _ _ h => parse_ok dbl hn h⟩

/-- No text that ends inside a value, or that begins with none, is read. -/
theorem C70_refused (dbl : Dbl D) (text : Bytes) (hn : ∀ u, u <:+ text → (numberAt u).1.length < 100)
    (h : ∀ a t rest j, text = a ++ t ++ rest → Blanks lax a → ¬ JText lax j t) : parse dbl text = .err () := by
  rcases parse_answers dbl hn with ⟨p, v, e⟩ | e
  · obtain ⟨a, t, rest, j, e, ha, hj, _⟩ := parse_ok dbl hn e
    exact absurd hj (h a t rest j e ha)
  · exact e

/-- The names in every object that is read differ. -/
theorem C70_distinct (dbl : Dbl D) (text : Bytes) (hn : ∀ u, u <:+ text → (numberAt u).1.length < 100)
    (p : Tok.T) (v : Val D) (h : parse dbl text = .ok (p, v)) : Distinct v := by
  obtain ⟨_, _, _, j, _, _, _, rfl, _⟩ := parse_ok dbl hn h
  exact value_distinct _ j

/-- `[1,]` and `[1` and `{"a" 1}` are refused; `01 x` and `[1]]` are read. -/
example : parse asText [91, 49, 44, 93] = .err () ∧ parse asText [91, 49] = .err () ∧
    parse asText [123, 34, 97, 34, 32, 49, 125] = .err () ∧
    (∃ p, parse asText [48, 49, 32, 120] = .ok (p, .num [48, 49])) ∧
    (∃ p, parse asText [91, 49, 93, 93] = .ok (p, .arr [.num [49]])) :=
  ⟨by rfl, by rfl, by rfl, ⟨_, by rfl⟩, ⟨_, by rfl⟩⟩

/-- C71.  The text written for a value is a JSON text of RFC 8259 for it.

This is shown when no string or name has characters below 32, no name has quotes or
backslashes, and every number is written as a JSON number of less than 100 bytes that is
read as the same number.  It is false of line feeds in strings and of quotes in names
(`C71_counterexample`, `C71_name`), and longer numbers are written past the end of a
buffer. -/
theorem C71_partial (dbl : Dbl D) (v : Val D) (hd : Distinct v)
    (h : Within (fun s => ∀ c ∈ s, 32 ≤ c) (fun k => ∀ c ∈ k, 32 ≤ c ∧ c ≠ 34 ∧ c ≠ 92)
      (fun d => JNumber JInt (numText dbl d) ∧ (numText dbl d).length < 100 ∧ dbl.scan (numText dbl d) = d) v) :
    ∃ t j, format dbl v = some t ∧ JText rfc j t ∧ j.value dbl.scan = v := by
  refine writenode_text (L := rfc) ⟨.quote, .backslash, .slash⟩ dbl v ?_ hd
  refine h.mono ?_ ?_ ?_
  · intro s hs c hc
    have := hs c hc
    refine ⟨?_, ?_, this⟩ <;> rintro rfl <;> revert this <;> decide
  · intro s hs c hc
    exact ⟨(hs c hc).2.1, (hs c hc).2.2, (hs c hc).1⟩
  · exact fun _ h => h

/-- A line feed is written as a backslash and the letter: `"\\n"`, which is read as both. -/
theorem C71_counterexample (dbl : Dbl D) :
    format dbl (.str [10]) = some [34, 92, 92, 110, 34] ∧ JText rfc (.str [92, 110]) [34, 92, 92, 110, 34] := by
  refine ⟨by rw [format, writenode]; rfl, .str ⟨[92, 92, 110], ?_, rfl⟩⟩
  exact JChars.esc (L := rfc) (e := [92]) (x := [92]) RfcEsc.backslash (.plain (show (32 : UInt8) ≤ 110 by decide) (by decide) (by decide) .nil)

/-- A quote in a name is written as it is: `{""":null}`, which the reader refuses. -/
theorem C71_name (dbl : Dbl D) : format dbl (.obj [([34], .null)]) = some [123, 34, 34, 34, 58, 110, 117, 108, 108, 125] ∧
    parse dbl [123, 34, 34, 34, 58, 110, 117, 108, 108, 125] = .err () := by
  refine ⟨by simp [format, writenode, writeentries], by rfl⟩

/-- C71, of `write_string`: the text is the string of RFC 8259, when no character below 32
but line feeds, carriage returns and tabs is in it. -/
theorem C71_write_string_partial (s : Bytes) (h : ∀ c ∈ s, 32 ≤ c ∨ c = 9 ∨ c = 10 ∨ c = 13) : JString rfc s (write_string s) :=
  write_string_text h

/-- Other characters below 32 are written as they are. -/
theorem C71_write_string_counterexample : ¬ ∃ s, JString rfc s (write_string [1]) := by
  rintro ⟨s, t, ht, e⟩
  have : t = [1] := by
    have : write_string [1] = [34] ++ [1] ++ [34] := by decide
    rw [this] at e
    exact (List.append_cancel_left (List.append_cancel_right e)).symm
  subst this
  cases ht with
  | plain hp => exact absurd (show (32 : UInt8) ≤ 1 from hp) (by decide)

/-- `{"a":[true,7],"b":"x\/\"y"}`. -/
example : format asText (.obj [([97], .arr [.bool true, .num [55]]), ([98], .str [120, 47, 34, 121])]) =
    some [123, 34, 97, 34, 58, 91, 116, 114, 117, 101, 44, 55, 93, 44, 34, 98, 34, 58, 34, 120, 92, 47, 92, 34, 121, 34, 125] := by
  simp [format, writenode, writeentries, writevals, writenum, writestr, writechar, asText, numText]

/-- C72.  What is written is read back as the same value.

This is shown when strings have no tabs or line feeds, names have no quotes or
backslashes, and every number is written as a number of less than 100 bytes that is read
as the same number.  It is false otherwise: `C72_counterexample`, `C71_name`. -/
theorem C72_partial (dbl : Dbl D) (v : Val D) (hd : Distinct v)
    (h : Within (fun s => ∀ c ∈ s, c ≠ 9 ∧ c ≠ 10) (fun k => ∀ c ∈ k, c ≠ 34 ∧ c ≠ 92)
      (fun d => JNumber JDigits (numText dbl d) ∧ (numText dbl d).length < 100 ∧ dbl.scan (numText dbl d) = d) v) :
    ∃ t p, format dbl v = some t ∧ parse dbl t = .ok (p, v) ∧ p.sound = true := by
  obtain ⟨t, j, e, hj, rfl⟩ := writenode_text (L := lax) ⟨⟨_, rfl, rfl⟩, ⟨_, rfl, rfl⟩, ⟨_, rfl, rfl⟩⟩ dbl v
    (h.mono (fun s hs c hc => ⟨(hs c hc).1, (hs c hc).2, trivial⟩) (fun s hs c hc => ⟨(hs c hc).1, (hs c hc).2, trivial⟩)
      (fun d hd => ⟨⟨hd.1, hd.2.1⟩, hd.2.1, hd.2.2⟩)) hd
  obtain ⟨p, hp⟩ := parse_doc dbl (j := j) (text := t) ⟨[], t, [], by simp [Blanks], hj, by simp [Blanks], by simp⟩
  exact ⟨t, p, e, hp⟩

/-- A string with a line feed is read back with a backslash and a letter. -/
theorem C72_counterexample (dbl : Dbl D) : ∃ t p, format dbl (.str [10]) = some t ∧ parse dbl t = .ok (p, .str [92, 110]) := by
  obtain ⟨h1, h2⟩ := C71_counterexample dbl
  refine ⟨_, _, h1, by rfl⟩

/-- C72, of copies: a copy is the same value, and a value with a null in it stops the
program. -/
theorem C72_clone (v : Val D) (hd : Distinct v) :
    (NoNull v → clone v = .ok v) ∧ (¬ NoNull v → ∃ m, clone v = .panic m) :=
  ⟨fun h => clone_ok v h hd, clone_null v⟩

/-- C72, of objects: a name has the value put last, others keep theirs, and the names stay
in the order in which they came. -/
theorem C72_put (k : Bytes) (v : Val D) (es : List (Bytes × Val D)) :
    (∀ k', get k' (put k v es) = if k' = k then some v else get k' es) ∧
    (put k v es).map Prod.fst = (if k ∈ es.map Prod.fst then es.map Prod.fst else es.map Prod.fst ++ [k]) :=
  ⟨fun k' => get_put k k' v es, put_keys k v es⟩

example : clone (D := Bytes) (.arr [.null]) = .panic "json.clone: forgot case 1" := by
  simp [clone, cloneVals]; rfl

end Che.Props
