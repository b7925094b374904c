import Verif.Proofs.Lib.XmlSound

/-!
C115 and C116: walking in XML files.
-/
namespace Che.Props
open Che.Lib Che.Lib.Xml Che.Spec.Lib.Xml Che.Proofs.Lib.Xml

/-- An operation of the library, with at most `n` nested rounds and calls. -/
def C115_run (n : Nat) (x : X) : Op → Res String (X × Bool)
  | .enter => xml_enter x
  | .next => (xml_next n x).bind fun x => .ok (x, false)
  | .leave => (xml_leave n x).bind fun x => .ok (x, false)

/-- A program sees the element at the cursor.  The value of an attribute is a C string: it ends before a zero. -/
def C115_Sees (x : X) (c : Cursor) : Prop :=
  xml_nodename x = c.name ∧ ∀ k, xml_attr x k = (c.attr k).map fun v => v.takeWhile (· ≠ 0)

/-- A program sees what is at the cursor, and goes on seeing it when both move.  The operations end. -/
def C115_Follows : List Op → X → Cursor → Prop
  | [], x, c => C115_Sees x c
  | op :: ops, x, c => C115_Sees x c ∧
    (c.can op → ∃ N x', (∀ n, N ≤ n → C115_run n x op = .ok (x', (c.move op).2)) ∧ C115_Follows ops x' (c.move op).1)

/-- The elements that follow parents are not too deep. -/
def C115_Frames : List (Bytes × List Elem) → Prop
  | [] => True
  | (_, es) :: up => up.length < 4 ∧ Elem.Depths (4 - up.length) es ∧ C115_Frames up

theorem C115_sees {x here up} (h : At x here up) : C115_Sees x ⟨here, up.map Prod.snd⟩ := by
  obtain ⟨he, hp, h⟩ := h
  cases here with
  | nil =>
    have h0 : x.node.ty = .null := h.1
    refine ⟨?_, fun k => ?_⟩
    · simp [xml_nodename, he, h0, Cursor.name]
    · simp [xml_attr, he, h0, Cursor.attr]
  | cons e es =>
    have hn : x.node = tagOf e := h.1
    have h0 : ¬ x.node.ty = .null := by rw [hn]; rcases tagOf_ty e with h | h <;> simp [h]
    refine ⟨?_, fun k => ?_⟩
    · simp only [xml_nodename, he, Bool.false_eq_true, if_false, if_neg h0, Cursor.name, List.head?_cons, Option.map_some, hn]
      cases e <;> rfl
    · simp only [xml_attr, he, Bool.false_eq_true, if_false, if_neg h0, Cursor.attr, List.head?_cons, Option.bind_some, hn, Option.map_map]
      cases e <;> rfl

theorem C115_follows (ops : List Op) : ∀ {x here up}, At x here up → Elem.Depths (4 - up.length) here → C115_Frames up →
    C115_Follows ops x ⟨here, up.map Prod.snd⟩ := by
  induction ops with
  | nil => intro x here up h _ _; exact C115_sees h
  | cons op ops ih =>
    intro x here up h hd hf
    refine ⟨C115_sees h, ?_⟩
    cases op with
    | enter =>
      intro _
      cases here with
      | nil =>
        have hn : x.node.ty = .null := h.2.2.1
        refine ⟨0, x, fun n _ => ?_, ih h hd hf⟩
        simp [C115_run, xml_enter, h.1, hn, Cursor.move]
      | cons e es =>
        cases e with
        | empty m as =>
          have hn : x.node.ty = .mono := by rw [h.2.2.1]; rfl
          refine ⟨0, x, fun n _ => ?_, ih h hd hf⟩
          simp [C115_run, xml_enter, h.1, hn, Cursor.move]
        | tree m as kids =>
          rw [Elem.Depths, Elem.Depth] at hd
          have hu : up.length < 4 := by omega
          obtain ⟨x', e1, h1⟩ := enter_at h hu
          refine ⟨0, x', fun n _ => e1, ih h1 ?_ ⟨hu, hd.2, hf⟩⟩
          simpa [Nat.sub_sub] using hd.1.2
    | next =>
      intro _
      cases here with
      | nil =>
        have hn : x.node.ty = .null := h.2.2.1
        refine ⟨1, x, fun n hn1 => ?_, ih h hd hf⟩
        obtain ⟨n, rfl⟩ : ∃ m, n = m + 1 := ⟨n - 1, by omega⟩
        simp [C115_run, xml_next, h.1, hn, Cursor.move, Res.bind]
      | cons e es =>
        rw [Elem.Depths] at hd
        obtain ⟨N, x', e1, h1⟩ := next_at e h hd.1
        refine ⟨N, x', fun n hn1 => ?_, ih h1 hd.2 hf⟩
        simp only [C115_run, e1 n hn1, Res.bind, Cursor.move]
    | leave =>
      intro hc
      cases up with
      | nil => exact absurd rfl hc
      | cons f up =>
        obtain ⟨m, es⟩ := f
        obtain ⟨N, x', e1, h1⟩ := leave_at h (by simpa using hd)
        refine ⟨N, x', fun n hn1 => ?_, ih h1 hf.2.1 hf.2.2⟩
        simp only [C115_run, e1 n hn1, Res.bind, Cursor.move, List.map_cons]

/-- C115, for files without texts and comments, with short names of letters, at most 64 attributes and at most four
elements with two tags inside each other: whatever a program does, it sees what is there, and every operation ends. -/
theorem C115_walk_partial {root : Elem} {s : Bytes} (h : File root s) (hd : Elem.Depth 4 root) :
    ∃ x, xml_open s = .ok x ∧ ∀ ops, C115_Follows ops x ⟨[root], []⟩ := by
  obtain ⟨x, e, h1⟩ := open_at h
  refine ⟨x, e, fun ops => C115_follows ops h1 ?_ trivial⟩
  rw [Elem.Depths, Elem.Depths]
  exact ⟨hd, trivial⟩

/-- A file with an element in an element. -/
example : File (.tree (cstr "a") [(cstr "x", cstr "1")] [.empty (cstr "b") []]) (cstr "<?xml?>\n<a x=\"1\">\n\t<b/>\n</a>\n") := by
  have hs : ∀ s : Bytes, s.all isspace = true → Space s := fun s h c hc => (space_iff c).1 (List.all_eq_true.1 h c hc)
  have hn : ∀ s : Bytes, s ≠ [] → s.length ≤ 15 → s.all isalpha = true → Name s :=
    fun s h1 h2 h => ⟨h1, h2, fun c hc => (letter_iff c).1 (List.all_eq_true.1 h c hc)⟩
  refine ⟨cstr "<?xml?>", cstr "\n", cstr "<a x=\"1\">\n\t<b/>\n</a>", cstr "\n", ⟨[], cstr "xml?", hs _ (by decide), by decide, by decide⟩, hs _ (by decide), ?_,
    hs _ (by decide), by decide⟩
  have ha : Attrs true [(cstr "x", cstr "1")] (cstr " " ++ cstr "x" ++ [61, 34] ++ cstr "1" ++ [34] ++ []) :=
    .cons (hs _ (by decide)) (by decide) (hn _ (by decide) (by decide) (by decide)) (by decide) (by decide) (.nil (hs _ (by decide)))
  have hb : Text (.empty (cstr "b") []) ([60] ++ cstr "b" ++ [] ++ [47, 62]) :=
    .empty (hn _ (by decide) (by decide) (by decide)) (by decide) (.nil (hs _ (by decide)))
  have := Text.tree (n := cstr "a") (hn _ (by decide) (by decide) (by decide)) (by decide) ha
    (.cons (hs (cstr "\n\t") (by decide)) hb .nil) (hs (cstr "\n") (by decide))
  simpa [cstr] using this

/-- The result of opening a file and entering as often as a number says, if there is one. -/
def C115_enters : Nat → Res String X → Res String X
  | 0, r => r
  | n + 1, r => C115_enters n (r.bind fun x => (xml_enter x).bind fun y => .ok y.1)

/-- C115 is false for five elements inside each other: the program ends. -/
theorem C115_counterexample_depth :
    C115_enters 5 (xml_open (cstr "<?xml?><a><b><c><d><e></e></d></c></b></a>")) = .panic "Reached max stack depth" := by decide +kernel

/-- The name of the node after entering, if no error was met. -/
def C115_seen (n : Nat) (s : Bytes) : Option (Option Bytes) :=
  match C115_enters n (xml_open s) with
  | .ok x => some (xml_nodename x)
  | _ => none

/-- C115 is false for other files that are well-formed: without a header, with text, with single quotes, with a space
at the end of a closing tag, with a digit in a name, and with a comment. -/
theorem C115_counterexample_files :
    C115_seen 0 (cstr "<a/>") = some none ∧
    C115_seen 1 (cstr "<?xml?><a>text<b/></a>") = some none ∧
    C115_seen 0 (cstr "<?xml?><a x='1'/>") = some none ∧
    C115_seen 1 (cstr "<?xml?><a></a >") = some none ∧
    C115_seen 0 (cstr "<?xml?><h1/>") = some none ∧
    C115_seen 0 (cstr "<?xml?><!-- c --><a/>") = some none ∧
    (∀ x, xml_open (cstr "<?xml?><a></a >") = .ok x → x.error = false ∧ ∀ y r, xml_enter x = .ok (y, r) → y.error = true) := by
  refine ⟨by decide +kernel, by decide +kernel, by decide +kernel, by decide +kernel, by decide +kernel, by decide +kernel, ?_⟩
  have key : (match xml_open (cstr "<?xml?><a></a >") with
    | .ok x => !x.error && (match xml_enter x with | .ok (y, _) => y.error | _ => false)
    | _ => false) = true := by decide +kernel
  intro x hx
  rw [hx] at key
  simp only [Bool.and_eq_true, Bool.not_eq_true'] at key
  refine ⟨key.1, fun y r hy => ?_⟩
  have := key.2
  rw [hy] at this
  exact this

/-- C116: if the root has been passed over and there is no error, the file begins with a header and an element, which is
the one that was seen first, and which is not too deep. -/
theorem C116_sound {s : Bytes} {x x' : X} {n : Nat} (h : xml_open s = .ok x) (h' : xml_next n x = .ok x') (he : x.error = false)
    (he' : x'.error = false) :
    ∃ root hd sp t rest, Header hd ∧ Space sp ∧ Text root t ∧ s = hd ++ sp ++ t ++ rest ∧ Elem.Depth 4 root ∧
      xml_nodename x = some root.name ∧ x.node.attrs = root.attrs := by
  obtain ⟨root, hd, sp, t, rest, h1, h2, h3, h4, h5, h6⟩ := sound h h' he he'
  refine ⟨root, hd, sp, t, rest, h1, h2, h3, h4, h5, ?_, ?_⟩
  · unfold xml_nodename
    rw [he, ← h6]
    cases root <;> simp [tagOf, Elem.name]
  · rw [← h6]
    cases root <;> rfl

/-- Such a file. -/
example : ∃ x x', xml_open (cstr "<?xml?><a><b x=\"1\"/></a>") = .ok x ∧ xml_next 9 x = .ok x' ∧ x.error = false ∧ x'.error = false := by
  have key : (match xml_open (cstr "<?xml?><a><b x=\"1\"/></a>") with
    | .ok x => !x.error && (match xml_next 9 x with | .ok y => !y.error | _ => false)
    | _ => false) = true := by decide +kernel
  split at key
  · next x hx =>
    rw [Bool.and_eq_true] at key
    have k2 := key.2
    split at k2
    · next y hy => exact ⟨x, y, hx, hy, by simpa using key.1, by simpa using k2⟩
    · cases k2
  · cases key

theorem C116_skip : ∀ (n : Nat) {x : X}, x.error = true → x.node.ty ≠ .null → skip n x = .diverge
  | 0, _, _, _ => rfl
  | n + 1, x, he, hn => by
    rw [skip_succ, if_neg hn]
    cases n with
    | zero => rfl
    | succ n =>
      rw [xml_next, if_pos he]
      exact C116_skip (n + 1) he hn

/-- C116 is false: a wrong tag inside of an element that is left or passed over makes the program run forever, as here
for `<?xml?><a><b></c></a>` when the root has been entered. -/
theorem C116_counterexample_loop : ∃ x y, xml_open (cstr "<?xml?><a><b></c></a>") = .ok x ∧ xml_enter x = .ok (y, true) ∧
    (∀ n, xml_leave n y = .diverge) ∧ ∀ n, xml_next n x = .diverge := by
  have key : ∃ x y z, xml_open (cstr "<?xml?><a><b></c></a>") = .ok x ∧ xml_enter x = .ok (y, true) ∧ xml_enter y = .ok (z, false) ∧
      x.error = false ∧ x.node.ty = .opening ∧ y.error = false ∧ y.node.ty = .opening ∧ z.error = true ∧ z.node.ty = .opening := by
    have key : (match xml_open (cstr "<?xml?><a><b></c></a>") with
      | .ok x => decide (x.error = false ∧ x.node.ty = .opening) && (match xml_enter x with
        | .ok (y, r) => decide (r = true ∧ y.error = false ∧ y.node.ty = .opening) && (match xml_enter y with
          | .ok (z, r) => decide (r = false ∧ z.error = true ∧ z.node.ty = .opening)
          | _ => false)
        | _ => false)
      | _ => false) = true := by decide +kernel
    split at key
    · next x hx =>
      rw [Bool.and_eq_true, decide_eq_true_eq] at key
      obtain ⟨⟨e1, t1⟩, key⟩ := key
      split at key
      · next y r hy =>
        rw [Bool.and_eq_true, decide_eq_true_eq] at key
        obtain ⟨⟨rfl, e2, t2⟩, key⟩ := key
        split at key
        · next z r hz =>
          rw [decide_eq_true_eq] at key
          obtain ⟨rfl, e3, t3⟩ := key
          exact ⟨x, y, z, hx, hy, hz, e1, t1, e2, t2, e3, t3⟩
        · cases key
      · cases key
    · cases key
  obtain ⟨x, y, z, h1, h2, h3, e1, t1, e2, t2, e3, t3⟩ := key
  have hz : ∀ n, xml_next n y = .diverge ∨ xml_next n y = .ok z := by
    intro n
    match n with
    | 0 => exact .inl rfl
    | 1 => exact .inl (by rw [xml_next, e2, if_neg (by simp), t2]; simp only [h3, Res.bind]; rfl)
    | n + 2 => exact .inr (by rw [xml_next, e2, if_neg (by simp), t2]; simp only [h3, Res.bind]; rw [xml_leave_succ, if_pos e3])
  have hs : ∀ n, skip n y = .diverge := by
    intro n
    match n with
    | 0 => rfl
    | n + 1 =>
      rw [skip_succ, if_neg (by simp [t2])]
      rcases hz n with h | h
      · rw [h]; rfl
      · rw [h]; exact C116_skip n e3 (by simp [t3])
  have hl : ∀ n, xml_leave n y = .diverge := by
    intro n
    match n with
    | 0 => rfl
    | n + 1 => rw [xml_leave_succ, e2, if_neg (by simp), hs n]; rfl
  refine ⟨x, y, h1, h2, hl, fun n => ?_⟩
  match n with
  | 0 => rfl
  | n + 1 =>
    rw [xml_next, e1, if_neg (by simp), t1]
    simp only [h2, Res.bind]
    exact hl n

/-- C116 is false: a file that ends after an opening tag makes the program end when it enters. -/
theorem C116_counterexample_end : C115_enters 1 (xml_open (cstr "<?xml?><a>")) = .panic "xml error 0152" := by decide +kernel

/-- C116 is false: nobody sees an error after the root. -/
theorem C116_counterexample_rest : ∃ x x', xml_open (cstr "<?xml?><a/></b>") = .ok x ∧ (∀ n, xml_next (n + 1) x = .ok x') ∧ x'.error = false ∧
    xml_nodename x' = none := by
  have key : (match xml_open (cstr "<?xml?><a/></b>") with
    | .ok x => decide (x.error = false ∧ x.node.ty = .mono) && (match sibling x with
      | .ok y => decide (y.error = false ∧ xml_nodename y = none)
      | _ => false)
    | _ => false) = true := by decide +kernel
  split at key
  · next x hx =>
    rw [Bool.and_eq_true, decide_eq_true_eq] at key
    obtain ⟨⟨e1, t1⟩, key⟩ := key
    split at key
    · next y hy =>
      rw [decide_eq_true_eq] at key
      refine ⟨x, y, hx, fun n => ?_, key.1, key.2⟩
      rw [xml_next, e1, if_neg (by simp), t1]
      exact hy
    · cases key
  · cases key
end Che.Props
