import Mathlib.Data.List.Nodup
import Verif.Proofs.Prog.Wisp
import Verif.Proofs.Prog.WispMem
import Verif.Proofs.Prog.WispFile

/-!
C146-C151: symbols, their values, pools of objects, quoted texts and the reader of `prog/wisp`.
-/
namespace Che.Props
open Che Che.Lib Che.Prog.Wisp Che.Spec.Wisp

private theorem bind_ok {ε α β : Type} (a : α) (f : α → Res ε β) : ((Res.ok a : Res ε α) >>= f) = f a := rfl

/-! ### C146: symbols -/

/-- After any insertions a search gives the value that was given last to the key, or `NULL`; the table counts different keys. -/
theorem C146_table (ops : List (Bytes × Nat)) :
    ∃ t, ops.foldlM (fun t o => ht_insert t o.1 o.2) Table.new = .ok t ∧ (∀ k, ht_search t k = .ok ((lastOf ops k).getD 0)) ∧ t.count = (ops.map (·.1)).eraseDups.length := by
  obtain ⟨t, h, k⟩ := insertAll_holds ops
  exact ⟨t, h, k.search, k.count⟩

/-- Symbols are asked for by name, one after another. -/
def internAll (nil : Nat) : Symbols → List Bytes → Res Unit (Symbols × List Nat)
  | s, [] => .ok (s, [])
  | s, n :: ns => do
    let (s, o) ← symbol s nil n
    let (s, os) ← internAll nil s ns
    .ok (s, o :: os)

private theorem intern_all (nil : Nat) (names : List Bytes) : ∀ s : Symbols, Interned s →
    ∃ s' os, internAll nil s names = .ok (s', os) ∧ Interned s' ∧ os.length = names.length ∧
      (∀ (i : Nat) o n, os[i]? = some o → names[i]? = some n → ∃ x, s'.get? o = some x ∧ x.name = n) ∧ (∀ o, s.get? o ≠ none → s'.get? o = s.get? o) := by
  induction names with
  | nil => intro s hs; exact ⟨s, [], rfl, hs, rfl, by simp, fun _ _ => rfl⟩
  | cons n ns ih =>
    intro s hs
    obtain ⟨s1, o, x, h1, h2, h3, h4, h5, _, _⟩ := symbol_interned hs nil n
    obtain ⟨s2, os, k1, k2, k3, k4, k5⟩ := ih s1 h2
    refine ⟨s2, o :: os, ?_, k2, by simp [k3], ?_, ?_⟩
    · show (symbol s nil n >>= _) = _
      rw [h1, bind_ok]
      simp only
      rw [k1, bind_ok]
    · intro i o' n' ho hn
      cases i with
      | zero =>
        simp only [List.getElem?_cons_zero, Option.some.injEq] at ho hn
        subst ho hn
        exact ⟨x, by rw [k5 o (by rw [h3]; simp)]; exact h3, h4⟩
      | succ i =>
        simp only [List.getElem?_cons_succ] at ho hn
        exact k4 i o' n' ho hn
    · intro o' ho'
      rw [k5 o' (by rw [h5 o' ho']; exact ho'), h5 o' ho']

/-- Any names, in any order: two symbols are the same object exactly if their names are the same, and a symbol has the name it was asked for. -/
theorem C146_symbols (nil : Nat) (names : List Bytes) :
    ∃ s os, internAll nil Symbols.new names = .ok (s, os) ∧ os.length = names.length ∧
      (∀ (i : Nat) o n, os[i]? = some o → names[i]? = some n → ∃ x, s.get? o = some x ∧ x.name = n) ∧
      ∀ (i j : Nat) o p n m, os[i]? = some o → os[j]? = some p → names[i]? = some n → names[j]? = some m → (o = p ↔ n = m) := by
  obtain ⟨s, os, h1, h2, h3, h4, _⟩ := intern_all nil names Symbols.new new_interned
  refine ⟨s, os, h1, h3, h4, ?_⟩
  intro i j o p n m ho hp hn hm
  obtain ⟨x, hx1, hx2⟩ := h4 i o n ho hn
  obtain ⟨y, hy1, hy2⟩ := h4 j p m hp hm
  constructor
  · rintro rfl
    rw [hx1] at hy1
    cases hy1
    rw [← hx2, ← hy2]
  · rintro rfl
    have pos : ∀ q z, s.get? q = some z → 0 < q ∧ s.syms[q - 1]? = some z := by
      intro q z hz
      unfold Symbols.get? at hz
      by_cases h0 : q = 0
      · rw [if_pos h0] at hz; cases hz
      · rw [if_neg h0] at hz; exact ⟨by omega, hz⟩
    obtain ⟨o0, ox⟩ := pos o x hx1
    obtain ⟨p0, py⟩ := pos p y hy1
    have e1 : (s.syms.map (·.name))[o - 1]? = some n := by rw [List.getElem?_map, ox]; simp [hx2]
    have e2 : (s.syms.map (·.name))[p - 1]? = some n := by rw [List.getElem?_map, py]; simp [hy2]
    obtain ⟨l1, g1⟩ := List.getElem?_eq_some_iff.mp e1
    obtain ⟨l2, g2⟩ := List.getElem?_eq_some_iff.mp e2
    have := (List.Nodup.getElem_inj_iff h2.nodup (hi := l1) (hj := l2)).mp (g1.trans g2.symm)
    omega

/-- `car`, `cdr`, `car`. -/
example : (match internAll 0 Symbols.new [cstr "car", cstr "cdr", cstr "car"] with | .ok (_, os) => some os | _ => none) = some [1, 2, 1] := by decide +kernel

/-! ### C147: values of symbols -/

/-- A new symbol has the value `nil`, or itself if it is a keyword; afterwards assignments change the last binding, and the value from before a binding is there again after it.
Partial: no more than 8 bindings, see below. -/
theorem C147_scope_partial (name : Bytes) (self nil : Nat) (ops : List Op) (v : Nat) (st : List Nat)
    (h : scope 8 [if name.head? = some 58 then self else nil] ops = some (v :: st)) :
    ∃ s, ops.foldlM apply (symbol_create name self nil) = .ok s ∧ GET s = .ok v := by
  obtain ⟨s, h1, h2⟩ := scope_rep ops (symbol_create name self nil) _ _ ⟨rfl, rfl, by simp, by
    unfold symbol_create
    rfl⟩ h
  exact ⟨s, h1, get_rep h2⟩

example : scope 8 [0] [.push 5, .set 6, .push 7, .pop] = some [6, 0] := by decide
example : scope 8 [0] [.set 3, .push 5, .pop] = some [3] := by decide

/-- The array of values does not grow: a recursion of depth 8 writes outside of it. -/
theorem C147_counterexample : (List.replicate 8 (Op.push 1)).foldlM apply (symbol_create (cstr "n") 1 0) = .panic "undefined: write outside of an array" := by decide +kernel

/-! ### C148: pools -/

/-- A pool whose objects `used` are in use (after any creations, releases and writes): a new object is not in use and is clean; what is in the other objects stays. -/
theorem C148_alloc {α : Type} (clean : α) (mm : Pool α) (used : List Nat) (h : Reach clean mm used) :
    ∃ mm' p, mm_alloc clean mm = .ok (mm', p) ∧ p ∉ used ∧ mm'.heap p = clean ∧ ∀ q ∈ used, mm'.heap q = mm.heap q := by
  obtain ⟨mm', p, h1, _, h2, h3, h4⟩ := alloc_inv clean (reach_inv clean h)
  exact ⟨mm', p, h1, h2, h3, h4⟩

/-- An object in use can be released; what is in the others stays. -/
theorem C148_free {α : Type} (clean : α) (mm : Pool α) (used : List Nat) (h : Reach clean mm used) (p : Nat) (hp : p ∈ used) :
    ∃ mm', mm_free clean mm p = .ok mm' ∧ ∀ q ∈ used.erase p, mm'.heap q = mm.heap q := by
  have inv := reach_inv clean h
  obtain ⟨mm', h1, _, h3⟩ := free_inv clean inv hp
  exact ⟨mm', h1, fun q hq => h3 q (fun e => by subst e; exact absurd hq (List.Nodup.not_mem_erase inv.nodup))⟩

/-- No object is given to two users. -/
theorem C148_distinct {α : Type} (clean : α) (mm : Pool α) (used : List Nat) (h : Reach clean mm used) : used.Nodup := (reach_inv clean h).nodup

/-- A pool can be made. -/
theorem C148_create {α : Type} (clean : α) (heap : Nat → α) : ∃ mm, mm_create clean heap = .ok mm ∧ Reach clean mm [] := by
  obtain ⟨mm, h, _⟩ := create_inv clean heap
  exact ⟨mm, h, .create heap mm h⟩

/-- Two objects, one released, one more. -/
example : ((do
    let mm ← mm_create 0 (fun _ => 9)
    let (mm, a) ← mm_alloc 0 mm
    let (mm, b) ← mm_alloc 0 mm
    let mm ← mm_free 0 mm a
    let (_, c) ← mm_alloc 0 mm
    .ok [a, b, c] : Res Unit (List Nat))) = .ok [1023, 1022, 1023] := by decide +kernel

/-! ### C149: quoted texts -/

/-- `addslashes` gives the text in quotes, with backslashes before quotes and backslashes, and does not leave its array. -/
theorem C149_addslashes (s : Bytes) (h : (0 : UInt8) ∉ s) : addslashes s = .ok (quoted s ++ [0]) := addslashes_eq s h

example : quoted (cstr "a\"b\\") = cstr "\"a\\\"b\\\\\"" := by decide

private theorem textOf_zero (a : Bytes) (h : (0 : UInt8) ∉ a) : textOf (a ++ [0]) = a := by
  unfold textOf
  rw [List.takeWhile_append_of_pos (by intro x hx; simp; rintro rfl; exact h hx)]
  simp

private theorem textOf_id (a : Bytes) (h : (0 : UInt8) ∉ a) : textOf a = a := by
  unfold textOf
  have := List.takeWhile_append_of_pos (p := fun x : UInt8 => decide (x ≠ 0)) (l₁ := a) (l₂ := []) (by intro x hx; simp; rintro rfl; exact h hx)
  simpa using this

private theorem print_str (s : Bytes) (h : (0 : UInt8) ∉ s) : print (.str s) = quoted s := by
  show printStr s = _
  unfold printStr
  rw [textOf_id s h, addslashes_eq s h]
  simp only
  apply textOf_zero
  unfold quoted
  have := escape_zero h
  simp [this]

/-- The text in quotes is read from a file as the text, for all bytes. -/
theorem C149_read (s : Bytes) (h : (0 : UInt8) ∉ s) : ∃ r, read_sexp (reader_create (.file (quoted s)) true) = .ok (r, .str s) := by
  obtain ⟨hr, hb⟩ := create_ready (.file (quoted s)) true
  obtain ⟨r', h1, _⟩ := read_print (v := .str s) h (by show (0 : Nat) ≤ 30; omega) hr rfl (by show (0 : Int) ≠ -1; decide) (cs := (quoted s).map fun b => (b.toNat : Int)) (rest := [])
    (by show [] ++ (quoted s).map _ = _; simp) (by rw [print_str s h]; exact spells_file _) (fun h => by cases h)
  exact ⟨r', h1⟩

/-- What comes of a call of `read_sexp`. -/
def wispOutcome (x : Res Unit (Prog.Wisp.Reader × Val)) : Res Unit Val :=
  match x with
  | .ok (_, v) => .ok v
  | .err e => .err e
  | .panic m => .panic m
  | .diverge => .diverge

example : wispOutcome (read_sexp (reader_create (.file (quoted [97, 255, 34, 92])) true)) = .ok (.str [97, 255, 34, 92]) := by decide +kernel

/-- From a text in memory, byte 255 is taken for the end of the file. -/
theorem C149_counterexample_memory : wispOutcome (read_sexp (reader_create (.str (quoted [97, 255, 98])) true)) = .ok (.str [97]) := by decide +kernel

/-! ### C150: values are read as they were printed -/

/-- A value at the start of the input, from a file or from memory, also with something after it. Partial: no floats, numbers of 32 bits, names of symbols that do not look like something else, at most 30 open brackets; see below. -/
theorem C150_value_partial (v : Val) (hv : readable v) (hd : depth v ≤ 30) (r : Prog.Wisp.Reader) (hr : Ready r) (he : r.eof = false) (hb : r.shebang ≠ -1)
    (cs rest : List Int) (hi : inp r.eater = cs ++ rest) (hs : Spells cs (print v)) (ha : isAtom v = true → Delim rest) :
    ∃ r', read_sexp r = .ok (r', v) ∧ Ready r' ∧ r'.eof = false ∧ r'.error = false ∧ inp r'.eater = afterWs rest := by
  obtain ⟨r', h1, h2, h3, h4, _, h6⟩ := read_print hv hd hr he hb hi hs ha
  exact ⟨r', h1, h2, h3, h4, h6⟩

/-- A value after white space and comments, perhaps with quotes before it. Partial as above. -/
theorem C150_text_partial (n : Nat) (v : Val) (b : Bool) (g cs rest : List Int) (hg : Gap g) (ht : Text n v b cs) (hn : n ≤ 30) (r : Prog.Wisp.Reader) (hr : Ready r) (he : r.eof = false)
    (hb : r.shebang ≠ -1) (hi : inp r.eater = g ++ (cs ++ rest)) (ha : b = true → Delim rest) :
    ∃ r', read_sexp r = .ok (r', v) ∧ Ready r' ∧ r'.eof = false ∧ r'.error = false ∧ inp r'.eater = afterWs rest := by
  obtain ⟨r', h1, h2, h3, h4, _, h6⟩ := read_text hg ht hn hr he hb hi ha
  exact ⟨r', h1, h2, h3, h4, h6⟩

/-- `; c`, and `' 'a`. -/
example : Gap [59, 32, 99, 10, 32] := .comment [32, 99] [32] (by decide) (by decide) (.space 32 [] (by decide) .nil)
example : Text 2 (.cons (.sym (cstr "quote")) (.cons (.cons (.sym (cstr "quote")) (.cons (.sym (cstr "a")) Prog.Wisp.nil)) Prog.Wisp.nil)) true [39, 32, 39, 97] :=
  .quote 1 _ true [32] [39, 97] (.space 32 [] (by decide) .nil) (.quote 0 _ true [] [97] .nil (.value (.sym (cstr "a")) [97] (by show goodName _; decide +kernel) ⟨by decide, by decide⟩))

/-- The line that names the interpreter is skipped. -/
theorem C150_first_line (l rest : Bytes) (hl : (10 : UInt8) ∉ l) : ∃ r, read_sexp (reader_create (.file (cstr "#!" ++ l ++ 10 :: rest)) false) = read_sexp r ∧ Ready r ∧ r.eof = false ∧ r.shebang ≠ -1 ∧
    inp r.eater = rest.map fun b => (b.toNat : Int) := by
  obtain ⟨hr, _⟩ := create_ready (.file (cstr "#!" ++ l ++ 10 :: rest)) false
  obtain ⟨r1, h1, h2, h3, h4, h5⟩ := shebang_skip hr rfl (l := l.map fun b => (b.toNat : Int)) (rest := rest.map fun b => (b.toNat : Int))
    (by show [] ++ (cstr "#!" ++ l ++ 10 :: rest).map _ = _; rw [show cstr "#!" = [35, 33] by decide]; simp)
    (by
      intro h
      obtain ⟨b, hb, e⟩ := List.mem_map.mp h
      have : b = 10 := UInt8.toNat_inj.mp (by show b.toNat = 10; omega)
      exact hl (this ▸ hb))
    (by
      intro h
      obtain ⟨b, _, e⟩ := List.mem_map.mp h
      omega)
  exact ⟨r1, read_shebang h1 h4, h2, h3, h4, h5⟩

example : wispOutcome (read_sexp (reader_create (.file (cstr "#!/bin/wisp\n'a")) false)) = .ok (.cons (.sym (cstr "quote")) (.cons (.sym (cstr "a")) Prog.Wisp.nil)) := by decide +kernel

private theorem print_ne_nil (v : Val) (hv : readable v) : print v ≠ [] := by
  cases v with
  | int n =>
    show decimal n ≠ []
    unfold decimal
    split
    · simp
    · intro h
      have := congrArg List.length h
      simp at this
  | float t => exact hv.elim
  | str s => rw [print_str s hv]; simp [quoted]
  | sym n => exact hv.1
  | cons a d => simp [print]
  | vec i => simp [print]

/-- A file with one value on each line is read value by value; then comes the end of the file. Partial as above; also the file may not begin with `#!`, and its first two bytes may not be 255. -/
theorem C150_file_partial (vs : List Val) (hv : ∀ v ∈ vs, readable v ∧ depth v ≤ 30) (interactive : Bool)
    (hf : interactive = true ∨ (vs ≠ [] ∧ (lines vs).take 2 ≠ cstr "#!" ∧ (255 : UInt8) ∉ (lines vs).take 2)) :
    ∃ r r', readN vs.length (reader_create (.file (lines vs)) interactive) = .ok (vs, r) ∧ r.eof = false ∧ read_sexp r = .ok (r', Prog.Wisp.nil) ∧ r'.eof = true := by
  obtain ⟨hr, hback⟩ := create_ready (.file (lines vs)) interactive
  have hinp : inp (reader_create (.file (lines vs)) interactive).eater = (lines vs).map fun b => (b.toNat : Int) := by show [] ++ (lines vs).map _ = _; simp
  have fin : ∀ (r : Prog.Wisp.Reader) (cs : List Int), Ready r → r.eof = false → r.shebang ≠ -1 → inp r.eater = cs → Spells cs (lines vs) →
      ∃ r1 r', readN vs.length r = .ok (vs, r1) ∧ r1.eof = false ∧ read_sexp r1 = .ok (r', Prog.Wisp.nil) ∧ r'.eof = true := by
    intro r cs h1 h2 h3 h4 h5
    obtain ⟨r1, k1, k2, k3, k4, k5⟩ := readN_ok vs hv r cs h1 h2 h3 h4 h5
    obtain ⟨r', j1, j2, _⟩ := read_end k2 k4 k5
    exact ⟨r1, r', k1, k3, j1, j2⟩
  cases interactive with
  | true => exact fin _ _ hr rfl (by show (0 : Int) ≠ -1; decide) hinp (spells_file _)
  | false =>
    rcases hf with h | ⟨hne, h1, h2⟩
    · cases h
    obtain ⟨v, ws, rfl⟩ : ∃ v ws, vs = v :: ws := by
      cases vs with
      | nil => exact absurd rfl hne
      | cons v ws => exact ⟨v, ws, rfl⟩
    obtain ⟨a, b, bs, hl⟩ : ∃ a b bs, lines (v :: ws) = a :: b :: bs := by
      have e : lines (v :: ws) = print v ++ (10 :: lines ws) := by unfold lines; simp
      rw [e]
      have := print_ne_nil v (hv v (by simp)).1
      cases hp : print v with
      | nil => exact absurd hp this
      | cons a l =>
        cases l with
        | nil => exact ⟨a, 10, _, rfl⟩
        | cons b l => exact ⟨a, b, _, rfl⟩
    have hsp := spells_file (lines (v :: ws))
    rw [← hinp] at hsp
    generalize hr0 : reader_create (.file (lines (v :: ws))) false = r0 at *
    have hs0 : r0.shebang = -1 := by rw [← hr0]; rfl
    have he0 : r0.eof = false := by rw [← hr0]; rfl
    rw [hl] at h1 h2 hsp
    simp only [List.take_succ_cons, List.take_zero, List.mem_cons, List.not_mem_nil, or_false, not_or] at h1 h2
    obtain ⟨r1, cs', k1, k2, k3, k4, k5, k6⟩ := shebang_back hr hs0 rfl hsp (fun h => h1 (by rw [h.1, h.2]; decide)) (fun h => h2.1 h.symm) (fun h => h2.2 h.symm)
    rw [← hl] at k6
    obtain ⟨r2, r', j1, j2, j3, j4⟩ := fin r1 cs' k2 (k3.trans he0) k4 k5 k6
    refine ⟨r2, r', ?_, j2, j3, j4⟩
    rw [← j1]
    show (read_sexp r0 >>= _) = (read_sexp r1 >>= _)
    rw [read_shebang k1 k4]

/-- `(a "b" (-7 . [x 2]) nil)`. -/
def wispSample : Val := .cons (.sym (cstr "a")) (.cons (.str (cstr "b\"")) (.cons (.cons (.int (-7)) (.vec (.cons (.sym (cstr "x")) (.cons (.int 2) Prog.Wisp.nil)))) (.cons Prog.Wisp.nil Prog.Wisp.nil)))

example : print wispSample = cstr "(a \"b\\\"\" (-7 . [x 2]) nil)" := by decide +kernel
example : depth wispSample = 3 := by decide
example : readable wispSample := by
  refine ⟨?_, ?_, ⟨?_, ?_, ?_, ?_, ?_⟩, ?_, ?_⟩ <;> first | (show goodName _; decide +kernel) | (show _ ∧ _; decide) | (show (0 : UInt8) ∉ _; decide) | rfl
example : (match readN 2 (reader_create (.file (lines [wispSample, .int 5])) false) with | .ok (vs, _) => some vs | _ => none) = some [wispSample, .int 5] := by decide +kernel

/-- Lists in lists. -/
def wispNested : Nat → Val
  | 0 => .int 1
  | n + 1 => .cons (wispNested n) Prog.Wisp.nil

/-- 30 open brackets are read, 31 are not: `push` asks for too little memory when its array is full. -/
theorem C150_counterexample_deep : wispOutcome (read_sexp (reader_create (.file (print (wispNested 30))) true)) = .ok (wispNested 30) ∧
    wispOutcome (read_sexp (reader_create (.file (print (wispNested 31))) true)) = .panic "undefined: write outside of an array" := by decide +kernel

/-- A symbol made from the text `nan` is printed as `nan` and read as a float. -/
theorem C150_counterexample_nan : print (.sym (cstr "nan")) = cstr "nan" ∧ wispOutcome (read_sexp (reader_create (.file (cstr "nan")) true)) = .ok (.float (cstr "nan")) := by decide +kernel

/-- A symbol at the start of a file is taken for the line that names the interpreter. -/
theorem C150_counterexample_shebang : goodName (cstr "#!a") ∧ wispOutcome (read_sexp (reader_create (.file (lines [.sym (cstr "#!a")])) false)) = .ok Prog.Wisp.nil := by decide +kernel

/-! ### C151: the reader on any input -/

/-- For every input, a call of `read_sexp` ends, does not leave its arrays if there are no more than 30 characters that open something, and if it reports an error, it gives the error symbol; the reader can be used again.
Partial: numbers that are too large and a point without a pair are not errors, see below. -/
theorem C151_reader_partial (r : Prog.Wisp.Reader) (hr : Ready r) (hb : r.shebang = -1 → r.eater.back = []) :
    (∃ r' v, read_sexp r = .ok (r', v) ∧ Ready r' ∧ r'.shebang ≠ -1 ∧ (r'.error = true → v = .sym (cstr "wisp-error"))) ∨
    read_sexp r = .panic "undefined: number out of range" ∨ read_sexp r = .panic "undefined: not a pair" ∨
    (30 < opens (inp r.eater) ∧ read_sexp r = .panic "undefined: write outside of an array") := by
  have h := read_fine r hr hb
  generalize read_sexp r = x at h
  cases h with
  | ok r' v h1 h2 h3 => exact .inl ⟨r', v, rfl, h1, h2, h3⟩
  | number => exact .inr (.inl rfl)
  | pair => exact .inr (.inr (.inl rfl))
  | array h => exact .inr (.inr (.inr ⟨by omega, rfl⟩))

/-- Any number of calls for any file or text. -/
theorem C151_calls_partial (src : Prog.Wisp.Src) (interactive : Bool) (n : Nat) :
    (∃ vs r, readN n (reader_create src interactive) = .ok (vs, r)) ∨
    ∃ m, readN n (reader_create src interactive) = .panic m ∧ m ∈ ["undefined: number out of range", "undefined: not a pair", "undefined: write outside of an array"] := by
  have gen : ∀ (n : Nat) (r : Prog.Wisp.Reader), Ready r → (r.shebang = -1 → r.eater.back = []) →
      (∃ vs r', readN n r = .ok (vs, r')) ∨ ∃ m, readN n r = .panic m ∧ m ∈ ["undefined: number out of range", "undefined: not a pair", "undefined: write outside of an array"] := by
    intro n
    induction n with
    | zero => intro r _ _; exact .inl ⟨[], r, rfl⟩
    | succ n ih =>
      intro r hr hb
      have e : readN (n + 1) r = (read_sexp r >>= fun p => readN n p.1 >>= fun q => .ok (p.2 :: q.1, q.2)) := rfl
      rcases C151_reader_partial r hr hb with ⟨r', v, h1, h2, h3, _⟩ | h1 | h1 | ⟨_, h1⟩
      · rw [e, h1, bind_ok]
        rcases ih r' h2 (fun h => absurd h h3) with ⟨vs, r2, k⟩ | ⟨m, k, hm⟩
        · simp only
          rw [k]
          exact .inl ⟨_, _, rfl⟩
        · simp only
          rw [k]
          exact .inr ⟨m, rfl, hm⟩
      all_goals
        rw [e, h1]
        exact .inr ⟨_, rfl, by simp⟩
  obtain ⟨h1, h2⟩ := create_ready src interactive
  exact gen n _ h1 (fun _ => h2)

/-- A closing bracket without an opening one is an error; the rest of the line is skipped, and the reader can be used again. -/
theorem C151_unbalanced (r : Prog.Wisp.Reader) (hr : Ready r) (he : r.eof = false) (hb : r.shebang ≠ -1) (c : Int) (hc : c = 41 ∨ c = 93) (g t : List Int) (hg : Gap g) (hi : inp r.eater = g ++ c :: t) :
    ∃ r', read_sexp r = .ok (r', .sym (cstr "wisp-error")) ∧ r'.error = true ∧ Ready r' := by
  obtain ⟨r', h1, h2, h3⟩ := read_unbalanced hr he hb hc hg hi
  exact ⟨r', h1, h2, h3⟩

/-- A bracket too much is an error. -/
example : wispOutcome (read_sexp (reader_create (.file (cstr ") 1\n2")) false)) = .ok (.sym (cstr "wisp-error")) := by decide +kernel

theorem C151_counterexample_number : wispOutcome (read_sexp (reader_create (.file (cstr "2147483648")) false)) = .panic "undefined: number out of range" := by decide +kernel

theorem C151_counterexample_point : wispOutcome (read_sexp (reader_create (.file (cstr ". a")) false)) = .panic "undefined: not a pair" := by decide +kernel

end Che.Props
