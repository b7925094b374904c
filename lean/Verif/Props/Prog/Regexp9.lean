import Verif.Proofs.Prog.Regexp9Conv
import Verif.Proofs.Prog.Regexp9Total
import Verif.Proofs.Prog.Regexp9Sub

/-!
C91: searching with prog/libregexp9.  C92: its expressions.  C93: its substitution.
-/
namespace Che.Props
open Che.Lib Che.Prog.Regexp9 Che.Spec.Regexp9 Che.Spec.Utf Che.Proofs.Regexp9

/-- The program was made for the expression by one of the three functions; a text for
`regcomplit` has no backslash. -/
inductive Compiled : Prog → Re → Prop
  | plain : Written .any x e → regcomp (encode x) = .ok prog → Compiled prog e
  | newlines : Written .anynl x e → regcompnl (encode x) = .ok prog → Compiled prog e
  | literal : (∀ c ∈ x, c ≠ '\x00' ∧ c ≠ '\\') → regcomplit (encode x) = .ok prog → Compiled prog (lit x)

private theorem dotAny : DotFor .any .any := Or.inl ⟨rfl, rfl⟩
private theorem dotAnynl : DotFor .anynl .anynl := Or.inr ⟨rfl, rfl⟩

private theorem Compiled.good (h : Compiled prog e) : Good prog e := by
  cases h with
  | plain h1 h2 => exact regcomp_good dotAny h1 h2
  | newlines h1 h2 => exact regcomp_good dotAnynl h1 h2
  | literal h1 h2 =>
    obtain ⟨p, h3, h4⟩ := regcomplit_good h1
    rw [h2] at h3; cases h3
    exact h4

/-! ## Searching -/

/-- C91: if `regexec` reports a match, there is one: some way to match the expression from `x` to `j`
in which the groups are where they are reported, group 0 from `x` to `j`.  If the text has one line or the expression
can match within a line, no match begins before `x` and none from `x` is longer. -/
theorem C91_match {prog e cs pre post ms mp} (hc : Compiled prog e) (hz : ∀ c ∈ cs, c ≠ '\x00') (hcs : cs = pre ++ post)
    (h : regexec prog (encode cs) (encode pre).length none ms = .ok (.match mp)) :
    ∃ x j c, Found cs (encode pre).length e x j c ∧ mp.length = ms ∧ (∀ n m, mp[n]? = some m → (m.sp, m.ep) = c n) ∧
      c 0 = (some x, some j) ∧ (ms ≠ 0 → ('\n' ∉ cs ∨ Inside e ∨ e.noBol = true) → Best cs (encode pre).length e x j) := by
  obtain ⟨x, j, c, h1, h2, h3, h4, h5⟩ := regexec_match hc.good hz hcs h
  refine ⟨x, j, c, h1, h2, h3, h4, fun hms hi => h5 hms ?_⟩
  rcases hi with hi | hi | hi
  · exact Or.inl hi
  · exact Or.inr hi
  · exact Or.inr (noBol_inside h1 hi)

/-- C91: if `regexec` reports that there is no match, and the text has one line or the expression can match
within a line, there is none. -/
theorem C91_no {prog e cs pre post ms} (hc : Compiled prog e) (hz : ∀ c ∈ cs, c ≠ '\x00') (hcs : cs = pre ++ post)
    (h : regexec prog (encode cs) (encode pre).length none ms = .ok .no) (hi : '\n' ∉ cs ∨ Inside e ∨ e.noBol = true) :
    ∀ x j c, ¬ Found cs (encode pre).length e x j c := by
  intro x j c hf
  refine regexec_no hc.good hz hcs h ?_ x j c hf
  rcases hi with hi | hi | hi
  · exact Or.inl hi
  · exact Or.inr hi
  · exact Or.inr (noBol_inside hf hi)

/-- C91: `regexec` comes to an end, and the only thing that goes wrong is a write past the end of the list of threads. -/
theorem C91_ends {prog e cs pre post ms} (hc : Compiled prog e) (hz : ∀ c ∈ cs, c ≠ '\x00') (hcs : cs = pre ++ post) :
    (∃ r, regexec prog (encode cs) (encode pre).length none ms = .ok r) ∨
      regexec prog (encode cs) (encode pre).length none ms = .panic "undefined: write past the end of the list" := by
  have h := regexec_fine (ms := ms) hc.good hz hcs
  generalize regexec prog (encode cs) (encode pre).length none ms = r at h
  cases r with
  | ok a => exact Or.inl ⟨a, rfl⟩
  | err e => exact nomatch e
  | panic m => exact Or.inr (congrArg _ h)
  | diverge => exact h.elim

/-- The characters of `"(a|b)*c"`, read as symbols and as an expression. -/
private def starAB : Re := .cat (.star (.grp 1 (.alt (.one (.chr 97)) (.one (.chr 98))))) (.one (.chr 99))

private theorem starAB_reads : Reads .alts 0 [.lpar, .atom (.chr 97), .bar, .atom (.chr 98), .rpar, .star, .atom (.chr 99)] starAB 1 :=
  .cats (.cat (ts := [.lpar, .atom (.chr 97), .bar, .atom (.chr 98), .rpar, .star])
    (.rep (.star (ts := [.lpar, .atom (.chr 97), .bar, .atom (.chr 98), .rpar])
      (.base (.grp (ts := [.atom (.chr 97), .bar, .atom (.chr 98)])
        (.alt (ts := [.atom (.chr 97)]) (.cats (.rep (.base .atom))) (.rep (.base .atom))))))) (.base .atom))

private theorem starAB_text : ToksText .any [.lpar, .atom (.chr 97), .bar, .atom (.chr 98), .rpar, .star, .atom (.chr 99)] "(a|b)*c".toList :=
  .cons (x := ['(']) .lpar (.cons (x := ['a']) (.chr (c := 'a') (by decide) (by decide)) (.cons (x := ['|']) .bar
    (.cons (x := ['b']) (.chr (c := 'b') (by decide) (by decide)) (.cons (x := [')']) .rpar (.cons (x := ['*']) .star
      (.cons (x := ['c']) (.chr (c := 'c') (by decide) (by decide)) .nil))))))

private theorem starAB_written : Written .any "(a|b)*c".toList starAB := .some starAB_text starAB_reads

/-- `(a|b)*c` is found in `xabc!` at 1, up to 4, and the group is the `b`. -/
example : ∃ prog, Compiled prog starAB ∧
    regexec prog (encode "xabc!".toList) 0 none 2 = .ok (.match [⟨some 1, some 4⟩, ⟨some 2, some 3⟩]) := by
  obtain ⟨prog, h⟩ := regcomp_accepts dotAny starAB_text starAB_reads ⟨by decide, by decide⟩ (by decide) (by decide)
  refine ⟨prog, .plain starAB_written h, ?_⟩
  have : (regcomp (encode "(a|b)*c".toList)).bind (fun prog => .ok (regexec prog (encode "xabc!".toList) 0 none 2)) =
      .ok (.ok (.match [⟨some 1, some 4⟩, ⟨some 2, some 3⟩])) := by decide +kernel
  rw [regcomp, h] at this
  simpa [Res.bind] using this

/-- C91 is false of `^b` in `x\n\nb`: the search for the beginning of the next line begins at the character
after the end of a line, so an empty line hides the next one. -/
theorem C91_counterexample_bol : ∃ prog, Compiled prog (.cat .bol (.one (.chr 98))) ∧
    regexec prog (encode "x\n\nb".toList) 0 none 1 = .ok .no ∧
    ∃ c, Found "x\n\nb".toList 0 (.cat .bol (.one (.chr 98))) 3 4 c := by
  have hr : Reads .alts 0 [.bol, .atom (.chr 98)] (.cat .bol (.one (.chr 98))) 0 :=
    .cats (.cat (ts := [.bol]) (.rep (.base .bol)) (.base .atom))
  have ht : ToksText .any [.bol, .atom (.chr 98)] "^b".toList :=
    .cons (x := ['^']) .bol (.cons (x := ['b']) (.chr (c := 'b') (by decide) (by decide)) .nil)
  obtain ⟨prog, h⟩ := regcomp_accepts dotAny ht hr ⟨by decide, by decide⟩ (by decide) (by decide)
  refine ⟨prog, .plain (.some ht hr) h, ?_, _, ⟨⟨Nat.zero_le _, "x\n\n".toList, ['b'], by decide, by decide⟩,
    .grp (.cat (.bol ?_) (.one (r := 98) rfl ?_))⟩⟩
  · have : (regcomp (encode "^b".toList)).bind (fun prog => .ok (regexec prog (encode "x\n\nb".toList) 0 none 1)) = .ok (.ok .no) := by
      decide +kernel
    rw [regcomp, h] at this
    simpa [Res.bind] using this
  · exact Or.inr ⟨2, "x\n".toList, '\n', ['b'], by decide, by decide, by decide, by decide⟩
  · exact ⟨"x\n\n".toList, 'b', [], by decide, by decide, by decide, by decide⟩

/-- C91: `.......(b|c|d)` in `aaaaaaaad` makes `regexec` write past the end of its list. -/
theorem C91_counterexample_list :
    (regcomp (encode ".......(b|c|d)".toList)).bind (fun prog => .ok (regexec prog (encode "aaaaaaaad".toList) 0 none 1)) =
      .ok (.panic "undefined: write past the end of the list") := by decide +kernel

/-- C91: for `((a*)|(b*))*` the list of 250 threads is never long enough; `regexec` gives up. -/
theorem C91_counterexample_full :
    (regcomp (encode "((a*)|(b*))*".toList)).bind (fun prog => .ok (regexec prog (encode "a".toList) 0 none 1)) = .ok (.ok .full) := by
  decide +kernel

/-! ## Expressions -/

/-- C92: an expression with at most four groups within each other, at most 31 groups, and at most
16 classes of at most 31 characters and ranges (of which a negated class has one), is accepted. -/
theorem C92_accepts {ts x e n} (hr : Reads .alts 0 ts e n) (hf : Fit ts) (h1 : e.depth ≤ 4) (h2 : n ≤ 31) :
    (ToksText .any ts x → ∃ prog, regcomp (encode x) = .ok prog) ∧ (ToksText .anynl ts x → ∃ prog, regcompnl (encode x) = .ok prog) :=
  ⟨fun ht => regcomp_accepts dotAny ht hr hf h1 h2, fun ht => regcomp_accepts dotAnynl ht hr hf h1 h2⟩

/-- C92: a text without backslashes is accepted by `regcomplit`. -/
theorem C92_literal {x : List Char} (hz : ∀ c ∈ x, c ≠ '\x00' ∧ c ≠ '\\') : ∃ prog, regcomplit (encode x) = .ok prog ∧ Compiled prog (lit x) := by
  obtain ⟨prog, h1, _⟩ := regcomplit_good hz
  exact ⟨prog, h1, .literal hz h1⟩

example : Fit [.lpar, .atom (.chr 97), .bar, .atom (.chr 98), .rpar, .star, .atom (.chr 99)] ∧ starAB.depth = 1 := by
  exact ⟨⟨by decide, by decide⟩, by decide⟩

/-- C92: a text that is no expression is refused; what is accepted is an expression, and the program is one for it. -/
theorem C92_refuses {x : List Char} (hz : ∀ c ∈ x, c ≠ '\x00') {prog} :
    (regcomp (encode x) = .ok prog → ∃ e, Written .any x e ∧ Compiled prog e) ∧
    (regcompnl (encode x) = .ok prog → ∃ e, Written .anynl x e ∧ Compiled prog e) := by
  refine ⟨fun h => ?_, fun h => ?_⟩
  · obtain ⟨e, he⟩ := regcomp_written dotAny hz h
    exact ⟨e, he, .plain he h⟩
  · obtain ⟨e, he⟩ := regcomp_written dotAnynl hz h
    exact ⟨e, he, .newlines he h⟩

example : regcomp (encode "a||b".toList) = .err "missing operand for |" ∧ regcomp (encode "(a".toList) = .err "unmatched left paren" ∧
    regcomp (encode "a)".toList) = .err "unmatched right paren" ∧ regcomp (encode "*a".toList) = .err "missing operand for *" ∧
    regcomp (encode "[a".toList) = .err "malformed '[]'" ∧ regcomp (encode "()".toList) = .err "missing operand for (" := by
  refine ⟨?_, ?_, ?_, ?_, ?_, ?_⟩ <;> decide +kernel

/-- C92: `regcomplit` drops backslashes, so `a\b` and `ab` are the same to it. -/
theorem C92_counterexample_literal : regcomplit (encode "a\\b".toList) = regcomplit (encode "ab".toList) := by decide +kernel

/-- C92: `[^-a]` is taken as all but the characters from the end of a line to `a`. -/
theorem C92_counterexample_dash : regcomp (encode "[^-a]".toList) = .ok ⟨0, [⟨.ncclass [(10, 97)], some 1⟩, ⟨.fin, none⟩]⟩ := by decide +kernel

/-! ## Substitution -/

/-- C93: after a match `regsub` writes the template with the groups in it, as much of it as there is room for,
and a terminator; if the groups of the template are among those asked for. -/
theorem C93_regsub {prog e cs pre post ms mp} (hc : Compiled prog e) (hz : ∀ c ∈ cs, c ≠ '\x00') (hcs : cs = pre ++ post)
    (h : regexec prog (encode cs) (encode pre).length none ms = .ok (.match mp)) :
    ∃ x j c, Found cs (encode pre).length e x j c ∧ ∀ sp ps dlen, Template sp ps → (∀ n, Piece.group n ∈ ps → n < ms) → 0 < dlen →
      regsub (encode cs) sp dlen (some mp) ms = .ok ((ps.flatMap (Piece.text (encode cs) c)).take (dlen - 1) ++ [0]) := by
  obtain ⟨x, j, c, h1, h2, h3, h4, _⟩ := C91_match hc hz hcs h
  refine ⟨x, j, c, h1, fun sp ps dlen ht hn hd => regsub_eq ?_ ht (fun n hg l hl => by cases hl; rw [h2]; exact hn n hg) hd⟩
  intro n m hm
  have : n < ms := by rw [← h2]; exact (List.getElem?_eq_some_iff.1 hm).1
  rw [if_pos this]
  refine ⟨h3 n m hm, fun a b hab => ?_⟩
  rcases found_bounds h1 n with h | ⟨a', b', h, _, h5, h6, h7⟩
  · rw [h] at hab; cases hab
  · rw [h] at hab; cases hab; omega

/-- C93: without an array of groups they are all empty. -/
theorem C93_null {text sp ps dlen ms} (ht : Template sp ps) (hd : 0 < dlen) :
    regsub text sp dlen none ms = .ok ((ps.flatMap (Piece.text text Caps.none)).take (dlen - 1) ++ [0]) :=
  regsub_eq (c := Caps.none) (mp := none) (by intro n; rfl) ht (fun _ _ _ h => by cases h) hd

/-- C93: every text is a template. -/
theorem C93_template (sp : List UInt8) : ∃ ps, Template sp ps := template_total _ sp (Nat.le_refl _)

/-- C93: if the template names a group that was not asked for, `regsub` reads past the end of the array: it compares the
number of the group with `ms` only afterwards. -/
theorem C93_counterexample {prog e cs pre post ms mp sp ps dlen n} (hc : Compiled prog e) (hz : ∀ c ∈ cs, c ≠ '\x00') (hcs : cs = pre ++ post)
    (h : regexec prog (encode cs) (encode pre).length none ms = .ok (.match mp)) (ht : Template sp ps) (hn : Piece.group n ∈ ps) (hms : ms ≤ n) :
    regsub (encode cs) sp dlen (some mp) ms = .panic "undefined: read past the end of the array" := by
  obtain ⟨x, j, c, h1, h2, h3, _, _⟩ := C91_match hc hz hcs h
  rw [regsub, subLoop_past ht hn (by rw [h2]; exact hms) ?_]
  · rfl
  · intro m hm a b ha hb
    obtain ⟨k, hk, rfl⟩ := List.getElem_of_mem hm
    have h4 := h3 k _ (List.getElem?_eq_getElem hk)
    rw [ha, hb] at h4
    rcases found_bounds h1 k with h | ⟨a', b', h, _, h5, h6, h7⟩
    · rw [h] at h4; cases h4
    · rw [h] at h4; cases h4; omega

/-- The template `<\1>&\` after the match above. -/
example : Template (encode "<\\1>&\\".toList) [.byte 60, .group 1, .byte 62, .group 0] ∧
    regsub (encode "xabc!".toList) (encode "<\\1>&\\".toList) 20 (some [⟨some 1, some 4⟩, ⟨some 2, some 3⟩]) 2 = .ok (encode "<b>abc\x00".toList) ∧
    regsub (encode "xabc!".toList) (encode "<\\1>&\\".toList) 5 (some [⟨some 1, some 4⟩, ⟨some 2, some 3⟩]) 2 = .ok (encode "<b>a\x00".toList) := by
  refine ⟨.plain (by decide) (by decide) (.digit (n := 1) (by decide) (.plain (by decide) (by decide) (.amp .stop))), ?_, ?_⟩ <;> decide +kernel

end Che.Props
