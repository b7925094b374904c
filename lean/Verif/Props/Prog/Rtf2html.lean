import Verif.Proofs.Prog.Rtf2html

/-!
C163: what rtf2html prints.
-/
namespace Che.Props
open Che.Lib Che.Prog.Rtf Che.Spec.Rtf

/-- rtf2html prints a file with paragraphs as HTML: every paragraph is a `p`, and every text with a look is a `span` with that look; all of them are closed, in the right order. -/
theorem C163_partial (ws : List String) (font : Bytes) (ps : List (List Run)) (hw : ∀ w ∈ ws, w ∈ ["ansi", "ansicpg1252", "deff0", "fi360", "rtf1", "uc1", "viewkind4"])
    (h1 : ∀ c ∈ font, c ≠ 59 ∧ ¬ blank c) (h2 : font.length < 100) (hp : ∀ p ∈ ps, GoodPar p) : body (rtf ws font ps) = .ok (html ps) :=
  body_ok ws font ps hw (fun c hc => (h1 c hc).1) h2 (fun c t e => not_blank (h1 c (by rw [e]; exact List.mem_cons_self)).2) hp

/-- A file that does not begin with a brace is refused. -/
theorem C163_refused (inp : Bytes) (h : inp.head? ≠ some 123) : body inp = .panic "expected" := by
  unfold body
  cases inp with
  | nil => rfl
  | cons c t =>
    rw [expect, if_neg (fun e => h (by rw [e]; rfl))]
    rfl

/-- Control words may have a negative number; it is a part of the word. -/
theorem C163_negative (w ds x : Bytes) (hw : ∀ c ∈ w, isalnum c = true) (hd : ∀ c ∈ ds, isdigit c = true) (hx : ∀ c t, x = c :: t → isdigit c = false)
    (hl : w.length + 1 + ds.length < 20) : read_control (92 :: (w ++ 45 :: (ds ++ x))) = .ok (w ++ [45] ++ ds, x.dropWhile isspace) := by
  have h1 : (w ++ 45 :: (ds ++ x)).takeWhile isalnum = w := by
    rw [List.takeWhile_append_of_pos (by simpa using hw), List.takeWhile_cons_of_neg (by decide), List.append_nil]
  have h2 : (w ++ 45 :: (ds ++ x)).dropWhile isalnum = 45 :: (ds ++ x) := by
    rw [List.dropWhile_append_of_pos (by simpa using hw), List.dropWhile_cons_of_neg (by decide)]
  have h3 : (ds ++ x).takeWhile isdigit = ds := by
    rw [List.takeWhile_append_of_pos (by simpa using hd)]
    cases x with
    | nil => simp
    | cons c t => rw [List.takeWhile_cons_of_neg (by rw [hx c t rfl]; decide)]; simp
  have h4 : (ds ++ x).dropWhile isdigit = x := by
    rw [List.dropWhile_append_of_pos (by simpa using hd)]
    cases x with
    | nil => simp
    | cons c t => rw [List.dropWhile_cons_of_neg (by rw [hx c t rfl]; decide)]
  unfold read_control
  rw [expect, if_pos rfl]
  show (let (w, r) := minus ((w ++ 45 :: (ds ++ x)).takeWhile isalnum) ((w ++ 45 :: (ds ++ x)).dropWhile isalnum)
    if w.length ≥ 20 then (Res.panic "undefined: control word does not fit" : Res String (Bytes × Bytes)) else .ok (w, r.dropWhile isspace)) = _
  rw [h1, h2, minus, h3, h4]
  simp only
  rw [if_neg (by simp; omega)]

/-- The right indent is skipped, anywhere in a document. -/
theorem C163_indent (x : Bytes) (s : S) (hx : ∀ c t, x = c :: t → isdigit c = false) : Che.Prog.Rtf.control (92 :: (cstr "ri-1800" ++ x)) s = .ok (x.dropWhile isspace, s) := by
  have h := C163_negative (cstr "ri") (cstr "1800") x (by decide +kernel) (by decide +kernel) hx (by decide +kernel)
  have e : cstr "ri-1800" ++ x = cstr "ri" ++ 45 :: (cstr "1800" ++ x) := by
    rw [show cstr "ri-1800" = cstr "ri" ++ [45] ++ cstr "1800" by decide +kernel, List.append_assoc, List.append_assoc]
    rfl
  unfold Che.Prog.Rtf.control
  rw [e, h]
  show action (cstr "ri" ++ [45] ++ cstr "1800") _ s = _
  unfold action
  rw [if_neg (by decide +kernel), if_neg (by decide +kernel), if_neg (by decide +kernel), if_neg (by decide +kernel), if_neg (by decide +kernel), if_neg (by decide +kernel),
    if_neg (by decide +kernel), if_neg (by decide +kernel), if_neg (by decide +kernel), if_pos (by decide +kernel)]

example : body (cstr "{\\ri-1800 a\\par }") = .ok (cstr "<!DOCTYPE html>\n<html>\n<head></head>\n<body>\n<p>a</p>\n\n</body>\n</html>\n") := by decide +kernel

/-- A last paragraph without `\par` is not closed. -/
theorem C163_counterexample_open :
    body (cstr "{\\qc a}") = .ok (cstr "<!DOCTYPE html>\n<html>\n<head></head>\n<body>\n<p><span style=\"display:block;text-align:center;\">a</body>\n</html>\n") := by decide +kernel

/-- Characters of HTML are printed as they are, and ends of lines, which are nothing in RTF, are printed too. -/
theorem C163_counterexample_text : body (cstr "{<b>\ni\\par }") = .ok (cstr "<!DOCTYPE html>\n<html>\n<head></head>\n<body>\n<p><b>\ni</p>\n\n</body>\n</html>\n") := by decide +kernel

/-- The end of a group ends the document. -/
theorem C163_counterexample_group : body (cstr "{a{b}c\\par }") = .ok (cstr "<!DOCTYPE html>\n<html>\n<head></head>\n<body>\n<p>a{b</body>\n</html>\n") := by decide +kernel

/-- Other characters, as the letter é, and other control words are refused, and longer ones do not fit the buffer. -/
theorem C163_counterexample_words : body (cstr "{caf\\'e9\\par }") = .panic "unknown control" ∧ body (cstr "{\\b x\\par }") = .panic "unknown control" ∧
    body (cstr "{\\aaaaaaaaaaaaaaaaaaaa x}") = .panic "undefined: control word does not fit" := by
  refine ⟨?_, ?_, ?_⟩ <;> decide +kernel

/-- A title and a paragraph with quotes. -/
def rtfExample : List (List Run) :=
  [[⟨[.center, .size30], [.byte 84]⟩, ⟨[.plain], [.byte 120, .byte 32, .byte 121]⟩], [], [⟨[], [.lquote, .byte 104, .byte 105, .rquote]⟩]]

example : (∀ p ∈ rtfExample, GoodPar p) ∧
    rtf ["rtf1"] (cstr "Arial") rtfExample = cstr "{\\rtf1 \\deflang1033 {\\fonttbl{\\f0\\fnil\\fcharset0 Arial;}}\\qc \\fs30 T\\pard x y\\par \\par \\ldblquote hi\\rdblquote \\par }" ∧
    html rtfExample = cstr "<!DOCTYPE html>\n<html>\n<head></head>\n<body>\n<p><span style=\"display:block;text-align:center;font-size:15pt;\">T</span>x y</p>\n\n<p>&ldquo;hi&rdquo; </p>\n\n</body>\n</html>\n" ∧
    body (rtf ["rtf1"] (cstr "Arial") rtfExample) = .ok (html rtfExample) := by
  refine ⟨?_, by decide +kernel, by decide +kernel, by decide +kernel⟩
  have b1 : ¬ blank 84 := by unfold blank; decide
  have b2 : ¬ blank 120 := by unfold blank; decide
  have b3 : ¬ blank 104 := by unfold blank; decide
  simp [rtfExample, GoodPar, GoodRun, Solid, GoodText, b1, b2, b3]
end Che.Props
