import Verif.Model.Prog.Rtf2html
import Verif.Spec.Prog.Rtf2html
import Verif.Model.Lib.Bits

namespace Che.Prog.Rtf
open Che.Lib Che.Spec.Rtf

theorem bind_ok {α β : Type} (a : α) (g : α → Res String β) : (Res.ok a).bind g = g a := rfl

/-- No white space in front. -/
def NS (r : Bytes) : Prop := ∀ c t, r = c :: t → isspace c = false

theorem not_blank {c : UInt8} (h : ¬ blank c) : isspace c = false := by
  unfold blank at h
  unfold isspace
  simp only [Bool.or_eq_false_iff, beq_eq_false_iff_ne, ne_eq, Bool.and_eq_false_iff, decide_eq_false_iff_not, UInt8.le_iff_toNat_le]
  refine ⟨fun e => h (.inl e), ?_⟩
  by_cases h1 : 9 ≤ c.toNat
  · exact .inr (fun h2 => h (.inr ⟨h1, h2⟩))
  · exact .inl h1

theorem ns_cons {c : UInt8} {r : Bytes} (h : isspace c = false) : NS (c :: r) := by rintro _ _ ⟨⟩; exact h

theorem dropWhile_ns {r : Bytes} (h : NS r) : r.dropWhile isspace = r := by
  cases r with
  | nil => rfl
  | cons c t => rw [List.dropWhile_cons_of_neg (by rw [h c t rfl]; decide)]

theorem space_facts : ∀ c : Fin 256, isspace (UInt8.ofNat c.val) = true → isalnum (UInt8.ofNat c.val) = false ∧ UInt8.ofNat c.val ≠ 45 := by decide +kernel

theorem space_not {c : UInt8} (h : isspace c = true) : isalnum c = false ∧ c ≠ 45 := by
  have := space_facts ⟨c.toNat, c.toNat_lt⟩
  simp only [UInt8.ofNat_toNat] at this
  exact this h

/-- Reading of a control word. -/
theorem read_control_ok (w sp r : Bytes) (hw : ∀ c ∈ w, isalnum c = true) (hl : w.length < 20) (hsp : ∀ c ∈ sp, isspace c = true) (hr : NS r)
    (h0 : sp = [] → ∀ c t, r = c :: t → isalnum c = false ∧ c ≠ 45) : read_control (92 :: (w ++ (sp ++ r))) = .ok (w, r) := by
  have ht : ∀ c t, sp ++ r = c :: t → isalnum c = false ∧ c ≠ 45 := by
    intro c t e
    cases sp with
    | nil => exact h0 rfl c t e
    | cons x sp => cases e; exact space_not (hsp _ List.mem_cons_self)
  have hd : (sp ++ r).dropWhile isspace = r := by
    rw [List.dropWhile_append_of_pos (by simpa using hsp), dropWhile_ns hr]
  generalize sp ++ r = x at ht hd
  have h1 : (w ++ x).takeWhile isalnum = w := by
    rw [List.takeWhile_append_of_pos (by simpa using hw)]
    cases x with
    | nil => simp
    | cons c t => rw [List.takeWhile_cons_of_neg (by rw [(ht c t rfl).1]; decide)]; simp
  have h2 : (w ++ x).dropWhile isalnum = x := by
    rw [List.dropWhile_append_of_pos (by simpa using hw)]
    cases x with
    | nil => simp
    | cons c t => rw [List.dropWhile_cons_of_neg (by rw [(ht c t rfl).1]; decide)]
  have h3 : minus w x = (w, x) := by
    unfold minus
    split
    · next t => exact absurd rfl (ht 45 t rfl).2
    · rfl
  unfold read_control
  rw [expect, if_pos rfl, bind_ok, h1, h2, h3]
  simp only
  rw [if_neg (by omega), hd]

/-- Some rounds of the loop. -/
def Steps (i : Bytes) (s : S) (i' : Bytes) (s' : S) : Prop := ∃ n, n + i'.length ≤ i.length ∧ ∀ k, bodyLoop (k + n) i s = bodyLoop k i' s'

theorem Steps.refl (i : Bytes) (s : S) : Steps i s i s := ⟨0, by omega, fun _ => rfl⟩

theorem Steps.trans {i i' i'' : Bytes} {s s' s'' : S} (h : Steps i s i' s') (h' : Steps i' s' i'' s'') : Steps i s i'' s'' := by
  obtain ⟨n, a, b⟩ := h
  obtain ⟨m, c, d⟩ := h'
  exact ⟨m + n, by omega, fun k => by rw [← Nat.add_assoc, b, d]⟩

theorem step_ch (c : UInt8) (r : Bytes) (s : S) (h1 : c ≠ 92) (h2 : c ≠ 125) : Steps (c :: r) s r (addchar s c) :=
  ⟨1, by simp [Nat.add_comm], fun k => by rw [bodyLoop, if_neg h2, if_neg h1]⟩

theorem step_word (w : String) (r r' : Bytes) (s s' : S) (hw : ∀ c ∈ cstr w, isalnum c = true) (hl : (cstr w).length < 20) (hr : NS r)
    (ha : action (cstr w) r s = .ok (r', s')) (hlen : r'.length ≤ r.length) : Steps (word w ++ r) s r' s' := by
  refine ⟨1, by simp [word]; omega, fun k => ?_⟩
  rw [show word w ++ r = 92 :: (cstr w ++ ([32] ++ r)) by simp [word], bodyLoop, if_neg (by decide), if_pos rfl]
  unfold control
  rw [read_control_ok (cstr w) [32] r hw hl (by decide) hr (fun e => by cases e), bind_ok]
  simp only
  rw [ha, bind_ok]

/-! ### The state -/

/-- The style of a look. -/
def sty (l : Look) : Style := ⟨if l.centered then 1 else 0, l.size.getD 0, 0⟩

/-- The looks that there are. -/
def Fine (l : Look) : Prop := l.size = none ∨ l.size = some 20 ∨ l.size = some 30

theorem fine_apply {l : Look} (h : Fine l) (c : Cmd) : Fine (c.apply l) := by
  cases c <;> first | exact h | exact .inl rfl | exact .inr (.inl rfl) | exact .inr (.inr rfl)

theorem fine_foldl : ∀ (cs : List Cmd) {l : Look}, Fine l → Fine (cs.foldl Cmd.apply l)
  | [], _, h => h
  | c :: cs, _, h => fine_foldl cs (fine_apply h c)

theorem tags {l : Look} (h : Fine l) : (if has_styles (sty l) then span (sty l) else []) = openTag l ∧ (if has_styles (sty l) then cstr "</span>" else []) = closeTag l := by
  obtain ⟨c, z⟩ := l
  rcases h with h | h | h <;> cases h <;> cases c <;> decide +kernel

def idle (l : Look) (d : Bool) (o : Bytes) : S := ⟨sty l, d, false, false, o⟩
def mid (l : Look) (o : Bytes) : S := ⟨sty l, true, true, false, o⟩
def opn (l : Look) (o : Bytes) : S := ⟨sty l, true, true, has_styles (sty l), o⟩

def prolog (d : Bool) : Bytes := if d then [] else cstr "<!DOCTYPE html>\n<html>\n<head></head>\n<body>\n"

/-- What a change of the look does. -/
def act (s : S) : Cmd → S
  | .center => setstyle s fun t => { t with align := 1 }
  | .size20 => setstyle s fun t => { t with fontsize := 20 }
  | .size30 => setstyle s fun t => { t with fontsize := 30 }
  | .font0 => setstyle s fun t => { t with font := 0 }
  | .plain => resetstyles s

theorem act_idle (l : Look) (d : Bool) (o : Bytes) (c : Cmd) : act (idle l d o) c = idle (c.apply l) d o := by cases c <;> rfl

theorem act_mid (l : Look) (o : Bytes) (c : Cmd) : act (mid l o) c = mid (c.apply l) o := by cases c <;> rfl

theorem endStyle_opn {l : Look} (h : Fine l) (o : Bytes) : endStyle (opn l o) = mid l (o ++ closeTag l) := by
  rw [← (tags h).2]
  unfold endStyle opn mid S.print
  cases has_styles (sty l) <;> simp

theorem act_end (s : S) (c : Cmd) : act s c = act (endStyle s) c := by
  have h : endStyle (endStyle s) = endStyle s := by
    unfold endStyle
    split <;> simp_all [S.print]
  cases c <;> simp only [act, setstyle, resetstyles, h]

theorem act_opn {l : Look} (h : Fine l) (o : Bytes) (c : Cmd) : act (opn l o) c = mid (c.apply l) (o ++ closeTag l) := by
  rw [act_end, endStyle_opn h, act_mid]

theorem acts_idle : ∀ (cs : List Cmd) (l : Look) (d : Bool) (o : Bytes), cs.foldl act (idle l d o) = idle (cs.foldl Cmd.apply l) d o
  | [], _, _, _ => rfl
  | c :: cs, l, d, o => by rw [List.foldl_cons, act_idle, acts_idle cs]; rfl

theorem acts_mid : ∀ (cs : List Cmd) (l : Look) (o : Bytes), cs.foldl act (mid l o) = mid (cs.foldl Cmd.apply l) o
  | [], _, _ => rfl
  | c :: cs, l, o => by rw [List.foldl_cons, act_mid, acts_mid cs]; rfl

theorem startStyle_mid {l : Look} (h : Fine l) (o : Bytes) : startStyle (mid l o) = opn l (o ++ openTag l) := by
  rw [← (tags h).1]
  unfold startStyle mid opn S.print
  cases e : has_styles (sty l) <;> simp [e]

theorem add_idle {l : Look} (h : Fine l) (d : Bool) (o : Bytes) (c : UInt8) (hc : isspace c = false) :
    addchar (idle l d o) c = opn l (o ++ prolog d ++ cstr "<p>" ++ openTag l ++ [c]) := by
  unfold addchar
  rw [if_neg (by simp [hc])]
  have e : startPar (startDoc (idle l d o)) = mid l (o ++ prolog d ++ cstr "<p>") := by
    cases d <;> simp [startPar, startDoc, idle, mid, prolog, S.print]
  rw [e, startStyle_mid h]
  rfl

theorem add_mid {l : Look} (h : Fine l) (o : Bytes) (c : UInt8) : addchar (mid l o) c = opn l (o ++ openTag l ++ [c]) := by
  unfold addchar
  rw [if_neg (by simp [mid])]
  have e : startPar (startDoc (mid l o)) = mid l o := rfl
  rw [e, startStyle_mid h]
  rfl

theorem add_opn (l : Look) (o : Bytes) (c : UInt8) : addchar (opn l o) c = opn l (o ++ [c]) := by
  unfold addchar
  rw [if_neg (by simp [opn])]
  have e : startPar (startDoc (opn l o)) = opn l o := rfl
  rw [e]
  have e2 : startStyle (opn l o) = opn l o := by
    unfold startStyle opn
    cases has_styles (sty l) <;> simp
  rw [e2]
  rfl

theorem adds_opn : ∀ (b : Bytes) (l : Look) (o : Bytes), b.foldl addchar (opn l o) = opn l (o ++ b)
  | [], _, _ => by simp
  | c :: b, l, o => by rw [List.foldl_cons, add_opn, adds_opn b]; simp

theorem par_opn {l : Look} (h : Fine l) (o : Bytes) : par (opn l o) = idle l true (o ++ closeTag l ++ cstr "</p>\n\n") := by
  unfold par
  rw [endStyle_opn h]
  rfl

/-! ### Texts -/

theorem ch_html_cons (c : Ch) (t : List Ch) (h : Solid (c :: t)) : ∃ x b, (c :: t).flatMap Ch.html = x :: b ∧ isspace x = false := by
  cases c with
  | byte x => exact ⟨x, t.flatMap Ch.html, rfl, not_blank h⟩
  | lquote => exact ⟨38, (cstr "&ldquo;").tail ++ t.flatMap Ch.html, rfl, by decide⟩
  | rquote => exact ⟨38, (cstr "&rdquo; ").tail ++ t.flatMap Ch.html, rfl, by decide⟩

theorem ns_word (w : String) (r : Bytes) : NS (word w ++ r) := ns_cons (c := 92) (by decide)

theorem ns_text (t : List Ch) (r : Bytes) (h : Solid t) (hr : NS r) : NS (t.flatMap Ch.rtf ++ r) := by
  cases t with
  | nil => exact hr
  | cons c t =>
    rw [List.flatMap_cons, List.append_assoc]
    cases c with
    | byte x => exact ns_cons (not_blank h)
    | lquote => exact ns_word _ _
    | rquote => exact ns_word _ _

theorem ns_text' (t : List Ch) (r : Bytes) (h : Solid t) (h0 : t ≠ []) : NS (t.flatMap Ch.rtf ++ r) := by
  cases t with
  | nil => exact absurd rfl h0
  | cons c t =>
    rw [List.flatMap_cons, List.append_assoc]
    cases c with
    | byte x => exact ns_cons (not_blank h)
    | lquote => exact ns_word _ _
    | rquote => exact ns_word _ _

theorem action_l (r : Bytes) (s : S) : action (cstr "ldblquote") r s = .ok (r, (cstr "&ldquo;").foldl addchar s) := by
  unfold action
  rw [if_neg (by decide +kernel), if_neg (by decide +kernel), if_neg (by decide +kernel), if_pos rfl]
  rfl

theorem action_r (r : Bytes) (s : S) : action (cstr "rdblquote") r s = .ok (r, (cstr "&rdquo; ").foldl addchar s) := by
  unfold action
  rw [if_neg (by decide +kernel), if_neg (by decide +kernel), if_neg (by decide +kernel), if_neg (by decide +kernel), if_pos rfl]
  rfl

theorem action_par (r : Bytes) (s : S) : action (cstr "par") r s = .ok (r, par s) := by
  unfold action
  rw [if_pos rfl]

theorem action_cmd (c : Cmd) (r : Bytes) (s : S) : action (cstr c.word) r s = .ok (r, act s c) := by
  cases c with
  | plain =>
    show action (cstr "pard") r s = _
    unfold action
    rw [if_neg (by decide +kernel), if_pos rfl]; rfl
  | center =>
    show action (cstr "qc") r s = _
    unfold action
    rw [if_neg (by decide +kernel), if_neg (by decide +kernel), if_pos rfl]; rfl
  | size20 =>
    show action (cstr "fs20") r s = _
    unfold action
    rw [if_neg (by decide +kernel), if_neg (by decide +kernel), if_neg (by decide +kernel), if_neg (by decide +kernel), if_neg (by decide +kernel), if_pos rfl]; rfl
  | size30 =>
    show action (cstr "fs30") r s = _
    unfold action
    rw [if_neg (by decide +kernel), if_neg (by decide +kernel), if_neg (by decide +kernel), if_neg (by decide +kernel), if_neg (by decide +kernel),
      if_neg (by decide +kernel), if_pos rfl]; rfl
  | font0 =>
    show action (cstr "f0") r s = _
    unfold action
    rw [if_neg (by decide +kernel), if_neg (by decide +kernel), if_neg (by decide +kernel), if_neg (by decide +kernel), if_neg (by decide +kernel),
      if_neg (by decide +kernel), if_neg (by decide +kernel), if_neg (by decide +kernel), if_pos rfl]; rfl

theorem text_steps : ∀ (t : List Ch) (r : Bytes) (s : S), GoodText t → NS r → Steps (t.flatMap Ch.rtf ++ r) s r ((t.flatMap Ch.html).foldl addchar s)
  | [], r, s, _, _ => .refl _ _
  | c :: t, r, s, h, hr => by
    rw [List.flatMap_cons, List.flatMap_cons, List.append_assoc, List.foldl_append]
    cases c with
    | byte x =>
      obtain ⟨h1, _, h2, h3⟩ := h
      exact (step_ch x _ s h1 h2).trans (text_steps t r _ h3 hr)
    | lquote =>
      obtain ⟨h1, h2⟩ := h
      exact (step_word "ldblquote" _ _ s _ (by decide +kernel) (by decide +kernel) (ns_text t r h1 hr) (action_l _ s) (Nat.le_refl _)).trans (text_steps t r _ h2 hr)
    | rquote =>
      obtain ⟨h1, h2⟩ := h
      exact (step_word "rdblquote" _ _ s _ (by decide +kernel) (by decide +kernel) (ns_text t r h1 hr) (action_r _ s) (Nat.le_refl _)).trans (text_steps t r _ h2 hr)

/-- Changes of the look. -/
theorem cmds_steps : ∀ (cs : List Cmd) (r : Bytes) (s : S), NS r → Steps ((cs.flatMap fun c => word c.word) ++ r) s r (cs.foldl act s) ∧ NS ((cs.flatMap fun c => word c.word) ++ r)
  | [], r, s, hr => ⟨.refl _ _, hr⟩
  | c :: cs, r, s, hr => by
    rw [List.flatMap_cons, List.append_assoc]
    obtain ⟨h1, h2⟩ := cmds_steps cs r (act s c) hr
    exact ⟨(step_word c.word _ _ s _ (by cases c <;> decide +kernel) (by cases c <;> decide +kernel) h2 (action_cmd c _ s) (Nat.le_refl _)).trans h1, ns_word _ _⟩

/-- A run. -/
theorem run_steps (x : Run) (r : Bytes) (s : S) (h : GoodRun x) (hr : NS r) :
    Steps (x.rtf ++ r) s r ((x.text.flatMap Ch.html).foldl addchar (x.cmds.foldl act s)) ∧ NS (x.rtf ++ r) := by
  obtain ⟨h0, h1, h2⟩ := h
  unfold Run.rtf
  rw [List.append_assoc]
  obtain ⟨h3, h4⟩ := cmds_steps x.cmds (x.text.flatMap Ch.rtf ++ r) s (ns_text' _ _ h1 h0)
  exact ⟨h3.trans (text_steps x.text r _ h2 hr), h4⟩

theorem text_cons {x : Run} (h : GoodRun x) : ∃ c b, x.text.flatMap Ch.html = c :: b ∧ isspace c = false := by
  obtain ⟨h0, h1, _⟩ := h
  generalize x.text = t at *
  cases t with
  | nil => exact absurd rfl h0
  | cons c t => exact ch_html_cons c t h1

theorem run_first {x : Run} (h : GoodRun x) {l : Look} (hf : Fine l) (d : Bool) (o : Bytes) :
    (x.text.flatMap Ch.html).foldl addchar (x.cmds.foldl act (idle l d o)) =
      opn (x.cmds.foldl Cmd.apply l) (o ++ prolog d ++ cstr "<p>" ++ openTag (x.cmds.foldl Cmd.apply l) ++ x.text.flatMap Ch.html) := by
  obtain ⟨c, b, e, hc⟩ := text_cons h
  rw [e, List.foldl_cons, acts_idle, add_idle (fine_foldl _ hf) d o c hc, adds_opn]
  simp

theorem run_next {x : Run} (h : GoodRun x) (hx : x.cmds ≠ []) {l : Look} (hf : Fine l) (o : Bytes) :
    (x.text.flatMap Ch.html).foldl addchar (x.cmds.foldl act (opn l o)) =
      opn (x.cmds.foldl Cmd.apply l) (o ++ closeTag l ++ openTag (x.cmds.foldl Cmd.apply l) ++ x.text.flatMap Ch.html) := by
  obtain ⟨c, b, e, _⟩ := text_cons h
  have hm : x.cmds.foldl act (opn l o) = mid (x.cmds.foldl Cmd.apply l) (o ++ closeTag l) := by
    generalize x.cmds = cs at *
    cases cs with
    | nil => exact absurd rfl hx
    | cons k cs => rw [List.foldl_cons, act_opn hf, acts_mid]; rfl
  rw [e, List.foldl_cons, hm, add_mid (fine_foldl _ hf), adds_opn]
  simp

/-- The runs after the first one, up to the end of the paragraph. -/
theorem runs_steps : ∀ (rs : List Run) (r : Bytes) (l : Look) (o : Bytes), (∀ x ∈ rs, GoodRun x) → (∀ x ∈ rs, x.cmds ≠ []) → Fine l → NS r →
    Steps (rs.flatMap Run.rtf ++ (word "par" ++ r)) (opn l o) r (idle (runsLook l rs) true (o ++ closeTag l ++ runsHtml l rs ++ cstr "</p>\n\n")) ∧
    NS (rs.flatMap Run.rtf ++ (word "par" ++ r))
  | [], r, l, o, _, _, hf, hr => by
    refine ⟨?_, ns_word _ _⟩
    have := step_word "par" r r (opn l o) _ (by decide +kernel) (by decide +kernel) hr (action_par r _) (Nat.le_refl _)
    rw [par_opn hf] at this
    simpa [runsLook, runsHtml] using this
  | x :: rs, r, l, o, h1, h2, hf, hr => by
    rw [List.flatMap_cons, List.append_assoc]
    obtain ⟨a, b⟩ := runs_steps rs r (x.cmds.foldl Cmd.apply l) (o ++ closeTag l ++ openTag (x.cmds.foldl Cmd.apply l) ++ x.text.flatMap Ch.html)
      (fun y hy => h1 y (List.mem_cons_of_mem _ hy)) (fun y hy => h2 y (List.mem_cons_of_mem _ hy)) (fine_foldl _ hf) hr
    obtain ⟨c, d⟩ := run_steps x (rs.flatMap Run.rtf ++ (word "par" ++ r)) (opn l o) (h1 x List.mem_cons_self) b
    refine ⟨?_, d⟩
    rw [run_next (h1 x List.mem_cons_self) (h2 x List.mem_cons_self) hf] at c
    have := c.trans a
    simpa [runsLook, runsHtml] using this

theorem fine_runs : ∀ (rs : List Run) {l : Look}, Fine l → Fine (runsLook l rs)
  | [], _, h => h
  | x :: rs, _, h => fine_runs rs (fine_foldl x.cmds h)

/-- A paragraph. -/
theorem par_steps (x : Run) (rs : List Run) (r : Bytes) (l : Look) (d : Bool) (o : Bytes) (h : GoodPar (x :: rs)) (hf : Fine l) (hr : NS r) :
    Steps ((x :: rs).flatMap Run.rtf ++ (word "par" ++ r)) (idle l d o) r
      (idle (runsLook l (x :: rs)) true (o ++ prolog d ++ cstr "<p>" ++ runsHtml l (x :: rs) ++ cstr "</p>\n\n")) ∧
    NS ((x :: rs).flatMap Run.rtf ++ (word "par" ++ r)) := by
  obtain ⟨h1, h2⟩ := h
  rw [List.flatMap_cons, List.append_assoc]
  obtain ⟨a, b⟩ := runs_steps rs r (x.cmds.foldl Cmd.apply l) (o ++ prolog d ++ cstr "<p>" ++ openTag (x.cmds.foldl Cmd.apply l) ++ x.text.flatMap Ch.html)
    (fun y hy => h1 y (List.mem_cons_of_mem _ hy)) h2 (fine_foldl _ hf) hr
  obtain ⟨c, e⟩ := run_steps x (rs.flatMap Run.rtf ++ (word "par" ++ r)) (idle l d o) (h1 x List.mem_cons_self) b
  refine ⟨?_, e⟩
  rw [run_first (h1 x List.mem_cons_self) hf] at c
  have := c.trans a
  simpa [runsLook, runsHtml] using this

/-- All paragraphs. -/
theorem pars_steps : ∀ (ps : List (List Run)) (r : Bytes) (l : Look) (d : Bool) (o : Bytes), (∀ p ∈ ps, GoodPar p) → Fine l → NS r →
    (∃ l', Steps ((ps.flatMap fun p => p.flatMap Run.rtf ++ word "par") ++ r) (idle l d o) r
      (idle l' (d || !ps.all List.isEmpty) (o ++ (if ps.all List.isEmpty then [] else prolog d) ++ parsHtml l ps))) ∧
    NS ((ps.flatMap fun p => p.flatMap Run.rtf ++ word "par") ++ r)
  | [], r, l, d, o, _, _, hr => ⟨⟨l, by simpa [parsHtml] using Steps.refl r (idle l d o)⟩, hr⟩
  | [] :: ps, r, l, d, o, h, hf, hr => by
    obtain ⟨⟨l', a⟩, b⟩ := pars_steps ps r l d o (fun p hp => h p (List.mem_cons_of_mem _ hp)) hf hr
    rw [List.flatMap_cons, List.flatMap_nil, List.nil_append, List.append_assoc]
    refine ⟨⟨l', ?_⟩, ns_word _ _⟩
    have c := step_word "par" _ _ (idle l d o) _ (by decide +kernel) (by decide +kernel) b (action_par _ _) (Nat.le_refl _)
    have := c.trans (show Steps _ (par (idle l d o)) _ _ from a)
    simpa [parsHtml] using this
  | (x :: rs) :: ps, r, l, d, o, h, hf, hr => by
    obtain ⟨⟨l', a⟩, b⟩ := pars_steps ps r (runsLook l (x :: rs)) true (o ++ prolog d ++ cstr "<p>" ++ runsHtml l (x :: rs) ++ cstr "</p>\n\n")
      (fun p hp => h p (List.mem_cons_of_mem _ hp)) (fine_runs _ hf) hr
    obtain ⟨c, e⟩ := par_steps x rs _ l d o (h _ List.mem_cons_self) hf b
    rw [List.flatMap_cons, List.append_assoc, List.append_assoc]
    refine ⟨⟨l', ?_⟩, e⟩
    have := c.trans a
    have e1 : (if ps.all List.isEmpty = true then ([] : Bytes) else prolog true) = [] := by simp [prolog]
    rw [e1] at this
    simpa [parsHtml] using this

/-! ### The head -/

/-- Words without effect. -/
def known : List String := ["ansi", "ansicpg1252", "deff0", "fi360", "rtf1", "uc1", "viewkind4"]

theorem known_ok : ∀ w ∈ known, (cstr w).all isalnum = true ∧ (cstr w).length < 20 ∧ cstr w ∈ skipped ∧ cstr w ≠ cstr "par" ∧ cstr w ≠ cstr "pard" ∧ cstr w ≠ cstr "qc" ∧
    cstr w ≠ cstr "ldblquote" ∧ cstr w ≠ cstr "rdblquote" ∧ cstr w ≠ cstr "fs20" ∧ cstr w ≠ cstr "fs30" ∧ cstr w ≠ cstr "deflang1033" ∧ cstr w ≠ cstr "f0" := by
  decide +kernel

theorem words_steps : ∀ (ws : List String) (r : Bytes) (s : S), (∀ w ∈ ws, w ∈ known) → NS r → Steps (ws.flatMap word ++ r) s r s ∧ NS (ws.flatMap word ++ r)
  | [], r, s, _, hr => ⟨.refl _ _, hr⟩
  | w :: ws, r, s, h, hr => by
    obtain ⟨a, b⟩ := words_steps ws r s (fun v hv => h v (List.mem_cons_of_mem _ hv)) hr
    obtain ⟨k1, k2, k3, n1, n2, n3, n4, n5, n6, n7, n8, n9⟩ := known_ok w (h w List.mem_cons_self)
    rw [List.flatMap_cons, List.append_assoc]
    refine ⟨(step_word w _ _ s s (by simpa using k1) k2 b ?_ (Nat.le_refl _)).trans a, ns_word _ _⟩
    unfold action
    rw [if_neg n1, if_neg n2, if_neg n3, if_neg n4, if_neg n5, if_neg n6, if_neg n7, if_neg n8, if_neg n9, if_pos k3]

theorem expect_ok (c : UInt8) (r : Bytes) : expect c (c :: r) = .ok r := by rw [expect, if_pos rfl]

theorem control_ok (w : String) (sp r : Bytes) (hw : ∀ c ∈ cstr w, isalnum c = true) (hl : (cstr w).length < 20) (hsp : ∀ c ∈ sp, isspace c = true) (hr : NS r)
    (h0 : sp = [] → ∀ c t, r = c :: t → isalnum c = false ∧ c ≠ 45) : expect_control w (92 :: (cstr w ++ (sp ++ r))) = .ok r := by
  unfold expect_control
  rw [read_control_ok (cstr w) sp r hw hl hsp hr h0, bind_ok]
  simp only
  rw [if_pos trivial]

theorem table_text : cstr "{\\fonttbl{\\f0\\fnil\\fcharset0 " = 123 :: 92 :: (cstr "fonttbl" ++ (123 :: 92 :: (cstr "f0" ++ (92 :: (cstr "fnil" ++ (92 :: (cstr "fcharset0" ++ [32]))))))) := by
  decide +kernel

theorem head92 (c : UInt8) (x : UInt8) (hx : isalnum x = false ∧ x ≠ 45) (r : Bytes) : ∀ t, x :: r = c :: t → isalnum c = false ∧ c ≠ 45 := by
  rintro t ⟨⟩; exact hx

theorem deflang_ok (font r : Bytes) (h1 : ∀ c ∈ font, c ≠ 59) (h2 : font.length < 100) (h3 : NS font) :
    deflang (cstr "{\\fonttbl{\\f0\\fnil\\fcharset0 " ++ (font ++ (cstr ";}}" ++ r))) = .ok r := by
  have hns : NS (font ++ (cstr ";}}" ++ r)) := by
    cases font with
    | nil => exact ns_cons (c := 59) (by decide)
    | cons c t => exact ns_cons (h3 c t rfl)
  have e3 : cstr ";}}" ++ r = 59 :: 125 :: 125 :: r := rfl
  have hf : read_font (font ++ (cstr ";}}" ++ r)) = 59 :: 125 :: 125 :: r := by
    unfold read_font
    rw [List.takeWhile_append_of_pos (by simpa using h1), e3, List.takeWhile_cons_of_neg (by decide), List.append_nil, Nat.min_eq_right (by omega), List.drop_left]
  generalize font ++ (cstr ";}}" ++ r) = x at hns hf
  rw [table_text]
  simp only [List.cons_append, List.append_assoc, List.nil_append]
  unfold deflang
  have c1 := control_ok "fonttbl" [] (123 :: 92 :: (cstr "f0" ++ (92 :: (cstr "fnil" ++ (92 :: (cstr "fcharset0" ++ 32 :: x)))))) (by decide +kernel) (by decide +kernel) (by simp)
    (ns_cons (by decide)) (fun _ c => head92 c 123 (by decide) _)
  have c2 := control_ok "f0" [] (92 :: (cstr "fnil" ++ (92 :: (cstr "fcharset0" ++ 32 :: x)))) (by decide +kernel) (by decide +kernel) (by simp)
    (ns_cons (by decide)) (fun _ c => head92 c 92 (by decide) _)
  have c3 := control_ok "fnil" [] (92 :: (cstr "fcharset0" ++ 32 :: x)) (by decide +kernel) (by decide +kernel) (by simp)
    (ns_cons (by decide)) (fun _ c => head92 c 92 (by decide) _)
  have c4 := control_ok "fcharset0" [32] x (by decide +kernel) (by decide +kernel) (by decide) hns (fun e => by cases e)
  rw [List.nil_append] at c1 c2 c3
  rw [expect_ok, bind_ok, c1, bind_ok]
  unfold fonttbl
  rw [expect_ok, bind_ok, c2, bind_ok, c3, bind_ok]
  rw [show (32 :: x : Bytes) = [32] ++ x from rfl, c4, bind_ok, hf, expect_ok, bind_ok, expect_ok, bind_ok, expect_ok]

theorem head_steps (ws : List String) (font r : Bytes) (s : S) (hw : ∀ w ∈ ws, w ∈ known) (h1 : ∀ c ∈ font, c ≠ 59) (h2 : font.length < 100) (h3 : NS font) :
    Steps (head ws font ++ r) s r s := by
  unfold head
  simp only [List.append_assoc]
  refine (words_steps ws _ s hw (ns_word _ _)).1.trans (step_word "deflang1033" _ r s s (by decide +kernel) (by decide +kernel) ?_ ?_ ?_)
  · rw [table_text]; exact ns_cons (by decide)
  · unfold action
    rw [if_neg (by decide +kernel), if_neg (by decide +kernel), if_neg (by decide +kernel), if_neg (by decide +kernel), if_neg (by decide +kernel),
      if_neg (by decide +kernel), if_neg (by decide +kernel), if_pos rfl, deflang_ok font r h1 h2 h3]
    rfl
  · simp only [List.length_append]; omega

theorem pars_empty : ∀ (ps : List (List Run)) (l : Look), ps.all List.isEmpty = true → parsHtml l ps = []
  | [], _, _ => rfl
  | [] :: ps, l, h => pars_empty ps l (by simpa using h)
  | (x :: rs) :: ps, l, h => by simp at h

/-- A whole file. -/
theorem body_ok (ws : List String) (font : Bytes) (ps : List (List Run)) (hw : ∀ w ∈ ws, w ∈ known) (h1 : ∀ c ∈ font, c ≠ 59) (h2 : font.length < 100) (h3 : NS font)
    (hp : ∀ p ∈ ps, GoodPar p) : body (rtf ws font ps) = .ok (html ps) := by
  unfold rtf
  simp only [List.append_assoc, List.cons_append, List.nil_append]
  unfold body
  rw [expect_ok, bind_ok]
  obtain ⟨⟨l', a⟩, _⟩ := pars_steps ps [125] ⟨false, none⟩ false [] hp (.inl rfl) (ns_cons (by decide))
  obtain ⟨n, b, c⟩ := (head_steps ws font ((ps.flatMap fun p => p.flatMap Run.rtf ++ word "par") ++ [125]) init hw h1 h2 h3).trans (show Steps _ init _ _ from a)
  generalize head ws font ++ ((ps.flatMap fun p => p.flatMap Run.rtf ++ word "par") ++ [125]) = i at *
  have hb : bodyLoop (i.length + 1) i init = .ok ([125], idle l' (false || !ps.all List.isEmpty) ([] ++ (if ps.all List.isEmpty then [] else prolog false) ++ parsHtml ⟨false, none⟩ ps)) := by
    have := c (i.length - n + 1)
    simp only [List.length_singleton] at b
    rw [show i.length - n + 1 + n = i.length + 1 by omega, bodyLoop, if_pos rfl] at this
    exact this
  rw [hb, bind_ok]
  simp only
  rw [expect_ok, bind_ok]
  unfold html idle
  cases he : ps.all List.isEmpty with
  | true =>
    have := pars_empty ps ⟨false, none⟩ he
    simp [this]
  | false => simp [prolog]

end Che.Prog.Rtf
