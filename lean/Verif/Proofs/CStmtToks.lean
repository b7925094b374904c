import Verif.Proofs.CPrintRead
import Verif.Spec.CStmtGrammar
/-!
# The tokens of printed statements
-/
namespace Che.Proofs.CStmtToks
open Che Che.Spec Che.FormatC Che.Proofs.CLexing Che.Proofs.CPrintToks Che.Proofs.CPrintRead

variable {ty : String → Bool}

/-! ## The tokens -/

/-- The tokens of a type name. -/
def specToks (t : CTypename) : List CTok := (if t.isConst then [.word "const"] else []) ++ [.word t.name]

/-- The tokens of array bounds. -/
def boundToks : List (Option CExpr) → List CTok
  | [] => []
  | none :: is => .punct "[" :: .punct "]" :: boundToks is
  | some e :: is => .punct "[" :: (toksE e ++ .punct "]" :: boundToks is)

/-- The tokens of a declarator. -/
def formToks (f : CForm) : List CTok :=
  starToks f.stars.toList.length ++ .word f.name :: boundToks f.indexes

/-- The tokens of a declarator with its initial value. -/
def declToks : CForm × Option CExpr → List CTok
  | (f, none) => formToks f
  | (f, some v) => formToks f ++ .punct "=" :: toksE v

/-- The tokens of the declarators after the first. -/
def declsToks : List (CForm × Option CExpr) → List CTok
  | [] => []
  | d :: ds => .punct "," :: (declToks d ++ declsToks ds)

/-- The tokens of all declarators. -/
def allDecls : List (CForm × Option CExpr) → List CTok
  | [] => []
  | d :: ds => declToks d ++ declsToks ds

/-- The tokens of an optional expression. -/
def optToks : Option CExpr → List CTok
  | some e => toksE e
  | none => []

/-- The tokens of the first part of a `for`. -/
def firstToks : Option CForInit → List CTok
  | none => []
  | some (.expr e) => toksE e
  | some (.decl d) => specToks d.typename ++ (formToks d.form ++ .punct "=" :: toksE d.value)

/-- The tokens of case labels. -/
def labelToks : List CCaseValue → List CTok
  | [] => []
  | l :: ls => .word "case" :: (toksE (labelExpr l) ++ .punct ":" :: labelToks ls)

mutual
/-- The tokens of a printed statement. -/
def toksS : CStmt → List CTok
  | .block ss => .punct "{" :: (toksSs ss ++ [.punct "}"])
  | .brk => [.word "break", .punct ";"]
  | .cont => [.word "continue", .punct ";"]
  | .varDecl t forms values => specToks t ++ (allDecls (forms.zip values) ++ [.punct ";"])
  | .ifS c b els =>
    .word "if" :: .punct "(" :: (toksE c ++ .punct ")" :: .punct "{" :: (toksSs b ++ .punct "}" :: elseToks els))
  | .forS i c a b =>
    .word "for" :: .punct "(" :: (firstToks i ++ .punct ";" :: (optToks c ++ .punct ";" :: (optToks a ++
      .punct ")" :: .punct "{" :: (toksSs b ++ [.punct "}"]))))
  | .whileS c b => .word "while" :: .punct "(" :: (toksE c ++ .punct ")" :: .punct "{" :: (toksSs b ++ [.punct "}"]))
  | .ret none => [.word "return", .punct ";", .punct ";"]
  | .ret (some e) => .word "return" :: (toksE e ++ [.punct ";"])
  | .switchS v cs d =>
    .word "switch" :: .punct "(" :: (toksE v ++ .punct ")" :: .punct "{" :: ((toksCs cs ++ dfltToks d) ++ [.punct "}"]))
  | .expr e => toksE e ++ [.punct ";"]
/-- The tokens of printed statements. -/
def toksSs : List CStmt → List CTok
  | [] => []
  | s :: ss => toksS s ++ toksSs ss
/-- The tokens of an `else` branch. -/
def elseToks : Option (List CStmt) → List CTok
  | some b => .word "else" :: .punct "{" :: (toksSs b ++ [.punct "}"])
  | none => []
/-- The tokens of the cases of a switch. -/
def toksCs : List CSwitchCase → List CTok
  | [] => []
  | .mk ls b :: cs => (labelToks ls ++ .punct "{" :: (bodyToks b ++ [.word "break", .punct ";", .punct "}"])) ++ toksCs cs
/-- The tokens of the default case. -/
def dfltToks : Option (List CStmt) → List CTok
  | some b => .word "default" :: .punct ":" :: .punct "{" :: (bodyToks b ++ [.punct "}"])
  | none => []
/-- The tokens of the body of a case. -/
def bodyToks : List CStmt → List CTok
  | [] => []
  | s :: ss => (toksS s ++ [.punct ";"]) ++ bodyToks ss
end

/-! ## Indenting changes no token -/

/-- Tabs are inserted after some newlines. -/
inductive Ind : List Char → List Char → Prop
  | nil : Ind [] []
  | other {c s s'} : c ≠ '\n' → Ind s s' → Ind (c :: s) (c :: s')
  | nl {s s'} : Ind s s' → Ind ('\n' :: s) ('\n' :: s')
  | tab {s s'} : Ind s s' → Ind ('\n' :: s) ('\n' :: '\t' :: s')

theorem ind_refl : ∀ s, Ind s s
  | [] => .nil
  | c :: s => by
    by_cases h : c = '\n'
    · subst h; exact .nl (ind_refl s)
    · exact .other h (ind_refl s)

theorem ind_indent : ∀ b tail,
    Ind (b ++ tail) ((b.flatMap fun c => if c == '\n' then ['\n', '\t'] else [c]) ++ tail)
  | [], tail => ind_refl tail
  | c :: b, tail => by
    by_cases h : c = '\n'
    · subst h; exact .tab (ind_indent b tail)
    · have := Ind.other h (ind_indent b tail)
      simpa [h] using this

theorem litBody_line {q b} (h : LitBody q b) : '\n' ∉ b := by
  induction h with
  | nil => simp
  | plain _ _ h _ ih => simp only [List.mem_cons, not_or]; exact ⟨fun k => h k.symm, ih⟩
  | esc h _ ih => simp only [List.mem_cons, not_or]; exact ⟨by decide, fun k => h k.symm, ih⟩

theorem tail_line : ∀ {p cs}, PPTail p cs → '\n' ∉ cs
  | _, [], _ => by simp
  | p, c :: cs, h => by
    simp only [List.mem_cons, not_or]
    refine ⟨?_, tail_line h.2⟩
    intro k
    subst k
    obtain h | h | ⟨h | h, _⟩ := h.1 <;> exact absurd h (by decide)

/-- A token has no newline in it. -/
theorem spelling_line {w t} (h : Spelling w t) : '\n' ∉ w := by
  cases h with
  | word h =>
    obtain ⟨c, cs, rfl, h1, h2⟩ := h
    intro h
    rcases List.mem_cons.mp h with h | h
    · subst h; exact absurd h1 (by decide)
    · exact absurd (h2 _ h) (by decide)
  | num h =>
    obtain ⟨c, cs, rfl, h1, h2⟩ | ⟨c, cs, rfl, h1, h2⟩ := h
    · intro h
      rcases List.mem_cons.mp h with h | h
      · subst h; exact absurd h1 (by decide)
      · exact tail_line h2 h
    · intro h
      rcases List.mem_cons.mp h with h | h
      · exact absurd h (by decide)
      rcases List.mem_cons.mp h with h | h
      · subst h; exact absurd h1 (by decide)
      · exact tail_line h2 h
  | chr _ h => simp [litBody_line h]
  | str h => simp [litBody_line h]
  | wide hp hq h =>
    simp only [List.mem_cons, List.not_mem_nil, or_false] at hp
    have := litBody_line h
    obtain rfl | rfl := hq <;> obtain rfl | rfl | rfl | rfl := hp <;> simp [this]
  | punct h =>
    have k : ∀ p ∈ cPunctuators, '\n' ∉ p.toList := by decide +kernel
    exact k _ h

theorem ind_split : ∀ {w s u}, '\n' ∉ w → Ind (w ++ s) u → ∃ s', u = w ++ s' ∧ Ind s s'
  | [], s, u, _, h => ⟨u, rfl, h⟩
  | c :: w, s, u, hn, h => by
    simp only [List.mem_cons, not_or] at hn
    cases h with
    | other _ h2 =>
      obtain ⟨s', rfl, h3⟩ := ind_split hn.2 h2
      exact ⟨s', rfl, h3⟩
    | nl _ => exact absurd rfl hn.1
    | tab _ => exact absurd rfl hn.1

/-- What starts the one text starts the other. -/
theorem ind_prefix : ∀ {s s' w r}, Ind s s' → '\n' ∉ w → w <+: s' ++ r → w <+: s ++ r
  | _, _, [], _, _, _, _ => List.nil_prefix
  | _, _, c :: w, r, .nil, _, h => h
  | _, _, c :: w, r, .other _ h, hn, hp => by
    simp only [List.mem_cons, not_or] at hn
    simp only [List.cons_append, List.cons_prefix_cons] at hp ⊢
    exact ⟨hp.1, ind_prefix h hn.2 hp.2⟩
  | _, _, c :: w, r, .nl h, hn, hp => by
    simp only [List.mem_cons, not_or] at hn
    simp only [List.cons_append, List.cons_prefix_cons] at hp
    exact absurd hp.1.symm hn.1
  | _, _, c :: w, r, .tab h, hn, hp => by
    simp only [List.mem_cons, not_or] at hn
    simp only [List.cons_append, List.cons_prefix_cons] at hp
    exact absurd hp.1.symm hn.1

/-- Indenting changes no token. -/
theorem reads_ind {s ts r} (h : CReads s ts r) : ∀ {s'}, Ind s s' → CReads s' ts r := by
  induction h with
  | nil => intro s' h; cases h; exact .nil
  | blank hb _ ih =>
    intro s' h
    cases h with
    | other _ h => exact .blank hb (ih h)
    | nl h => exact .blank hb (ih h)
    | tab h => exact .blank hb (.blank rfl (ih h))
  | @tok w t s ts r hw hl hc _ ih =>
    intro s' h
    have hn := spelling_line hw
    obtain ⟨u, rfl, hu⟩ := ind_split hn h
    refine .tok hw ?_ ?_ (ih hu)
    · intro w' t' hw' hp
      refine hl w' t' hw' ?_
      have := ind_prefix (s := w ++ s) (s' := w ++ u) (r := r) h (spelling_line hw') (by simpa using hp)
      simpa using this
    · intro k
      apply hc
      have key : ∀ v : List Char, '\n' ∉ v → v <+: w ++ (u ++ r) → v <+: w ++ (s ++ r) := by
        intro v hv hp
        have := ind_prefix (s := w ++ s) (s' := w ++ u) (r := r) h hv (by simpa using hp)
        simpa using this
      exact k.imp (key _ (by decide)) (key _ (by decide))

theorem reads_indent {s : String} {ts r} (h : CReads s.toList ts r) : CReads (indent s).toList ts r := by
  have hs : s.toList = (s.toList.reverse.dropWhile (· == '\n')).reverse ++ s.toList.reverse.takeWhile (· == '\n') := by
    have h1 : ∀ x ∈ s.toList.reverse.takeWhile (· == '\n'), x = '\n' := by
      intro x hx
      simpa using List.all_eq_true.mp (List.all_takeWhile (p := (· == '\n')) (l := s.toList.reverse)) x hx
    have h2 : (s.toList.reverse.takeWhile (· == '\n')).reverse = s.toList.reverse.takeWhile (· == '\n') := by
      rw [List.eq_replicate_of_mem h1, List.reverse_replicate]
    have h3 : s.toList = (s.toList.reverse.takeWhile (· == '\n') ++ s.toList.reverse.dropWhile (· == '\n')).reverse := by
      rw [List.takeWhile_append_dropWhile, List.reverse_reverse]
    rw [List.reverse_append, h2] at h3
    exact h3
  have := ind_indent (s.toList.reverse.dropWhile (· == '\n')).reverse (s.toList.reverse.takeWhile (· == '\n'))
  rw [← hs] at this
  unfold indent indentL
  rw [String.toList_ofList]
  exact .blank rfl (reads_ind h this)

/-! ## Printed statements are read as their tokens -/

theorem stars_reads {s ts x} (hx : ∀ c y, s ++ x = c :: y → cLetter c = true) (h : CReads s ts x) :
    ∀ n : Nat, CReads (List.replicate n '*' ++ s) (starToks n ++ ts) x
  | 0 => h
  | n + 1 => by
    have ih := stars_reads hx h n
    refine punctTok (p := "*") (s := List.replicate n '*' ++ s) (by decide) ?_ ?_ ih
    · intro c z hz
      refine ⟨?_, fun h => absurd h (by decide)⟩
      have : cLetter c = true ∨ c = '*' := by
        rw [List.append_assoc] at hz
        cases n with
        | zero => exact .inl (hx c z hz)
        | succ n => injection hz with hz _; exact .inr hz.symm
      have k : ∀ c ∈ extChars "*".toList, cLetter c = false ∧ c ≠ '*' := by decide +kernel
      intro hc
      obtain ⟨k1, k2⟩ := k c hc
      obtain h | h := this
      · rw [k1] at h; cases h
      · exact k2 h
    · intro hc
      obtain ⟨z, hz⟩ := comment_head hc
      injection hz with hz _
      exact absurd hz (by decide)

theorem colon {s ts x} (h : ∀ c y, s ++ x = c :: y → c ≠ '>') (hr : CReads s ts x) :
    CReads (':' :: s) (.punct ":" :: ts) x := by
  refine punctTok (p := ":") (s := s) (by decide) ?_ ?_ hr
  · intro c y hy
    have k : extChars ":".toList = ['>'] := by decide +kernel
    exact ⟨by rw [k]; simpa using h c y hy, fun h => absurd h (by decide)⟩
  · intro hc
    obtain ⟨z, hz⟩ := comment_head hc
    injection hz with hz _
    exact absurd hz (by decide)

/-- A keyword. -/
theorem keyword {w : String} {s ts x c y} (hw : CWord w.toList) (hx : s = c :: y) (hc : EndCh c)
    (hr : CReads s ts x) : CReads (w.toList ++ s) (.word w :: ts) x := by
  subst hx
  exact word hw (afterWord_sep hc) hr

theorem word_of {w : String} (h : (match w.toList with
    | c :: cs => cLetter c && cs.all cIdChar
    | [] => false) = true) : CWord w.toList := by
  cases hw : w.toList with
  | nil => rw [hw] at h; cases h
  | cons c cs =>
    rw [hw] at h
    simp only [Bool.and_eq_true, List.all_eq_true] at h
    exact ⟨c, cs, rfl, h⟩

theorem reads_spec {t : CTypename} (h : CWord t.name.toList) {s ts x} (hr : CReads s ts x) :
    CReads ((formatType t).toList ++ ' ' :: s) (specToks t ++ ts) x := by
  have h1 := keyword h rfl (c := ' ') (by simp [EndCh]) (sp hr)
  unfold formatType specToks
  cases t.isConst with
  | false => simpa using h1
  | true =>
    have := keyword (w := "const") const_ident rfl (c := ' ') (by simp [EndCh]) (sp h1)
    simpa using this

theorem sep_bounds : ∀ is : List (Option CExpr), SepStart (String.join (is.map formatIndex)).toList
  | [] => .inl rfl
  | none :: is => .inr ⟨'[', _, by simp [formatIndex, String.toList_append]; rfl, by simp [EndCh]⟩
  | some e :: is => .inr ⟨'[', _, by simp [formatIndex, String.toList_append]; rfl, by simp [EndCh]⟩

theorem reads_bounds : ∀ {is}, (∀ i ∈ is, PlainOpt ty i) → ∀ {s ts x}, CReads s ts x →
    CReads ((String.join (is.map formatIndex)).toList ++ s) (boundToks is ++ ts) x
  | [], _, s, ts, x, hr => by simpa [boundToks] using hr
  | none :: is, h, s, ts, x, hr => by
    have ih := reads_bounds (is := is) (fun i hi => h i (by simp [hi])) hr
    simpa [formatIndex, boundToks, String.toList_append] using lbrk (rbrk ih)
  | some e :: is, h, s, ts, x, hr => by
    have ih := reads_bounds (is := is) (fun i hi => h i (by simp [hi])) hr
    have he : Plain ty e := h (some e) (by simp)
    have := lbrk (reads he (after_sep (by simp [EndCh])) (rbrk ih))
    simpa [formatIndex, boundToks, String.toList_append, List.append_assoc] using this

theorem reads_form {f : CForm} (h : PlainForm ty f) {s ts x} (hx : SepNext (s ++ x)) (hr : CReads s ts x) :
    CReads ((formatForm f).toList ++ s) (formToks f ++ ts) x := by
  obtain ⟨⟨n, hn⟩, hw, hi⟩ := h
  have h1 := reads_bounds hi hr
  have h2 : CReads (f.name.toList ++ ((String.join (f.indexes.map formatIndex)).toList ++ s))
      (.word f.name :: (boundToks f.indexes ++ ts)) x :=
    word hw.1 (after_of_sep (e := .ident "") (by
      have := (sep_bounds f.indexes).append (y := s) (z := x) hx
      simpa [List.append_assoc] using this)).1 h1
  have h3 := stars_reads (by
    intro c y hy
    obtain ⟨d, ds, hd, hl, _⟩ := hw.1
    rw [hd] at hy
    injection hy with hy _
    rw [← hy]; exact hl) h2 n
  unfold formatForm formToks
  rw [hn]
  simpa [String.toList_append, List.append_assoc] using h3

theorem reads_decl {d : CForm × Option CExpr} (h : PlainForm ty d.1) (hv : PlainOpt ty d.2) {s ts x}
    (hx : SepNext (s ++ x)) (hr : CReads s ts x) :
    CReads ((fmtDeclarator d.1 d.2).toList ++ s) (declToks d ++ ts) x := by
  obtain ⟨f, v⟩ := d
  cases v with
  | none => exact reads_form h hx hr
  | some e =>
    have h1 := reads (e := e) hv (after_of_sep hx) hr
    have h2 := reads_form h (s := ' ' :: ("=".toList ++ ' ' :: ((fmtExpr e).toList ++ s)))
      ⟨' ', _, rfl, by simp [EndCh]⟩ (sp (opSpace (p := "=") (by decide) h1))
    simpa [fmtDeclarator, declToks, String.toList_append, List.append_assoc] using h2

/-- The texts of the declarators. -/
def declTexts (ds : List (CForm × Option CExpr)) : List String := ds.map fun d => fmtDeclarator d.1 d.2

theorem zip_texts (fs : List CForm) (vs : List (Option CExpr)) :
    List.zipWith fmtDeclarator fs vs = declTexts (fs.zip vs) := by
  rw [declTexts, List.zip, List.map_zipWith]

theorem sep_decls (ds) : SepStart (String.join ((declTexts ds).map (", " ++ ·))).toList := by
  cases ds with
  | nil => exact .inl rfl
  | cons d ds => exact .inr ⟨',', _, by simp [declTexts, String.toList_append]; rfl, by simp [EndCh]⟩

theorem reads_decls : ∀ {ds : List (CForm × Option CExpr)}, (∀ d ∈ ds, PlainForm ty d.1 ∧ PlainOpt ty d.2) →
    ∀ {s ts x}, SepNext (s ++ x) → CReads s ts x →
    CReads ((String.join ((declTexts ds).map (", " ++ ·))).toList ++ s) (declsToks ds ++ ts) x
  | [], _, s, ts, x, _, hr => by simpa [declTexts, declsToks] using hr
  | d :: ds, h, s, ts, x, hx, hr => by
    have ih := reads_decls (ds := ds) (fun e he => h e (by simp [he])) hx hr
    have hd := h d (by simp)
    have := comma (sp (reads_decl hd.1 hd.2 ((sep_decls ds).append hx) ih))
    simpa [declTexts, declsToks, String.toList_append, List.append_assoc] using this

theorem reads_allDecls {ds : List (CForm × Option CExpr)} (h : ∀ d ∈ ds, PlainForm ty d.1 ∧ PlainOpt ty d.2)
    {s ts x} (hx : SepNext (s ++ x)) (hr : CReads s ts x) :
    CReads ((RStr.join ", " (declTexts ds)).toList ++ s) (allDecls ds ++ ts) x := by
  cases ds with
  | nil => simpa [declTexts, allDecls, RStr.join] using hr
  | cons d ds =>
    have h1 := reads_decls (ds := ds) (fun e he => h e (by simp [he])) hx hr
    have hd := h d (by simp)
    have := reads_decl hd.1 hd.2 ((sep_decls ds).append hx) h1
    simp only [declTexts, List.map_cons, join_cons, allDecls, String.toList_append, List.append_assoc]
    exact this

theorem reads_opt {e} (h : PlainOpt ty e) {s ts x} (hx : SepNext (s ++ x)) (hr : CReads s ts x) :
    CReads ((fmtOpt e).toList ++ s) (optToks e ++ ts) x := by
  cases e with
  | none => exact hr
  | some e => exact reads (e := e) h (after_of_sep hx) hr

theorem reads_first {i} (h : PlainInit ty i) {s ts x} (hx : SepNext (s ++ x)) (hr : CReads s ts x) :
    CReads ((fmtForInit i).toList ++ s) (firstToks i ++ ts) x := by
  cases i with
  | none => exact hr
  | some i =>
    cases i with
    | expr e => exact reads (e := e) h.1 (after_of_sep hx) hr
    | decl d =>
      obtain ⟨ht, hf, hv⟩ := h
      have h1 := reads_decl (d := (d.form, some d.value)) hf hv hx hr
      have := reads_spec ht.1 h1
      simpa [fmtForInit, fmtVarDecl, fmtDeclarator, firstToks, declToks, String.toList_append,
        List.append_assoc] using this

theorem reads_label {l} (h : PlainLabel ty l) {s ts x} (hx : ∀ c y, s ++ x = c :: y → c ≠ '>')
    (hr : CReads s ts x) :
    CReads ((fmtCaseValue l).toList ++ s) (.word "case" :: (toksE (labelExpr l) ++ .punct ":" :: ts)) x := by
  have h1 := reads h (s := ':' :: s) (after_sep (by simp [EndCh])) (colon hx hr)
  have h2 := keyword (w := "case") (word_of (by decide)) rfl (c := ' ') (by simp [EndCh]) (sp h1)
  cases l <;> simpa [fmtCaseValue, labelExpr, fmtExpr, String.toList_append, List.append_assoc] using h2

/-- The text is empty or starts with a newline. -/
theorem line_labels {s x : List Char} (ls : List CCaseValue) (hx : ∀ c y, s ++ x = c :: y → c ≠ '>') :
    ∀ c y, (String.join ((ls.map fmtCaseValue).map ("\n" ++ ·))).toList ++ s ++ x = c :: y → c ≠ '>' := by
  cases ls with
  | nil => simpa using hx
  | cons l ls =>
    intro c y h
    simp only [List.map_cons, String.join_cons, String.toList_append] at h
    injection h with h _
    rw [← h]
    decide

theorem reads_labels : ∀ {ls}, (∀ l ∈ ls, PlainLabel ty l) → ∀ {s ts x},
    (∀ c y, s ++ x = c :: y → c ≠ '>') → CReads s ts x →
    CReads ((String.join ((ls.map fmtCaseValue).map ("\n" ++ ·))).toList ++ s) (labelToks ls ++ ts) x
  | [], _, s, ts, x, _, hr => by simpa [labelToks] using hr
  | l :: ls, h, s, ts, x, hx, hr => by
    have ih := reads_labels (ls := ls) (fun e he => h e (by simp [he])) hx hr
    have := nl (reads_label (h l (by simp)) (line_labels ls hx) ih)
    simpa [labelToks, String.toList_append, List.append_assoc] using this

theorem reads_allLabels {ls} (h : ∀ l ∈ ls, PlainLabel ty l) {s ts x}
    (hx : ∀ c y, s ++ x = c :: y → c ≠ '>') (hr : CReads s ts x) :
    CReads ((RStr.join "\n" (ls.map fmtCaseValue)).toList ++ s) (labelToks ls ++ ts) x := by
  cases ls with
  | nil => simpa [labelToks, RStr.join] using hr
  | cons l ls =>
    have h1 := reads_labels (ls := ls) (fun e he => h e (by simp [he])) hx hr
    have := reads_label (h l (by simp)) (line_labels ls hx) h1
    simp only [List.map_cons, join_cons, labelToks, String.toList_append, List.append_assoc, List.cons_append]
    exact this

/-- A block around statements that are read as they should be. -/
theorem reads_block {t : String} {T : List CTok} (h : ∀ x, CReads t.toList T x) {s ts x} (hr : CReads s ts x) :
    CReads (("{\n" ++ indent t ++ "}\n").toList ++ s) (.punct "{" :: (T ++ .punct "}" :: ts)) x := by
  have h1 := rbrc (nl hr)
  have h2 := app (reads_indent (h ('}' :: '\n' :: s ++ x))) h1
  have := lbrc (nl h2)
  simpa [String.toList_append, List.append_assoc] using this

mutual
theorem readsS : ∀ {st}, PlainS ty st → ∀ {s ts x}, CReads s ts x →
    CReads ((formatStatement st).toList ++ s) (toksS st ++ ts) x
  | .block ss, h, s, ts, x, hr => by
    have := reads_block (fun x => readsSs' h x) hr
    simpa [formatStatement, toksS, List.append_assoc] using this
  | .brk, _, s, ts, x, hr => by
    have := keyword (w := "break") (word_of (by decide)) rfl (c := ';') (by simp [EndCh]) (semi hr)
    simpa [formatStatement, toksS] using this
  | .cont, _, s, ts, x, hr => by
    have := keyword (w := "continue") (word_of (by decide)) rfl (c := ';') (by simp [EndCh]) (semi hr)
    simpa [formatStatement, toksS] using this
  | .varDecl t fs vs, h, s, ts, x, hr => by
    have h1 := reads_allDecls h.2.2 (s := ';' :: s) ⟨';', _, rfl, by simp [EndCh]⟩ (semi hr)
    have := reads_spec h.1.1 h1
    simpa [formatStatement, toksS, zip_texts, String.toList_append, List.append_assoc] using this
  | .ifS c b none, h, s, ts, x, hr => by
    have h1 := reads_block (fun x => readsSs' h.2.1 x) hr
    have h2 := reads h.1 (after_sep (by simp [EndCh])) (rpar (sp h1))
    have := keyword (w := "if") (word_of (by decide)) rfl (c := ' ') (by simp [EndCh]) (sp (lpar h2))
    simpa [formatStatement, toksS, elseToks, String.toList_append, List.append_assoc] using this
  | .ifS c b (some b2), h, s, ts, x, hr => by
    have h0 := reads_block (fun x => readsSs' (ss := b2) h.2.2 x) hr
    have h0 := sp (keyword (w := "else") (word_of (by decide)) rfl (c := ' ') (by simp [EndCh]) (sp h0))
    have h1 := reads_block (fun x => readsSs' h.2.1 x) h0
    have h2 := reads h.1 (after_sep (by simp [EndCh])) (rpar (sp h1))
    have := keyword (w := "if") (word_of (by decide)) rfl (c := ' ') (by simp [EndCh]) (sp (lpar h2))
    simpa [formatStatement, toksS, elseToks, String.toList_append, List.append_assoc] using this
  | .forS i c a b, h, s, ts, x, hr => by
    have h1 := rpar (sp (reads_block (fun x => readsSs' h.2.2.2 x) hr))
    have h2 := semi (sp (reads_opt h.2.2.1 ⟨')', _, rfl, by simp [EndCh]⟩ h1))
    have h3 := semi (sp (reads_opt h.2.1 ⟨';', _, rfl, by simp [EndCh]⟩ h2))
    have h4 := reads_first h.1 ⟨';', _, rfl, by simp [EndCh]⟩ h3
    have := keyword (w := "for") (word_of (by decide)) rfl (c := ' ') (by simp [EndCh]) (sp (lpar h4))
    simpa [formatStatement, toksS, String.toList_append, List.append_assoc] using this
  | .whileS c b, h, s, ts, x, hr => by
    have h1 := reads_block (fun x => readsSs' h.2 x) hr
    have h2 := reads h.1 (after_sep (by simp [EndCh])) (rpar (sp h1))
    have := keyword (w := "while") (word_of (by decide)) rfl (c := ' ') (by simp [EndCh]) (sp (lpar h2))
    simpa [formatStatement, toksS, String.toList_append, List.append_assoc] using this
  | .ret none, h, s, ts, x, hr => by
    have := keyword (w := "return") (word_of (by decide)) rfl (c := ';') (by simp [EndCh]) (semi (semi hr))
    simpa [formatStatement, toksS, String.toList_append] using this
  | .ret (some e), h, s, ts, x, hr => by
    have h2 := reads (e := e) h (after_sep (by simp [EndCh])) (semi hr)
    have := keyword (w := "return") (word_of (by decide)) rfl (c := ' ') (by simp [EndCh]) (sp h2)
    simpa [formatStatement, toksS, String.toList_append, List.append_assoc] using this
  | .switchS v cs none, h, s, ts, x, hr => by
    have h2 := readsCs h.2.1 (rbrc hr)
    have h3 := reads h.1 (after_sep (by simp [EndCh])) (rpar (sp (lbrc (nl h2))))
    have := keyword (w := "switch") (word_of (by decide)) rfl (c := ' ') (by simp [EndCh]) (sp (lpar h3))
    simpa [formatStatement, toksS, dfltToks, String.toList_append, List.append_assoc] using this
  | .switchS v cs (some b), h, s, ts, x, hr => by
    have h1 := lbrc (nl (readsBody (ss := b) h.2.2 (rbrc (nl (rbrc hr)))))
    have h1 := keyword (w := "default") (word_of (by decide)) rfl (c := ':') (by simp [EndCh])
      (colon (by intro c y h; injection h with h _; rw [← h]; decide) (sp h1))
    have h2 := readsCs h.2.1 h1
    have h3 := reads h.1 (after_sep (by simp [EndCh])) (rpar (sp (lbrc (nl h2))))
    have := keyword (w := "switch") (word_of (by decide)) rfl (c := ' ') (by simp [EndCh]) (sp (lpar h3))
    simpa [formatStatement, toksS, dfltToks, String.toList_append, List.append_assoc] using this
  | .expr e, h, s, ts, x, hr => by
    have := reads h.1 (after_sep (by simp [EndCh])) (semi hr)
    simpa [formatStatement, toksS, String.toList_append, List.append_assoc] using this
theorem readsSs' : ∀ {ss}, PlainSs ty ss → ∀ x, CReads (formatStatements ss).toList (toksSs ss) x
  | [], _, x => by simpa [formatStatements, toksSs] using CReads.nil
  | s :: ss, h, x => by
    have := readsS h.1 (nl (readsSs' h.2 x))
    simpa [formatStatements, toksSs, String.toList_append, List.append_assoc] using this
theorem readsCs : ∀ {cs}, PlainCs ty cs → ∀ {s ts x}, CReads s ts x →
    CReads ((formatCases cs).toList ++ s) (toksCs cs ++ ts) x
  | [], _, s, ts, x, hr => by simpa [formatCases, toksCs] using hr
  | .mk ls b :: cs, h, s, ts, x, hr => by
    have h1 := readsCs h.2.2 hr
    have h2 := tb (keyword (w := "break") (word_of (by decide)) rfl (c := ';') (by simp [EndCh])
      (semi (nl (rbrc (nl h1)))))
    have h3 := sp (lbrc (nl (readsBody h.2.1 h2)))
    have := reads_allLabels h.1 (by intro c y h; injection h with h _; rw [← h]; decide) h3
    simpa [formatCases, toksCs, String.toList_append, List.append_assoc] using this
theorem readsBody : ∀ {ss}, PlainSs ty ss → ∀ {s ts x}, CReads s ts x →
    CReads ((formatCaseBody ss).toList ++ s) (bodyToks ss ++ ts) x
  | [], _, s, ts, x, hr => by simpa [formatCaseBody, bodyToks] using hr
  | st :: ss, h, s, ts, x, hr => by
    have h1 := readsBody h.2 hr
    have := tb (readsS h.1 (semi (nl h1)))
    simpa [formatCaseBody, bodyToks, String.toList_append, List.append_assoc] using this
end

end Che.Proofs.CStmtToks
