import Verif.Proofs.CLexing
import Verif.Spec.CPrint
import Verif.Model.FormatC
/-!
# The tokens of printed expressions
-/
namespace Che.Proofs.CPrintToks
open Che Che.Spec Che.FormatC Che.Proofs.CLexing

/-! ## The tokens -/

/-- The tokens of a type. -/
def typeToks (t : CBareTypeform) : List CTok :=
  (if t.typename.isConst then [.word "const"] else []) ++ .word t.typename.name :: starToks t.hops

/-- Parentheses around tokens if the flag is set. -/
def wrapT (b : Bool) (ts : List CTok) : List CTok :=
  if b then .punct "(" :: (ts ++ [.punct ")"]) else ts

/-- The tokens of the lines of a string literal after the first. -/
def moreLines : List String → List CTok
  | [] => []
  | l :: ls => .str "\\n" :: .str l :: moreLines ls

/-- The tokens of a literal. -/
def litToks : CLiteral → List CTok
  | .char v => [.chr v]
  | .number v => [.num v]
  | .null => [.word "NULL"]
  | .string v =>
    match RStr.split '\n' v with
    | [] => []
    | l :: ls => .str l :: moreLines ls

mutual
/-- The tokens of a printed expression. -/
def toksE : CExpr → List CTok
  | .cast t e => .punct "(" :: (typeToks t ++ .punct ")" :: .punct "(" :: (toksE e ++ [.punct ")"]))
  | .call f args =>
    toksE f ++ .punct "(" ::
      ((match args with | [] => [] | a :: as => toksE a ++ toksArgs as) ++ [.punct ")"])
  | .lit l => litToks l
  | .ident s => [.word s]
  | .compLit es =>
    match es with
    | [] => [.punct "{", .num "0", .punct "}"]
    | e :: es => .punct "{" :: (toksEntry e ++ toksEntries es ++ [.punct "}"])
  | .sizeofType t => .word "sizeof" :: .punct "(" :: (typeToks t ++ [.punct ")"])
  | .sizeofExpr e => .word "sizeof" :: .punct "(" :: (toksE e ++ [.punct ")"])
  | .fieldAccess op t f => wrapT (wrapTarget op t) (toksE t) ++ [.punct op, .word f]
  | .binaryOp op a b =>
    wrapT (wrapOperand op a) (toksE a) ++ .punct op :: wrapT (wrapOperand op b) (toksE b)
  | .prefixOp op e => .punct op :: wrapT (wrapPrefix e) (toksE e)
  | .postfixOp op e => toksE e ++ [.punct op]
  | .arrIndex a i => toksE a ++ .punct "[" :: (toksE i ++ [.punct "]"])
/-- The tokens of the arguments after the first. -/
def toksArgs : List CExpr → List CTok
  | [] => []
  | e :: es => .punct "," :: (toksE e ++ toksArgs es)
/-- The tokens of the entries after the first. -/
def toksEntries : List CEntry → List CTok
  | [] => []
  | e :: es => .punct "," :: (toksEntry e ++ toksEntries es)
/-- The tokens of an entry. -/
def toksEntry : CEntry → List CTok
  | .mk isIndex key val =>
    (match key with
     | some k =>
       if isIndex then .punct "[" :: (toksE k ++ [.punct "]", .punct "="])
       else .punct "." :: (toksE k ++ [.punct "="])
     | none => []) ++ toksE val
end

/-- The tokens of the arguments. -/
def argToks : List CExpr → List CTok
  | [] => []
  | a :: as => toksE a ++ toksArgs as

theorem toksE_call (f : CExpr) (args : List CExpr) :
    toksE (.call f args) = toksE f ++ .punct "(" :: (argToks args ++ [.punct ")"]) := by
  cases args <;> simp [toksE, argToks]

/-! ## Pieces -/

theorem app {s1 t1 s2 t2 x} (h1 : CReads s1 t1 (s2 ++ x)) (h2 : CReads s2 t2 x) :
    CReads (s1 ++ s2) (t1 ++ t2) x := creads_append h1 rfl h2

theorem comment_head {s} (h : Comment s) : ∃ x, s = '/' :: x := by
  obtain ⟨x, rfl⟩ | ⟨x, rfl⟩ := h
  · exact ⟨_, rfl⟩
  · exact ⟨_, rfl⟩

theorem sp {s ts x} (h : CReads s ts x) : CReads (' ' :: s) ts x := .blank rfl h
theorem nl {s ts x} (h : CReads s ts x) : CReads ('\n' :: s) ts x := .blank rfl h
theorem tb {s ts x} (h : CReads s ts x) : CReads ('\t' :: s) ts x := .blank rfl h

theorem punctTok {p : String} {s ts x} (hp : p ∈ cPunctuators)
    (h : ∀ c y, s ++ x = c :: y → c ∉ extChars p.toList ∧ (p = "." → cDigit c = false))
    (hc : ¬ Comment (p.toList ++ (s ++ x))) (hr : CReads s ts x) :
    CReads (p.toList ++ s) (.punct p :: ts) x :=
  .tok (.punct hp) (longest_punct hp h) hc hr

/-- Punctuators of one character that nothing continues. -/
theorem single {p : String} {c : Char} {s ts x} (hp : p ∈ cPunctuators) (hc : p.toList = [c])
    (he : extChars [c] = []) (hd : p ≠ ".") (hs : c ≠ '/') (hr : CReads s ts x) :
    CReads (c :: s) (.punct p :: ts) x := by
  have := punctTok (p := p) (s := s) (ts := ts) (x := x) hp
    (by intro d y _; rw [hc, he]; exact ⟨by simp, fun h => absurd h hd⟩)
    (by rw [hc]; intro h; obtain ⟨y, hy⟩ := comment_head h; injection hy with hy _; exact hs hy) hr
  rwa [hc] at this

theorem lpar {s ts x} (h : CReads s ts x) : CReads ('(' :: s) (.punct "(" :: ts) x :=
  single (by decide) rfl (by decide +kernel) (by decide) (by decide) h
theorem rpar {s ts x} (h : CReads s ts x) : CReads (')' :: s) (.punct ")" :: ts) x :=
  single (by decide) rfl (by decide +kernel) (by decide) (by decide) h
theorem lbrk {s ts x} (h : CReads s ts x) : CReads ('[' :: s) (.punct "[" :: ts) x :=
  single (by decide) rfl (by decide +kernel) (by decide) (by decide) h
theorem rbrk {s ts x} (h : CReads s ts x) : CReads (']' :: s) (.punct "]" :: ts) x :=
  single (by decide) rfl (by decide +kernel) (by decide) (by decide) h
theorem lbrc {s ts x} (h : CReads s ts x) : CReads ('{' :: s) (.punct "{" :: ts) x :=
  single (by decide) rfl (by decide +kernel) (by decide) (by decide) h
theorem rbrc {s ts x} (h : CReads s ts x) : CReads ('}' :: s) (.punct "}" :: ts) x :=
  single (by decide) rfl (by decide +kernel) (by decide) (by decide) h
theorem comma {s ts x} (h : CReads s ts x) : CReads (',' :: s) (.punct "," :: ts) x :=
  single (by decide) rfl (by decide +kernel) (by decide) (by decide) h
theorem semi {s ts x} (h : CReads s ts x) : CReads (';' :: s) (.punct ";" :: ts) x :=
  single (by decide) rfl (by decide +kernel) (by decide) (by decide) h

/-- A punctuator before a blank. -/
theorem opSpace {p : String} {s ts x} (hp : p ∈ cPunctuators) (hr : CReads s ts x) :
    CReads (p.toList ++ ' ' :: s) (.punct p :: ts) x := by
  have h1 : ∀ p ∈ cPunctuators, ' ' ∉ extChars p.toList := by decide +kernel
  have h2 : ∀ p ∈ cPunctuators, (match p.toList with
      | '/' :: c :: _ => c != '/' && c != '*'
      | _ => true) = true := by decide +kernel
  refine punctTok hp ?_ ?_ (sp hr)
  · intro c y hy
    injection hy with hy _
    subst hy
    exact ⟨h1 p hp, fun _ => by decide⟩
  · have h2 := h2 p hp
    obtain ⟨c, cs, hc, _⟩ := punct_head p hp
    rw [hc] at h2 ⊢
    rintro (⟨y, hy⟩ | ⟨y, hy⟩)
    all_goals
      injection hy with hy hy2
      subst hy
      cases cs with
      | nil => injection hy2 with hy2 _; exact absurd hy2 (by decide)
      | cons d ds => injection hy2 with hy2 _; subst hy2; simp at h2

theorem word {w : String} {s ts x} (hw : CWord w.toList) (ha : AfterWord (s ++ x))
    (hr : CReads s ts x) : CReads (w.toList ++ s) (.word w :: ts) x := by
  have h := Spelling.word hw
  rw [String.ofList_toList] at h
  refine .tok h (longest_word hw ha) ?_ hr
  intro hc
  obtain ⟨y, hy⟩ := comment_head hc
  obtain ⟨c, cs, h1, h2, _⟩ := hw
  rw [h1] at hy
  injection hy with hy _
  subst hy
  exact absurd h2 (by decide)

theorem number {w : String} {s ts x d ds} (hw : w.toList = d :: ds) (hd : cDigit d = true)
    (ht : PPTail d ds) (ha : AfterNum (s ++ x)) (hr : CReads s ts x) :
    CReads (w.toList ++ s) (.num w :: ts) x := by
  have h := Spelling.num (.inl ⟨d, ds, hw, hd, ht⟩)
  rw [String.ofList_toList] at h
  refine .tok h (longest_num hw hd ha) ?_ hr
  intro hc
  obtain ⟨y, hy⟩ := comment_head hc
  rw [hw] at hy
  injection hy with hy _
  subst hy
  exact absurd hd (by decide)

theorem strTok {b s ts x} (hb : LitBody '"' b) (hr : CReads s ts x) :
    CReads ('"' :: (b ++ '"' :: s)) (.str (String.ofList b) :: ts) x := by
  have := CReads.tok (s := s) (r := x) (Spelling.str hb) (longest_str hb) (by
    intro hc; obtain ⟨y, hy⟩ := comment_head hc; injection hy with hy _; exact absurd hy (by decide)) hr
  simpa using this

theorem chrTok {b s ts x} (h0 : b ≠ []) (hb : LitBody '\'' b) (hr : CReads s ts x) :
    CReads ('\'' :: (b ++ '\'' :: s)) (.chr (String.ofList b) :: ts) x := by
  have := CReads.tok (s := s) (r := x) (Spelling.chr h0 hb) (longest_chr hb) (by
    intro hc; obtain ⟨y, hy⟩ := comment_head hc; injection hy with hy _; exact absurd hy (by decide)) hr
  simpa using this

/-! ## What may follow -/

/-- The next character neither continues a word nor, after a number, the number. -/
def After (e : CExpr) (x : List Char) : Prop :=
  AfterWord x ∧ (endsNum e = true → AfterNum x)

/-- The characters that end anything. -/
def EndCh (c : Char) : Prop := c ∈ [' ', '\t', '\n', ')', '(', ']', '[', ',', ';', '}', ':']

theorem afterWord_sep {c x} (h : EndCh c) : AfterWord (c :: x) := by
  intro d y he
  injection he with he _
  subst he
  have : ∀ c ∈ [' ', '\t', '\n', ')', '(', ']', '[', ',', ';', '}', ':'],
    cIdChar c = false ∧ c ≠ '\'' ∧ c ≠ '"' := by decide
  exact this c h

theorem afterNum_sep {c x} (h : EndCh c) : AfterNum (c :: x) := by
  intro d y he
  injection he with he _
  subst he
  have : ∀ c ∈ [' ', '\t', '\n', ')', '(', ']', '[', ',', ';', '}', ':'],
    cIdChar c = false ∧ c ≠ '.' ∧ c ≠ '+' ∧ c ≠ '-' := by decide
  exact this c h

theorem after_sep {e c x} (h : EndCh c) : After e (c :: x) := ⟨afterWord_sep h, fun _ => afterNum_sep h⟩

/-! ## Types -/

theorem rep_star (n : Nat) : (RStr.rep "*" n).toList = List.replicate n '*' := by
  induction n with
  | zero => rfl
  | succ n ih => rw [RStr.rep, String.toList_append, ih]; rfl

theorem reads_stars {s ts x} : ∀ (n : Nat), (∃ y, s ++ x = ')' :: y) → CReads s ts x →
    CReads (List.replicate n '*' ++ s) (starToks n ++ ts) x
  | 0, _, h => h
  | n + 1, ⟨y, hy⟩, h => by
    have ih := reads_stars n ⟨y, hy⟩ h
    refine punctTok (p := "*") (s := List.replicate n '*' ++ s) (by decide) ?_ ?_ ih
    · intro c z hz
      refine ⟨?_, fun h => absurd h (by decide)⟩
      have : c = ')' ∨ c = '*' := by
        rw [List.append_assoc, hy] at hz
        cases n with
        | zero => injection hz with hz _; exact .inl hz.symm
        | succ n => injection hz with hz _; exact .inr hz.symm
      obtain rfl | rfl := this <;> decide +kernel
    · intro hc
      obtain ⟨z, hz⟩ := comment_head hc
      injection hz with hz _
      exact absurd hz (by decide)

theorem const_ident : CWord "const".toList := ⟨'c', "onst".toList, by decide, by decide, by decide⟩
theorem sizeof_ident : CWord "sizeof".toList := ⟨'s', "izeof".toList, by decide, by decide, by decide⟩
theorem null_ident : CWord "NULL".toList := ⟨'N', "ULL".toList, by decide, by decide, by decide⟩

theorem reads_type {t : CBareTypeform} (h : CWord t.typename.name.toList) {s ts x}
    (hx : ∃ y, s ++ x = ')' :: y) (hr : CReads s ts x) :
    CReads ((fmtBareTypeform t).toList ++ s) (typeToks t ++ ts) x := by
  have hst := reads_stars t.hops hx hr
  have hn : CReads (t.typename.name.toList ++ (List.replicate t.hops '*' ++ s))
      (.word t.typename.name :: (starToks t.hops ++ ts)) x := by
    refine word h ?_ hst
    obtain ⟨y, hy⟩ := hx
    rw [List.append_assoc, hy]
    cases t.hops with
    | zero => exact afterWord_sep (by simp [EndCh])
    | succ n =>
      intro c z hz
      injection hz with hz _
      subst hz; decide
  unfold fmtBareTypeform formatType typeToks
  rw [String.toList_append, String.toList_append, rep_star]
  cases t.typename.isConst with
  | false => simpa using hn
  | true =>
    have := word (s := ' ' :: (t.typename.name.toList ++ (List.replicate t.hops '*' ++ s)))
      const_ident (afterWord_sep (by simp [EndCh])) (sp hn)
    simpa using this

/-! ## Literals -/

theorem splitL_ne (sep : Char) : ∀ s, RStr.splitL sep s ≠ []
  | [] => by simp [RStr.splitL]
  | c :: cs => by
    unfold RStr.splitL
    split
    · simp
    · split <;> simp

theorem splitL_cons {sep c : Char} {cs} (h : c ≠ sep) :
    ∃ p ps, RStr.splitL sep cs = p :: ps ∧ RStr.splitL sep (c :: cs) = (c :: p) :: ps := by
  cases hs : RStr.splitL sep cs with
  | nil => exact absurd hs (splitL_ne _ _)
  | cons p ps => exact ⟨p, ps, rfl, by rw [RStr.splitL, if_neg h, hs]⟩

/-- The lines of a raw string literal are bodies of string literals. -/
theorem raw_lines {s} (h : RawBody s) : ∀ l ∈ RStr.splitL '\n' s, LitBody '"' l := by
  induction h with
  | nil => intro l hl; simp [RStr.splitL] at hl; subst hl; exact .nil
  | @plain c cs h1 h2 _ ih =>
    by_cases hc : c = '\n'
    · subst hc
      intro l hl
      rw [RStr.splitL, if_pos rfl, List.mem_cons] at hl
      obtain rfl | hl := hl
      · exact .nil
      · exact ih l hl
    · obtain ⟨p, ps, e1, e2⟩ := splitL_cons (cs := cs) hc
      intro l hl
      rw [e2, List.mem_cons] at hl
      rw [e1] at ih
      obtain rfl | hl := hl
      · exact .plain h1 h2 hc (ih p (by simp))
      · exact ih l (by simp [hl])
  | @esc c cs h1 _ ih =>
    obtain ⟨p, ps, e1, e2⟩ := splitL_cons (cs := cs) h1
    obtain ⟨p', ps', e3, e4⟩ := splitL_cons (sep := '\n') (c := '\\') (cs := c :: cs) (by decide)
    rw [e2] at e3
    injection e3 with e3 e5
    subst e3; subst e5
    intro l hl
    rw [e4, List.mem_cons] at hl
    rw [e1] at ih
    obtain rfl | hl := hl
    · exact .esc h1 (ih p (by simp))
    · exact ih l (by simp [hl])

theorem esc_n : LitBody '"' ['\\', 'n'] := .esc (by decide) .nil

theorem reads_lines {s ts x} (hr : CReads s ts x) : ∀ (l : List Char) (ls : List (List Char)),
    LitBody '"' l → (∀ l ∈ ls, LitBody '"' l) →
    CReads ((RStr.join "\"\\n\"\n" ((String.ofList l :: ls.map String.ofList).map
      (fun line => "\"" ++ line ++ "\""))).toList ++ s)
      (.str (String.ofList l) :: (moreLines (ls.map String.ofList) ++ ts)) x
  | l, [], hl, _ => by
    have := strTok hl hr
    simpa [RStr.join, moreLines] using this
  | l, m :: ls, hl, hls => by
    have ih := reads_lines hr m ls (hls m (by simp)) (fun l h => hls l (by simp [h]))
    have := strTok hl (strTok esc_n (nl ih))
    simpa [RStr.join, moreLines, String.toList_append, List.append_assoc] using this

theorem reads_lit {ty l} (h : PlainLit ty l) {s ts x} (hw : AfterWord (s ++ x))
    (hn : endsNum (.lit l) = true → AfterNum (s ++ x)) (hr : CReads s ts x) :
    CReads ((formatLiteral l).toList ++ s) (litToks l ++ ts) x := by
  cases l with
  | char v =>
    have := chrTok h.1 h.2 hr
    simpa [formatLiteral, litToks, String.toList_append, String.ofList_toList] using this
  | number v =>
    obtain ⟨c, cs, h1, h2, h3⟩ := h
    exact number h1 h2 h3 (hn rfl) hr
  | null => exact word null_ident hw hr
  | string v =>
    unfold formatLiteral litToks RStr.split
    have hl := raw_lines h
    cases hs : RStr.splitL '\n' v.toList with
    | nil => exact absurd hs (splitL_ne _ _)
    | cons l ls =>
      rw [hs] at hl
      have := reads_lines hr l ls (hl l (by simp)) (fun m hm => hl m (by simp [hm]))
      simpa [hs] using this

/-! ## First characters of expressions -/

/-- Characters that continue no operator. -/
def Mild (c : Char) : Prop := cIdChar c = true ∨ c ∈ ['\'', '"', '(', '{']

/-- The prefix operators of the trees. -/
def prefixOps : List String := ["!", "--", "++", "*", "~", "&", "-"]

/-- How the text of an expression starts. -/
def Starts (e : CExpr) (s : List Char) : Prop :=
  ∃ c y, s = c :: y ∧ (Mild c ∨ ∃ op, leads e = some op ∧ op ∈ prefixOps ∧ ∃ z, op.toList = c :: z)

theorem ident_starts {e w s} (h : CWord w) : Starts e (w ++ s) := by
  obtain ⟨c, cs, rfl, hc, _⟩ := h
  exact ⟨c, cs ++ s, rfl, .inl (.inl (letter_id hc))⟩

theorem lit_starts {ty l e s} (h : PlainLit ty l) : Starts e ((formatLiteral l).toList ++ s) := by
  cases l with
  | char v => exact ⟨'\'', _, by simp [formatLiteral, String.toList_append]; rfl, .inl (.inr (by simp))⟩
  | number v =>
    obtain ⟨c, cs, h1, h2, _⟩ := h
    refine ⟨c, cs ++ s, by simp [formatLiteral, h1], .inl (.inl (by simp [cIdChar, h2]))⟩
  | null => exact ident_starts null_ident
  | string v =>
    unfold formatLiteral RStr.split
    cases hs : RStr.splitL '\n' v.toList with
    | nil => exact absurd hs (splitL_ne _ _)
    | cons l ls =>
      cases ls with
      | nil => exact ⟨'"', _, by simp [hs, RStr.join, String.toList_append]; rfl, .inl (.inr (by simp))⟩
      | cons m ms => exact ⟨'"', _, by simp [hs, RStr.join, String.toList_append]; rfl, .inl (.inr (by simp))⟩

theorem Starts.append {e s} (h : Starts e s) (x : List Char) : Starts e (s ++ x) := by
  obtain ⟨c, y, rfl, h⟩ := h
  exact ⟨c, y ++ x, rfl, h⟩

theorem Starts.of_leads {e e' s} (he : leads e' = leads e) (h : Starts e s) : Starts e' s := by
  obtain ⟨c, y, rfl, h⟩ := h
  refine ⟨c, y, rfl, ?_⟩
  rw [he]
  exact h

theorem starts_paren {e s} : Starts e ('(' :: s) := ⟨_, _, rfl, .inl (.inr (by simp))⟩

theorem paren_toList (b : Bool) (s : String) :
    (paren b s).toList = if b then '(' :: (s.toList ++ [')']) else s.toList := by
  cases b with
  | false => rfl
  | true => simp [paren, String.toList_append]

theorem starts_wrapped {e e' b} {s : String} (he : leads e' = leads e) (h : Starts e s.toList) :
    Starts e' (paren b s).toList := by
  rw [paren_toList]
  cases b with
  | false => exact h.of_leads he
  | true => exact starts_paren

theorem starts {ty} : ∀ {e}, Plain ty e → Starts e (fmtExpr e).toList
  | .lit l, h => by
    have := lit_starts (e := .lit l) (s := []) h
    rwa [List.append_nil] at this
  | .ident s, h => by
    have := ident_starts (e := .ident s) (s := []) h.1
    rwa [List.append_nil] at this
  | .compLit es, _ => by
    cases es with
    | nil => exact ⟨'{', "0}".toList, rfl, .inl (.inr (by simp))⟩
    | cons e es => exact ⟨'{', _, by simp [fmtExpr, String.toList_append]; rfl, .inl (.inr (by simp))⟩
  | .binaryOp op a b, h => by
    have ih := starts h.2.1
    rw [fmtExpr]
    simp only [String.toList_append, List.append_assoc]
    exact (starts_wrapped rfl ih).append _
  | .fieldAccess op t f, h => by
    have ih := starts h.2.1
    rw [fmtExpr]
    simp only [String.toList_append, List.append_assoc]
    exact (starts_wrapped rfl ih).append _
  | .prefixOp op e, h => by
    rw [fmtExpr, String.toList_append]
    have : ∀ op ∈ prefixOps, ∃ c z, op.toList = c :: z := by
      intro op hop
      simp only [prefixOps, List.mem_cons, List.not_mem_nil, or_false] at hop
      obtain rfl | rfl | rfl | rfl | rfl | rfl | rfl := hop <;> exact ⟨_, _, rfl⟩
    obtain ⟨c, z, hz⟩ := this op h.1
    exact ⟨c, z ++ (paren (wrapPrefix e) (fmtExpr e)).toList, by rw [hz]; rfl, .inr ⟨op, rfl, h.1, z, hz⟩⟩
  | .postfixOp op e, h => by
    have ih := starts h.2.1
    rw [fmtExpr, String.toList_append]
    exact (ih.of_leads rfl).append _
  | .cast t e, _ => ⟨'(', _, by simp [fmtExpr, String.toList_append]; rfl, .inl (.inr (by simp))⟩
  | .call f args, h => by
    have ih := starts h.1
    rw [fmtExpr]
    simp only [String.toList_append, List.append_assoc]
    exact (ih.of_leads rfl).append _
  | .sizeofType t, _ => ⟨'s', _, by simp [fmtExpr, String.toList_append]; rfl, .inl (.inl (by decide))⟩
  | .sizeofExpr e, _ => ⟨'s', _, by simp [fmtExpr, String.toList_append]; rfl, .inl (.inl (by decide))⟩
  | .arrIndex a i, h => by
    have ih := starts h.1
    rw [fmtExpr]
    simp only [String.toList_append, List.append_assoc]
    exact (ih.of_leads rfl).append _

/-- A prefix operator before its operand. -/
theorem prefix_tok {op : String} {e : CExpr} {s ts x} (hop : op ∈ prefixOps)
    (hs : Starts e s ∧ sticks op e = false ∨ ∃ y, s = '(' :: y) (hr : CReads s ts x) :
    CReads (op.toList ++ s) (.punct op :: ts) x := by
  have k1 : ∀ op ∈ prefixOps, op ∈ cPunctuators ∧ op ≠ "." ∧ op.toList.head? ≠ some '/' := by decide
  have k2 : ∀ op ∈ prefixOps, ∀ c ∈ extChars op.toList,
      cIdChar c = false ∧ c ∉ ['\'', '"', '(', '{'] := by decide +kernel
  have k3 : ∀ op ∈ prefixOps, ∀ op' ∈ prefixOps, ∀ c ∈ extChars op.toList, op'.toList.head? = some c →
      op = "-" ∧ (op' = "-" ∨ op' = "--") ∨ op = "&" ∧ op' = "&" := by decide +kernel
  obtain ⟨j1, j2, j3⟩ := k1 op hop
  refine punctTok j1 ?_ ?_ hr
  · intro c y hy
    refine ⟨fun hc => ?_, fun h => absurd h j2⟩
    obtain ⟨i1, i2⟩ := k2 op hop c hc
    obtain ⟨⟨d, z, rfl, hd⟩, hst⟩ | ⟨z, rfl⟩ := hs
    · injection hy with hy _
      subst hy
      obtain (hd | hd) | ⟨op', l1, l2, l3, l4⟩ := hd
      · rw [i1] at hd; cases hd
      · exact i2 hd
      · have := k3 op hop op' l2 d hc (by rw [l4]; rfl)
        obtain ⟨rfl, rfl | rfl⟩ | ⟨rfl, rfl⟩ := this <;> simp [sticks, l1] at hst
    · injection hy with hy _
      subst hy
      exact i2 (by simp)
  · intro hc
    obtain ⟨z, hz⟩ := comment_head hc
    cases ho : op.toList with
    | nil =>
      obtain ⟨c, cs, h, _⟩ := punct_head op j1
      rw [ho] at h; cases h
    | cons c cs =>
      rw [ho] at hz j3
      injection hz with hz _
      subst hz
      exact j3 rfl

/-! ## Which operands are wrapped -/

/-- The binary operators that are no assignments. -/
def levelOps : List String :=
  ["||", "&&", "|", "^", "&", "==", "!=", "<", ">", "<=", ">=", "<<", ">>", "+", "-", "*", "/", "%"]

theorem level_mem {op s} (h : cLevel op = some s) : op ∈ levelOps := by
  refine Decidable.byContradiction fun hn => ?_
  simp [levelOps] at hn
  simp [cLevel, hn] at h

theorem strength_level {op s} (h : cLevel op = some s) : strength op = s := by
  have k : ∀ op ∈ levelOps, cLevel op = some (strength op) := by decide +kernel
  rw [k op (level_mem h)] at h
  injection h

theorem strength_assign : ∀ op ∈ cAssignOps, strength op = 2 := by decide +kernel

end Che.Proofs.CPrintToks
