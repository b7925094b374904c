import Verif.Proofs.CStmtToks
import Verif.Spec.CUnit
/-!
# The tokens of printed declarations
-/
namespace Che.Proofs.CUnitToks
open Che Che.Spec Che.FormatC Che.Proofs.CLexing Che.Proofs.CPrintToks Che.Proofs.CPrintRead Che.Proofs.CStmtToks

variable {ty : String → Bool}

/-! ## The tokens -/

/-- The tokens of a name with its type. -/
def fieldToks (f : CTypeForm) : List CTok := specToks f.typename ++ formToks f.form

/-- The tokens of fields. -/
def fieldsToks : List CTypeForm → List CTok
  | [] => []
  | f :: fs => specToks f.typename ++ (formToks f.form ++ .punct ";" :: fieldsToks fs)

/-- The tokens of a member. -/
def memberToks : CStructItem → List CTok
  | .field f => specToks f.typename ++ (formToks f.form ++ [.punct ";"])
  | .union u =>
    .word "union" :: .punct "{" :: (fieldsToks u.fields ++ .punct "}" :: (formToks u.form ++ [.punct ";"]))

/-- The tokens of members. -/
def membersToks : List CStructItem → List CTok
  | [] => []
  | m :: ms => memberToks m ++ membersToks ms

/-- The tokens of an enumerator. -/
def enumeratorToks (m : CEnumEntry) : List CTok :=
  .word m.id :: (match m.value with | some e => .punct "=" :: toksE e | none => [])

/-- The tokens of the enumerators after the first. -/
def enumeratorsToks : List CEnumEntry → List CTok
  | [] => []
  | m :: ms => .punct "," :: (enumeratorToks m ++ enumeratorsToks ms)

/-- The tokens of the parameters after the first. -/
def moreParams : List CTypeForm → List CTok
  | [] => []
  | p :: ps => .punct "," :: (fieldToks p ++ moreParams ps)

/-- The tokens after the last parameter. -/
def dotsToks (dots : Bool) : List CTok := if dots then [.punct ",", .punct "...", .punct ")"] else [.punct ")"]

/-- The tokens of parameters. -/
def paramsToks (p : CFuncParams) : List CTok :=
  match p.list with
  | [] => [.punct "(", .word "void", .punct ")"]
  | f :: fs => .punct "(" :: (fieldToks f ++ (moreParams fs ++ dotsToks p.variadic))

/-- The tokens of the types after the first. -/
def moreTypes : List CBareTypeform → List CTok
  | [] => []
  | t :: ts => .punct "," :: (typeToks t ++ moreTypes ts)

/-- The tokens of parameters without names. -/
def anonToks : Option CAnonParams → List CTok
  | none => []
  | some p =>
    match p.forms with
    | [] => [.punct "(", .word "void", .punct ")"]
    | t :: ts => .punct "(" :: (typeToks t ++ (moreTypes ts ++ dotsToks p.ellipsis))

/-- The tokens of the type of a typedef. -/
def kTypeToks (t : KType) : List CTok :=
  (if t.isConst then [.word "const"] else []) ++ ((if t.isStruct then [.word "struct"] else []) ++ [.word t.name])

/-- The tokens of the size of an array. -/
def sizeToks (n : Nat) : List CTok :=
  if n = 0 then [] else [.punct "[", .num (toString n), .punct "]"]

/-- The token `static`. -/
def staticToks (b : Bool) : List CTok := if b then [.word "static"] else []

/-- The tokens of an element that is no directive. -/
def elemToks : CModElem → List CTok
  | .include _ => []
  | .macro _ => []
  | .forwardStruct x => [.word "struct", .word x, .punct ";"]
  | .forwardFunc x => staticToks (kStatic x.isStatic x.form) ++
      (specToks x.typename ++ (formToks x.form ++ (paramsToks x.params ++ [.punct ";"])))
  | .defEnum x => .word "enum" :: .punct "{" ::
      ((match x.entries with | [] => [] | m :: ms => enumeratorToks m ++ enumeratorsToks ms) ++ [.punct "}", .punct ";"])
  | .typedef x => .word "typedef" :: (kTypeToks (kType x.typename) ++ (starToks x.form.stars.toList.length ++
      .word x.form.alias :: (anonToks x.form.params ++ (sizeToks x.form.size ++ [.punct ";"]))))
  | .structDef x => .word "struct" :: .word x.name :: .punct "{" :: (membersToks x.fields ++ [.punct "}", .punct ";"])
  | .varDecl x => .word "static" :: (specToks x.typename ++ (formToks x.form ++ .punct "=" :: (toksE x.value ++ [.punct ";"])))
  | .funcDef x => staticToks (kStatic x.isStatic x.form) ++
      (specToks x.typename ++ (formToks x.form ++ (paramsToks x.params ++ .punct "{" :: (toksSs x.body ++ [.punct "}"]))))

/-! ## Printed declarations are read as their tokens -/

theorem sep_of {c : Char} (h : c ∈ [' ', '\t', '\n', ')', '(', ']', '[', ',', ';', '}', ':']) (y : List Char) :
    SepNext (c :: y) := ⟨c, y, rfl, h⟩

theorem reads_field {f : CTypeForm} (h : PlainField ty f) {s ts x} (hx : SepNext (s ++ x)) (hr : CReads s ts x) :
    CReads ((formatType f.typename).toList ++ ' ' :: ((formatForm f.form).toList ++ s)) (fieldToks f ++ ts) x := by
  have := reads_spec h.1.1 (reads_form h.2 hx hr)
  simpa [fieldToks, List.append_assoc] using this

theorem reads_typeform {f : CTypeForm} (h : PlainField ty f) {s ts x} (hr : CReads s ts x) :
    CReads ((formatTypeform f).toList ++ s) (specToks f.typename ++ (formToks f.form ++ .punct ";" :: ts)) x := by
  have := reads_field h (s := ';' :: '\n' :: s) (sep_of (by simp) _) (semi (nl hr))
  simpa [formatTypeform, fieldToks, String.toList_append, List.append_assoc] using this

theorem reads_fields : ∀ {fs : List CTypeForm}, (∀ f ∈ fs, PlainField ty f) → ∀ {s ts x}, CReads s ts x →
    CReads ((String.join (fs.map (fun f =>
      "\t" ++ formatType f.typename ++ " " ++ formatForm f.form ++ ";\n"))).toList ++ s) (fieldsToks fs ++ ts) x
  | [], _, s, ts, x, hr => by simpa [fieldsToks] using hr
  | f :: fs, h, s, ts, x, hr => by
    have ih := reads_fields (fs := fs) (fun g hg => h g (by simp [hg])) hr
    have := tb (reads_typeform (h f (by simp)) ih)
    simpa [formatTypeform, fieldsToks, String.toList_append, List.append_assoc] using this

theorem reads_union {u : CUnion} (h : PlainItem ty (.union u)) {s ts x} (hr : CReads s ts x) :
    CReads ((formatUnion u).toList ++ s) (memberToks (.union u) ++ ts) x := by
  have h1 := reads_form h.2.2 (s := ';' :: '\n' :: s) (sep_of (by simp) _) (semi (nl hr))
  have h2 := reads_fields h.2.1 (nl (rbrc (sp h1)))
  have := keyword (w := "union") (word_of (by decide)) rfl (c := ' ') (by simp [EndCh]) (sp (lbrc (nl h2)))
  simpa [formatUnion, memberToks, String.toList_append, List.append_assoc] using this

theorem reads_member {m : CStructItem} (h : PlainItem ty m) {s ts x} (hr : CReads s ts x) :
    CReads ((formatStructItem m).toList ++ s) (memberToks m ++ ts) x := by
  cases m with
  | field f =>
    have := reads_typeform (f := f) h hr
    simpa [formatStructItem, memberToks, List.append_assoc] using this
  | union u => exact reads_union h hr

theorem reads_members : ∀ {ms : List CStructItem}, (∀ m ∈ ms, PlainItem ty m) → ∀ x,
    CReads (String.join (ms.map formatStructItem)).toList (membersToks ms) x
  | [], _, x => by simpa [membersToks] using CReads.nil
  | m :: ms, h, x => by
    have ih := reads_members (ms := ms) (fun g hg => h g (by simp [hg])) x
    have := reads_member (h m (by simp)) ih
    simpa [membersToks, String.toList_append, List.append_assoc] using this

theorem reads_struct {d : CStructDef} (h : PlainElem ty (.structDef d)) {s ts x} (hr : CReads s ts x) :
    CReads ((formatStructDef d).toList ++ s) (elemToks (.structDef d) ++ ts) x := by
  have h1 := nl (rbrc (semi (nl hr)))
  have h2 := app (reads_indent (reads_members h.2.2 _)) h1
  have h3 := keyword h.1.1 rfl (c := ' ') (by simp [EndCh]) (sp (lbrc (nl h2)))
  have := keyword (w := "struct") (word_of (by decide)) rfl (c := ' ') (by simp [EndCh]) (sp h3)
  simpa [formatStructDef, elemToks, String.toList_append, List.append_assoc] using this

theorem reads_enumerator {m : CEnumEntry} (hw : PlainWord ty m.id) (hv : PlainOpt ty m.value) {s ts x}
    (hx : SepNext (s ++ x)) (hr : CReads s ts x) :
    CReads ((formatEnumMember m).toList ++ s) (enumeratorToks m ++ ts) x := by
  obtain ⟨id, v⟩ := m
  cases v with
  | none => simpa [formatEnumMember, enumeratorToks] using word hw.1 (after_of_sep (e := .ident "") hx).1 hr
  | some e =>
    have h1 := opSpace (p := "=") (by decide) (reads (e := e) hv (after_of_sep hx) hr)
    have := keyword hw.1 rfl (c := ' ') (by simp [EndCh]) (sp h1)
    simpa [formatEnumMember, enumeratorToks, String.toList_append, List.append_assoc] using this

/-- The texts of the enumerators. -/
def enumTexts (ms : List CEnumEntry) : List String := ms.map fun m => "\t" ++ formatEnumMember m

theorem sep_enums (ms) : SepStart (String.join ((enumTexts ms).map (",\n" ++ ·))).toList := by
  cases ms with
  | nil => exact .inl rfl
  | cons d ds => exact .inr ⟨',', _, by simp [enumTexts, String.toList_append]; rfl, by simp [EndCh]⟩

theorem reads_enumerators : ∀ {ms : List CEnumEntry}, (∀ m ∈ ms, PlainWord ty m.id ∧ PlainOpt ty m.value) →
    ∀ {s ts x}, SepNext (s ++ x) → CReads s ts x →
    CReads ((String.join ((enumTexts ms).map (",\n" ++ ·))).toList ++ s) (enumeratorsToks ms ++ ts) x
  | [], _, s, ts, x, _, hr => by simpa [enumTexts, enumeratorsToks] using hr
  | m :: ms, h, s, ts, x, hx, hr => by
    have ih := reads_enumerators (ms := ms) (fun e he => h e (by simp [he])) hx hr
    have hm := h m (by simp)
    have := comma (nl (tb (reads_enumerator hm.1 hm.2 ((sep_enums ms).append hx) ih)))
    simpa [enumTexts, enumeratorsToks, String.toList_append, List.append_assoc] using this

theorem reads_enum {d : CEnumDef} (h : PlainElem ty (.defEnum d)) {s ts x} (hr : CReads s ts x) :
    CReads ((fmtEnumDef d).toList ++ s) (elemToks (.defEnum d) ++ ts) x := by
  obtain ⟨hid, es⟩ := d
  obtain ⟨h0, h⟩ := h
  cases es with
  | nil => exact absurd rfl h0
  | cons m ms =>
    have h1 := nl (rbrc (semi (nl hr)))
    have h2 := reads_enumerators (ms := ms) (fun e he => h e (by simp [he])) (sep_of (by simp) _) h1
    have hm := h m (by simp)
    have h3 := tb (reads_enumerator hm.1 hm.2 ((sep_enums ms).append (sep_of (by simp) _)) h2)
    have := keyword (w := "enum") (word_of (by decide)) rfl (c := ' ') (by simp [EndCh]) (sp (lbrc (nl h3)))
    simpa [fmtEnumDef, elemToks, enumTexts, join_cons, String.toList_append, List.append_assoc] using this

/-! ### Parameters -/

theorem dots {s ts x} (hr : CReads (')' :: s) ts x) :
    CReads ('.' :: '.' :: '.' :: ')' :: s) (.punct "..." :: ts) x := by
  refine punctTok (p := "...") (s := ')' :: s) (by decide) ?_ ?_ hr
  · intro c y hy
    injection hy with hy _
    subst hy
    exact ⟨by decide +kernel, fun h => absurd h (by decide)⟩
  · intro hc
    obtain ⟨z, hz⟩ := comment_head hc
    injection hz with hz _
    exact absurd hz (by decide)

theorem reads_dots (b : Bool) {s ts x} (hr : CReads s ts x) :
    CReads ((if b then ", ..." else "").toList ++ ')' :: s) (dotsToks b ++ ts) x := by
  cases b with
  | false => exact rpar hr
  | true => exact comma (sp (dots (rpar hr)))

theorem sep_dots (b : Bool) (s x : List Char) : SepNext ((if b then ", ..." else "").toList ++ ')' :: s ++ x) := by
  cases b with
  | false => exact sep_of (by simp) _
  | true => exact sep_of (c := ',') (by simp) _

/-- The texts of the parameters. -/
def paramTexts (ps : List CTypeForm) : List String := ps.map fun p => formatType p.typename ++ " " ++ formatForm p.form

theorem sep_params (ps) : SepStart (String.join ((paramTexts ps).map (", " ++ ·))).toList := by
  cases ps with
  | nil => exact .inl rfl
  | cons d ds => exact .inr ⟨',', _, by simp [paramTexts, String.toList_append]; rfl, by simp [EndCh]⟩

theorem reads_moreParams : ∀ {ps : List CTypeForm}, (∀ p ∈ ps, PlainField ty p) → ∀ {s ts x}, SepNext (s ++ x) →
    CReads s ts x →
    CReads ((String.join ((paramTexts ps).map (", " ++ ·))).toList ++ s) (moreParams ps ++ ts) x
  | [], _, s, ts, x, _, hr => by simpa [paramTexts, moreParams] using hr
  | p :: ps, h, s, ts, x, hx, hr => by
    have ih := reads_moreParams (ps := ps) (fun e he => h e (by simp [he])) hx hr
    have := comma (sp (reads_field (h p (by simp)) ((sep_params ps).append hx) ih))
    simpa [paramTexts, moreParams, String.toList_append, List.append_assoc] using this

theorem reads_params {p : CFuncParams} (h : PlainParams ty p) {s ts x} (hr : CReads s ts x) :
    CReads ((fmtFuncParams p).toList ++ s) (paramsToks p ++ ts) x := by
  obtain ⟨ps, b⟩ := p
  cases ps with
  | nil =>
    have hb : b = false := by
      cases b with
      | false => rfl
      | true => exact absurd rfl (h.2 rfl)
    subst hb
    have := lpar (keyword (w := "void") (word_of (by decide)) rfl (c := ')') (by simp [EndCh]) (rpar hr))
    simpa [fmtFuncParams, paramsToks, RStr.join, String.toList_append] using this
  | cons f fs =>
    have h1 := reads_moreParams (ps := fs) (fun e he => h.1 e (by simp [he])) (sep_dots b s x) (reads_dots b hr)
    have h2 := lpar (reads_field (h.1 f (by simp)) (by
      have := (sep_params fs).append (sep_dots b s x); simpa using this) h1)
    simp only [fmtFuncParams, List.map_cons, join_cons, paramsToks, String.toList_append]
    simpa [paramTexts, String.toList_append, List.append_assoc] using h2

theorem reads_starsEnd {s ts x} : ∀ (n : Nat), (∃ c y, s ++ x = c :: y ∧ c ∈ [')', ',']) → CReads s ts x →
    CReads (List.replicate n '*' ++ s) (starToks n ++ ts) x
  | 0, _, h => h
  | n + 1, ⟨d, y, hy, hd⟩, h => by
    have ih := reads_starsEnd n ⟨d, y, hy, hd⟩ h
    refine punctTok (p := "*") (s := List.replicate n '*' ++ s) (by decide) ?_ ?_ ih
    · intro c z hz
      refine ⟨?_, fun h => absurd h (by decide)⟩
      have : c ∈ ['*', ')', ','] := by
        rw [List.append_assoc, hy] at hz
        cases n with
        | zero => injection hz with hz _; rw [← hz]; exact List.mem_cons_of_mem _ hd
        | succ n => injection hz with hz _; rw [← hz]; simp
      have k : ∀ c ∈ ['*', ')', ','], c ∉ extChars "*".toList := by decide +kernel
      exact k c this
    · intro hc
      obtain ⟨z, hz⟩ := comment_head hc
      injection hz with hz _
      exact absurd hz (by decide)

theorem reads_bare {t : CBareTypeform} (h : CWord t.typename.name.toList) {s ts x}
    (hx : ∃ c y, s ++ x = c :: y ∧ c ∈ [')', ',']) (hr : CReads s ts x) :
    CReads ((fmtBareTypeform t).toList ++ s) (typeToks t ++ ts) x := by
  have hst := reads_starsEnd t.hops hx hr
  have hn : CReads (t.typename.name.toList ++ (List.replicate t.hops '*' ++ s))
      (.word t.typename.name :: (starToks t.hops ++ ts)) x := by
    refine word h ?_ hst
    obtain ⟨c, y, hy, hc⟩ := hx
    rw [List.append_assoc, hy]
    cases t.hops with
    | zero =>
      refine afterWord_sep ?_
      simp only [List.mem_cons, List.not_mem_nil, or_false] at hc
      obtain rfl | rfl := hc <;> simp [EndCh]
    | succ n =>
      intro c z hz
      injection hz with hz _
      subst hz; decide
  unfold fmtBareTypeform formatType typeToks
  rw [String.toList_append, String.toList_append, rep_star]
  cases t.typename.isConst with
  | false => simpa using hn
  | true =>
    have := word (s := ' ' :: (t.typename.name.toList ++ (List.replicate t.hops '*' ++ s)))
      const_ident (afterWord_sep (by simp [EndCh])) (sp hn)
    simpa using this

theorem end_types (ts : List CBareTypeform) {s x : List Char} (h : ∃ c y, s ++ x = c :: y ∧ c ∈ [')', ',']) :
    ∃ c y, (String.join ((ts.map fmtBareTypeform).map (", " ++ ·))).toList ++ s ++ x = c :: y ∧ c ∈ [')', ','] := by
  cases ts with
  | nil => simpa using h
  | cons t ts => exact ⟨',', _, by simp [String.toList_append]; rfl, by simp⟩

theorem end_dots (b : Bool) (s x : List Char) :
    ∃ c y, (if b then ", ..." else "").toList ++ ')' :: s ++ x = c :: y ∧ c ∈ [')', ','] := by
  cases b with
  | false => exact ⟨')', _, rfl, by simp⟩
  | true => exact ⟨',', _, rfl, by simp⟩

theorem reads_moreTypes : ∀ {l : List CBareTypeform}, (∀ t ∈ l, PlainType ty t) → ∀ {s ts x},
    (∃ c y, s ++ x = c :: y ∧ c ∈ [')', ',']) → CReads s ts x →
    CReads ((String.join ((l.map fmtBareTypeform).map (", " ++ ·))).toList ++ s) (moreTypes l ++ ts) x
  | [], _, s, ts, x, _, hr => by simpa [moreTypes] using hr
  | t :: l, h, s, ts, x, hx, hr => by
    have ih := reads_moreTypes (l := l) (fun e he => h e (by simp [he])) hx hr
    have := comma (sp (reads_bare (h t (by simp)).1 (end_types l hx) ih))
    simpa [moreTypes, String.toList_append, List.append_assoc] using this

theorem reads_anon {p : Option CAnonParams}
    (h : ∀ q, p = some q → (∀ t ∈ q.forms, PlainType ty t) ∧ (q.ellipsis = true → q.forms ≠ []))
    {s ts x} (hr : CReads s ts x) :
    CReads ((match p with | some p => fmtAnonParams p | none => "").toList ++ s) (anonToks p ++ ts) x := by
  cases p with
  | none => exact hr
  | some p =>
    obtain ⟨b, l⟩ := p
    obtain ⟨h, _⟩ := h _ rfl
    cases l with
    | nil =>
      have := lpar (keyword (w := "void") (word_of (by decide)) rfl (c := ')') (by simp [EndCh]) (rpar hr))
      simpa [fmtAnonParams, anonToks] using this
    | cons t l =>
      have h1 := reads_moreTypes (l := l) (fun e he => h e (by simp [he])) (end_dots b s x) (reads_dots b hr)
      have h2 := lpar (reads_bare (h t (by simp)).1 (by
        have := end_types l (end_dots b s x); simpa using this) h1)
      simpa [fmtAnonParams, anonToks, join_cons, String.toList_append, List.append_assoc] using h2

theorem start_anon (p : Option CAnonParams) : SepStart (match p with | some p => fmtAnonParams p | none => "").toList := by
  cases p with
  | none => exact .inl rfl
  | some p =>
    refine .inr ?_
    show SepNext (fmtAnonParams p).toList
    unfold fmtAnonParams
    by_cases h : p.forms.length = 0
    · rw [if_pos h]; exact ⟨'(', _, rfl, by simp [EndCh]⟩
    · rw [if_neg h]; exact ⟨'(', _, by simp [String.toList_append]; rfl, by simp [EndCh]⟩

/-! ### Typedefs -/

theorem digits_digit (n : Nat) : ∀ c ∈ (toString n).toList, cDigit c = true := by
  intro c hc
  have h : c ∈ Nat.toDigits 10 n := by simpa [Nat.toString_eq_repr, Nat.repr] using hc
  have := Nat.isDigit_of_mem_toDigits (by omega) (by omega) h
  simp only [Char.isDigit, Bool.and_eq_true, decide_eq_true_eq] at this
  simp only [cDigit, Bool.and_eq_true, decide_eq_true_eq]
  exact this

theorem digits_tail : ∀ {cs : List Char} (p), (∀ c ∈ cs, cDigit c = true) → PPTail p cs
  | [], _, _ => trivial
  | c :: cs, p, h => ⟨.inl (by simp [cIdChar, h c (by simp)]), digits_tail c fun d hd => h d (by simp [hd])⟩

theorem digits_ne (n : Nat) : (toString n).toList ≠ [] := by
  intro h
  simp [Nat.toString_eq_repr, Nat.repr] at h

/-- A number is one in C. -/
theorem plain_nat (n : Nat) : PlainLit ty (.number (toString n)) := by
  cases h : (toString n).toList with
  | nil => exact absurd h (digits_ne n)
  | cons c cs =>
    have hd := digits_digit n
    rw [h] at hd
    exact ⟨c, cs, h, hd c (by simp), digits_tail c fun d hd' => hd d (by simp [hd'])⟩

theorem start_size (n : Nat) : SepStart (if n > 0 then "[" ++ toString n ++ "]" else "").toList := by
  split
  · exact .inr ⟨'[', _, by simp [String.toList_append]; rfl, by simp [EndCh]⟩
  · exact .inl rfl

theorem reads_size (ty : String → Bool) (n : Nat) {s ts x} (hr : CReads s ts x) :
    CReads ((if n > 0 then "[" ++ toString n ++ "]" else "").toList ++ s) (sizeToks n ++ ts) x := by
  cases n with
  | zero => exact hr
  | succ n =>
    have := lbrk (reads (ty := ty) (e := .lit (.number (toString (n + 1)))) (plain_nat _)
      (after_sep (by simp [EndCh])) (rbrk hr))
    simpa [sizeToks, toksE, litToks, fmtExpr, formatLiteral, String.toList_append, List.append_assoc] using this

theorem kType_text (t : CTypename) : (formatType t).toList =
    (if t.isConst then "const ".toList else []) ++
      ((if (kType t).isStruct then "struct ".toList else []) ++ (kType t).name.toList) := by
  unfold formatType kType
  rw [String.toList_append]
  congr 1
  · split <;> rfl
  · split
    · next h => rw [h]; simp
    · simp

theorem kType_const (t : CTypename) : (kType t).isConst = t.isConst := by
  unfold kType; split <;> rfl

theorem kType_word {t : KType} (h : PlainKType ty t) : CWord t.name.toList := by
  unfold PlainKType at h
  split at h
  · exact h.1
  · exact h.1

theorem reads_kType {t : CTypename} (h : PlainKType ty (kType t)) {s ts x} (hr : CReads s ts x) :
    CReads ((formatType t).toList ++ ' ' :: s) (kTypeToks (kType t) ++ ts) x := by
  have h1 := keyword (kType_word h) rfl (c := ' ') (by simp [EndCh]) (sp hr)
  have h2 : CReads ((if (kType t).isStruct then "struct ".toList else []) ++ ((kType t).name.toList ++ ' ' :: s))
      ((if (kType t).isStruct then [.word "struct"] else []) ++ .word (kType t).name :: ts) x := by
    cases (kType t).isStruct with
    | false => exact h1
    | true => exact keyword (w := "struct") (word_of (by decide)) rfl (c := ' ') (by simp [EndCh]) (sp h1)
  rw [kType_text, kTypeToks, kType_const, List.append_assoc, List.append_assoc, List.append_assoc, List.append_assoc]
  cases t.isConst with
  | false => exact h2
  | true => exact keyword (w := "const") const_ident rfl (c := ' ') (by simp [EndCh]) (sp h2)

theorem reads_typedef {d : CTypedef} (h : PlainElem ty (.typedef d)) {s ts x} (hr : CReads s ts x) :
    CReads ((formatTypedef d).toList ++ s) (elemToks (.typedef d) ++ ts) x := by
  obtain ⟨h1, ⟨n, hn⟩, h3, h4⟩ := h
  have k0 := semi (nl hr)
  have k1 := reads_size ty d.form.size k0
  have k2 := reads_anon h4 k1
  have k3 := word (w := d.form.alias) h3.1 (after_of_sep (e := .ident "") (by
    have e2 : SepNext (((if d.form.size > 0 then "[" ++ toString d.form.size ++ "]" else "").toList ++ ';' :: '\n' :: s) ++ x) :=
      (start_size d.form.size).append (sep_of (by simp) _)
    have := (start_anon d.form.params).append e2
    rwa [List.append_assoc] at this ⊢
    )).1 k2
  have k4 := stars_reads (by
    intro c y hy
    obtain ⟨e, es, he, hl, _⟩ := h3.1
    rw [he] at hy
    injection hy with hy _
    rw [← hy]; exact hl) k3 n
  have k5 := reads_kType h1 k4
  have := keyword (w := "typedef") (word_of (by decide)) rfl (c := ' ') (by simp [EndCh]) (sp k5)
  have hl : d.form.stars.toList.length = n := by rw [hn]; simp
  have hs : d.form.stars.toList = List.replicate n '*' := by rw [hn]; simp
  clear k0 k1 k2 k3 k4 k5 h4 hn
  obtain ⟨pub, tn, st, ps, sz, al⟩ := d
  simp only at hl hs
  simp only [formatTypedef, elemToks, hl]
  cases ps <;> simpa [hs, String.toList_append, List.append_assoc] using this

/-! ### Functions -/

theorem form_main (f : CForm) (h : PlainForm ty f) :
    (formatForm f != "main") = !(f.stars == "" && f.name == "main" && f.indexes.isEmpty) := by
  obtain ⟨st, nm, is⟩ := f
  obtain ⟨⟨n, hn⟩, hw, _⟩ := h
  simp only at hn hw
  have key : formatForm ⟨st, nm, is⟩ = "main" ↔ st = "" ∧ nm = "main" ∧ is = [] := by
    constructor
    · intro hf
      have hf : (st ++ nm ++ String.join (is.map formatIndex)).toList = "main".toList := by rw [← hf]; rfl
      rw [String.toList_append, String.toList_append, hn, String.toList_ofList] at hf
      cases n with
      | succ n =>
        exfalso
        injection hf with hf _
        exact absurd hf (by decide)
      | zero =>
        cases is with
        | nil =>
          refine ⟨by rw [hn]; rfl, ?_, rfl⟩
          apply String.toList_inj.mp
          simpa using hf
        | cons i is =>
          exfalso
          have hm : '[' ∈ "main".toList := by
            rw [← hf]
            cases i <;> simp [formatIndex, String.toList_append]
          exact absurd hm (by decide)
    · rintro ⟨rfl, rfl, rfl⟩
      rfl
  by_cases hf : formatForm ⟨st, nm, is⟩ = "main"
  · obtain ⟨rfl, rfl, rfl⟩ := key.mp hf
    simp [hf]
  · rw [bne_iff_ne.mpr hf]
    symm
    rw [Bool.not_eq_true', Bool.eq_false_iff]
    intro h
    simp only [Bool.and_eq_true, beq_iff_eq, List.isEmpty_iff] at h
    exact hf (key.mpr ⟨h.1.1, h.1.2, h.2⟩)

theorem reads_static {b : Bool} {f : CForm} (h : PlainForm ty f) {s ts x} (hr : CReads s ts x) :
    CReads ((staticMark b (formatForm f)).toList ++ s) (staticToks (kStatic b f) ++ ts) x := by
  unfold staticMark staticToks kStatic
  rw [form_main f h]
  split
  · exact keyword (w := "static") (word_of (by decide)) rfl (c := ' ') (by simp [EndCh]) (sp hr)
  · exact hr

/-- Elements that are no directives. -/
def isDir : CModElem → Bool
  | .include _ => true
  | .macro _ => true
  | _ => false

theorem readsElem {e : CModElem} (h : PlainElem ty e) (hd : isDir e = false) {s ts x} (hr : CReads s ts x) :
    CReads ((formatElem e).toList ++ s) (elemToks e ++ ts) x := by
  cases e with
  | «include» x => cases hd
  | «macro» x => cases hd
  | forwardStruct w =>
    have h1 := keyword h.1 rfl (c := ';') (by simp [EndCh]) (semi (nl hr))
    have := keyword (w := "struct") (word_of (by decide)) rfl (c := ' ') (by simp [EndCh]) (sp h1)
    simpa [formatElem, elemToks, String.toList_append, List.append_assoc] using this
  | forwardFunc f =>
    obtain ⟨h1, h2, h3⟩ := h
    have k1 := reads_params h3 (semi (nl hr))
    have k2 := reads_form h2 (sep_of (by simp) _) (sp k1)
    have := reads_static (b := f.isStatic) h2 (reads_spec h1.1 k2)
    simpa [formatElem, fmtForwardFunc, elemToks, String.toList_append, List.append_assoc] using this
  | defEnum d => exact reads_enum h hr
  | typedef d => exact reads_typedef h hr
  | structDef d => exact reads_struct h hr
  | varDecl d =>
    obtain ⟨h1, h2, h3⟩ := h
    have k0 := reads h3 (after_sep (by simp [EndCh])) (semi (nl hr))
    have k1 := reads_form h2 (sep_of (by simp) _) (sp (opSpace (p := "=") (by decide) k0))
    have := keyword (w := "static") (word_of (by decide)) rfl (c := ' ') (by simp [EndCh]) (sp (reads_spec h1.1 k1))
    simpa [formatElem, elemToks, String.toList_append, List.append_assoc] using this
  | funcDef f =>
    obtain ⟨h1, h2, h3, h4⟩ := h
    have k0 := reads_block (fun x => readsSs' h4 x) hr
    have k1 := reads_params h3 (sp k0)
    have k2 := reads_form h2 (sep_of (by simp) _) (sp k1)
    have := reads_static (b := f.isStatic) h2 (reads_spec h1.1 k2)
    simpa [formatElem, fmtFuncDef, formatBody, elemToks, String.toList_append, List.append_assoc] using this

end Che.Proofs.CUnitToks
