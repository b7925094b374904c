import Verif.Proofs.LexRun
import Verif.Spec.Strings
import Verif.Spec.Demo
import Verif.Model.FormatC
import Verif.Model.Translator
/-!
# C08, C09: literals
-/
namespace Che.Props
open Spec

/-! ## C09: numbers and characters -/

theorem lexeme_num [Unicode] {c : String} {lx r : List Char} (h : Lexeme "num" c lx r) :
    c.toList = lx := by
  generalize hk : "num" = k at h
  cases h with
  | hex => rw [String.toList_ofList]
  | dec => simp
  | keyword a1 a2 a3 a4 => rw [← hk] at a4; exact absurd a4 (by decide)
  | op a1 => rw [← hk] at a1; exact absurd a1 (by decide +kernel)
  | _ => exact absurd hk (by decide)

theorem lexeme_char [Unicode] {c : String} {lx r : List Char} (h : Lexeme "char" c lx r) :
    lx = '\'' :: c.toList ++ ['\''] := by
  generalize hk : "char" = k at h
  cases h with
  | chr => simp
  | escChr => simp
  | keyword a1 a2 a3 a4 => rw [← hk] at a4; exact absurd a4 (by decide)
  | op a1 => rw [← hk] at a1; exact absurd a1 (by decide +kernel)
  | _ => exact absurd hk (by decide)

/-- What the compiler makes of a literal token: parsed, translated, printed. -/
def carry (t : Token) (rest : List Token) : Option (String × List Token) :=
  match parseLiteral (t :: rest) with
  | .ok l rest' => some (FormatC.fmtExpr (.lit (trLiteral l)), rest')
  | _ => none

/-- **C09.** A number or character literal reaches the C output with exactly its
source spelling. -/
theorem C09_verbatim [Unicode] {kind content : String} {lx r : List Char}
    (h : Lexeme kind content lx r) (hk : kind = "num" ∨ kind = "char") (pos : Pos)
    (rest : List Token) :
    carry ⟨kind, content, pos⟩ rest = some (String.ofList lx, rest) := by
  rcases hk with rfl | rfl
  · have := lexeme_num h
    subst this
    have e : parseLiteral (⟨"num", content, pos⟩ :: rest) = .ok (.number content) rest := rfl
    simp [carry, e, trLiteral, FormatC.fmtExpr, FormatC.formatLiteral]
  · have := lexeme_char h
    subst this
    have e : parseLiteral (⟨"char", content, pos⟩ :: rest) = .ok (.char content) rest := rfl
    simp only [carry, e, trLiteral, FormatC.fmtExpr, FormatC.formatLiteral]
    congr 2
    apply String.ext
    simp

/-- In an expression the literal is this token alone. -/
theorem C09_atom {kind content : String} (hk : kind = "num" ∨ kind = "char" ∨ kind = "string")
    (n : Nat) (ctx : ParseCtx) (pos : Pos) (rest : List Token) :
    parseAtom (n + 1) ctx (⟨kind, content, pos⟩ :: rest) =
      match parseLiteral (⟨kind, content, pos⟩ :: rest) with
      | .ok l ts => .ok (.lit l) ts
      | .err e ts => .err e ts
      | .panic m => .panic m
      | .diverge => .diverge := by
  rcases hk with rfl | rfl | rfl <;> rfl

/-- **C09 (translation).** Literals are translated to themselves. -/
theorem C09_translated (l : Literal) :
    trExpr (.lit l) = pure (typeofLiteral l, .lit (trLiteral l)) := rfl

/-- **C09, partial: exponents.** A decimal number with an unsigned or a negative
exponent is one token. -/
theorem C09_exponent_partial [Unicode] {dot : Bool} {m d u r : List Char} {e : Char}
    (hm : Mantissa dot m) (he : ExpMark e) (hd : d ≠ []) (hd' : All Digit d) (hu : All (Suffix dot) u)
    (hr1 : Stops Letter r) (hr2 : Stops Digit r) {minus : List Char}
    (hmin : minus = [] ∨ minus = ['-']) :
    scan1 (m ++ (e :: minus ++ d) ++ u ++ r) =
      .tok "num" (String.ofList (m ++ (e :: minus ++ d) ++ u)) 0
        (m ++ (e :: minus ++ d) ++ u).length := by
  have hsl : ∀ c, Suffix dot c → Letter c := by
    rintro c (rfl | rfl | ⟨_, rfl⟩) <;> (unfold Letter; decide)
  have hel : Letter e := by rcases he with rfl | rfl <;> (unfold Letter; decide)
  have hdl : ∀ c, Letter c → ¬ Digit c := fun c h1 h2 => letter_not_digit h2 (.inl h1)
  have hstop : Stops Digit (u ++ r) := by
    intro c hc
    cases u with
    | nil => exact hr2 c hc
    | cons x u => cases hc; exact hdl _ (hsl _ (hu _ (by simp)))
  have hex : Exponent (e :: minus ++ d) (u ++ r) := by
    rcases hmin with rfl | rfl
    · refine .plus he hd' hstop ?_ (by simp [hd])
      obtain ⟨c, d', rfl⟩ := List.exists_cons_of_ne_nil hd
      intro c' hc'
      cases hc'
      have := hd' c (by simp)
      rintro rfl
      revert this
      unfold Digit; decide
    · exact .minus he hd' hstop
  refine scan1_lexeme (Lexeme.dec hm hex hu (hr1.mono hsl) hr1 ?_ ?_)
  · intro h
    obtain ⟨c, m', rfl, hc, hm'⟩ : ∃ c m', m = c :: m' ∧ Digit c ∧ (∀ x, m'.head? = some x → x ≠ 'x') := by
      cases hm with
      | whole h1 h2 =>
        obtain ⟨c, d', rfl⟩ := List.exists_cons_of_ne_nil h1
        refine ⟨c, d', rfl, h2 c (by simp), ?_⟩
        rintro x hx rfl
        cases d' with
        | nil => cases hx
        | cons y d' =>
          cases hx
          have := h2 'x' (by simp)
          revert this; unfold Digit; decide
      | dotted h1 h2 h3 =>
        obtain ⟨c, d', rfl⟩ := List.exists_cons_of_ne_nil h1
        refine ⟨c, d' ++ '.' :: _, rfl, h2 c (by simp), ?_⟩
        rintro x hx rfl
        cases d' with
        | nil => simp at hx
        | cons y d' =>
          cases hx
          have := h2 'x' (by simp)
          revert this; unfold Digit; decide
    obtain ⟨t, ht⟩ := h
    cases m' with
    | nil =>
      simp at ht
      rcases he with rfl | rfl <;> simp at ht
    | cons y m' =>
      simp at ht
      exact hm' y rfl ht.2.1.symm
  · intro c hc
    cases hc
    rintro (h | ⟨_, h⟩)
    · exact hdl _ hel h
    · rw [h] at hel; revert hel; unfold Letter; decide

/-- **C09, the full claim about exponents**, with the plus sign. -/
def C09_full [Unicode] : Prop :=
  ∀ (m d : List Char) (sign : List Char), Mantissa false m → d ≠ [] → All Digit d →
    sign = [] ∨ sign = ['-'] ∨ sign = ['+'] →
    scan1 (m ++ ('e' :: sign ++ d)) =
      .tok "num" (String.ofList (m ++ ('e' :: sign ++ d))) 0 (m ++ ('e' :: sign ++ d)).length

theorem C09_counterexample [Unicode] : ¬ C09_full := by
  intro h
  have := h ['1'] ['5'] ['+'] (.whole (by simp) (by intro c hc; simp at hc; subst hc; unfold Digit; decide))
    (by simp) (by intro c hc; simp at hc; subst hc; unfold Digit; decide) (by simp)
  have e : scan1 (['1'] ++ ('e' :: ['+'] ++ ['5'])) = .tok "num" "1e" 0 2 := rfl
  rw [e] at this
  revert this
  decide

/-! ## C08: strings -/

theorem chars_append {nl : Bool} {w v u v' : List _} (h : Chars nl w v) (hu : Chars nl u v')
    (hs : SafeJoin w u) : Chars nl (w ++ u) (v ++ v') := by
  induction h with
  | nil => exact hu
  | @plain c w v h1 h2 h3 h4 ih =>
    refine .plain h1 h2 h3 (ih ⟨fun a d e => hs.1 (c :: a) d (by rw [e]; rfl),
      fun a d e => hs.2 (c :: a) d (by rw [e]; rfl)⟩)
  | @simple c n w v h1 h2 ih =>
    exact .simple h1 (ih ⟨fun a d e => hs.1 ('\\' :: c :: a) d (by rw [e]; rfl),
      fun a d e => hs.2 ('\\' :: c :: a) d (by rw [e]; rfl)⟩)
  | @octal d w v h1 h2 h3 h4 h5 ih =>
    have := ih ⟨fun a d' e => hs.1 ('\\' :: d ++ a) d' (by rw [e]; simp),
      fun a d' e => hs.2 ('\\' :: d ++ a) d' (by rw [e]; simp)⟩
    have := Chars.octal h1 h2 h3 (fun hl => by
      cases w with
      | nil => exact hs.2 [] d (by simp) h1 hl h3
      | cons c w => exact fun x hx => h4 hl x (by simpa using hx)) this
    simpa only [List.append_assoc, List.cons_append] using this
  | @hex d w v h1 h2 h3 h4 ih =>
    have := ih ⟨fun a d' e => hs.1 ('\\' :: 'x' :: d ++ a) d' (by rw [e]; simp),
      fun a d' e => hs.2 ('\\' :: 'x' :: d ++ a) d' (by rw [e]; simp)⟩
    have := Chars.hex h1 h2 (by
      cases w with
      | nil => exact hs.1 [] d (by simp) h1 h2
      | cons c w => exact fun x hx => h3 x (by simpa using hx)) this
    simpa only [List.append_assoc, List.cons_append] using this

/-- Text with no line break in it is the same for C. -/
theorem chars_line {nl : Bool} {w : List Char} {v : List Nat} (h : Chars nl w v) (hw : '\n' ∉ w) :
    Chars false w v := by
  induction h with
  | nil => exact .nil
  | plain h1 h2 h3 _ ih =>
    simp at hw
    exact .plain h1 h2 (fun e => absurd e.symm hw.1) (ih hw.2)
  | simple h1 _ ih => simp at hw; exact .simple h1 (ih hw.2)
  | octal h1 h2 h3 h4 _ ih => simp at hw; exact .octal h1 h2 h3 h4 (ih hw.2)
  | hex h1 h2 h3 _ ih => simp at hw; exact .hex h1 h2 h3 (ih hw.2)

theorem hex_ne_newline : ¬ HexDigit '\n' := by unfold HexDigit Digit; decide
theorem octal_ne_newline : ¬ Octal '\n' := by unfold Octal; decide

theorem split_prefix {d w l r : List Char} (h : d ++ w = l ++ '\n' :: r) (hd : '\n' ∉ d) :
    ∃ l', l = d ++ l' ∧ w = l' ++ '\n' :: r := by
  induction d generalizing l with
  | nil => exact ⟨l, rfl, h⟩
  | cons c d ih =>
    simp at hd
    cases l with
    | nil => simp at h; exact absurd h.1.symm hd.1
    | cons c' l =>
      simp at h
      obtain ⟨rfl, h⟩ := h
      obtain ⟨l', rfl, e⟩ := ih h hd.2
      exact ⟨l', rfl, e⟩

/-- A line break splits a literal's text. -/
theorem chars_split {w : List Char} {v : List Nat} (h : Chars true w v) {l r : List Char}
    (e : w = l ++ '\n' :: r) (hl : '\n' ∉ l) :
    ∃ v1 v2, v = v1 ++ 10 :: v2 ∧ Chars false l v1 ∧ Chars true r v2 := by
  induction h generalizing l with
  | nil => simp at e
  | @plain c w v h1 h2 h3 h4 ih =>
    cases l with
    | nil =>
      simp at e
      obtain ⟨rfl, rfl⟩ := e
      exact ⟨[], v, rfl, .nil, h4⟩
    | cons c' l =>
      simp at e hl
      obtain ⟨rfl, e⟩ := e
      obtain ⟨v1, v2, rfl, h5, h6⟩ := ih e hl.2
      exact ⟨_, v2, rfl, .plain h1 h2 (fun e => absurd e.symm hl.1) h5, h6⟩
  | @simple c n w v h1 h2 ih =>
    cases l with
    | nil => simp at e
    | cons c' l =>
      simp at e hl
      obtain ⟨rfl, e⟩ := e
      cases l with
      | nil =>
        simp at e
        rw [e.1] at h1
        simp [simpleEscape] at h1
      | cons c'' l =>
        simp at e hl
        obtain ⟨rfl, e⟩ := e
        obtain ⟨v1, v2, rfl, h5, h6⟩ := ih e hl.2
        exact ⟨_, v2, rfl, .simple h1 h5, h6⟩
  | @octal d w v h1 h2 h3 h4 h5 ih =>
    have hd : '\n' ∉ '\\' :: d := by
      intro h
      simp at h
      exact octal_ne_newline (h3 _ h)
    obtain ⟨l', rfl, e'⟩ := split_prefix (d := '\\' :: d) e hd
    have hl' : '\n' ∉ l' := fun h => hl (by simp [h])
    obtain ⟨v1, v2, rfl, h6, h7⟩ := ih e' hl'
    refine ⟨_, v2, rfl, .octal h1 h2 h3 (fun hlt c hc => ?_) h6, h7⟩
    refine h4 hlt c ?_
    rw [e']
    cases l' with
    | nil => cases hc
    | cons => exact hc
  | @hex d w v h1 h2 h3 h4 ih =>
    have hd : '\n' ∉ '\\' :: 'x' :: d := by
      intro h
      simp at h
      exact hex_ne_newline (h2 _ h)
    obtain ⟨l', rfl, e'⟩ := split_prefix (d := '\\' :: 'x' :: d) e hd
    have hl' : '\n' ∉ l' := fun h => hl (by simp [h])
    obtain ⟨v1, v2, rfl, h6, h7⟩ := ih e' hl'
    refine ⟨_, v2, rfl, .hex h1 h2 (fun c hc => ?_) h6, h7⟩
    refine h3 c ?_
    rw [e']
    cases l' with
    | nil => cases hc
    | cons => exact hc

/-- How a string is printed, on lists of characters. -/
theorem emit_line (l : List Char) (hl : '\n' ∉ l) :
    (FormatC.formatLiteral (.string (String.ofList l))).toList = '"' :: l ++ ['"'] := by
  have : RStr.splitL '\n' l = [l] := by
    induction l with
    | nil => rfl
    | cons c l ih =>
      simp at hl
      rw [RStr.splitL, if_neg (fun e => hl.1 e.symm), ih hl.2]
  simp [FormatC.formatLiteral, RStr.split, this, RStr.join]

theorem splitL_ne {s : List Char} : RStr.splitL '\n' s ≠ [] := by
  cases s with
  | nil => simp [RStr.splitL]
  | cons c s =>
    rw [RStr.splitL]
    split
    · simp
    · split <;> simp

theorem emit_lines (l r : List Char) (hl : '\n' ∉ l) :
    (FormatC.formatLiteral (.string (String.ofList (l ++ '\n' :: r)))).toList =
      '"' :: l ++ '"' :: ('"' :: '\\' :: 'n' :: '"' :: '\n' ::
        (FormatC.formatLiteral (.string (String.ofList r))).toList) := by
  have : RStr.splitL '\n' (l ++ '\n' :: r) = l :: RStr.splitL '\n' r := by
    induction l with
    | nil => simp [RStr.splitL]
    | cons c l ih =>
      simp at hl
      rw [List.cons_append, RStr.splitL, if_neg (fun e => hl.1 e.symm), ih hl.2]
  simp only [FormatC.formatLiteral, RStr.split, String.toList_ofList, this, List.map_cons]
  obtain ⟨p, ps, e⟩ := List.exists_cons_of_ne_nil (splitL_ne (s := r))
  rw [e]
  simp [RStr.join]

/-- **C08 (emission).** The C text emitted for a string whose content denotes `v`
denotes `v`: line breaks come out as newline characters. -/
theorem C08_emitted {s : List Char} {v : List Nat} (h : Chars true s v) :
    Denotes false (FormatC.formatLiteral (.string (String.ofList s))).toList v := by
  generalize hn : s.length = n
  induction n using Nat.strongRecOn generalizing s v with
  | _ n ih =>
    obtain ⟨l, r, rfl, hl, hr⟩ := line_split s
    cases r with
    | nil =>
      rw [List.append_nil] at h ⊢
      rw [emit_line l hl]
      have := Denotes.part (sp := []) (chars_line h hl) (by intro c hc; simp at hc) (.nil (nl := false))
      simpa using this
    | cons c r =>
      have : c = '\n' := hr c rfl
      subst this
      obtain ⟨v1, v2, rfl, h1, h2⟩ := chars_split h rfl hl
      rw [emit_lines l r hl]
      have h3 := ih r.length (by simp at hn; omega) h2 rfl
      have hn : Chars false ['\\', 'n'] [10] := .simple rfl .nil
      have h4 := Denotes.part (sp := ['\n']) hn (by
        intro c hc; simp at hc; subst hc; exact .inr (.inr (.inl rfl))) h3
      have h5 := Denotes.part (sp := []) h1 (by intro c hc; simp at hc) h4
      simpa using h5

theorem chars_body {nl : Bool} {w : List Char} {v : List Nat} (h : Chars nl w v) : StrBody w := by
  induction h with
  | nil => exact .nil
  | plain h1 h2 _ _ ih => exact .plain h2 h1 ih
  | simple _ _ ih => exact .escaped ih
  | @octal d w v h1 h2 h3 h4 _ ih =>
    obtain ⟨c, d', rfl⟩ := List.exists_cons_of_ne_nil h1
    refine .escaped ?_
    have : ∀ x ∈ d', Octal x := fun x hx => h3 x (by simp [hx])
    clear h1 h2 h3 h4
    induction d' with
    | nil => exact ih
    | cons x d' ih' =>
      refine .plain ?_ ?_ (ih' (fun y hy => this y (by simp [hy])))
      · rintro rfl; have := this '"' (by simp); revert this; unfold Octal; decide
      · rintro rfl; have := this '\\' (by simp); revert this; unfold Octal; decide
  | @hex d w v h1 h2 _ _ ih =>
    refine .escaped ?_
    clear h1
    induction d with
    | nil => exact ih
    | cons x d' ih' =>
      refine .plain ?_ ?_ (ih' (fun y hy => h2 y (by simp [hy])))
      · rintro rfl; have := h2 '"' (by simp); revert this; unfold HexDigit Digit; decide
      · rintro rfl; have := h2 '\\' (by simp); revert this; unfold HexDigit Digit; decide

/-- The text of a literal determines its content. -/
theorem parts_content {s t : List Char} (h : StrParts s t) {ps : List StrPart}
    (e : t = ps.flatMap StrPart.text) (hp : Parts ps) : s = ps.flatMap StrPart.body := by
  induction h generalizing ps with
  | nil =>
    cases ps with
    | nil => rfl
    | cons p ps => simp [StrPart.text] at e
  | @part w sp s t h1 h2 h3 _ ih =>
    cases ps with
    | nil => simp at e
    | cons p ps =>
      obtain ⟨h4, h5, _, h6⟩ := hp
      simp only [List.flatMap_cons, StrPart.text, List.cons_append, List.append_assoc,
        List.cons.injEq, true_and] at e
      have e1 := strBody_eq (r := sp ++ t) h1
      rw [e, strBody_eq (chars_body h4)] at e1
      simp only [Option.some.injEq] at e1
      rw [← e1] at e ⊢
      have e2 : sp ++ t = p.blanks ++ ps.flatMap StrPart.text := by
        have := List.append_cancel_left e
        simpa using this
      have hst : Stops Blank (ps.flatMap StrPart.text) := by
        intro c hc
        cases ps with
        | nil => cases hc
        | cons q ps =>
          simp [StrPart.text] at hc
          subst hc
          unfold Blank; decide
      have e3 := dropWhile_all (p := Blank) (q := SPACES.contains) (fun c => blank_iff) h2 h3
      have e4 := dropWhile_all (p := Blank) (q := SPACES.contains) (fun c => blank_iff) h5 hst
      rw [e2, e4] at e3
      rw [ih e3.symm h6]
      rfl

theorem parts_value {ps : List StrPart} (h : Parts ps) :
    Chars true (ps.flatMap StrPart.body) (ps.flatMap StrPart.value) ∧
    Denotes true (ps.flatMap StrPart.text) (ps.flatMap StrPart.value) := by
  induction ps with
  | nil => exact ⟨.nil, .nil⟩
  | cons p ps ih =>
    obtain ⟨h1, h2, h3, h4⟩ := h
    obtain ⟨i1, i2⟩ := ih h4
    refine ⟨chars_append h1 i1 h3, ?_⟩
    have := Denotes.part h1 h2 i2
    simpa [StrPart.text, List.flatMap_cons] using this

theorem lexeme_str [Unicode] {c : String} {lx r : List Char} (h : Lexeme "string" c lx r) :
    StrParts c.toList lx := by
  generalize hk : "string" = k at h
  cases h with
  | str h => simpa using h
  | keyword a1 a2 a3 a4 => rw [← hk] at a4; exact absurd a4 (by decide)
  | op a1 => rw [← hk] at a1; exact absurd a1 (by decide +kernel)
  | _ => exact absurd hk (by decide)

/-- **C08, partial.** A string literal in parts (line breaks allowed in each) that
may be joined, denoting `v`: the C text the compiler prints for its token denotes
`v`. -/
theorem C08_partial [Unicode] {content : String} {lx r : List Char}
    (h : Lexeme "string" content lx r) {ps : List StrPart} (e : lx = ps.flatMap StrPart.text)
    (hp : Parts ps) (pos : Pos) (rest : List Token) :
    Denotes true lx (ps.flatMap StrPart.value) ∧
    ∃ out, carry ⟨"string", content, pos⟩ rest = some (out, rest) ∧
      Denotes false out.toList (ps.flatMap StrPart.value) := by
  have hc := parts_content (lexeme_str h) e hp
  obtain ⟨h1, h2⟩ := parts_value hp
  refine ⟨by rw [e]; exact h2, _, rfl, ?_⟩
  rw [← hc] at h1
  have := C08_emitted h1
  rw [String.ofList_toList] at this
  exact this

/-- **C08 (one part).** A literal of one part needs no condition. -/
theorem C08_single [Unicode] {content : String} {w sp r : List Char}
    (h : Lexeme "string" content ('"' :: w ++ '"' :: sp) r) {v : List Nat} (hv : Chars true w v)
    (hsp : Blanks sp) (pos : Pos) (rest : List Token) :
    ∃ out, carry ⟨"string", content, pos⟩ rest = some (out, rest) ∧ Denotes false out.toList v := by
  have := (C08_partial h (ps := [⟨w, sp, v⟩]) (by simp [StrPart.text])
    ⟨hv, hsp, ⟨fun _ _ _ _ _ c hc => (by cases hc), fun _ _ _ _ _ _ c hc => (by cases hc)⟩, trivial⟩
    pos rest).2
  simpa using this

theorem run_unique {p : Char → Prop} {d w d' w' : List Char} {k : Nat} (e : d ++ w = d' ++ w')
    (h1 : All p d) (h2 : All p d') (hl : d.length ≤ k) (hl' : d'.length ≤ k)
    (h3 : d.length < k → Stops p w) (h4 : d'.length < k → Stops p w') : d = d' ∧ w = w' := by
  have key : ∀ {d w d' w' : List Char}, d' = d ++ w → d'.length ≤ k → All p d' →
      (d.length < k → Stops p (w ++ w')) → w = [] := by
    rintro d w d' w' rfl hl h1 h2
    cases w with
    | nil => rfl
    | cons c w =>
      exfalso
      simp at hl
      exact h2 (by omega) c rfl (h1 c (by simp))
  rcases List.append_eq_append_iff.1 e with ⟨a, rfl, rfl⟩ | ⟨a, rfl, rfl⟩
  · have := key rfl hl' h2 h3
    subst this; simp
  · have := key rfl hl h1 h4
    subst this; simp

theorem octal_not_simple {c : Char} (h : Octal c) : simpleEscape c = none := by
  unfold simpleEscape
  split <;> first | rfl | exact absurd h (by unfold Octal; decide)

/-- What a literal denotes is determined by its text. -/
theorem chars_unique {nl : Bool} {w : List Char} {v v' : List Nat} (h : Chars nl w v)
    (h' : Chars nl w v') : v = v' := by
  induction h generalizing v' with
  | nil => cases h'; rfl
  | @plain c w v h1 h2 h3 _ ih =>
    cases h' with
    | plain _ _ _ h => rw [ih h]
    | simple => exact absurd rfl h1
    | octal => exact absurd rfl h1
    | hex => exact absurd rfl h1
  | @simple c n w v h1 _ ih =>
    generalize hw : '\\' :: c :: w = w' at h'
    cases h' with
    | nil => cases hw
    | plain a1 _ _ h => cases hw; exact absurd rfl a1
    | simple a1 h =>
      cases hw
      rw [h1] at a1
      cases a1
      rw [ih h]
    | octal a1 a2 a3 =>
      obtain ⟨x, d', rfl⟩ := List.exists_cons_of_ne_nil a1
      simp at hw
      obtain ⟨rfl, -⟩ := hw
      have := a3 c (by simp)
      rw [octal_not_simple this] at h1; cases h1
    | hex =>
      simp at hw
      obtain ⟨rfl, -⟩ := hw
      simp [simpleEscape] at h1
  | @octal d w v h1 h2 h3 h4 _ ih =>
    generalize hw : '\\' :: (d ++ w) = w' at h'
    cases h' with
    | nil => cases hw
    | plain a1 _ _ h => cases hw; exact absurd rfl a1
    | @simple c n w1 v1 a1 h =>
      obtain ⟨x, d', rfl⟩ := List.exists_cons_of_ne_nil h1
      simp at hw
      obtain ⟨rfl, -⟩ := hw
      have := h3 x (by simp)
      rw [octal_not_simple this] at a1; cases a1
    | octal a1 a2 a3 a4 h =>
      simp only [List.cons.injEq, true_and] at hw
      obtain ⟨rfl, rfl⟩ := run_unique hw h3 a3 h2 a2 h4 a4
      rw [ih h]
    | hex =>
      obtain ⟨x, d', rfl⟩ := List.exists_cons_of_ne_nil h1
      simp at hw
      obtain ⟨rfl, -⟩ := hw
      have := h3 'x' (by simp)
      exact absurd this (by unfold Octal; decide)
  | @hex d w v h1 h2 h3 _ ih =>
    generalize hw : '\\' :: 'x' :: (d ++ w) = w' at h'
    cases h' with
    | nil => cases hw
    | plain a1 _ _ h => cases hw; exact absurd rfl a1
    | simple a1 => cases hw; simp [simpleEscape] at a1
    | octal a1 a2 a3 =>
      obtain ⟨x, d', rfl⟩ := List.exists_cons_of_ne_nil a1
      simp at hw
      obtain ⟨rfl, -⟩ := hw
      have := a3 'x' (by simp)
      exact absurd this (by unfold Octal; decide)
    | @hex d' w' v' a1 a2 a3 h =>
      simp only [List.cons.injEq, true_and] at hw
      obtain ⟨rfl, rfl⟩ := run_unique (k := d.length + d'.length + 1) hw h2 a2 (by omega) (by omega)
        (fun _ => h3) (fun _ => a3)
      rw [ih h]

theorem denotes_stops {nl : Bool} {t : List Char} {v : List Nat} (h : Denotes nl t v) :
    Stops Blank t := by
  cases h with
  | nil => intro c hc; cases hc
  | part => intro c hc; cases hc; unfold Blank; decide

theorem denotes_unique {nl : Bool} {t : List Char} {v v' : List Nat} (h : Denotes nl t v)
    (h' : Denotes nl t v') : v = v' := by
  induction h generalizing v' with
  | nil =>
    generalize hw : ([] : List Char) = t at h'
    cases h' with
    | nil => rfl
    | part => simp at hw
  | @part w v sp t vs h1 h2 h3 ih =>
    generalize hw : '"' :: w ++ '"' :: sp ++ t = t' at h'
    cases h' with
    | nil => simp at hw
    | @part w' v' sp' t1 vs' a1 a2 a3 =>
      simp only [List.cons_append, List.append_assoc, List.cons.injEq, true_and] at hw
      have e1 := strBody_eq (r := sp ++ t) (chars_body h1)
      rw [hw, strBody_eq (chars_body a1)] at e1
      simp only [Option.some.injEq] at e1
      subst e1
      have hw : sp ++ t = sp' ++ t1 := by simpa using List.append_cancel_left hw
      have e3 := dropWhile_all (p := Blank) (q := SPACES.contains) (fun c => blank_iff) h2
        (denotes_stops h3)
      have e4 := dropWhile_all (p := Blank) (q := SPACES.contains) (fun c => blank_iff) a2
        (denotes_stops a3)
      rw [hw, e4] at e3
      subst e3
      rw [chars_unique h1 a1, ih a3]

/-- **C08, the full claim**, with no condition on the parts. -/
def C08_full [Unicode] : Prop :=
  ∀ (content : String) (lx r : List Char) (v : List Nat), Lexeme "string" content lx r →
    Denotes true lx v → Denotes false (FormatC.formatLiteral (.string content)).toList v

theorem all_of {p : Char → Prop} [DecidablePred p] {s : List Char} (h : s.all (fun c => p c) = true) :
    All p s := by
  intro c hc
  simpa using List.all_eq_true.1 h c hc

instance : DecidablePred HexDigit := fun c => by unfold HexDigit Digit; infer_instance

/-- **C08 counterexample**: the parts `"\x1" "2"` denote the characters 1 and 50,
but are printed as `"\x12"`, the character 18. -/
theorem C08_counterexample [Unicode] : ¬ C08_full := by
  intro h
  have c1 : Chars true ['\\', 'x', '1'] [1] :=
    .hex (d := ['1']) (w := []) (by simp) (all_of (by decide)) (by intro c hc; cases hc) .nil
  have c2 : Chars true ['2'] [50] :=
    .plain (by decide) (by decide) (by decide) .nil
  have hl : Lexeme "string" (String.ofList (['\\', 'x', '1'] ++ (['2'] ++ [])))
      ('"' :: ['\\', 'x', '1'] ++ '"' :: [' '] ++ ('"' :: ['2'] ++ '"' :: [] ++ [])) [] := by
    refine .str (.part (chars_body c1) ?_ ?_ (.part (chars_body c2) ?_ ?_ .nil)) (by simp) ?_
    · intro c hc; simp at hc; subst hc; exact .inl rfl
    · intro c hc; cases hc; unfold Blank; decide
    · intro c hc; cases hc
    · intro c hc; cases hc
    · intro c hc; cases hc
  have hd := h _ _ _ _ hl (.part c1 (by intro c hc; simp at hc; subst hc; exact .inl rfl)
    (.part c2 (by intro c hc; cases hc) .nil))
  have c3 : Chars true ['\\', 'x', '1', '2'] [18] :=
    .hex (d := ['1', '2']) (w := []) (by simp) (all_of (by decide)) (by intro c hc; cases hc) .nil
  have := denotes_unique hd (C08_emitted c3)
  revert this
  decide

/-- **C08 counterexample**: with a backslash before a line break the printed text
is no sequence of C literals. -/
theorem C08_counterexample_backslash :
    (FormatC.formatLiteral (.string "a\\\nb")) = "\"a\\\"\"\\n\"\n\"b\"" ∧
    ∀ v, ¬ Denotes false "\"a\\\"\"\\n\"\n\"b\"".toList v := by
  refine ⟨by decide +kernel, fun v h => ?_⟩
  generalize hw : "\"a\\\"\"\\n\"\n\"b\"".toList = t at h
  have hb : ∀ {w r : List Char}, StrBody w → strBody (w ++ '"' :: r) = some w :=
    fun h => strBody_eq h
  cases h with
  | nil => simp at hw
  | @part w v sp t vs h1 h2 h3 =>
    have e := hb (r := sp ++ t) (chars_body h1)
    have hw' : w ++ '"' :: (sp ++ t) = "a\\\"\"\\n\"\n\"b\"".toList := by
      simp at hw ⊢
      exact hw.symm
    rw [hw'] at e
    have : strBody "a\\\"\"\\n\"\n\"b\"".toList = some ['a', '\\', '"'] := by decide +kernel
    rw [this] at e
    simp only [Option.some.injEq] at e
    subst e
    have hst := denotes_stops h3
    have hw2 : sp ++ t = ['\\', 'n', '"', '\n', '"', 'b', '"'] := by simpa using hw'
    have hsp : sp = [] := by
      cases sp with
      | nil => rfl
      | cons c sp =>
        simp at hw2
        have := h2 c (by simp)
        rw [hw2.1] at this
        exact absurd this (by unfold Blank; decide)
    subst hsp
    rw [List.nil_append] at hw2
    cases h3 with
    | nil => cases hw2
    | part => simp at hw2

section Examples
attribute [local instance] asciiOnly

/-- The C text for the first token of a text. -/
def carryText (s : String) : String :=
  match lexAll s.toList with
  | .ok (t :: ts) _ => match carry t ts with | some (o, _) => o | none => "?"
  | _ => "!"

example : carryText "0xFFUL" = "0xFFUL" := by decide +kernel
example : carryText "1.5e-3f" = "1.5e-3f" := by decide +kernel
example : carryText "'\\n'" = "'\\n'" := by decide +kernel
example : carryText "1e+5" = "1e" := by decide +kernel
example : carryText "\"a\nb\" \"c\\t\"" = "\"a\"\"\\n\"\n\"bc\\t\"" := by decide +kernel
example : carryText "\"\\x1\" \"2\"" = "\"\\x12\"" := by decide +kernel

end Examples
end Che.Props
