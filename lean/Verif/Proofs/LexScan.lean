import Verif.Model.Lexer
import Mathlib.Data.List.TakeWhile
/-!
# The lexer as a function of the remaining text

Every buffer operation moves forward over some characters; `readToken` is
rewritten as a function `scan1` of the remaining text that tells how many.
-/
namespace Che

namespace Buf

theorem get_eq (b : Buf) : b.get = b.rest.head?.map (fun c => (c, b.skipN 1)) := by
  obtain ⟨past, rest, line, col⟩ := b
  cases rest with
  | nil => rfl
  | cons c cs =>
    simp only [get, skipN, List.head?_cons, Option.map_some]
    split <;> rfl

theorem skipN_nil (n : Nat) (b : Buf) (h : b.rest = []) : b.skipN n = b := by
  induction n with
  | zero => rfl
  | succ n ih => rw [skipN, get_eq, h]; exact ih

theorem skipN_succ (n : Nat) (b : Buf) : b.skipN (n + 1) = (b.skipN 1).skipN n := by
  rw [skipN, get_eq]
  cases h : b.rest with
  | nil => simp only [List.head?_nil, Option.map_none]; rw [skipN_nil 1 b h]
  | cons c cs => simp

theorem skipN_add (n m : Nat) (b : Buf) : b.skipN (n + m) = (b.skipN n).skipN m := by
  induction n generalizing b with
  | zero => simp [skipN]
  | succ n ih => rw [show n + 1 + m = (n + m) + 1 by omega, skipN_succ, ih, ← skipN_succ]

theorem skipN_zero (b : Buf) : b.skipN 0 = b := rfl

theorem rest_skipN (n : Nat) (b : Buf) : (b.skipN n).rest = b.rest.drop n := by
  induction n generalizing b with
  | zero => rfl
  | succ n ih =>
    rw [skipN_succ, ih]
    obtain ⟨past, rest, line, col⟩ := b
    cases rest with
    | nil => simp [skipN, get]
    | cons c cs => by_cases h : c = '\n' <;> simp [skipN, get, h]

theorem past_skipN (n : Nat) (b : Buf) :
    (b.skipN n).past = (b.rest.take n).reverse ++ b.past := by
  induction n generalizing b with
  | zero => simp [skipN]
  | succ n ih =>
    rw [skipN_succ, ih]
    obtain ⟨past, rest, line, col⟩ := b
    cases rest with
    | nil => simp [skipN, get]
    | cons c cs => by_cases h : c = '\n' <;> simp [skipN, get, h]

/-- The text is never changed. -/
theorem text_skipN (n : Nat) (b : Buf) : (b.skipN n).text = b.text := by
  simp [text, rest_skipN, past_skipN]

theorem readSetLoop_eq (set : List Char) (n : Nat) (b : Buf) (h : b.rest.length ≤ n) :
    readSetLoop set n b = (b.rest.takeWhile set.contains,
      b.skipN (b.rest.takeWhile set.contains).length) := by
  induction n generalizing b with
  | zero =>
    have : b.rest = [] := List.length_eq_zero_iff.1 (by omega)
    simp [readSetLoop, this, skipN]
  | succ n ih =>
    rw [readSetLoop, peek, get_eq]
    cases hr : b.rest with
    | nil => simp [skipN]
    | cons c cs =>
      rw [hr, List.length_cons] at h
      have hr1 : (b.skipN 1).rest = cs := by simp [hr, Buf.rest_skipN]
      have := ih (b.skipN 1) (by rw [hr1]; omega)
      rw [hr1] at this
      simp only [List.head?_cons, Option.map_some, List.takeWhile_cons]
      split
      · rw [this, List.length_cons, Nat.add_comm _ 1, skipN_add]
      · simp [skipN]

theorem readSet_eq (set : List Char) (b : Buf) :
    b.readSet set = (b.rest.takeWhile set.contains,
      b.skipN (b.rest.takeWhile set.contains).length) :=
  readSetLoop_eq set _ b (Nat.le_refl _)

theorem skipUntilLoop_eq (ch : Char) (n : Nat) (b : Buf) (h : b.rest.length ≤ n) :
    skipUntilLoop ch n b = (b.rest.takeWhile (· != ch),
      b.skipN (b.rest.takeWhile (· != ch)).length) := by
  induction n generalizing b with
  | zero =>
    have : b.rest = [] := List.length_eq_zero_iff.1 (by omega)
    simp [skipUntilLoop, this, skipN]
  | succ n ih =>
    rw [skipUntilLoop, peek, get_eq]
    cases hr : b.rest with
    | nil => simp [skipN]
    | cons c cs =>
      rw [hr, List.length_cons] at h
      have hr1 : (b.skipN 1).rest = cs := by simp [hr, Buf.rest_skipN]
      have := ih (b.skipN 1) (by rw [hr1]; omega)
      rw [hr1] at this
      simp only [List.head?_cons, Option.map_some, List.takeWhile_cons]
      by_cases hc : c = ch
      · simp [hc, skipN]
      · simp only [hc, if_false, this, bne_iff_ne, ne_eq, not_false_eq_true, if_true,
          List.length_cons]
        rw [Nat.add_comm _ 1, skipN_add]

theorem skipUntil_eq (ch : Char) (b : Buf) :
    b.skipUntil ch = (b.rest.takeWhile (· != ch), b.skipN (b.rest.takeWhile (· != ch)).length) :=
  skipUntilLoop_eq ch _ b (Nat.le_refl _)

theorem skipLiteral_eq (b : Buf) (lit : List Char) :
    b.skipLiteral lit = if lit.isPrefixOf b.rest then some (b.skipN lit.length) else none := rfl

/-- The text before the first occurrence of a literal, or all of it. -/
def before (lit : List Char) : List Char → List Char
  | [] => []
  | c :: cs => if lit.isPrefixOf (c :: cs) then [] else c :: before lit cs

theorem untilLiteralLoop_eq (lit : List Char) (n : Nat) (b : Buf) (h : b.rest.length ≤ n) :
    untilLiteralLoop lit n b = (before lit b.rest, b.skipN (before lit b.rest).length) := by
  induction n generalizing b with
  | zero =>
    have : b.rest = [] := List.length_eq_zero_iff.1 (by omega)
    simp [untilLiteralLoop, this, skipN, before]
  | succ n ih =>
    rw [untilLiteralLoop, get_eq]
    cases hr : b.rest with
    | nil => simp [skipN, before, more, hr]
    | cons c cs =>
      rw [hr, List.length_cons] at h
      have hr1 : (b.skipN 1).rest = cs := by simp [hr, Buf.rest_skipN]
      have := ih (b.skipN 1) (by rw [hr1]; omega)
      rw [hr1] at this
      simp only [more, literalFollows, hr, List.isEmpty_cons, Bool.not_false, Bool.true_and,
        List.head?_cons, Option.map_some, before]
      cases hp : lit.isPrefixOf (c :: cs)
      · simp only [Bool.not_false, if_true, this, Bool.false_eq_true, if_false, List.length_cons]
        rw [Nat.add_comm _ 1, skipN_add]
      · simp [skipN]

theorem untilLiteral_eq (lit : List Char) (b : Buf) :
    b.untilLiteral lit = (before lit b.rest, b.skipN (before lit b.rest).length) :=
  untilLiteralLoop_eq lit _ b (Nat.le_refl _)

end Buf

/-! ## `readToken` on the remaining text -/

/-- What `readToken` finds in a text without blanks in front: the end, a token
with the distance of its position and its length, or a crash. -/
inductive Scan where
  | eof
  | tok (kind content : String) (off len : Nat)
  | panic (msg : String)
deriving DecidableEq, Repr

/-- The token found at a buffer. -/
def Scan.place (b : Buf) : Scan → TokRes
  | .eof => .eof b
  | .tok k c o n => .tok ⟨k, c, (b.skipN o).pos⟩ (b.skipN n)
  | .panic m => .panic m

/-- The digits of a hexadecimal number and its suffix. -/
def hexPart (s : List Char) : List Char :=
  (s.drop 2).takeWhile HEXDIGITS.contains ++
    ((s.drop 2).dropWhile HEXDIGITS.contains).takeWhile ['U', 'L'].contains

/-- A number up to the exponent, and whether it has a dot. -/
def mantissa (s : List Char) : List Char × Bool :=
  let num := s.takeWhile DIGITS.contains
  let r := s.dropWhile DIGITS.contains
  match r with
  | '.' :: r => (num ++ '.' :: r.takeWhile DIGITS.contains, true)
  | _ => (num, false)

/-- The exponent at the start of a text: `none` if the text ends after the `e`. -/
def exponent (s : List Char) : Option (List Char) :=
  match s with
  | e :: r =>
    if e = 'e' ∨ e = 'E' then
      match r with
      | [] => none
      | m :: r' =>
        if m = '-' then some (e :: m :: r'.takeWhile DIGITS.contains)
        else some (e :: (m :: r').takeWhile DIGITS.contains)
    else some []
  | [] => some []

/-- The suffix letters of a number. -/
def suffixSet (dot : Bool) : List Char := if dot then ['U', 'L', 'f'] else ['U', 'L']

def scanNumber (s : List Char) : Scan :=
  if ['0', 'x'].isPrefixOf s then
    .tok "num" (String.ofList ('0' :: 'x' :: hexPart s)) 0 (2 + (hexPart s).length)
  else
    let m := (mantissa s).1
    match exponent (s.drop m.length) with
    | none => .panic "lexer.rs:124"
    | some e =>
      let suf := (s.drop (m.length + e.length)).takeWhile (suffixSet (mantissa s).2).contains
      let n := m.length + e.length + suf.length
      match s.drop n with
      | c :: _ =>
        if c.isAlpha then .tok "error" (unexpectedChar c) n n
        else .tok "num" (String.ofList (m ++ e ++ suf)) 0 n
      | [] => .tok "num" (String.ofList (m ++ e ++ suf)) 0 n

/-- The characters of a string part: up to a quote or the end, a backslash going
with the next character; `none` if the text ends after a backslash. -/
def strBody : List Char → Option (List Char)
  | [] => some []
  | c :: r =>
    if c = '"' then some []
    else if c = '\\' then
      match r with
      | [] => none
      | d :: r' => (strBody r').map (fun w => c :: d :: w)
    else (strBody r).map (fun w => c :: w)

/-- String parts: `s` is the content so far and `n` the length so far. -/
def scanParts : Nat → List Char → Nat → List Char → Scan
  | 0, s, n, _ => .tok "string" (String.ofList s) 0 n
  | k + 1, s, n, '"' :: r =>
    match strBody r with
    | none => .panic "lexer.rs:174"
    | some w =>
      match r.drop w.length with
      | [] => .tok "error" "Double quote expected" 0 (n + 1 + w.length)
      | q :: r' =>
        if q ≠ '"' then .tok "error" "Double quote expected" 0 (n + 2 + w.length)
        else
          let sp := r'.takeWhile SPACES.contains
          scanParts k (s ++ w) (n + 2 + w.length + sp.length) (r'.drop sp.length)
  | _ + 1, s, n, _ => .tok "string" (String.ofList s) 0 n

def scanString (s : List Char) : Scan := scanParts s.length [] 0 s

/-- The characters of a word read after `word`. -/
def wordTail [Unicode] : List Char → List Char → List Char
  | _, [] => []
  | word, c :: r =>
    if word = ['c', 'a', 'l', 'l', 'o', 'c'] ∧ c = '!' then [c]
    else if !isAlphanumeric c && c != '_' then []
    else c :: wordTail (word ++ [c]) r

def scanWord [Unicode] (s : List Char) : Scan :=
  let w := wordTail [] s
  if KEYWORDS.contains (String.ofList w) then .tok (String.ofList w) "" 0 w.length
  else .tok "word" (String.ofList w) 0 w.length

/-- After the opening quote. -/
def scanCharBody : List Char → Scan
  | [] => .panic "lexer.rs:235"
  | [_] => .panic "lexer.rs:236"
  | c :: d :: r =>
    if c = '\\' then
      match r with
      | [] => .panic "lexer.rs:236"
      | q :: _ =>
        if q ≠ '\'' then .tok "error" "Single quote expected" 0 4
        else .tok "char" (String.ofList [c, d]) 0 4
    else if d ≠ '\'' then .tok "error" "Single quote expected" 0 3
    else .tok "char" (String.ofList [c]) 0 3

def scanChar (s : List Char) : Scan :=
  match s.drop 1 with
  | ['\\'] => .panic "lexer.rs:235"
  | r => scanCharBody r

def scanComment (s : List Char) : Scan :=
  let w := Buf.before ['*', '/'] (s.drop 2)
  if ['*', '/'].isPrefixOf (s.drop (2 + w.length)) then
    .tok "comment" (String.ofList w) 0 (2 + w.length + 2)
  else .tok "error" "*/ expected" 0 (2 + w.length)

/-- The first symbol of the list that the text starts with. -/
def symbolAt (syms : List String) (s : List Char) : Option String :=
  syms.find? (fun sym => sym.toList.isPrefixOf s)

def IMPORT : List Char := ['#', 'i', 'm', 'p', 'o', 'r', 't']

def scan1 [Unicode] (s : List Char) : Scan :=
  match s with
  | [] => .eof
  | next :: _ =>
    if IMPORT.isPrefixOf s then
      let sp := (s.drop 7).takeWhile SPACES.contains
      let w := (s.drop (7 + sp.length)).takeWhile (· != '\n')
      .tok "import" (RStr.trim (String.ofList w)) 0 (7 + sp.length + w.length)
    else if next = '#' then
      let w := s.takeWhile (· != '\n')
      .tok "macro" (String.ofList w) 0 w.length
    else if ['/', '*'].isPrefixOf s then scanComment s
    else if ['/', '/'].isPrefixOf s then
      let w := (s.drop 2).takeWhile (· != '\n')
      .tok "comment" (String.ofList w) 0 (2 + w.length)
    else if next.isAlpha || next = '_' then scanWord s
    else if next.isDigit then scanNumber s
    else if next = '"' then scanString s
    else if next = '\'' then scanChar s
    else
      match symbolAt SYMBOLS s with
      | some sym => .tok sym "" 0 sym.toList.length
      | none => .tok "error" (unexpectedChar next) 0 0

theorem drop_takeWhile {α} (p : α → Bool) (s : List α) :
    s.drop (s.takeWhile p).length = s.dropWhile p := by
  induction s with
  | nil => rfl
  | cons a s ih =>
    rw [List.takeWhile_cons, List.dropWhile_cons]
    split <;> simp [ih]

theorem readHex_eq (b : Buf) :
    readHex b = .tok ⟨"num", String.ofList ('0' :: 'x' :: hexPart b.rest), b.pos⟩
      (b.skipN (2 + (hexPart b.rest).length)) := by
  have h : ∀ s : List Char, s.drop (2 + ((s.drop 2).takeWhile HEXDIGITS.contains).length) =
      (s.drop 2).dropWhile HEXDIGITS.contains := by
    intro s; rw [← List.drop_drop, drop_takeWhile]
  simp only [readHex, Buf.readSet_eq, Buf.rest_skipN, hexPart, List.length_append, h,
    ← Buf.skipN_add, TokRes.tok.injEq, List.cons_append, List.nil_append, Nat.add_assoc, and_self]

theorem head_drop_cons {α} {s : List α} {n : Nat} {c : α} (h : (s.drop n).head? = some c) :
    ∃ r, s.drop n = c :: r := by
  cases hd : s.drop n with
  | nil => rw [hd] at h; cases h
  | cons a r => rw [hd] at h; cases h; exact ⟨r, rfl⟩

theorem readMantissa_eq (b : Buf) :
    readMantissa b = ((mantissa b.rest).1, suffixSet (mantissa b.rest).2,
      b.skipN (mantissa b.rest).1.length) := by
  have h1 : (b.skipN (b.rest.takeWhile DIGITS.contains).length).rest =
      b.rest.dropWhile DIGITS.contains := by rw [Buf.rest_skipN, drop_takeWhile]
  simp only [readMantissa, Buf.readSet_eq DIGITS b, Buf.peek, Buf.get_eq, mantissa, h1]
  cases hr : b.rest.dropWhile DIGITS.contains with
  | nil => simp [suffixSet]
  | cons c r =>
    by_cases hc : c = '.'
    · subst hc
      have h2 : ((b.skipN (b.rest.takeWhile DIGITS.contains).length).skipN 1).rest = r := by
        rw [Buf.rest_skipN, h1, hr]; rfl
      simp only [List.head?_cons, if_true, Option.map_some, Buf.readSet_eq, h2, suffixSet,
        List.length_append, List.length_cons, List.append_assoc, List.singleton_append,
        List.cons_append, List.nil_append, Prod.mk.injEq, true_and]
      rw [← Buf.skipN_add, ← Buf.skipN_add]
      congr 1; omega
    · simp only [List.head?_cons, Option.some.injEq, hc, if_false]
      split
      · next h => simp at h; exact absurd h.1 hc
      · simp [suffixSet]

theorem readExponent_eq (num : List Char) (b : Buf) :
    readExponent num b = (exponent b.rest).map (fun e => (num ++ e, b.skipN e.length)) := by
  cases hr : b.rest with
  | nil =>
    have : b.peek = none := by simp [Buf.peek, hr]
    simp [readExponent, exponent, this, Buf.skipN]
  | cons c r =>
    have hp : b.peek = some c := by simp [Buf.peek, hr]
    simp only [readExponent, exponent, hp, Option.some.injEq, Buf.get_eq, hr, List.head?_cons,
      Option.map_some]
    split
    · have h1 : (b.skipN 1).rest = r := by simp [hr, Buf.rest_skipN]
      cases hr' : r with
      | nil =>
        rw [hr'] at h1
        simp only [Buf.peek, h1, List.head?_nil, Option.map_none]
      | cons m r' =>
        rw [hr'] at h1
        simp only [Buf.peek, h1, List.head?_cons]
        by_cases hm : m = '-'
        · subst hm
          have h2 : ((b.skipN 1).skipN 1).rest = r' := by
            rw [Buf.rest_skipN, h1]; rfl
          simp only [Option.map_some, if_true, Buf.readSet_eq, h2, List.append_assoc,
            List.cons_append, List.nil_append, List.length_cons]
          rw [← Buf.skipN_add, ← Buf.skipN_add]
          congr 3; omega
        · split
          · next h => simp at h
          · next h => simp at h; exact absurd h hm
          · simp only [hm, if_false, Option.map_some, Buf.readSet_eq, h1, ← Buf.skipN_add,
              List.length_cons, List.append_assoc, List.singleton_append, Nat.add_comm]
    · simp [Buf.skipN]

theorem readNumber_eq (b : Buf) : readNumber b = (scanNumber b.rest).place b := by
  unfold readNumber scanNumber
  by_cases hx : ['0', 'x'].isPrefixOf b.rest = true
  · rw [if_pos (show b.literalFollows ['0', 'x'] = true from hx), if_pos hx, readHex_eq]; rfl
  · rw [if_neg (show ¬ b.literalFollows ['0', 'x'] = true from hx), if_neg hx]
    simp only [readMantissa_eq, readExponent_eq, Buf.rest_skipN]
    cases he : exponent (b.rest.drop (mantissa b.rest).1.length) with
    | none => rfl
    | some e =>
      simp only [Option.map_some, Buf.readSet_eq, Buf.peek, ← Buf.skipN_add, Buf.rest_skipN]
      generalize hn : (mantissa b.rest).1.length + e.length = n
      generalize hs : ((b.rest.drop n).takeWhile (suffixSet (mantissa b.rest).2).contains) = suf
      cases hd : b.rest.drop (n + suf.length) with
      | nil => simp [Scan.place, Buf.skipN]
      | cons c r =>
        simp only [List.head?_cons]
        split <;> simp [Scan.place, Buf.skipN]

theorem readStrPart_eq (n : Nat) (b : Buf) (h : b.rest.length ≤ n) :
    readStrPart n b = (strBody b.rest).map (fun w => (w, b.skipN w.length)) := by
  induction n using Nat.strongRecOn generalizing b with
  | _ n ih =>
    cases n with
    | zero =>
      have : b.rest = [] := List.length_eq_zero_iff.1 (by omega)
      simp [readStrPart, this, strBody, Buf.skipN]
    | succ n =>
      rw [readStrPart, Buf.get_eq]
      cases hr : b.rest with
      | nil => simp [strBody, Buf.skipN]
      | cons c r =>
        rw [hr, List.length_cons] at h
        simp only [List.head?_cons, Option.map_some]
        rw [strBody.eq_def]
        simp only
        by_cases h1 : c = '"'
        · simp [h1, Buf.skipN]
        · simp only [h1, if_false]
          by_cases h2 : c = '\\'
          · simp only [h2, if_true, Buf.get_eq, Buf.rest_skipN, hr, List.drop_one, List.tail_cons]
            cases r with
            | nil => rfl
            | cons d r' =>
              have hr2 : (((b.skipN 1).skipN 1)).rest = r' := by simp [hr, Buf.rest_skipN]
              simp only [List.length_cons] at h
              simp only [List.head?_cons, Option.map_some]
              rw [ih n (by omega) _ (by rw [hr2]; omega), hr2]
              cases strBody r' with
              | none => rfl
              | some w =>
                simp only [Option.map_some, ← Buf.skipN_add, List.length_cons, Option.some.injEq,
                  Prod.mk.injEq, true_and]
                congr 1; omega
          · simp only [h2, if_false]
            have hr1 : (b.skipN 1).rest = r := by simp [hr, Buf.rest_skipN]
            rw [ih n (by omega) _ (by rw [hr1]; omega), hr1]
            cases strBody r with
            | none => rfl
            | some w =>
              simp only [Option.map_some, ← Buf.skipN_add, List.length_cons, Option.some.injEq,
                Prod.mk.injEq, true_and]
              congr 1; omega

theorem readStrParts_eq (b0 : Buf) (k : Nat) (s : List Char) (n : Nat) :
    readStrParts b0.pos k s (b0.skipN n) = (scanParts k s n (b0.skipN n).rest).place b0 := by
  induction k generalizing s n with
  | zero => simp [readStrParts, scanParts, Scan.place, Buf.skipN]
  | succ k ih =>
    rw [readStrParts]
    cases hr : (b0.skipN n).rest with
    | nil => simp [Buf.peek, hr, scanParts, Scan.place, Buf.skipN]
    | cons c r =>
      by_cases hc : c = '"'
      · subst hc
        have hr1 : ((b0.skipN n).skipN 1).rest = r := by rw [Buf.rest_skipN, hr]; rfl
        simp only [Buf.peek, hr, List.head?_cons, if_true, Buf.get_eq, Option.map_some, scanParts]
        rw [readStrPart_eq _ _ (Nat.le_refl _), hr1]
        cases hw : strBody r with
        | none => rfl
        | some w =>
          simp only [Option.map_some]; rw [Buf.rest_skipN w.length, hr1]
          cases hq : r.drop w.length with
          | nil =>
            simp only [List.head?_nil, Option.map_none, ← Buf.skipN_add, Scan.place, Buf.skipN_zero]
          | cons q r' =>
            have hr2 : ((((b0.skipN n).skipN 1).skipN w.length).skipN 1).rest = r' := by
              rw [Buf.rest_skipN, Buf.rest_skipN, hr1, hq]; rfl
            simp only [List.head?_cons, Option.map_some]
            split
            · simp only [← Buf.skipN_add, Scan.place, Buf.skipN_zero]
              congr 2; omega
            · rw [Buf.readSet_eq, hr2]
              simp only [← Buf.skipN_add]
              rw [show n + 1 + w.length + 1 + (r'.takeWhile SPACES.contains).length =
                n + 2 + w.length + (r'.takeWhile SPACES.contains).length by omega, ih]
              congr 2
              rw [show n + 2 + w.length + (r'.takeWhile SPACES.contains).length =
                (n + 1 + w.length + 1) + (r'.takeWhile SPACES.contains).length by omega,
                Buf.skipN_add, Buf.rest_skipN]
              simp only [Buf.skipN_add]
              rw [hr2]
      · have : scanParts (k + 1) s n (c :: r) = .tok "string" (String.ofList s) 0 n := by
          unfold scanParts
          split
          · next h => cases h
          · next h => simp at h; exact absurd h.1 hc
          · next h => simp_all
        simp [Buf.peek, hr, hc, this, Scan.place, Buf.skipN]

theorem readStringLiteral_eq (b : Buf) : readStringLiteral b = (scanString b.rest).place b :=
  readStrParts_eq b b.rest.length [] 0

theorem readWordLoop_eq [Unicode] (n : Nat) (word : List Char) (b : Buf) (h : b.rest.length ≤ n) :
    readWordLoop n word b =
      (word ++ wordTail word b.rest, b.skipN (wordTail word b.rest).length) := by
  induction n generalizing word b with
  | zero =>
    have : b.rest = [] := List.length_eq_zero_iff.1 (by omega)
    simp [readWordLoop, this, wordTail, Buf.skipN]
  | succ n ih =>
    rw [readWordLoop, Buf.get_eq]
    cases hr : b.rest with
    | nil => simp [wordTail, Buf.skipN]
    | cons c r =>
      rw [hr, List.length_cons] at h
      have hr1 : (b.skipN 1).rest = r := by simp [hr, Buf.rest_skipN]
      simp only [List.head?_cons, Option.map_some]
      rw [wordTail]
      split
      · simp
      · split
        · simp [Buf.skipN]
        · rw [ih _ _ (by rw [hr1]; omega), hr1]
          simp only [List.append_assoc, List.singleton_append, List.length_cons, ← Buf.skipN_add,
            Prod.mk.injEq, true_and]
          congr 1; omega

theorem readWord_eq [Unicode] (b : Buf) : readWord b = (scanWord b.rest).place b := by
  simp only [readWord, scanWord, readWordLoop_eq _ _ _ (Nat.le_refl _), List.nil_append]
  split <;> simp [Scan.place, Buf.skipN]

theorem readCharLiteral_eq (b : Buf) : readCharLiteral b = (scanChar b.rest).place b := by
  unfold readCharLiteral scanChar
  simp only [Buf.peek, Buf.get_eq, Buf.rest_skipN]
  generalize hr : b.rest.drop 1 = r
  cases r with
  | nil => simp [Scan.place, scanCharBody, Buf.rest_skipN, hr]
  | cons c r =>
    by_cases hc : c = '\\'
    · subst hc
      simp only [List.head?_cons, if_true, Buf.rest_skipN, hr, List.drop_one, List.tail_cons]
      cases r with
      | nil => rfl
      | cons d r =>
        simp only [List.head?_cons, Option.map_some, Buf.rest_skipN, hr, List.drop_one, List.tail_cons,
          scanCharBody, if_true]
        cases r with
        | nil => rfl
        | cons q r =>
          simp only [List.head?_cons, Option.map_some]
          split <;> simp [Scan.place, Buf.skipN_zero, ← Buf.skipN_add]
    · simp only [List.head?_cons, Option.some.injEq, hc, if_false, hr, Option.map_some,
        Buf.rest_skipN, List.drop_one, List.tail_cons]
      cases r with
      | nil =>
        have : (match [c] with | ['\\'] => Scan.panic "lexer.rs:235" | r => scanCharBody r) =
          scanCharBody [c] := by
          split
          · next h => simp at h; exact absurd h hc
          · rfl
        rw [this]; rfl
      | cons d r =>
        simp only [List.head?_cons, Option.map_some, scanCharBody, hc, if_false]
        split <;> simp [Scan.place, Buf.skipN_zero, ← Buf.skipN_add]

theorem readMultilineComment_eq (b : Buf) :
    readMultilineComment b = (scanComment b.rest).place b := by
  unfold readMultilineComment scanComment
  simp only [Buf.untilLiteral_eq, Buf.skipLiteral_eq, Buf.rest_skipN, ← Buf.skipN_add]
  split
  · next h =>
    split at h
    · cases h
    · next hp => rw [if_neg hp]; rfl
  · next h =>
    split at h
    · next hp =>
      cases h
      rw [if_pos hp]
      rfl
    · cases h

theorem readSymbol_eq (syms : List String) (b : Buf) :
    readSymbol syms b = (symbolAt syms b.rest).map (fun s => (s, b.skipN s.toList.length)) := by
  induction syms with
  | nil => rfl
  | cons s syms ih =>
    rw [readSymbol, Buf.skipLiteral_eq, symbolAt, List.find?_cons]
    cases h : s.toList.isPrefixOf b.rest
    · simpa [h, symbolAt] using ih
    · simp

/-- Blanks in front of a text. -/
def blanks (s : List Char) : List Char := s.takeWhile SPACES.contains

/-- The text after the blanks in front. -/
def unblank (s : List Char) : List Char := s.dropWhile SPACES.contains

theorem readToken_eq [Unicode] (b : Buf) :
    readToken b = (scan1 (unblank b.rest)).place (b.skipN (blanks b.rest).length) := by
  have hu : (b.skipN (blanks b.rest).length).rest = unblank b.rest := by
    rw [Buf.rest_skipN, blanks, drop_takeWhile]; rfl
  unfold readToken
  simp only [Buf.readSet_eq]
  rw [← blanks]
  rw [← hu]
  generalize b.skipN (blanks b.rest).length = b
  unfold scan1
  simp only [Buf.peek]
  cases hr : b.rest with
  | nil => rfl
  | cons next r =>
    simp only [List.head?_cons, Buf.skipLiteral_eq, hr]
    by_cases hi : IMPORT.isPrefixOf (next :: r) = true
    · rw [if_pos hi, if_pos (show ['#', 'i', 'm', 'p', 'o', 'r', 't'].isPrefixOf (next :: r) = true
        from hi)]
      simp only [Buf.skipUntil_eq, Buf.readSet_eq, Scan.place, Buf.skipN_zero, Buf.rest_skipN, hr,
        ← Buf.skipN_add, List.drop_drop, List.length_cons, List.length_nil]
    · rw [if_neg hi, if_neg (show ¬ ['#', 'i', 'm', 'p', 'o', 'r', 't'].isPrefixOf (next :: r) = true
        from hi)]
      simp only
      by_cases hm : next = '#'
      · rw [if_pos hm, if_pos hm]
        simp only [Buf.skipUntil_eq, Scan.place, Buf.skipN_zero, hr]
      · rw [if_neg hm, if_neg hm]
        by_cases hc : ['/', '*'].isPrefixOf (next :: r) = true
        · rw [if_pos hc, if_pos (show b.literalFollows ['/', '*'] = true from by
            rw [Buf.literalFollows, hr]; exact hc), readMultilineComment_eq, hr]
        · rw [if_neg hc, if_neg (show ¬ b.literalFollows ['/', '*'] = true from by
            rw [Buf.literalFollows, hr]; exact hc)]
          by_cases hl : ['/', '/'].isPrefixOf (next :: r) = true
          · simp only [hl, if_true, Buf.skipUntil_eq, Scan.place, Buf.skipN_zero, Buf.rest_skipN, hr,
              ← Buf.skipN_add, List.length_cons, List.length_nil]
          · simp only [hl, Bool.false_eq_true, if_false]
            split
            · rw [readWord_eq, hr]
            · split
              · rw [readNumber_eq, hr]
              · split
                · rw [readStringLiteral_eq, hr]
                · split
                  · rw [readCharLiteral_eq, hr]
                  · rw [readSymbol_eq, hr]
                    cases symbolAt SYMBOLS (next :: r) <;> rfl

end Che
