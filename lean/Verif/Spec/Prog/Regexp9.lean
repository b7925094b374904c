import Verif.Spec.Lib.Utf

/-!
What `prog/libregexp9` is measured against: regular expressions as trees, what it means that
a tree matches a part of a text and where its groups are, and how trees are written.
-/
namespace Che.Spec.Regexp9
open Che.Spec.Utf

/-- One character of the text: a given one, any but the end of a line, any at all, one of some
ranges, or one that is in none of the ranges. -/
inductive Atom
  | chr (c : Nat)
  | any
  | anynl
  | cls (l : List (Nat × Nat))
  | ncls (l : List (Nat × Nat))
deriving Repr, DecidableEq

/-- The characters of an atom. -/
def Atom.has : Atom → Nat → Prop
  | .chr c, r => r = c
  | .any, r => r ≠ 10
  | .anynl, _ => True
  | .cls l, r => ∃ p ∈ l, p.1 ≤ r ∧ r ≤ p.2
  | .ncls l, r => ¬ ∃ p ∈ l, p.1 ≤ r ∧ r ≤ p.2

/-- Regular expressions. -/
inductive Re
  | eps
  | one (a : Atom)
  | bol
  | eol
  | grp (id : Nat) (e : Re)
  | alt (a b : Re)
  | cat (a b : Re)
  | star (e : Re)
  | plus (e : Re)
  | opt (e : Re)
deriving Repr, DecidableEq

/-- A text: which character stands between two places, and where lines begin and end. -/
structure Text where
  chr : Nat → Nat → Nat → Prop
  bol : Nat → Prop
  eol : Nat → Prop

/-- Between the places `i` and `j` of the UTF-8 text of `cs` stands the character `r`. -/
def charAt (cs : List Char) (i r j : Nat) : Prop :=
  ∃ a c b, cs = a ++ c :: b ∧ r = c.val.toNat ∧ i = (encode a).length ∧ j = (encode (a ++ [c])).length

/-- The text of some characters; the places are the offsets of bytes in its UTF-8 encoding. -/
def Text.of (cs : List Char) : Text where
  chr := charAt cs
  bol i := i = 0 ∨ ∃ j, charAt cs j 10 i
  eol i := i = (encode cs).length ∨ ∃ j, charAt cs i 10 j

/-- Where the groups begin and end. -/
abbrev Caps := Nat → Option Nat × Option Nat

/-- A group begins. -/
def Caps.opened (c : Caps) (id i : Nat) : Caps := fun n => if n = id then (some i, (c n).2) else c n

/-- A group ends. -/
def Caps.closed (c : Caps) (id i : Nat) : Caps := fun n => if n = id then ((c n).1, some i) else c n

/-- No group has been met. -/
def Caps.none : Caps := fun _ => (.none, .none)

/-- The expression matches the part of the text from `i` to `j`; the groups before and after. -/
inductive M (t : Text) : Re → Nat → Nat → Caps → Caps → Prop
  | eps : M t .eps i i c c
  | one : a.has r → t.chr i r j → M t (.one a) i j c c
  | bol : t.bol i → M t .bol i i c c
  | eol : t.eol i → M t .eol i i c c
  | grp {g : Nat} : M t e i j (c.opened g i) c' → M t (.grp g e) i j c (c'.closed g j)
  | altL : M t a i j c c' → M t (.alt a b) i j c c'
  | altR : M t b i j c c' → M t (.alt a b) i j c c'
  | cat : M t a i m c c1 → M t b m j c1 c2 → M t (.cat a b) i j c c2
  | starNil : M t (.star e) i i c c
  | starCons : M t e i m c c1 → M t (.star e) m j c1 c2 → M t (.star e) i j c c2
  | plus : M t e i m c c1 → M t (.star e) m j c1 c2 → M t (.plus e) i j c c2
  | optNil : M t (.opt e) i i c c
  | optSome : M t e i j c c' → M t (.opt e) i j c c'

/-- Two expressions match the same, with the same groups. -/
def Same (a b : Re) : Prop := ∀ (t : Text) i j c c', M t a i j c c' ↔ M t b i j c c'

/-- The place is one between two characters of the text, and not before `lo`. -/
def Between (cs : List Char) (lo x : Nat) : Prop := lo ≤ x ∧ ∃ a b, cs = a ++ b ∧ x = (encode a).length

/-- The expression matches from `x` to `j`; group 0 is all of it. -/
def Found (cs : List Char) (lo : Nat) (e : Re) (x j : Nat) (c : Caps) : Prop :=
  Between cs lo x ∧ M (Text.of cs) (.grp 0 e) x j Caps.none c

/-- The match is the first one, and the longest of those. -/
def Best (cs : List Char) (lo : Nat) (e : Re) (x j : Nat) : Prop :=
  ∀ x' j' c', Found cs lo e x' j' c' → x ≤ x' ∧ (x' = x → j' ≤ j)

/-- The expression matches also where no line begins. -/
def Inside (e : Re) : Prop := ∃ (t : Text) (i j : Nat) (c c' : Caps), M t e i j c c' ∧ ¬ t.bol i

/-- There is no `^` in the expression. -/
def Re.noBol : Re → Bool
  | .bol => false
  | .grp _ e | .star e | .plus e | .opt e => e.noBol
  | .alt a b | .cat a b => a.noBol && b.noBol
  | _ => true

/-- The expression that is one string. -/
def lit : List Char → Re
  | [] => .eps
  | c :: cs => cs.foldl (fun e d => .cat e (.one (.chr d.val.toNat))) (.one (.chr c.val.toNat))

/-! ## How expressions are written -/

/-- The symbols of an expression. -/
inductive Tok
  | atom (a : Atom)
  | bol
  | eol
  | star
  | plus
  | opt
  | bar
  | lpar
  | rpar
deriving Repr, DecidableEq

/-- A character or a group; one with `*`, `+` and `?` after it; a sequence; alternatives. -/
inductive Level
  | base
  | rep
  | cats
  | alts

/-- `Reads k n ts e m`: the symbols `ts` are the expression `e`, and if `n` groups were opened
before it then `m` are after it.  Groups are numbered by their left brackets. -/
inductive Reads : Level → Nat → List Tok → Re → Nat → Prop
  | atom : Reads .base n [.atom a] (.one a) n
  | bol : Reads .base n [.bol] .bol n
  | eol : Reads .base n [.eol] .eol n
  | grp : Reads .alts (n + 1) ts e m → Reads .base n (.lpar :: (ts ++ [.rpar])) (.grp (n + 1) e) m
  | base : Reads .base n ts e m → Reads .rep n ts e m
  | star : Reads .rep n ts e m → Reads .rep n (ts ++ [.star]) (.star e) m
  | plus : Reads .rep n ts e m → Reads .rep n (ts ++ [.plus]) (.plus e) m
  | opt : Reads .rep n ts e m → Reads .rep n (ts ++ [.opt]) (.opt e) m
  | rep : Reads .rep n ts e m → Reads .cats n ts e m
  | cat : Reads .cats n ts a m → Reads .rep m us b k → Reads .cats n (ts ++ us) (.cat a b) k
  | cats : Reads .cats n ts e m → Reads .alts n ts e m
  | alt : Reads .alts n ts a m → Reads .cats m us b k → Reads .alts n (ts ++ .bar :: us) (.alt a b) k

/-- How deep groups are nested. -/
def Re.depth : Re → Nat
  | .grp _ e => e.depth + 1
  | .alt a b | .cat a b => max a.depth b.depth
  | .star e | .plus e | .opt e => e.depth
  | _ => 0

/-- The characters with a meaning outside of brackets. -/
def special : List Char := ['*', '?', '+', '|', '.', '(', ')', '^', '$', '[', '\\']

/-- A character within brackets: as it is, or after a backslash. -/
inductive InClass : Char → List Char → Prop
  | bare : c ∉ ['\x00', ']', '-', '\\'] → InClass c [c]
  | quoted : c ≠ '\x00' → InClass c ['\\', c]

/-- The last character of a range; it may be a dash. -/
inductive Last : Char → List Char → Prop
  | chr : InClass c x → Last c x
  | dash : Last '-' ['-']

/-- What may follow the first character of a range: the last one, which is replaced by another
one if there is a further dash. -/
inductive Upto : Nat → Nat → List Char → Prop
  | nil : Upto a a []
  | dash : Last b x → Upto b.val.toNat c y → Upto a c ('-' :: (x ++ y))

/-- The characters and ranges within brackets. -/
inductive Items : List (Nat × Nat) → List Char → Prop
  | nil : Items [] []
  | item : InClass a x → Upto a.val.toNat b y → Items l z → Items ((a.val.toNat, b) :: l) (x ++ (y ++ z))

/-- How a symbol is written; `dot` is what the full stop stands for.  A negated class begins with
the end of a line, as if that were written after the `^`. -/
inductive TokText (dot : Atom) : Tok → List Char → Prop
  | chr : c ≠ '\x00' → c ∉ special → TokText dot (.atom (.chr c.val.toNat)) [c]
  | quoted : c ≠ '\x00' → TokText dot (.atom (.chr c.val.toNat)) ['\\', c]
  | dot : TokText dot (.atom dot) ['.']
  | cls : Items l x → x.head? ≠ some '^' → TokText dot (.atom (.cls l)) ('[' :: (x ++ [']']))
  | ncls : Upto 10 b y → Items l z → TokText dot (.atom (.ncls ((10, b) :: l))) ('[' :: '^' :: (y ++ z ++ [']']))
  | bol : TokText dot .bol ['^']
  | eol : TokText dot .eol ['$']
  | star : TokText dot .star ['*']
  | plus : TokText dot .plus ['+']
  | opt : TokText dot .opt ['?']
  | bar : TokText dot .bar ['|']
  | lpar : TokText dot .lpar ['(']
  | rpar : TokText dot .rpar [')']

/-- The symbol is a class of characters. -/
def Tok.isClass : Tok → Bool
  | .atom (.cls _) | .atom (.ncls _) => true
  | _ => false

/-- A class has at most 31 characters and ranges. -/
def Tok.fits : Tok → Bool
  | .atom (.cls l) | .atom (.ncls l) => decide (l.length ≤ 31)
  | _ => true

/-- The classes are not too long, and at most 16. -/
def Fit (ts : List Tok) : Prop := (∀ t ∈ ts, t.fits = true) ∧ (ts.filter Tok.isClass).length ≤ 16

/-- How symbols are written; a backslash at the end is dropped. -/
inductive ToksText (dot : Atom) : List Tok → List Char → Prop
  | nil : ToksText dot [] []
  | slash : ToksText dot [] ['\\']
  | cons : TokText dot t x → ToksText dot ts y → ToksText dot (t :: ts) (x ++ y)

/-- The text is the expression; a text without symbols matches the empty string. -/
inductive Written (dot : Atom) : List Char → Re → Prop
  | empty : ToksText dot [] x → Written dot x .eps
  | some : ToksText dot ts x → Reads .alts 0 ts e n → Written dot x e

/-! ## Templates -/

/-- A part of a template: a byte, or what a group matched. -/
inductive Piece
  | byte (b : UInt8)
  | group (n : Nat)
deriving Repr, DecidableEq

/-- How templates are written: `&` is the whole match, `\0` to `\9` are groups, a backslash
before another byte is dropped, and so is one at the end. -/
inductive Template : List UInt8 → List Piece → Prop
  | nil : Template [] []
  | stop : Template [92] []
  | amp : Template s l → Template (38 :: s) (.group 0 :: l)
  | digit : n < 10 → Template s l → Template (92 :: UInt8.ofNat (48 + n) :: s) (.group n :: l)
  | quoted : ¬ (48 ≤ b.toNat ∧ b.toNat ≤ 57) → Template s l → Template (92 :: b :: s) (.byte b :: l)
  | plain : b ≠ 92 → b ≠ 38 → Template s l → Template (b :: s) (.byte b :: l)

/-- What a part of a template stands for: groups that were not met are empty. -/
def Piece.text (text : List UInt8) (c : Caps) : Piece → List UInt8
  | .byte b => [b]
  | .group n =>
    match c n with
    | (some i, some j) => (text.drop i).take (j - i)
    | _ => []

end Che.Spec.Regexp9
