import Verif.Model.Lexer
/-!
# What the head of a file declares, read off its token sequence
-/
namespace Che.Spec

/-- Tokens with matched braces. -/
inductive Braced : List Token → Prop
  | nil : Braced []
  | token {t ts} : t.kind ≠ "{" → t.kind ≠ "}" → Braced ts → Braced (t :: ts)
  | group {o a c b} : o.kind = "{" → Braced a → c.kind = "}" → Braced b →
      Braced (o :: a ++ c :: b)

/-- The name that the tokens between `typedef` and the semicolon declare: the last
word, or the last word before the parentheses they end with. -/
inductive DeclaredName : List Token → String → Prop
  | plain {a w b} : w.kind = "word" → (∀ t ∈ b, t.kind ≠ "word") →
      (∀ t, (w :: b).getLast? = some t → t.kind ≠ ")") → DeclaredName (a ++ w :: b) w.content
  | function {a w b o c z} : w.kind = "word" → (∀ t ∈ b, t.kind ≠ "word") → o.kind = "(" →
      (∀ t ∈ c, t.kind ≠ "(") → z.kind = ")" →
      DeclaredName (a ++ w :: b ++ o :: c ++ [z]) w.content

/-- A `#type` line: a macro token that begins with `#type`. -/
def TypeLine (t : Token) : Prop := t.kind = "macro" ∧ "#type".toList <+: t.content.toList

/-- `n` is the text `s` without the white space around it. -/
def Trimmed (s : List Char) (n : String) : Prop :=
  ∃ a b, s = a ++ n.toList ++ b ∧ (∀ c ∈ a, isWhitespace c = true) ∧
    (∀ c ∈ b, isWhitespace c = true) ∧
    (∀ c, n.toList.head? = some c → isWhitespace c = false) ∧
    ∀ c, n.toList.getLast? = some c → isWhitespace c = false

/-- The imports and the type names in a token sequence, in order.  An error token
may stand only inside a typedef. -/
inductive Heads : List Token → List String → List String → Prop
  | nil : Heads [] [] []
  | importing {t ts is ns} : t.kind = "import" → Heads ts is ns →
      Heads (t :: ts) (t.content :: is) ns
  | struct {t o a c w s ts is ns} : t.kind = "typedef" → o.kind = "{" → Braced a → c.kind = "}" →
      w.kind = "word" → s.kind = ";" → Heads ts is ns →
      Heads (t :: o :: a ++ c :: w :: s :: ts) is (w.content :: ns)
  | named {t a s ts is n ns} : t.kind = "typedef" → (∀ x ∈ a, x.kind ≠ ";") →
      (∀ x, a.head? = some x → x.kind ≠ "{") → DeclaredName a n → s.kind = ";" →
      Heads ts is ns → Heads (t :: a ++ s :: ts) is (n :: ns)
  /-- A typedef that nothing closes. -/
  | unclosed {t a n} : t.kind = "typedef" → (∀ x ∈ a, x.kind ≠ ";") →
      (∀ x, a.head? = some x → x.kind ≠ "{") → DeclaredName a n → Heads (t :: a) [] [n]
  /-- The name on a `#type` line: the first five bytes are `#type` and the sixth is
  skipped. -/
  | typeLine {t c rest n ts is ns} : t.kind = "macro" →
      t.content.toList = "#type".toList ++ c :: rest → c.utf8Size = 1 → Trimmed rest n →
      Heads ts is ns → Heads (t :: ts) is (n :: ns)
  | other {t ts is ns} : t.kind ≠ "error" → t.kind ≠ "import" → t.kind ≠ "typedef" →
      ¬ TypeLine t → Heads ts is ns → Heads (t :: ts) is ns

end Che.Spec
