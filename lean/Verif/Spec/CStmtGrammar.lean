import Verif.Spec.CLex
import Verif.Spec.CPrint
import Verif.Spec.Exec
/-!
# Specification: the grammar of C statements

C99 6.7 and 6.8 as production rules over tokens, for the statements of
`KStmt`.  As in the standard, the rules do not say to which `if` an `else`
belongs: `if (a) if (b) x; else y;` has two derivations.
-/
namespace Che.Spec
open Che

/-- The expression of a case label. -/
def labelExpr : CCaseValue → CExpr
  | .ident x => .ident x
  | .literal l => .lit l

/-- A type name, perhaps `const`. -/
inductive CTypeSpec (ty : String → Bool) : CTypename → List CTok → Prop
  | plain {w} : CTypeWord ty w → CTypeSpec ty ⟨false, w⟩ [.word w]
  | const {w} : CTypeWord ty w → CTypeSpec ty ⟨true, w⟩ [.word "const", .word w]

/-- Array bounds. -/
inductive CBounds (ty : String → Bool) : List (Option CExpr) → List CTok → Prop
  | nil : CBounds ty [] []
  | none {is c} : CBounds ty is c → CBounds ty (none :: is) (.punct "[" :: .punct "]" :: c)
  | some {i is c1 c2} : CExpression ty i c1 → CBounds ty is c2 →
      CBounds ty (some i :: is) (.punct "[" :: (c1 ++ .punct "]" :: c2))

/-- A declarator: stars, a name, array bounds. -/
inductive CDeclarator (ty : String → Bool) : CForm → List CTok → Prop
  | mk {n w is c} : CValueWord ty w → CBounds ty is c →
      CDeclarator ty ⟨String.ofList (List.replicate n '*'), w, is⟩ (starToks n ++ .word w :: c)

/-- A declarator, perhaps with an initialiser. -/
inductive CInitDecl (ty : String → Bool) : CForm × Option CExpr → List CTok → Prop
  | plain {f c} : CDeclarator ty f c → CInitDecl ty (f, none) c
  | init {f c v c2} : CDeclarator ty f c → CInitializer ty v c2 →
      CInitDecl ty (f, some v) (c ++ .punct "=" :: c2)

/-- Declarators with commas. -/
inductive CInitDecls (ty : String → Bool) : List (CForm × Option CExpr) → List CTok → Prop
  | one {d c} : CInitDecl ty d c → CInitDecls ty [d] c
  | cons {d c ds c2} : CInitDecl ty d c → CInitDecls ty ds c2 → CInitDecls ty (d :: ds) (c ++ .punct "," :: c2)

/-- An expression or nothing. -/
inductive COptEx (ty : String → Bool) : Option CExpr → List CTok → Prop
  | none : COptEx ty none []
  | some {e c} : CExpression ty e c → COptEx ty (some e) c

/-- The first part of a `for`: an expression, a declaration of one variable with an
initial value, or nothing. -/
inductive CForFirst (ty : String → Bool) : Option CForInit → List CTok → Prop
  | none : CForFirst ty none []
  | expr {e c} : CExpression ty e c → CForFirst ty (some (.expr e)) c
  | decl {t f v c1 c2 c3} : CTypeSpec ty t c1 → CDeclarator ty f c2 → CInitializer ty v c3 →
      CForFirst ty (some (.decl ⟨t, f, v⟩)) (c1 ++ (c2 ++ .punct "=" :: c3))

/-- What the rules describe: a statement, or the statements and declarations of a
block. -/
inductive CStCat
  | stmt (s : KStmt)
  | items (ss : List KStmt)

/-- The rules. -/
inductive CSt (ty : String → Bool) : CStCat → List CTok → Prop
  | empty : CSt ty (.stmt .empty) [.punct ";"]
  | expr {e c} : CExpression ty e c → CSt ty (.stmt (.expr e)) (c ++ [.punct ";"])
  | block {ss c} : CSt ty (.items ss) c → CSt ty (.stmt (.block ss)) (.punct "{" :: (c ++ [.punct "}"]))
  -- 6.8.4
  | ifOnly {e c s c2} : CExpression ty e c → CSt ty (.stmt s) c2 →
      CSt ty (.stmt (.ifS e s none)) (.word "if" :: .punct "(" :: (c ++ .punct ")" :: c2))
  | ifElse {e c s1 c1 s2 c2} : CExpression ty e c → CSt ty (.stmt s1) c1 → CSt ty (.stmt s2) c2 →
      CSt ty (.stmt (.ifS e s1 (some s2)))
        (.word "if" :: .punct "(" :: (c ++ .punct ")" :: (c1 ++ .word "else" :: c2)))
  | switch {e c ss c2} : CExpression ty e c → CSt ty (.items ss) c2 →
      CSt ty (.stmt (.switchS e ss))
        (.word "switch" :: .punct "(" :: (c ++ .punct ")" :: .punct "{" :: (c2 ++ [.punct "}"])))
  -- 6.8.5
  | while {e c s c2} : CExpression ty e c → CSt ty (.stmt s) c2 →
      CSt ty (.stmt (.whileS e s)) (.word "while" :: .punct "(" :: (c ++ .punct ")" :: c2))
  | for {i e a s c1 c2 c3 c4} : CForFirst ty i c1 → COptEx ty e c2 → COptEx ty a c3 → CSt ty (.stmt s) c4 →
      CSt ty (.stmt (.forS i e a s))
        (.word "for" :: .punct "(" :: (c1 ++ .punct ";" :: (c2 ++ .punct ";" :: (c3 ++ .punct ")" :: c4))))
  -- 6.8.6
  | brk : CSt ty (.stmt .brk) [.word "break", .punct ";"]
  | cont : CSt ty (.stmt .cont) [.word "continue", .punct ";"]
  | ret {e c} : COptEx ty e c → CSt ty (.stmt (.ret e)) (.word "return" :: (c ++ [.punct ";"]))
  -- 6.8.1
  | case {l c s c2} : CEx ty (.ex 3 (labelExpr l)) c → CSt ty (.stmt s) c2 →
      CSt ty (.stmt (.case l s)) (.word "case" :: (c ++ .punct ":" :: c2))
  | dflt {s c} : CSt ty (.stmt s) c → CSt ty (.stmt (.dflt s)) (.word "default" :: .punct ":" :: c)
  -- 6.8.2
  | nil : CSt ty (.items []) []
  | stmt {s c ss c2} : CSt ty (.stmt s) c → CSt ty (.items ss) c2 → CSt ty (.items (s :: ss)) (c ++ c2)
  | decl {t c1 ds c2 ss c3} : CTypeSpec ty t c1 → CInitDecls ty ds c2 → CSt ty (.items ss) c3 →
      CSt ty (.items (.decl t ds :: ss)) (c1 ++ (c2 ++ .punct ";" :: c3))

/-! ## Statements that differ in their expressions only -/

/-- Both or neither, and related. -/
inductive OptAlike (R : CExpr → CExpr → Prop) : Option CExpr → Option CExpr → Prop
  | none : OptAlike R none none
  | some {a b} : R a b → OptAlike R (some a) (some b)

/-- Equally long, and related one by one. -/
inductive ListAlike {α : Type} (R : α → α → Prop) : List α → List α → Prop
  | nil : ListAlike R [] []
  | cons {a b as bs} : R a b → ListAlike R as bs → ListAlike R (a :: as) (b :: bs)

/-- The same declarator but for the bounds. -/
structure FormAlike (R : CExpr → CExpr → Prop) (f g : CForm) : Prop where
  stars : f.stars = g.stars
  name : f.name = g.name
  bounds : ListAlike (OptAlike R) f.indexes g.indexes

/-- The same declaration but for expressions; `I` is for initialisers. -/
structure DeclAlike (R I : CExpr → CExpr → Prop) (d d' : CForm × Option CExpr) : Prop where
  form : FormAlike R d.1 d'.1
  value : OptAlike I d.2 d'.2

/-- The same first part of a `for` but for expressions. -/
inductive InitAlike (R I : CExpr → CExpr → Prop) : Option CForInit → Option CForInit → Prop
  | none : InitAlike R I none none
  | expr {a b} : R a b → InitAlike R I (some (.expr a)) (some (.expr b))
  | decl {t f g v w} : FormAlike R f g → I v w → InitAlike R I (some (.decl ⟨t, f, v⟩)) (some (.decl ⟨t, g, w⟩))

mutual
/-- The same statement, each expression replaced by a related one: `R` relates
expressions, `I` initialisers. -/
inductive Alike (R I : CExpr → CExpr → Prop) : KStmt → KStmt → Prop
  | empty : Alike R I .empty .empty
  | expr {a b} : R a b → Alike R I (.expr a) (.expr b)
  | decl {t ds ds'} : ListAlike (DeclAlike R I) ds ds' → Alike R I (.decl t ds) (.decl t ds')
  | ret {a b} : OptAlike R a b → Alike R I (.ret a) (.ret b)
  | brk : Alike R I .brk .brk
  | cont : Alike R I .cont .cont
  | block {ss ss'} : Alikes R I ss ss' → Alike R I (.block ss) (.block ss')
  | ifS {a b s s'} : R a b → Alike R I s s' → Alike R I (.ifS a s none) (.ifS b s' none)
  | ifElse {a b s s' t t'} : R a b → Alike R I s s' → Alike R I t t' →
      Alike R I (.ifS a s (some t)) (.ifS b s' (some t'))
  | whileS {a b s s'} : R a b → Alike R I s s' → Alike R I (.whileS a s) (.whileS b s')
  | forS {i j a b c d s s'} : InitAlike R I i j → OptAlike R a b → OptAlike R c d → Alike R I s s' →
      Alike R I (.forS i a c s) (.forS j b d s')
  | switchS {a b ss ss'} : R a b → Alikes R I ss ss' → Alike R I (.switchS a ss) (.switchS b ss')
  | case {l l' s s'} : R (labelExpr l) (labelExpr l') → Alike R I s s' → Alike R I (.case l s) (.case l' s')
  | dflt {s s'} : Alike R I s s' → Alike R I (.dflt s) (.dflt s')
/-- `Alike` on lists. -/
inductive Alikes (R I : CExpr → CExpr → Prop) : List KStmt → List KStmt → Prop
  | nil : Alikes R I [] []
  | cons {s s' ss ss'} : Alike R I s s' → Alikes R I ss ss' → Alikes R I (s :: ss) (s' :: ss')
end

/-! ## Statements that are spelt properly -/

/-- The words that begin or continue statements are not type names. -/
def TypeNames (ty : String → Bool) : Prop :=
  ∀ w ∈ ["break", "case", "continue", "default", "do", "else", "for", "goto", "if", "return", "switch", "while"],
    ty w = false

/-- The text starts with a list in braces; C has no such expression. -/
def opensList : CExpr → Bool
  | .compLit _ => true
  | .postfixOp _ e => opensList e
  | .binaryOp _ a _ => opensList a
  | .fieldAccess _ t _ => opensList t
  | .call f _ => opensList f
  | .arrIndex a _ => opensList a
  | _ => false

/-- `Plain` on an optional expression. -/
def PlainOpt (ty : String → Bool) : Option CExpr → Prop
  | some e => Plain ty e
  | none => True

/-- A type name. -/
def PlainTypename (ty : String → Bool) (t : CTypename) : Prop := CWord t.name.toList ∧ CTypeWord ty t.name

/-- A declarator is made of stars, a name and plain bounds. -/
def PlainForm (ty : String → Bool) (f : CForm) : Prop :=
  (∃ n, f.stars = String.ofList (List.replicate n '*')) ∧ PlainWord ty f.name ∧
  ∀ i ∈ f.indexes, PlainOpt ty i

/-- The first part of a `for`. -/
def PlainInit (ty : String → Bool) : Option CForInit → Prop
  | none => True
  | some (.expr e) => Plain ty e ∧ opensList e = false
  | some (.decl d) => PlainTypename ty d.typename ∧ PlainForm ty d.form ∧ Plain ty d.value

/-- A case label. -/
def PlainLabel (ty : String → Bool) (l : CCaseValue) : Prop := Plain ty (labelExpr l)

mutual
/-- Names, types, literals and operators are those of C. -/
def PlainS (ty : String → Bool) : CStmt → Prop
  | .block ss => PlainSs ty ss
  | .brk => True
  | .cont => True
  | .varDecl t forms values => PlainTypename ty t ∧ forms.zip values ≠ [] ∧
      ∀ d ∈ forms.zip values, PlainForm ty d.1 ∧ PlainOpt ty d.2
  | .ifS c b els => Plain ty c ∧ PlainSs ty b ∧ PlainB ty els
  | .forS i c a b => PlainInit ty i ∧ PlainOpt ty c ∧ PlainOpt ty a ∧ PlainSs ty b
  | .whileS c b => Plain ty c ∧ PlainSs ty b
  | .ret e => PlainOpt ty e
  | .switchS v cs d => Plain ty v ∧ PlainCs ty cs ∧ PlainB ty d
  | .expr e => Plain ty e ∧ opensList e = false
/-- `PlainS` on a list. -/
def PlainSs (ty : String → Bool) : List CStmt → Prop
  | [] => True
  | s :: ss => PlainS ty s ∧ PlainSs ty ss
/-- `PlainS` on an optional block. -/
def PlainB (ty : String → Bool) : Option (List CStmt) → Prop
  | some b => PlainSs ty b
  | none => True
/-- `PlainS` on the cases of a switch. -/
def PlainCs (ty : String → Bool) : List CSwitchCase → Prop
  | [] => True
  | .mk ls b :: cs => (∀ l ∈ ls, PlainLabel ty l) ∧ PlainSs ty b ∧ PlainCs ty cs
end

/-! ## Statements with all their parentheses -/

/-- `Faithful` on an optional expression. -/
def FaithfulOpt : Option CExpr → Bool
  | some e => Faithful e
  | none => true

/-- `FaithfulInit` on an optional initialiser. -/
def FaithfulInitOpt : Option CExpr → Bool
  | some e => FaithfulInit e
  | none => true

/-- `Faithful` on a declarator with its initial value. -/
def FaithfulDecl (d : CForm × Option CExpr) : Bool := d.1.indexes.all FaithfulOpt && FaithfulInitOpt d.2

/-- `Faithful` on the first part of a `for`. -/
def FaithfulFirst : Option CForInit → Bool
  | none => true
  | some (.expr e) => Faithful e
  | some (.decl d) => d.form.indexes.all FaithfulOpt && FaithfulInit d.value

mutual
/-- The expressions of a statement are printed with all the parentheses that C needs. -/
def FaithfulS : CStmt → Bool
  | .block ss => FaithfulSs ss
  | .brk => true
  | .cont => true
  | .varDecl _ forms values => (forms.zip values).all FaithfulDecl
  | .ifS c b els => Faithful c && FaithfulSs b && FaithfulB els
  | .forS i c a b => FaithfulFirst i && FaithfulOpt c && FaithfulOpt a && FaithfulSs b
  | .whileS c b => Faithful c && FaithfulSs b
  | .ret e => FaithfulOpt e
  | .switchS v cs d => Faithful v && FaithfulCs cs && FaithfulB d
  | .expr e => Faithful e
/-- `FaithfulS` on a list. -/
def FaithfulSs : List CStmt → Bool
  | [] => true
  | s :: ss => FaithfulS s && FaithfulSs ss
/-- `FaithfulS` on an optional block. -/
def FaithfulB : Option (List CStmt) → Bool
  | some b => FaithfulSs b
  | none => true
/-- `FaithfulS` on the cases of a switch. -/
def FaithfulCs : List CSwitchCase → Bool
  | [] => true
  | .mk _ b :: cs => FaithfulSs b && FaithfulCs cs
end

/-! ## Meanings that depend on the text only -/

/-- Expressions with the same text mean the same: a name is the same in parentheses
or not, `NULL` is a name (see `canon`). -/
structure CSem.Textual {m : Type → Type} [Monad m] {V : Type} (S : CSem m V) : Prop where
  eval : ∀ e, S.eval (canon e) = S.eval e
  hit : ∀ ⦃l l'⦄, labelExpr l' = canon (labelExpr l) → ∀ x, S.hit x l' = S.hit x l
  declare : ∀ ⦃f f' v v'⦄, FormAlike (fun e e' => e' = canon e) f f' → OptAlike (fun e e' => e' = canon e) v v' →
    ∀ t, S.declare t f' v' = S.declare t f v

end Che.Spec
