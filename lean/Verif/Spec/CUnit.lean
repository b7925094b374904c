import Verif.Spec.CStmtGrammar
/-!
# Specification: the grammar of C files

C99 6.10, 6.7 and 6.9: a file is made of lines; a line that starts with `#` is a
directive, the others are cut into tokens.  The tokens are declarations and function
definitions.  This is the file as it is written, before the directives are obeyed.

Described are the declarations that the trees of `src/c.rs` can stand for: one
declarator in each, and functions with named parameters.
-/
namespace Che.Spec
open Che

/-! ## Lines -/

/-- A directive without its `#`, or a token. -/
inductive CItem where
  | dir (line : String)
  | tok (t : CTok)
deriving DecidableEq, Repr

/-- The line is a directive: its first token is `#`, which can be spelt `%:`. -/
def StartsHash (ts : List CTok) : Prop := ts.head? = some (.punct "#") ∨ ts.head? = some (.punct "%:")

/-- What follows the `#` of a directive: one line, not continued on the next (5.1.1.2
phase 2), no comment that could run on (phase 3), and the `#` is not half of `##`. -/
structure DirLine (l : List Char) : Prop where
  one : '\n' ∉ l
  ends : l.getLast? ≠ some '\\'
  open_ : ¬ ['/', '*'] <:+: l
  hash : l.head? ≠ some '#'

/-- `CFile s is`: the text `s` is made of these directives and tokens. -/
inductive CFile : List Char → List CItem → Prop
  | nil : CFile [] []
  | dir {b l s is} : (∀ c ∈ b, c = ' ' ∨ c = '\t') → DirLine l → CFile s is →
      CFile (b ++ '#' :: (l ++ '\n' :: s)) (.dir (String.ofList l) :: is)
  | line {l ts s is} : '\n' ∉ l → CReads l ts [] → ¬ StartsHash ts → CFile s is →
      CFile (l ++ '\n' :: s) (ts.map .tok ++ is)

/-! ## Declarations -/

/-- A type of a typedef: a type name or a structure, perhaps `const`. -/
structure KType where
  isConst : Bool
  isStruct : Bool
  name : String
deriving DecidableEq, Repr

/-- A member of a structure: a field, or a field that is a union. -/
inductive KMember where
  | field (t : CTypename) (f : CForm)
  | union (fields : List (CTypename × CForm)) (f : CForm)

/-- Declarations and definitions at the outer level of a file. -/
inductive KExt where
  | directive (line : String)
  | var (isStatic : Bool) (t : CTypename) (d : CForm × Option CExpr)
  | typedef (t : KType) (stars : Nat) (name : String) (params : Option (List CBareTypeform × Bool))
      (bounds : List (Option CExpr))
  | enum (members : List (String × Option CExpr))
  | structDecl (name : String)
  | structDef (name : String) (members : List KMember)
  | proto (isStatic : Bool) (t : CTypename) (f : CForm) (params : List (CTypename × CForm)) (dots : Bool)
  | func (isStatic : Bool) (t : CTypename) (f : CForm) (params : List (CTypename × CForm)) (dots : Bool)
      (body : List KStmt)

/-- 6.7.1: `static` or nothing. -/
inductive CStorage : Bool → List CTok → Prop
  | none : CStorage false []
  | static : CStorage true [.word "static"]

/-- A type of a typedef. -/
inductive CKType (ty : String → Bool) : KType → List CTok → Prop
  | name {w} : CTypeWord ty w → CKType ty ⟨false, false, w⟩ [.word w]
  | const {w} : CTypeWord ty w → CKType ty ⟨true, false, w⟩ [.word "const", .word w]
  | struct {w} : w ∉ cKeywords → CKType ty ⟨false, true, w⟩ [.word "struct", .word w]
  | constStruct {w} : w ∉ cKeywords → CKType ty ⟨true, true, w⟩ [.word "const", .word "struct", .word w]

/-- 6.7.2.1, a field. -/
inductive CField (ty : String → Bool) : CTypename × CForm → List CTok → Prop
  | mk {t f c1 c2} : CTypeSpec ty t c1 → CDeclarator ty f c2 → CField ty (t, f) (c1 ++ (c2 ++ [.punct ";"]))

/-- Fields, one at least. -/
inductive CFields (ty : String → Bool) : List (CTypename × CForm) → List CTok → Prop
  | one {f c} : CField ty f c → CFields ty [f] c
  | cons {f c fs c2} : CField ty f c → CFields ty fs c2 → CFields ty (f :: fs) (c ++ c2)

/-- A member of a structure. -/
inductive CMember (ty : String → Bool) : KMember → List CTok → Prop
  | field {t f c} : CField ty (t, f) c → CMember ty (.field t f) c
  | union {fs c f c2} : CFields ty fs c → CDeclarator ty f c2 →
      CMember ty (.union fs f) (.word "union" :: .punct "{" :: (c ++ .punct "}" :: (c2 ++ [.punct ";"])))

/-- Members, one at least. -/
inductive CMembers (ty : String → Bool) : List KMember → List CTok → Prop
  | one {m c} : CMember ty m c → CMembers ty [m] c
  | cons {m c ms c2} : CMember ty m c → CMembers ty ms c2 → CMembers ty (m :: ms) (c ++ c2)

/-- 6.7.2.2, an enumerator; its value is a constant expression. -/
inductive CEnumerator (ty : String → Bool) : String × Option CExpr → List CTok → Prop
  | plain {w} : CValueWord ty w → CEnumerator ty (w, none) [.word w]
  | value {w e c} : CValueWord ty w → CEx ty (.ex 3 e) c →
      CEnumerator ty (w, some e) (.word w :: .punct "=" :: c)

/-- Enumerators; a comma may follow the last. -/
inductive CEnumerators (ty : String → Bool) : List (String × Option CExpr) → List CTok → Prop
  | one {m c} : CEnumerator ty m c → CEnumerators ty [m] c
  | comma {m c} : CEnumerator ty m c → CEnumerators ty [m] (c ++ [.punct ","])
  | cons {m c ms c2} : CEnumerator ty m c → CEnumerators ty ms c2 →
      CEnumerators ty (m :: ms) (c ++ .punct "," :: c2)

/-- 6.7.5, parameters with commas. -/
inductive CParamList (ty : String → Bool) : List (CTypename × CForm) → List CTok → Prop
  | one {t f c1 c2} : CTypeSpec ty t c1 → CDeclarator ty f c2 → CParamList ty [(t, f)] (c1 ++ c2)
  | cons {t f c1 c2 ps c3} : CTypeSpec ty t c1 → CDeclarator ty f c2 → CParamList ty ps c3 →
      CParamList ty ((t, f) :: ps) (c1 ++ (c2 ++ .punct "," :: c3))

/-- Parameters in parentheses: `(void)` when there are none, `, ...` when more may
follow. -/
inductive CParams (ty : String → Bool) : List (CTypename × CForm) → Bool → List CTok → Prop
  | void : CParams ty [] false [.punct "(", .word "void", .punct ")"]
  | some {ps c} : CParamList ty ps c → CParams ty ps false (.punct "(" :: (c ++ [.punct ")"]))
  | dots {ps c} : CParamList ty ps c →
      CParams ty ps true (.punct "(" :: (c ++ [.punct ",", .punct "...", .punct ")"]))

/-- Parameters without names, with commas. -/
inductive CTypeList (ty : String → Bool) : List CBareTypeform → List CTok → Prop
  | one {t c} : CType ty t c → CTypeList ty [t] c
  | cons {t c ts c2} : CType ty t c → CTypeList ty ts c2 → CTypeList ty (t :: ts) (c ++ .punct "," :: c2)

/-- The list `(void)`. -/
def voidList : List CBareTypeform := [⟨⟨false, "void"⟩, 0⟩]

/-- The parameters of a function type, if it is one. -/
inductive CAnon (ty : String → Bool) : Option (List CBareTypeform × Bool) → List CTok → Prop
  | none : CAnon ty none []
  | void : CAnon ty (some ([], false)) [.punct "(", .word "void", .punct ")"]
  | some {ts c} : CTypeList ty ts c → ts ≠ voidList → CAnon ty (some (ts, false)) (.punct "(" :: (c ++ [.punct ")"]))
  | dots {ts c} : CTypeList ty ts c →
      CAnon ty (some (ts, true)) (.punct "(" :: (c ++ [.punct ",", .punct "...", .punct ")"]))

/-- One declaration or definition. -/
inductive CExtDecl (ty : String → Bool) : KExt → List CTok → Prop
  | var {b c0 t c1 d c2} : CStorage b c0 → CTypeSpec ty t c1 → CInitDecl ty d c2 →
      CExtDecl ty (.var b t d) (c0 ++ (c1 ++ (c2 ++ [.punct ";"])))
  | typedef {t c1 n w ps c2 is c3} : CKType ty t c1 → w ∉ cKeywords → CAnon ty ps c2 → CBounds ty is c3 →
      CExtDecl ty (.typedef t n w ps is)
        (.word "typedef" :: (c1 ++ (starToks n ++ .word w :: (c2 ++ (c3 ++ [.punct ";"])))))
  | enum {ms c} : CEnumerators ty ms c →
      CExtDecl ty (.enum ms) (.word "enum" :: .punct "{" :: (c ++ [.punct "}", .punct ";"]))
  | structDecl {w} : w ∉ cKeywords → CExtDecl ty (.structDecl w) [.word "struct", .word w, .punct ";"]
  | structDef {w ms c} : w ∉ cKeywords → CMembers ty ms c →
      CExtDecl ty (.structDef w ms)
        (.word "struct" :: .word w :: .punct "{" :: (c ++ [.punct "}", .punct ";"]))
  | proto {b c0 t c1 f c2 ps dots c3} : CStorage b c0 → CTypeSpec ty t c1 → CDeclarator ty f c2 →
      CParams ty ps dots c3 → CExtDecl ty (.proto b t f ps dots) (c0 ++ (c1 ++ (c2 ++ (c3 ++ [.punct ";"]))))
  -- 6.9.1
  | func {b c0 t c1 f c2 ps dots c3 ss c4} : CStorage b c0 → CTypeSpec ty t c1 → CDeclarator ty f c2 →
      CParams ty ps dots c3 → CSt ty (.stmt (.block ss)) c4 →
      CExtDecl ty (.func b t f ps dots ss) (c0 ++ (c1 ++ (c2 ++ (c3 ++ c4))))

/-- A file. -/
inductive CUnit (ty : String → Bool) : List KExt → List CItem → Prop
  | nil : CUnit ty [] []
  | dir {l ks is} : CUnit ty ks is → CUnit ty (.directive l :: ks) (.dir l :: is)
  | decl {k c ks is} : CExtDecl ty k c → CUnit ty ks is → CUnit ty (k :: ks) (c.map .tok ++ is)

/-! ## Declarations that differ in their expressions only -/

/-- The same declared name but for bounds. -/
structure FieldAlike (R : CExpr → CExpr → Prop) (p p' : CTypename × CForm) : Prop where
  type : p.1 = p'.1
  form : FormAlike R p.2 p'.2

/-- The same member but for bounds. -/
inductive MemberAlike (R : CExpr → CExpr → Prop) : KMember → KMember → Prop
  | field {t f f'} : FormAlike R f f' → MemberAlike R (.field t f) (.field t f')
  | union {fs fs' f f'} : ListAlike (FieldAlike R) fs fs' → FormAlike R f f' → MemberAlike R (.union fs f) (.union fs' f')

/-- The same enumerator but for its value. -/
structure EnumAlike (R : CExpr → CExpr → Prop) (m m' : String × Option CExpr) : Prop where
  name : m.1 = m'.1
  value : OptAlike R m.2 m'.2

/-- The same declaration but for expressions; `I` is for initialisers. -/
inductive ExtAlike (R I : CExpr → CExpr → Prop) : KExt → KExt → Prop
  | directive {l} : ExtAlike R I (.directive l) (.directive l)
  | var {b t d d'} : DeclAlike R I d d' → ExtAlike R I (.var b t d) (.var b t d')
  | typedef {t n w ps is is'} : ListAlike (OptAlike R) is is' → ExtAlike R I (.typedef t n w ps is) (.typedef t n w ps is')
  | enum {ms ms'} : ListAlike (EnumAlike R) ms ms' → ExtAlike R I (.enum ms) (.enum ms')
  | structDecl {w} : ExtAlike R I (.structDecl w) (.structDecl w)
  | structDef {w ms ms'} : ListAlike (MemberAlike R) ms ms' → ExtAlike R I (.structDef w ms) (.structDef w ms')
  | proto {b t f f' ps ps' dots} : FormAlike R f f' → ListAlike (FieldAlike R) ps ps' →
      ExtAlike R I (.proto b t f ps dots) (.proto b t f' ps' dots)
  | func {b t f f' ps ps' dots ss ss'} : FormAlike R f f' → ListAlike (FieldAlike R) ps ps' → Alikes R I ss ss' →
      ExtAlike R I (.func b t f ps dots ss) (.func b t f' ps' dots ss')

/-! ## What a module says -/

/-- The type of a typedef. -/
def kType (t : CTypename) : KType :=
  match t.name.toList with
  | 's' :: 't' :: 'r' :: 'u' :: 'c' :: 't' :: ' ' :: w => ⟨t.isConst, true, String.ofList w⟩
  | _ => ⟨t.isConst, false, t.name⟩

/-- A name with its type. -/
def kField (f : CTypeForm) : CTypename × CForm := (f.typename, f.form)

/-- A member. -/
def kMember : CStructItem → KMember
  | .field f => .field f.typename f.form
  | .union u => .union (u.fields.map kField) u.form

/-- The parameters of a function type; a single `void` is no parameter. -/
def kAnon (p : CAnonParams) : List CBareTypeform × Bool :=
  (if p.forms = voidList && !p.ellipsis then [] else p.forms, p.ellipsis)

/-- A function is `static` unless it is public or `main`. -/
def kStatic (isStatic : Bool) (f : CForm) : Bool :=
  isStatic && !(f.stars == "" && f.name == "main" && f.indexes.isEmpty)

/-- The declaration that an element of a module stands for. -/
def kElem : CModElem → KExt
  | .include x => .directive ("include " ++ x)
  | .macro x => .directive (x.name ++ " " ++ x.value)
  | .forwardStruct x => .structDecl x
  | .forwardFunc x => .proto (kStatic x.isStatic x.form) x.typename x.form (x.params.list.map kField) x.params.variadic
  | .defEnum x => .enum (x.entries.map fun m => (m.id, m.value))
  | .typedef x =>
    .typedef (kType x.typename) x.form.stars.toList.length x.form.alias (x.form.params.map kAnon)
      (if x.form.size = 0 then [] else [some (.lit (.number (toString x.form.size)))])
  | .structDef x => .structDef x.name (x.fields.map kMember)
  | .varDecl x => .var true x.typename (x.form, some x.value)
  | .funcDef x =>
    .func (kStatic x.isStatic x.form) x.typename x.form (x.params.list.map kField) x.params.variadic (lowers x.body)

/-! ## Modules that are spelt properly -/

/-- The words that begin declarations are not type names. -/
def UnitNames (ty : String → Bool) : Prop :=
  TypeNames ty ∧ ∀ w ∈ ["enum", "static", "struct", "typedef", "union"], ty w = false

/-- A tag or a typedef name. -/
def PlainTag (w : String) : Prop := CWord w.toList ∧ w ∉ cKeywords

/-- A name with its type. -/
def PlainField (ty : String → Bool) (f : CTypeForm) : Prop := PlainTypename ty f.typename ∧ PlainForm ty f.form

/-- A member; a union has fields. -/
def PlainItem (ty : String → Bool) : CStructItem → Prop
  | .field f => PlainField ty f
  | .union u => u.fields ≠ [] ∧ (∀ f ∈ u.fields, PlainField ty f) ∧ PlainForm ty u.form

/-- Parameters; only where there are some may more follow. -/
def PlainParams (ty : String → Bool) (p : CFuncParams) : Prop :=
  (∀ f ∈ p.list, PlainField ty f) ∧ (p.variadic = true → p.list ≠ [])

/-- The type of a typedef. -/
def PlainKType (ty : String → Bool) (t : KType) : Prop :=
  if t.isStruct then PlainTag t.name else CWord t.name.toList ∧ CTypeWord ty t.name

/-- An element; structures, unions and enumerations are not empty. -/
def PlainElem (ty : String → Bool) : CModElem → Prop
  | .include x => DirLine ("include " ++ x).toList
  | .macro x => DirLine (x.name ++ " " ++ x.value).toList
  | .forwardStruct x => PlainTag x
  | .forwardFunc x => PlainTypename ty x.typename ∧ PlainForm ty x.form ∧ PlainParams ty x.params
  | .defEnum x => x.entries ≠ [] ∧ ∀ m ∈ x.entries, PlainWord ty m.id ∧ PlainOpt ty m.value
  | .typedef x =>
    PlainKType ty (kType x.typename) ∧ (∃ n, x.form.stars = String.ofList (List.replicate n '*')) ∧
    PlainTag x.form.alias ∧
    (∀ p, x.form.params = some p → (∀ t ∈ p.forms, PlainType ty t) ∧ (p.ellipsis = true → p.forms ≠ []))
  | .structDef x => PlainTag x.name ∧ x.fields ≠ [] ∧ ∀ m ∈ x.fields, PlainItem ty m
  | .varDecl x => PlainTypename ty x.typename ∧ PlainForm ty x.form ∧ Plain ty x.value
  | .funcDef x => PlainTypename ty x.typename ∧ PlainForm ty x.form ∧ PlainParams ty x.params ∧ PlainSs ty x.body

/-! ## Modules with all their parentheses -/

/-- `Faithful` on a declarator. -/
def FaithfulForm (f : CForm) : Bool := f.indexes.all FaithfulOpt

/-- `Faithful` on a constant expression: it is no assignment. -/
def FaithfulConst : Option CExpr → Bool
  | some (.binaryOp op a b) => Faithful (.binaryOp op a b) && !(decide (op ∈ cAssignOps))
  | some e => Faithful e
  | none => true

/-- `Faithful` on a member. -/
def FaithfulItem : CStructItem → Bool
  | .field f => FaithfulForm f.form
  | .union u => u.fields.all (fun f => FaithfulForm f.form) && FaithfulForm u.form

/-- The expressions of an element are printed with all the parentheses that C needs. -/
def FaithfulElem : CModElem → Bool
  | .include _ => true
  | .macro _ => true
  | .forwardStruct _ => true
  | .forwardFunc x => FaithfulForm x.form && x.params.list.all (fun f => FaithfulForm f.form)
  | .defEnum x => x.entries.all (fun m => FaithfulConst m.value)
  | .typedef _ => true
  | .structDef x => x.fields.all FaithfulItem
  | .varDecl x => FaithfulForm x.form && FaithfulInit x.value
  | .funcDef x => FaithfulForm x.form && x.params.list.all (fun f => FaithfulForm f.form) && FaithfulSs x.body

end Che.Spec
