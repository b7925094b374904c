import Verif.Model.Lib.Opt

/-!
What a command line means: the conventional grammar of one letter options.
-/
namespace Che.Spec.Opt
open Che.Lib Che.Lib.Opt

/-- Decimal digits and the number they are. -/
inductive Decimal : Bytes → Nat → Prop where
  | one (d : Nat) : d < 10 → Decimal [UInt8.ofNat (48 + d)] d
  | snoc (s : Bytes) (n d : Nat) : Decimal s n → d < 10 → Decimal (s ++ [UInt8.ofNat (48 + d)]) (10 * n + d)

/-- An option is known by a letter: the first one declared with that letter. -/
def Known (specs : List Spec) (c : UInt8) (i : Nat) (ty : Ty) : Prop :=
  specs[i]? = some ⟨ty, [c]⟩ ∧ ∀ j, j < i → ∀ ty', specs[j]? ≠ some ⟨ty', [c]⟩

/-- Texts of values. -/
inductive Value {F : Type} (scan : Bytes → Option F) : Ty → Bytes → Val F → Prop where
  | str (v : Bytes) : Value scan .str v (.str v)
  | pos (v : Bytes) (n : Nat) : Decimal v n → n < 2 ^ 31 → Value scan .int v (.int n)
  | neg (v : Bytes) (n : Nat) : Decimal v n → n ≤ 2 ^ 31 → Value scan .int (45 :: v) (.int (-n))
  | size (v : Bytes) (n : Nat) : Decimal v n → n < 2 ^ 64 → Value scan .size v (.size n)
  | float (v : Bytes) (x : F) : scan v = some x → Value scan .float v (.float x)

/-- An argument that no option begins: the empty one, `-`, and one that does not begin
with a dash. -/
def Plain (a : Bytes) : Prop := a.head? ≠ some 45 ∨ a = [45]

/-- `Line specs args st rest`: the arguments `args` set the values `st`, and `rest` are the
positional arguments. -/
inductive Line {F : Type} (scan : Bytes → Option F) (specs : List Spec) :
    List Bytes → List (Nat × Val F) → List Bytes → Prop where
  /-- No arguments. -/
  | none : Line scan specs [] [] []
  /-- The positional arguments begin. -/
  | rest (a : Bytes) (as : List Bytes) : Plain a → Line scan specs (a :: as) [] (a :: as)
  /-- `-abc`: one or more flags. -/
  | flags (cs : Bytes) (is : List Nat) (as : List Bytes) (st : List (Nat × Val F)) (r : List Bytes) :
      cs ≠ [] → is.length = cs.length →
      (∀ (k : Nat) (c : UInt8) (i : Nat), cs[k]? = some c → is[k]? = some i → Known specs c i .bool) →
      Line scan specs as st r → Line scan specs ((45 :: cs) :: as) (is.map (fun i => (i, Val.true)) ++ st) r
  /-- `-k value`. -/
  | value (c : UInt8) (i : Nat) (ty : Ty) (v : Bytes) (x : Val F) (as : List Bytes) (st : List (Nat × Val F))
      (r : List Bytes) : Known specs c i ty → Value scan ty v x → Line scan specs as st r →
      Line scan specs ([45, c] :: v :: as) ((i, x) :: st) r

/-- A number too large for its type is given to an option: what `sscanf` does then is not
defined. -/
inductive TooLarge : Ty → Bytes → Prop where
  | pos (v : Bytes) (n : Nat) : Decimal v n → 2 ^ 31 ≤ n → TooLarge .int v
  | neg (v : Bytes) (n : Nat) : Decimal v n → 2 ^ 31 < n → TooLarge .int (45 :: v)
  | size (v : Bytes) (n : Nat) : Decimal v n → 2 ^ 64 ≤ n → TooLarge .size v

/-- The arguments begin like a line, up to a number that is too large. -/
inductive Overflow {F : Type} (scan : Bytes → Option F) (specs : List Spec) : List Bytes → Prop where
  | here (c : UInt8) (i : Nat) (ty : Ty) (v : Bytes) (as : List Bytes) : Known specs c i ty → TooLarge ty v →
      Overflow scan specs ([45, c] :: v :: as)
  | flags (cs : Bytes) (is : List Nat) (as : List Bytes) : cs ≠ [] → is.length = cs.length →
      (∀ (k : Nat) (c : UInt8) (i : Nat), cs[k]? = some c → is[k]? = some i → Known specs c i .bool) →
      Overflow scan specs as → Overflow scan specs ((45 :: cs) :: as)
  | value (c : UInt8) (i : Nat) (ty : Ty) (v : Bytes) (x : Val F) (as : List Bytes) :
      Known specs c i ty → Value scan ty v x → Overflow scan specs as → Overflow scan specs ([45, c] :: v :: as)
end Che.Spec.Opt
