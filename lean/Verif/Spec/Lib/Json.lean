import Verif.Model.Lib.IO

/-!
JSON texts, after RFC 8259, independently of `lib/formats/json.c`.
-/
namespace Che.Spec.Lib
open Che.Lib

/-- A JSON value; a number is its text. -/
inductive JVal
  | null
  | bool (b : Bool)
  | num (text : Bytes)
  | str (s : Bytes)
  | arr (vals : List JVal)
  | obj (entries : List (Bytes × JVal))

/-- What may differ between readers of JSON: blanks, numbers, plain characters of
strings, and what the text after a backslash stands for. -/
structure JLex where
  ws : UInt8 → Prop
  number : Bytes → Prop
  plain : UInt8 → Prop
  esc : Bytes → Bytes → Prop

/-- The text of the characters of a string, and the string. -/
inductive JChars (L : JLex) : Bytes → Bytes → Prop
  | nil : JChars L [] []
  | plain {c : UInt8} {t s : Bytes} : L.plain c → c ≠ 34 → c ≠ 92 → JChars L t s → JChars L (c :: t) (c :: s)
  | esc {e x t s : Bytes} : L.esc e x → JChars L t s → JChars L (92 :: e ++ t) (x ++ s)

/-- The text of a string. -/
def JString (L : JLex) (s text : Bytes) : Prop := ∃ t, JChars L t s ∧ text = [34] ++ t ++ [34]

def Blanks (L : JLex) (w : Bytes) : Prop := ∀ c ∈ w, L.ws c

mutual
/-- The text of a value, without blanks around it. -/
inductive JText (L : JLex) : JVal → Bytes → Prop
  | null : JText L .null [110, 117, 108, 108]
  | true : JText L (.bool true) [116, 114, 117, 101]
  | false : JText L (.bool false) [102, 97, 108, 115, 101]
  | num {t : Bytes} : L.number t → JText L (.num t) t
  | str {s t : Bytes} : JString L s t → JText L (.str s) t
  | arr0 {w : Bytes} : Blanks L w → JText L (.arr []) ([91] ++ w ++ [93])
  | arr {v : JVal} {vs : List JVal} {t : Bytes} : JItems L v vs t → JText L (.arr (v :: vs)) ([91] ++ t ++ [93])
  | obj0 {w : Bytes} : Blanks L w → JText L (.obj []) ([123] ++ w ++ [125])
  | obj {e : Bytes × JVal} {es : List (Bytes × JVal)} {t : Bytes} :
      JMembers L e es t → JText L (.obj (e :: es)) ([123] ++ t ++ [125])

/-- Values between commas. -/
inductive JItems (L : JLex) : JVal → List JVal → Bytes → Prop
  | one {v : JVal} {a t b : Bytes} : Blanks L a → JText L v t → Blanks L b → JItems L v [] (a ++ t ++ b)
  | more {v v' : JVal} {vs : List JVal} {a t b r : Bytes} : Blanks L a → JText L v t → Blanks L b →
      JItems L v' vs r → JItems L v (v' :: vs) (a ++ t ++ b ++ [44] ++ r)

/-- Members between commas. -/
inductive JMembers (L : JLex) : Bytes × JVal → List (Bytes × JVal) → Bytes → Prop
  | one {k : Bytes} {v : JVal} {a kt b c t d : Bytes} : Blanks L a → JString L k kt → Blanks L b → Blanks L c →
      JText L v t → Blanks L d → JMembers L (k, v) [] (a ++ kt ++ b ++ [58] ++ c ++ t ++ d)
  | more {k : Bytes} {v : JVal} {e : Bytes × JVal} {es : List (Bytes × JVal)} {a kt b c t d r : Bytes} :
      Blanks L a → JString L k kt → Blanks L b → Blanks L c → JText L v t → Blanks L d → JMembers L e es r →
      JMembers L (k, v) (e :: es) (a ++ kt ++ b ++ [58] ++ c ++ t ++ d ++ [44] ++ r)
end

/-- A whole JSON document. -/
def JDoc (L : JLex) (v : JVal) (text : Bytes) : Prop :=
  ∃ a t b, Blanks L a ∧ JText L v t ∧ Blanks L b ∧ text = a ++ t ++ b

/-- A digit. -/
def JDigit (c : UInt8) : Prop := 48 ≤ c ∧ c ≤ 57

/-- `frac = "." 1*DIGIT`, or nothing. -/
def JFrac (t : Bytes) : Prop := t = [] ∨ ∃ ds, t = 46 :: ds ∧ ds ≠ [] ∧ ∀ c ∈ ds, JDigit c

/-- `exp = e [minus / plus] 1*DIGIT`, or nothing. -/
def JExp (t : Bytes) : Prop :=
  t = [] ∨ ∃ e sign ds, t = e :: sign ++ ds ∧ (e = 101 ∨ e = 69) ∧ (sign = [] ∨ sign = [45] ∨ sign = [43]) ∧
    ds ≠ [] ∧ ∀ c ∈ ds, JDigit c

/-- `number = [minus] int [frac] [exp]`, for a given `int`. -/
def JNumber (int : Bytes → Prop) (t : Bytes) : Prop :=
  ∃ sign ds frac exp, t = sign ++ ds ++ frac ++ exp ∧ (sign = [] ∨ sign = [45]) ∧ int ds ∧ JFrac frac ∧ JExp exp

/-- `int = zero / (digit1-9 *DIGIT)`. -/
def JInt (ds : Bytes) : Prop := ds = [48] ∨ ∃ d r, ds = d :: r ∧ 49 ≤ d ∧ d ≤ 57 ∧ ∀ c ∈ r, JDigit c

/-- Any digits. -/
def JDigits (ds : Bytes) : Prop := ds ≠ [] ∧ ∀ c ∈ ds, JDigit c

/-- UTF-8 of a code point. -/
def utf8Of (n : Nat) : Bytes :=
  if n < 0x80 then [UInt8.ofNat n]
  else if n < 0x800 then [UInt8.ofNat (0xC0 + n / 64), UInt8.ofNat (0x80 + n % 64)]
  else if n < 0x10000 then [UInt8.ofNat (0xE0 + n / 4096), UInt8.ofNat (0x80 + n / 64 % 64), UInt8.ofNat (0x80 + n % 64)]
  else [UInt8.ofNat (0xF0 + n / 262144), UInt8.ofNat (0x80 + n / 4096 % 64), UInt8.ofNat (0x80 + n / 64 % 64),
    UInt8.ofNat (0x80 + n % 64)]

/-- A hexadecimal digit and its value. -/
def hexDigit (c : UInt8) : Option Nat :=
  if 48 ≤ c ∧ c ≤ 57 then some (c.toNat - 48)
  else if 65 ≤ c ∧ c ≤ 70 then some (c.toNat - 55)
  else if 97 ≤ c ∧ c ≤ 102 then some (c.toNat - 87)
  else none

/-- Four hexadecimal digits. -/
def Hex4 (t : Bytes) (n : Nat) : Prop :=
  ∃ a b c d x y z w, t = [a, b, c, d] ∧ hexDigit a = some x ∧ hexDigit b = some y ∧ hexDigit c = some z ∧
    hexDigit d = some w ∧ n = ((x * 16 + y) * 16 + z) * 16 + w

/-- The escapes of RFC 8259, section 7. -/
inductive RfcEsc : Bytes → Bytes → Prop
  | quote : RfcEsc [34] [34]
  | backslash : RfcEsc [92] [92]
  | slash : RfcEsc [47] [47]
  | b : RfcEsc [98] [8]
  | f : RfcEsc [102] [12]
  | n : RfcEsc [110] [10]
  | r : RfcEsc [114] [13]
  | t : RfcEsc [116] [9]
  | u {h : Bytes} {n : Nat} : Hex4 h n → n < 0xD800 ∨ 0xDFFF < n → RfcEsc (117 :: h) (utf8Of n)
  | pair {h l : Bytes} {n m : Nat} : Hex4 h n → Hex4 l m → 0xD800 ≤ n → n ≤ 0xDBFF → 0xDC00 ≤ m → m ≤ 0xDFFF →
      RfcEsc (117 :: h ++ [92, 117] ++ l) (utf8Of (0x10000 + (n - 0xD800) * 1024 + (m - 0xDC00)))

/-- The escapes that stand for the character itself. -/
inductive SelfEsc : Bytes → Bytes → Prop
  | quote : SelfEsc [34] [34]
  | backslash : SelfEsc [92] [92]
  | slash : SelfEsc [47] [47]

/-- RFC 8259. -/
def rfc : JLex where
  ws c := c = 32 ∨ c = 9 ∨ c = 10 ∨ c = 13
  number := JNumber JInt
  plain c := 32 ≤ c
  esc := RfcEsc

/-- RFC 8259 with no escapes but `\"`, `\\` and `\/`, and no numbers of 100 bytes or more. -/
def simple : JLex := { rfc with esc := SelfEsc, number := fun t => JNumber JInt t ∧ t.length < 100 }

/-- A lenient reading: any blanks, zeros before numbers of less than 100 bytes, any character in strings, and
after a backslash any character, which stands for itself. -/
def lax : JLex where
  ws c := c = 32 ∨ (9 ≤ c ∧ c ≤ 13)
  number t := JNumber JDigits t ∧ t.length < 100
  plain _ := True
  esc e x := ∃ c, e = [c] ∧ x = [c]

end Che.Spec.Lib
