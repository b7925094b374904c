import Verif.Model.Lib.IO

/-!
A text being read: what has been read and what is left.  What the calls of a tokenizer
should do, independently of `lib/tokenizer.c`.
-/
namespace Che.Spec.Lib
open Che.Lib

structure Cursor where
  seen : Bytes
  rest : Bytes
deriving DecidableEq

namespace Cursor

/-- Going over the next `n` bytes. -/
def skip (c : Cursor) (n : Nat) : Cursor := { seen := c.seen ++ c.rest.take n, rest := c.rest.drop n }

/-- Going over a text that follows. -/
def past (c : Cursor) (s : Bytes) : Cursor := c.skip s.length

/-- Lines before the place: newlines gone over. -/
def row (c : Cursor) : Nat := c.seen.count 10

/-- Bytes of the line before the place. -/
def col (c : Cursor) : Nat := (c.seen.reverse.takeWhile (· ≠ 10)).length

end Cursor

/-- A character or the end of the input, as C tells them: -1 is the end. -/
def code : Option UInt8 → Int
  | none => -1
  | some c => c.toNat

def blank (c : UInt8) : Bool := c = 32 || (9 ≤ c && c ≤ 13)
def digit (c : UInt8) : Bool := 48 ≤ c && c ≤ 57
def letter (c : UInt8) : Bool := (65 ≤ c && c ≤ 90) || (97 ≤ c && c ≤ 122)
def wordChar (c : UInt8) : Bool := letter c || digit c || c = 95

/-- The identifier at the start of a text. -/
def wordAt (s : Bytes) : Option Bytes :=
  match s with
  | [] => none
  | c :: _ => if letter c || c = 95 then some (s.takeWhile wordChar) else none

/-- At least one digit: what there is of them, and whether there is one. -/
def digitsAt (s : Bytes) : Bytes × Bool := (s.takeWhile digit, s.takeWhile digit ≠ [])

/-- What of a number is at the start of a text, and whether it is a whole number:
a sign, digits, a fraction, an exponent. -/
def expAt : Bytes → Bytes × Bool
  | [] => ([], true)
  | e :: s =>
    if e = 101 || e = 69 then
      match s with
      | [] => ([e], false)
      | g :: s' =>
        if g = 45 || g = 43 then (e :: g :: (digitsAt s').1, (digitsAt s').2)
        else (e :: (digitsAt s).1, (digitsAt s).2)
    else ([], true)

def fracAt : Bytes → Bytes × Bool
  | [] => ([], true)
  | d :: s =>
    if d = 46 then
      let (ds, ok) := digitsAt s
      if ok then
        let (es, ok) := expAt (s.drop ds.length)
        (d :: ds ++ es, ok)
      else (d :: ds, false)
    else expAt (d :: s)

def unsignedAt (s : Bytes) : Bytes × Bool :=
  let (ds, ok) := digitsAt s
  if ok then
    let (fs, ok) := fracAt (s.drop ds.length)
    (ds ++ fs, ok)
  else (ds, false)

def numberAt : Bytes → Bytes × Bool
  | [] => ([], false)
  | m :: s =>
    if m = 45 then
      let (t, ok) := unsignedAt s
      (m :: t, ok)
    else unsignedAt (m :: s)

/-- What comes before a literal, or everything. -/
def before (lit : Bytes) : Bytes → Bytes
  | [] => []
  | c :: s => if lit.isPrefixOf (c :: s) then [] else c :: before lit s

/-- A number in decimal. -/
def digitsOf (n : Nat) : Bytes := (Nat.toDigits 10 n).map fun c => UInt8.ofNat c.toNat

/-- A call of a tokenizer. -/
inductive Call
  | peek
  | more
  | get
  | tail (buf : Bytes)
  | skipSet (set : Bytes)
  | skip (c : UInt8)
  | readSet (set : Bytes)
  | spaces
  | hspaces
  | id (n : Nat)
  | num (n : Nat)
  | skipLiteral (lit : Bytes)
  | literalFollows (lit : Bytes)
  | position
  | skipUntil (lit : Bytes)
  | readUntil (c : UInt8) (n : Nat)

inductive Answer
  | nothing
  | char (c : Int)
  | flag (b : Bool)
  | text (s : Bytes)
  | maybe (s : Option Bytes)
  | flagText (b : Bool) (s : Bytes)
deriving DecidableEq

/-- A byte in a set.  C counts the end of a string as one of its characters. -/
def inSet (set : Bytes) (c : UInt8) : Bool := c ∈ set ∨ c = 0

/-- A text in a buffer that is larger. -/
def into (buf s : Bytes) : Bytes := s ++ (buf.drop s.length).dropLast ++ [0]

/-- What a call answers and where it leaves the text. -/
def Cursor.call (c : Cursor) : Call → Cursor × Answer
  | .peek => (c, .char (code c.rest.head?))
  | .more => (c, .flag (c.rest ≠ []))
  | .get => (c.skip 1, .char (code c.rest.head?))
  | .tail buf => (c, .text (into buf (c.rest.take (buf.length - 1))))
  | .skipSet set => (c.past (c.rest.takeWhile (inSet set)), .nothing)
  | .skip x => if c.rest.head? = some x then (c.skip 1, .flag true) else (c, .flag false)
  | .readSet set => (c.past (c.rest.takeWhile (inSet set)), .text (c.rest.takeWhile (inSet set)))
  | .spaces => (c.past (c.rest.takeWhile blank), .flag (c.rest.takeWhile blank ≠ []))
  | .hspaces => (c.past (c.rest.takeWhile fun x => x = 32 || x = 9), .nothing)
  | .id n =>
    match wordAt c.rest with
    | none => (c, .maybe none)
    | some w => (c.past w, .maybe (some (w.take (n - 1))))
  | .num _ => (c.past (numberAt c.rest).1, .maybe (if (numberAt c.rest).2 then some (numberAt c.rest).1 else none))
  | .skipLiteral lit => if lit <+: c.rest then (c.past lit, .flag true) else (c, .flag false)
  | .literalFollows lit => (c, .flag (lit <+: c.rest))
  | .position => (c, .text ((digitsOf (c.row + 1) ++ [58] ++ digitsOf (c.col + 1)).take 9))
  | .skipUntil lit => (c.past (before lit c.rest), .text (before lit c.rest))
  | .readUntil x n =>
    let s := c.rest.takeWhile (· ≠ x)
    if s.length < n then (c.past s, .flagText true s) else (c.skip (n - 1), .flagText false (s.take (n - 1)))

/-- Calls whose buffers are large enough. -/
def Cursor.Fits (c : Cursor) : Call → Prop
  | .tail buf => 0 < buf.length ∧ buf.length ≤ 100
  | .skip x => x < 128
  | .readSet set => (c.rest.takeWhile (inSet set)).length ≤ 10000
  | .id n => 0 < n
  | .num n => (numberAt c.rest).1.length < n
  | .skipLiteral lit => lit.length ≤ 100 ∧ 0 ∉ lit
  | .literalFollows lit => lit.length ≤ 100 ∧ 0 ∉ lit
  | .skipUntil lit => lit.length ≤ 100 ∧ 0 ∉ lit ∧ (before lit c.rest).length ≤ 10000
  | .readUntil x n => x < 128 ∧ 0 < n
  | _ => True

/-- The answers to calls made one after another. -/
def Cursor.run (c : Cursor) : List Call → List Answer
  | [] => []
  | k :: ks => (c.call k).2 :: (c.call k).1.run ks

/-- Every call fits where it is made. -/
def Cursor.AllFit (c : Cursor) : List Call → Prop
  | [] => True
  | k :: ks => c.Fits k ∧ (c.call k).1.AllFit ks

end Che.Spec.Lib
