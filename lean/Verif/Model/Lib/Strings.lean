import Verif.Model.Basic
import Verif.Model.Lib.IO

/-!
Models of `lib/strings.c` and `lib/strbuilder.c`.

A C string is the list of its bytes before the NUL.  A function that changes a
string in place returns the new one.  `tolower`, `isspace`, `islower`, `isdigit` are
those of the C locale, and false (or the identity) for bytes over 127.  `newstr` with
the format "%s" is a copy.  `fmt_bytes` (floating point) is not modelled.
-/
namespace Che.Lib.Strings

/-- C `isspace`. -/
def isspace (c : UInt8) : Bool := c = 32 || (9 ≤ c && c ≤ 13)

/-- C `tolower`. -/
def tolower (c : UInt8) : UInt8 := if 65 ≤ c ∧ c ≤ 90 then c + 32 else c

/-- C `islower`. -/
def islower (c : UInt8) : Bool := 97 ≤ c && c ≤ 122

/-- C `strstr`: the offset of the first occurrence. -/
def strstr (needle : Bytes) : Bytes → Option Nat
  | [] => if needle = [] then some 0 else none
  | c :: rest => if needle.isPrefixOf (c :: rest) then some 0 else (strstr needle rest).map (· + 1)

/-- `newsubstr`, lib/strings.c:22-29, for `p1 ≤ p2 ≤` length. -/
def newsubstr (s : Bytes) (p1 p2 : Nat) : Bytes := (s.drop p1).take (p2 - p1)

/-- The loop of `rtrim`, lib/strings.c:48-51. -/
def rtrimLoop (set : Bytes) (s : Bytes) : Nat → Bytes
  | 0 => []
  | n + 1 => if set.contains (s.getD n 0) then rtrimLoop set s n else s.take (n + 1)

/-- `rtrim`, lib/strings.c:46-52. -/
def rtrim (s set : Bytes) : Bytes := rtrimLoop set s s.length

/-- The first loop of `trim`, lib/strings.c:34-36. -/
def leftSpaces : Bytes → Nat
  | [] => 0
  | c :: rest => if isspace c then leftSpaces rest + 1 else 0

/-- `trim`, lib/strings.c:32-43. -/
def trim (s : Bytes) : Bytes :=
  let left := leftSpaces s
  let s := if left > 0 then s.drop left else s
  rtrim s [32, 9, 13, 10]

/-- The loop of `split`, lib/strings.c:69-89; the first argument is the number of free
slots of `result`, `result_size - count`. -/
def splitLoop (sep : Bytes) : Nat → Bytes → Res Unit (List Bytes)
  | 0, _ => .panic "undefined: write past the end of result"
  | 1, current => .ok [current]
  | k + 2, current =>
    match strstr sep current with
    | some pos => do
      let rest ← splitLoop sep (k + 1) (current.drop (pos + sep.length))
      .ok (newsubstr current 0 pos :: rest)
    | none => .ok [current]

/-- `split`, lib/strings.c:61-91, for a string that is not NULL. -/
def split (sep str : Bytes) (result_size : Nat) : Res Unit (List Bytes) := splitLoop sep result_size str

/-- `casecmp`, lib/strings.c:95-106. -/
def casecmp : Bytes → Bytes → Bool
  | x :: xs, y :: ys => if tolower x ≠ tolower y then false else casecmp xs ys
  | [], [] => true
  | _, _ => false

/-- `starts_with`, lib/strings.c:109-120. -/
def starts_with : Bytes → Bytes → Bool
  | x :: xs, y :: ys => if x ≠ y then false else starts_with xs ys
  | _, [] => true
  | [], _ => false

/-- `starts_with_i`, lib/strings.c:122-133. -/
def starts_with_i : Bytes → Bytes → Bool
  | x :: xs, y :: ys => if tolower x ≠ tolower y then false else starts_with_i xs ys
  | _, [] => true
  | [], _ => false

/-- The last loop of `ends_with`, lib/strings.c:140-146; `x` and `y` are the offsets
of the pointers, and the byte at the length of a string is its NUL. -/
def endsLoop (string suffix : Bytes) : Nat → Nat → Bool
  | x + 1, y + 1 =>
    if string.getD (x + 1) 0 ≠ suffix.getD (y + 1) 0 then false else endsLoop string suffix x y
  | _, y => y = 0

/-- `ends_with`, lib/strings.c:135-148. -/
def ends_with (string suffix : Bytes) : Bool := endsLoop string suffix string.length suffix.length

/-- `allupper`, lib/strings.c:155-162. -/
def allupper : Bytes → Bool
  | [] => true
  | c :: rest => if islower c then false else allupper rest

/-- `ascii_digit`, lib/strings.c:183-188. -/
def ascii_digit (n : Int) : Res Unit UInt8 :=
  if n < 0 ∨ n > 9 then .panic "invalid argument" else .ok (UInt8.ofNat (48 + n.toNat))

/-- `num_from_ascii`, lib/strings.c:193-198. -/
def num_from_ascii (c : Int) : Int := if ¬ (48 ≤ c ∧ c ≤ 57) then -1 else c - 48

end Che.Lib.Strings

namespace Che.Lib.StrBuilder

/-- The largest `size_t`. -/
def SIZE_MAX : Nat := 2 ^ 64 - 1

/-- `str`, lib/strbuilder.c:2-7.  `data` has `max` bytes. -/
structure Str where
  data : Bytes
  len : Nat
  max : Nat
  err : Bool

/-- `new`, lib/strbuilder.c:10-13. -/
def new : Str := { data := [], len := 0, max := 0, err := false }

/-- `clear`, lib/strbuilder.c:24-30. -/
def clear (s : Str) : Str :=
  if s.len = 0 then s
  else { s with data := List.replicate s.len 0 ++ s.data.drop s.len, len := 0 }

/-- `grow`, lib/strbuilder.c:88-111. -/
def grow (s : Str) : Option Str :=
  if s.max > SIZE_MAX / 2 then none
  else
    let new := if s.max = 0 then 16 else s.max * 2
    some { s with max := new, data := s.data.take s.len ++ List.replicate (new - s.len) 0 }

/-- Storing the character, lib/strbuilder.c:41-42. -/
def put (s : Str) (ch : UInt8) : Str := { s with data := s.data.set s.len ch, len := s.len + 1 }

/-- `addc`, lib/strbuilder.c:33-43. -/
def addc (s : Str) (ch : UInt8) : Str × Bool :=
  if s.err then (s, false)
  else if s.len + 1 ≥ s.max then
    match grow s with
    | none => ({ s with err := true }, false)
    | some s => (put s ch, true)
  else (put s ch, true)

/-- `adds`, lib/strbuilder.c:46-56. -/
def adds (b : Str) : Bytes → Str × Bool
  | [] => if b.err then (b, false) else (b, true)
  | c :: rest =>
    if b.err then (b, false)
    else
      let (b', ok) := addc b c
      if !ok then (b', false) else adds b' rest

/-- `addf`, lib/strbuilder.c:58-66; the argument is the text that the format makes.
`vsnprintf` keeps 999 bytes of it. -/
def addf (b : Str) (text : Bytes) : Str × Bool := if b.err then (b, false) else adds b (text.take 999)

/-- `str_raw` as a C string, lib/strbuilder.c:68-71 (NULL for a new builder). -/
def raw (s : Str) : Bytes := s.data.takeWhile (· ≠ 0)

end Che.Lib.StrBuilder
