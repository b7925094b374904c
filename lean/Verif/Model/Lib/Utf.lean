import Verif.Model.Lib.UtfTables
import Verif.Model.Lib.Strings

/-!
Model of `lib/utf.c`: conversion between UTF-8 and runes, functions on UTF-8 strings,
functions on strings of runes, and the case and class functions.

A `char *` is a string (the bytes before its terminator) and an offset into it; a `Rune *`
that is only read is likewise a list of runes, without its terminator, and an offset.
Reading past the terminator, and writing past the end of a buffer, is a panic whose text
begins with "undefined".  Loops carry fuel; running out of it is `diverge`.
Runes are `uint32_t`, here natural numbers; where the code stores one in an `int`
the conversion is written out (`toInt32`).
-/
namespace Che.Lib.Utf

/-- `str[i]` for a string and its terminator. -/
def rd (s : Bytes) (i : Nat) : Res Empty Nat :=
  if i < s.length then .ok (s.getD i 0).toNat
  else if i = s.length then .ok 0
  else .panic "undefined: read past the end of the string"

/-- The conversion of a `Rune` to `int32_t`. -/
def toInt32 (r : Nat) : Int := if r % 2 ^ 32 < 2 ^ 31 then (r % 2 ^ 32 : Nat) else (r % 2 ^ 32 : Nat) - 2 ^ 32

/-- `get_rune`, lib/utf.c:276-353: the rune, and the number of bytes. -/
def get_rune (s : Bytes) (i : Nat) : Res Empty (Nat × Nat) :=
  (rd s i).bind fun c =>
  if c < 0x80 then .ok (c, 1) else
  (rd s (i + 1)).bind fun b1 =>
  let c1 := b1 ^^^ 0x80
  if c1 &&& 0xC0 ≠ 0 then .ok (0xFFFD, 1) else
  if c < 0xE0 then
    if c < 0xC0 then .ok (0xFFFD, 1) else
    let l := ((c <<< 6) ||| c1) &&& 0x7FF
    if l ≤ 0x7F then .ok (0xFFFD, 1) else .ok (l, 2)
  else
  (rd s (i + 2)).bind fun b2 =>
  let c2 := b2 ^^^ 0x80
  if c2 &&& 0xC0 ≠ 0 then .ok (0xFFFD, 1) else
  if c < 0xF0 then
    let l := ((((c <<< 6) ||| c1) <<< 6) ||| c2) &&& 0xFFFF
    if l ≤ 0x7FF then .ok (0xFFFD, 1) else .ok (l, 3)
  else
  (rd s (i + 3)).bind fun b3 =>
  let c3 := b3 ^^^ 0x80
  if c3 &&& 0xC0 ≠ 0 then .ok (0xFFFD, 1) else
  if c < 0xF8 then
    let l := ((((((c <<< 6) ||| c1) <<< 6) ||| c2) <<< 6) ||| c3) &&& 0x1FFFFF
    if l ≤ 0xFFFF ∨ l > 0x10FFFF then .ok (0xFFFD, 1) else .ok (l, 4)
  else .ok (0xFFFD, 1)

/-- `runenlen`, lib/utf.c:360-373, for the runes that are counted. -/
def runenlen : List Nat → Nat
  | [] => 0
  | r :: rest =>
    let c := toInt32 r
    (if c ≤ 0x7F then 1 else if c ≤ 0x7FF then 2 else if c ≤ 0xFFFF ∨ c > 0x10FFFF then 3 else 4) +
      runenlen rest

/-- `fullrune`, lib/utf.c:386-399. -/
def fullrune (s : Bytes) (i : Nat) (n : Nat) : Res Empty Bool :=
  if n = 0 then .ok false else
  (rd s i).bind fun c =>
  if c < 0x80 then .ok true
  else if c < 0xE0 then .ok (decide (2 ≤ n))
  else if c < 0xF0 then .ok (decide (3 ≤ n))
  else .ok (decide (4 ≤ n))

/-- `runetochar`, lib/utf.c:1506-1546, for a rune that is not negative as an `int32_t`:
the bytes that are written. -/
def runetocharPos (c0 : Nat) : Bytes :=
  if c0 ≤ 0x7F then [UInt8.ofNat c0]
  else if c0 ≤ 0x7FF then [UInt8.ofNat (0xC0 ||| (c0 >>> 6)), UInt8.ofNat (0x80 ||| (c0 &&& 0x3F))]
  else
    let c := if c0 > 0x10FFFF then 0xFFFD else c0
    if c ≤ 0xFFFF then
      [UInt8.ofNat (0xE0 ||| (c >>> 12)), UInt8.ofNat (0x80 ||| ((c >>> 6) &&& 0x3F)),
       UInt8.ofNat (0x80 ||| (c &&& 0x3F))]
    else
      [UInt8.ofNat (0xF0 ||| (c >>> 18)), UInt8.ofNat (0x80 ||| ((c >>> 12) &&& 0x3F)),
       UInt8.ofNat (0x80 ||| ((c >>> 6) &&& 0x3F)), UInt8.ofNat (0x80 ||| (c &&& 0x3F))]

/-- `runetochar`, lib/utf.c:1506-1546: a rune that is negative as an `int32_t` is below
`Rune1`, and its lowest byte is written. -/
def runetochar (r : Nat) : Bytes :=
  match toInt32 r with
  | .ofNat c => runetocharPos c
  | .negSucc _ => [UInt8.ofNat (r % 256)]

/-- `runelen`, lib/utf.c:1550-1554. -/
def runelen (r : Nat) : Nat := (runetochar r).length

/-- The loop of `runecount`, lib/utf.c:1573-1584. -/
def runecountLoop (s : Bytes) : Nat → Nat → Nat → Res Empty Nat
  | 0, _, _ => .diverge
  | fuel + 1, i, n =>
    (rd s i).bind fun c =>
    if c < 0x80 then
      if c = 0 then .ok n else runecountLoop s fuel (i + 1) (n + 1)
    else (get_rune s i).bind fun r => runecountLoop s fuel (i + r.2) (n + 1)

/-- `runecount`, lib/utf.c:1569-1586. -/
def runecount (s : Bytes) : Res Empty Nat := runecountLoop s (s.length + 1) 0 0

/-- The loop of `utfnlen`, lib/utf.c:1636-1648; `es` is the offset where it ends. -/
def utfnlenLoop (s : Bytes) (es : Nat) : Nat → Nat → Nat → Res Empty Nat
  | 0, _, _ => .diverge
  | fuel + 1, i, count =>
    if ¬ i < es then .ok count else
    (rd s i).bind fun c =>
    if c < 0x80 then
      if c = 0 then .ok count else utfnlenLoop s es fuel (i + 1) (count + 1)
    else
    (fullrune s i (es - i)).bind fun full =>
    if full = false then .ok count else
    (get_rune s i).bind fun r => utfnlenLoop s es fuel (i + r.2) (count + 1)

/-- `utfnlen`, lib/utf.c:1630-1650. -/
def utfnlen (s : Bytes) (n : Nat) : Res Empty Nat := utfnlenLoop s n (s.length + 1) 0 0

/-- `strchr` from an offset: the terminator is part of the string. -/
def strchr (s : Bytes) (c : UInt8) : Option Nat :=
  if c = 0 then some s.length else s.findIdx? (· = c)

/-- `strrchr`. -/
def strrchr (s : Bytes) (c : UInt8) : Option Nat :=
  if c = 0 then some s.length else (s.reverse.findIdx? (· = c)).map fun k => s.length - 1 - k

/-- The loop of `utfrune`, lib/utf.c:1662-1675. -/
def utfruneLoop (s : Bytes) (c : Nat) : Nat → Nat → Res Empty (Option Nat)
  | 0, _ => .diverge
  | fuel + 1, i =>
    (rd s i).bind fun c1 =>
    if c1 < 0x80 then
      if c1 = 0 then .ok none
      else if c1 = c then .ok (some i)
      else utfruneLoop s c fuel (i + 1)
    else
    (get_rune s i).bind fun r =>
    if r.1 = c then .ok (some i) else utfruneLoop s c fuel (i + r.2)

/-- `utfrune`, lib/utf.c:1653-1676, from offset `i`. -/
def utfrune (s : Bytes) (i c : Nat) : Res Empty (Option Nat) :=
  if c < 0x80 then .ok ((strchr (s.drop i) (UInt8.ofNat c)).map (i + ·))
  else utfruneLoop s c (s.length + 1) i

/-- The loop of `utfrrune`, lib/utf.c:1688-1702. -/
def utfrruneLoop (s : Bytes) (c : Nat) : Nat → Nat → Option Nat → Res Empty (Option Nat)
  | 0, _, _ => .diverge
  | fuel + 1, i, s1 =>
    (rd s i).bind fun c1 =>
    if c1 < 0x80 then
      if c1 = 0 then .ok s1
      else utfrruneLoop s c fuel (i + 1) (if c1 = c then some i else s1)
    else
    (get_rune s i).bind fun r =>
    utfrruneLoop s c fuel (i + r.2) (if r.1 = c then some i else s1)

/-- `utfrrune`, lib/utf.c:1680-1703. -/
def utfrrune (s : Bytes) (c : Nat) : Res Empty (Option Nat) :=
  if c < 0x80 then .ok (strrchr s (UInt8.ofNat c)) else utfrruneLoop s c (s.length + 1) 0 none

/-- The loop of `utfutf`, lib/utf.c:1718-1725.  Neither string contains a zero, so
`strncmp(p, s2, strlen(s2)) == 0` says that `s2` begins at `p`. -/
def utfutfLoop (s1 s2 : Bytes) (n1 f : Nat) : Nat → Nat → Res Empty (Option Nat)
  | 0, _ => .diverge
  | fuel + 1, p =>
    (utfrune s1 p f).bind fun q =>
    match q with
    | none => .ok none
    | some q => if s2.isPrefixOf (s1.drop q) then .ok (some q) else utfutfLoop s1 s2 n1 f fuel (q + n1)

/-- `utfutf`, lib/utf.c:1707-1727. -/
def utfutf (s1 s2 : Bytes) : Res Empty (Option Nat) :=
  (get_rune s2 0).bind fun r =>
  if r.1 ≤ 0x80 then .ok (Strings.strstr s2 s1)
  else utfutfLoop s1 s2 r.2 r.1 (s1.length + 1) 0

/-- `nih_memcpy`, lib/utf.c:1611-1622: neither pointer is advanced. The buffer, and the
offset that is returned. -/
def nih_memcpy (to src : Bytes) (c : UInt8) : Nat → Bytes × Option Nat
  | 0 => (to, none)
  | n + 1 =>
    let to := to.set 0 (src.getD 0 0)
    if src.getD 0 0 = c then (to, some 1) else nih_memcpy to src c n

/-- The loop of `utfecpy`, lib/utf.c:1604. -/
def backup (to : Bytes) : Nat → Nat
  | 0 => 0
  | e + 1 => if to.getD e 0 &&& 0xC0 = 0x80 then backup to e else e

/-- `utfecpy`, lib/utf.c:1595-1609, where the buffer `to` ends at `e`: the buffer, and the
offset that is returned. -/
def utfecpy (to src : Bytes) : Bytes × Nat :=
  if to.length = 0 then (to, 0) else
  match nih_memcpy to src 0 to.length with
  | (to, none) => (to.set (backup to (to.length - 1)) 0, backup to (to.length - 1))
  | (to, some e) => (to, e - 1)

/-! ## Strings of runes -/

/-- `s[i]` for a string of runes and its terminator. -/
def rdr (s : List Nat) (i : Nat) : Res Empty Nat :=
  if i < s.length then .ok (s.getD i 0)
  else if i = s.length then .ok 0
  else .panic "undefined: read past the end of the string"

/-- `s[i] = r` for a buffer. -/
def wr (d : List Nat) (i r : Nat) : Res Empty (List Nat) :=
  if i < d.length then .ok (d.set i r) else .panic "undefined: write past the end of the buffer"

/-- The second loop of `runestrchr`, lib/utf.c:96-98, which does not advance `s`. -/
def chrLoop (s : List Nat) (i c : Nat) : Nat → Res Empty (Option Nat)
  | 0 => .diverge
  | fuel + 1 =>
    (rdr s i).bind fun x =>
    if x = 0 then .ok none else if x = c then .ok (some i) else chrLoop s i c fuel

/-- The first loop of `runestrchr`, lib/utf.c:93: the terminator of the string in a
buffer that has one. -/
def endLoop (d : List Nat) : Nat → Nat → Res Empty Nat
  | 0, _ => .panic "undefined: read past the end of the buffer"
  | fuel + 1, i =>
    match d[i]? with
    | none => .panic "undefined: read past the end of the buffer"
    | some 0 => .ok i
    | some _ => endLoop d fuel (i + 1)

/-- `runestrchr`, lib/utf.c:91-100, from offset `i`. The number of turns of the loop that
is watched is a parameter. -/
def runestrchr (fuel : Nat) (s : List Nat) (i c : Nat) : Res Empty (Option Nat) :=
  if c = 0 then .ok (some s.length) else chrLoop s i c fuel

/-- The loop of `runestrcpy`, lib/utf.c:212-217. -/
def cpyLoop (s2 : List Nat) : Nat → List Nat → Nat → Nat → Res Empty (List Nat)
  | 0, _, _, _ => .diverge
  | fuel + 1, d, o, j =>
    (rdr s2 j).bind fun x =>
    (wr d o x).bind fun d =>
    (rdr s2 (j + 1)).bind fun y =>
    if y = 0 then .ok d else cpyLoop s2 fuel d (o + 1) (j + 1)

/-- `runestrcpy`, lib/utf.c:210-219, to offset `o` of the buffer `d`. -/
def runestrcpy (d : List Nat) (o : Nat) (s2 : List Nat) : Res Empty (List Nat) :=
  cpyLoop s2 (s2.length + 2) d o 0

/-- `runestrcat`, lib/utf.c:86-89, where the buffer `d` holds the first string. -/
def runestrcat (d : List Nat) (s2 : List Nat) : Res Empty (List Nat) :=
  (endLoop d (d.length + 1) 0).bind fun o => runestrcpy d o s2

/-- `runestrdup`, lib/utf.c:149-153. -/
def runestrdup (s : List Nat) : Res Empty (List Nat) :=
  runestrcpy (List.replicate (s.length + 1) 0) 0 s

/-- The inner loop of `runestrncpy`, lib/utf.c:226-228: zeros up to `n`. -/
def padLoop : Nat → List Nat → Nat → Nat → Res Empty (List Nat)
  | 0, _, _, _ => .diverge
  | fuel + 1, d, i, n => if i < n then (wr d i 0).bind fun d => padLoop fuel d (i + 1) n else .ok d

/-- The loop of `runestrncpy`, lib/utf.c:223-231. -/
def ncpyLoop (s2 : List Nat) (n : Nat) : Nat → List Nat → Nat → Res Empty (List Nat)
  | 0, _, _ => .diverge
  | fuel + 1, d, i =>
    if ¬ i < n then .ok d else
    (rdr s2 i).bind fun x =>
    (wr d i x).bind fun d =>
    (rdr s2 (i + 1)).bind fun y =>
    if y = 0 then padLoop (n + 1) d (i + 1) n else ncpyLoop s2 n fuel d (i + 1)

/-- `runestrncpy`, lib/utf.c:221-233. -/
def runestrncpy (d : List Nat) (s2 : List Nat) (n : Nat) : Res Empty (List Nat) :=
  ncpyLoop s2 n (n + 1) d 0

/-- `runestrcmp`, lib/utf.c:193-208. -/
def cmpLoop (s1 s2 : List Nat) : Nat → Nat → Res Empty Int
  | 0, _ => .diverge
  | fuel + 1, i =>
    (rdr s1 i).bind fun c1 =>
    (rdr s2 i).bind fun c2 =>
    if c1 ≠ c2 then .ok (if c1 > c2 then 1 else -1)
    else if c1 = 0 then .ok 0
    else cmpLoop s1 s2 fuel (i + 1)

/-- `runestrcmp`, lib/utf.c:193-208. -/
def runestrcmp (s1 s2 : List Nat) : Res Empty Int := cmpLoop s1 s2 (s1.length + 1) 0

/-- `runestrncmp`, lib/utf.c:174-191: `n` more runes are compared. -/
def ncmpLoop (s1 s2 : List Nat) : Nat → Nat → Res Empty Int
  | 0, _ => .ok 0
  | n + 1, i =>
    (rdr s1 i).bind fun c1 =>
    (rdr s2 i).bind fun c2 =>
    if c1 ≠ c2 then .ok (if c1 > c2 then 1 else -1)
    else if c1 = 0 then .ok 0
    else ncmpLoop s1 s2 n (i + 1)

/-- `runestrncmp`, lib/utf.c:174-191. -/
def runestrncmp (s1 s2 : List Nat) (n : Nat) : Res Empty Int := ncmpLoop s1 s2 n 0

/-! ## Case and class -/

/-- An element of a table. -/
def el (t : List Nat) (i : Nat) : Res Empty Nat :=
  match t[i]? with
  | some x => .ok x
  | none => .panic "undefined: read past the end of the table"

/-- The loop of `rune_bsearch`, lib/utf.c:1415-1423: the last `t` and `n`. -/
def bsearchLoop (a : List Nat) (c ne : Nat) : Nat → Nat → Nat → Res Empty (Nat × Nat)
  | 0, _, _ => .diverge
  | fuel + 1, t, n =>
    if ¬ n > 1 then .ok (t, n) else
    (el a (t + n / 2 * ne)).bind fun p0 =>
    if c ≥ p0 then bsearchLoop a c ne fuel (t + n / 2 * ne) (n - n / 2)
    else bsearchLoop a c ne fuel t (n / 2)

/-- `rune_bsearch`, lib/utf.c:1409-1427. -/
def rune_bsearch (a : List Nat) (c n ne : Nat) : Res Empty (Option Nat) :=
  (bsearchLoop a c ne (n + 1) 0 n).bind fun r =>
  if r.2 = 0 then .ok none else
  (el a r.1).bind fun t0 => .ok (if c ≥ t0 then some r.1 else none)

/-- `p && c >= p[0] && c <= p[1]`, and the offset `p`. -/
def inRange (a : List Nat) (c ne : Nat) : Res Empty (Option Nat) :=
  (rune_bsearch a c (a.length / ne) ne).bind fun p =>
  match p with
  | none => .ok none
  | some p =>
    (el a p).bind fun p0 =>
    (el a (p + 1)).bind fun p1 => .ok (if c ≥ p0 ∧ c ≤ p1 then some p else none)

/-- `p && c == p[0]`, and the offset `p`. -/
def isEntry (a : List Nat) (c ne : Nat) : Res Empty (Option Nat) :=
  (rune_bsearch a c (a.length / ne) ne).bind fun p =>
  match p with
  | none => .ok none
  | some p => (el a p).bind fun p0 => .ok (if c = p0 then some p else none)

/-- `c + d - 500` on `Rune`s. -/
def shift (c d : Nat) : Nat := (c + d + (2 ^ 32 - 500)) % 2 ^ 32

/-- The second part of `tolowerrune` and `toupperrune`, and `totitlerune`. -/
def mapEntry (a1 : List Nat) (c : Nat) : Res Empty Nat :=
  (isEntry a1 c 2).bind fun p =>
  match p with
  | some p => (el a1 (p + 1)).bind fun d => .ok (shift c d)
  | none => .ok c

/-- `tolowerrune` and `toupperrune`, lib/utf.c:1429-1447, for their two tables. -/
def mapCase (a2 a1 : List Nat) (c : Nat) : Res Empty Nat :=
  (inRange a2 c 3).bind fun p =>
  match p with
  | some p => (el a2 (p + 2)).bind fun d => .ok (shift c d)
  | none => mapEntry a1 c

/-- `islowerrune`, `isupperrune`, lib/utf.c:1456-1476, and the end of `isalpharune`. -/
def inTables (a2 a1 : List Nat) (w2 w1 : Nat) (c : Nat) : Res Empty Bool :=
  (inRange a2 c w2).bind fun p =>
  match p with
  | some _ => .ok true
  | none => (isEntry a1 c w1).bind fun p => .ok p.isSome

/-- `tolowerrune`, lib/utf.c:1429-1437. -/
def tolowerrune (c : Nat) : Res Empty Nat := mapCase tolower2.flatten tolower1.flatten c

/-- `toupperrune`, lib/utf.c:1439-1447. -/
def toupperrune (c : Nat) : Res Empty Nat := mapCase toupper2.flatten toupper1.flatten c

/-- `totitlerune`, lib/utf.c:1449-1454. -/
def totitlerune (c : Nat) : Res Empty Nat := mapEntry totitle1.flatten c

/-- `islowerrune`, lib/utf.c:1456-1464. -/
def islowerrune (c : Nat) : Res Empty Bool := inTables toupper2.flatten toupper1.flatten 3 2 c

/-- `isupperrune`, lib/utf.c:1466-1476. -/
def isupperrune (c : Nat) : Res Empty Bool := inTables tolower2.flatten tolower1.flatten 3 2 c

/-- `isalpharune`, lib/utf.c:1478-1490. -/
def isalpharune (c : Nat) : Res Empty Bool :=
  (isupperrune c).bind fun u => if u then .ok true else
  (islowerrune c).bind fun l => if l then .ok true else
  inTables alpha2.flatten alpha1.flatten 2 1 c

/-- `istitlerune`, lib/utf.c:1492-1494. -/
def istitlerune (c : Nat) : Res Empty Bool :=
  (isupperrune c).bind fun u => if u = false then .ok false else islowerrune c

/-- `isspacerune`, lib/utf.c:1496-1502. -/
def isspacerune (c : Nat) : Res Empty Bool :=
  (inRange space2.flatten c 2).bind fun p => .ok p.isSome

end Che.Lib.Utf
