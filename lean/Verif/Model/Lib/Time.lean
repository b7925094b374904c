import Verif.Model.Basic
import Verif.Model.Lib.IO

/-!
Model of `lib/time.c`: durations and ISO times as texts.

Strings are their bytes before the terminating zero.  Arithmetic on `int` that overflows
is undefined: the outcome is `panic`.  A call of `panic` is `panic` too; its message does
not start with "undefined".  Numbers of type `double` are binary64, rounded to nearest,
ties to even; the model has those that are needed, between 0 and 2^53.  The format
"logfile" of `dur_fmt` (lines 106-115) prints a `double` and is not modelled, nor are the
functions that ask the operating system for the time.
-/
namespace Che.Lib.Time
open Che.Lib

/-- A value of type `int`. -/
def int (n : Int) : Res String Int :=
  if -2147483648 ≤ n ∧ n ≤ 2147483647 then .ok n else .panic "undefined: int overflow"

/-- The conversion of an `int64_t` to an `int`, as gcc does it. -/
def toInt (n : Int) : Int := (n + 2147483648) % 4294967296 - 2147483648

def isdigit (c : UInt8) : Bool := 48 ≤ c && c ≤ 57

/-- `readint`, lib/time.c:212-221: the number and the rest of the text. -/
def readint : Bytes → Int → Res String (Int × Bytes)
  | [], n => .ok (n, [])
  | c :: rest, n =>
    if isdigit c then
      (int (n * 10)).bind fun n => (int (n + ((c.toNat : Int) - 48))).bind fun n => readint rest n
    else .ok (n, c :: rest)

/-! ## Doubles -/

/-- `n / d` rounded to an integer, ties to even. -/
def nearest (n d : Nat) : Nat :=
  let q := n / d
  let r := n % d
  if 2 * r < d then q
  else if 2 * r > d then q + 1
  else if q % 2 = 0 then q else q + 1

/-- The power of two that brings `n / d` between 2^52 and 2^53. -/
def shift (n d : Nat) : Nat :=
  let s := 53 + Nat.log2 d - Nat.log2 n
  if n * 2 ^ s < 2 ^ 53 * d then s else s - 1

/-- The double nearest to `n / d`, as a fraction. -/
def double (n d : Nat) : Nat × Nat :=
  if n = 0 then (0, 1) else (nearest (n * 2 ^ shift n d) d, 2 ^ shift n d)

/-- `(int64_t) ((double)SECONDS * ((double)val / (double)fracsize))`, lib/time.c:204. -/
def fraction (val fracsize : Nat) : Nat :=
  let q := double val fracsize
  let x := double (1000000 * q.1) q.2
  x.1 / x.2

/-- The loop, lib/time.c:192-203.  The digits after the seventh are passed over. -/
def fracLoop : Bytes → Nat → Nat → Nat → Nat × Nat
  | [], _, fracsize, val => (fracsize, val)
  | c :: rest, digits, fracsize, val =>
    if isdigit c then
      if digits > 6 then fracLoop rest digits fracsize val
      else fracLoop rest (digits + 1) (fracsize * 10) (val * 10 + (c.toNat - 48))
    else (fracsize, val)

/-- `*p == ':'`, then `p++` and a number, lib/time.c:168-175. -/
def colonInt (p : Bytes) : Res String (Option Int × Bytes) :=
  match p with
  | 58 :: rest => (readint rest 0).bind fun (n, p) => .ok (some n, p)
  | _ => .ok (none, p)

/-- `parse_duration`, lib/time.c:151-210: microseconds.  `err` is `false` with the error set. -/
def parse_duration (s : Bytes) : Res String Int :=
  if s = [] then .err "duration string is empty"
  else
    (readint s 0).bind fun (n0, p) =>
      if p = s then .err "expected a number"
      else
        (colonInt p).bind fun (n1, p) =>
          (colonInt p).bind fun (n2, p) =>
            match n1, n2 with
            | some n1, none =>
              (int (n0 * 60)).bind fun a => (int (a + n1)).bind fun b => (int (b * 1000000)).bind fun us =>
                match p with
                | 46 :: rest =>
                  let (fracsize, val) := fracLoop rest 0 1 0
                  .ok (us + fraction val fracsize)
                | _ => .ok us
            | _, _ => .err "unhandled format"

/-! ## Printing -/

/-- `%d` of a number that is not negative. -/
def digits (n : Nat) : Bytes :=
  if n < 10 then [UInt8.ofNat (48 + n)] else digits (n / 10) ++ [UInt8.ofNat (48 + n % 10)]

/-- `%0wd`: zeros, after the sign if there is one, up to `w` characters. -/
def fmtInt (w : Nat) (n : Int) : Bytes :=
  if n < 0 then
    let s := digits n.natAbs
    45 :: (List.replicate (w - 1 - s.length) 48 ++ s)
  else
    let s := digits n.toNat
    List.replicate (w - s.length) 48 ++ s

/-- `snprintf` into `bufsize` bytes: what is in the buffer. -/
def cut (bufsize : Nat) (text : Bytes) : Bytes := text.take (bufsize - 1)

/-- `sdur_t`, lib/time.c:83. -/
structure Sdur where
  us : Int
  ms : Int
  s : Int
  m : Int
  h : Int
deriving DecidableEq, Repr

/-- `sdur`, lib/time.c:85-97. -/
def sdur (val : Int) : Sdur :=
  let us := val.tmod 1000
  let val := val.tdiv 1000
  let ms := val.tmod 1000
  let val := val.tdiv 1000
  let s := val.tmod 60
  let val := val.tdiv 60
  let m := val.tmod 60
  let val := val.tdiv 60
  { us, ms, s, m, h := toInt val }

/-- The formats of `dur_fmt` that are modelled. -/
inductive Fmt where | mmss | mmssms | hhmmssms | hmmssmmm
deriving DecidableEq, Repr

/-- `pp.m + 60 * pp.h`. -/
def minutes (pp : Sdur) : Res String Int := (int (60 * pp.h)).bind fun a => int (pp.m + a)

/-- The text of `dur_fmt`, lib/time.c:116-140. -/
def durText (us : Int) : Fmt → Res String Bytes
  | .mmss =>
    let pp := sdur us
    (minutes pp).bind fun mm => .ok (fmtInt 2 mm ++ [58] ++ fmtInt 2 pp.s)
  | .mmssms =>
    let pp := sdur us
    (minutes pp).bind fun mm => .ok (fmtInt 2 mm ++ [58] ++ fmtInt 2 pp.s ++ [46] ++ fmtInt 3 pp.ms)
  | .hhmmssms =>
    let pp := sdur us
    .ok (fmtInt 2 pp.h ++ [58] ++ fmtInt 2 pp.m ++ [58] ++ fmtInt 2 pp.s ++ [44] ++ fmtInt 0 pp.ms)
  | .hmmssmmm =>
    let pp := sdur us
    if pp.h > 0 then
      .ok (fmtInt 0 pp.h ++ [58] ++ fmtInt 2 pp.m ++ [58] ++ fmtInt 2 pp.s ++ [46] ++ fmtInt 3 pp.ms)
    else .ok (fmtInt 0 pp.m ++ [58] ++ fmtInt 2 pp.s ++ [46] ++ fmtInt 3 pp.ms)

/-- `dur_fmt`, lib/time.c:101-146: what is in the buffer, and whether all of it is. -/
def dur_fmt (us : Int) (bufsize : Nat) (f : Fmt) : Res String (Bytes × Bool) :=
  (durText us f).bind fun t => .ok (cut bufsize t, t.length + 1 ≤ bufsize)

/-! ## ISO times -/

/-- `iso_t`, lib/time.c:22-25. -/
structure Iso where
  Y : Int
  M : Int
  D : Int
  h : Int
  m : Int
  s : Int
  ms : Int
  zh : Int
  zm : Int
deriving DecidableEq, Repr

/-- `readint(q, &x)`, then `if (*q++ != c) panic(…)`. -/
def readMark (q : Bytes) (c : UInt8) : Res String (Int × Bytes) :=
  (readint q 0).bind fun (n, q) =>
    match q with
    | d :: rest => if d = c then .ok (n, rest) else .panic "expected"
    | [] => .panic "expected"

/-- The milliseconds, lib/time.c:270-273. -/
def readMs (q : Bytes) : Res String (Int × Bytes) :=
  match q with
  | 46 :: rest => readint rest 0
  | _ => .ok (0, q)

/-- The zone, lib/time.c:275-285. -/
def readZone (q : Bytes) : Res String (Int × Int) :=
  match q with
  | 90 :: _ => .ok (0, 0)
  | 43 :: rest => (readMark rest 58).bind fun (zh, q) => (readint q 0).bind fun (zm, _) => .ok (zh, zm)
  | _ => .panic "trailing input"

/-- `parse_iso`, lib/time.c:248-287. -/
def parse_iso (p : Bytes) : Res String Iso :=
  (readMark p 45).bind fun (Y, q) =>
    (readMark q 45).bind fun (M, q) =>
      (readMark q 84).bind fun (D, q) =>
        (readMark q 58).bind fun (h, q) =>
          (readMark q 58).bind fun (m, q) =>
            (readint q 0).bind fun (s, q) =>
              (readMs q).bind fun (ms, q) =>
                (readZone q).bind fun (zh, zm) => .ok { Y, M, D, h, m, s, ms, zh, zm }

/-- The text of `fmt_iso_iso`, lib/time.c:318. -/
def isoText (v : Iso) : Bytes :=
  fmtInt 0 v.Y ++ [45] ++ fmtInt 2 v.M ++ [45] ++ fmtInt 2 v.D ++ [84] ++ fmtInt 2 v.h ++ [58] ++ fmtInt 2 v.m ++ [58] ++
    fmtInt 2 v.s ++ [46] ++ fmtInt 3 v.ms ++ [90]

/-- `fmt_iso_iso`, lib/time.c:317-320. -/
def fmt_iso_iso (v : Iso) (bufsize : Nat) : Bytes × Bool := (cut bufsize (isoText v), true)

/-- The loop of `iso_tolocal`, lib/time.c:327-330. -/
def localLoop : Nat → Int → Int → Int × Int
  | 0, h, m => (h, m)
  | n + 1, h, m => if m > 60 then localLoop n (h + 1) (m - 60) else (h, m)

/-- `iso_tolocal`, lib/time.c:322-335, with `tz` the result of `tzoffset`. -/
def iso_tolocal (v : Iso) (tz : Int) : Res String Iso :=
  if v.zh ≠ 0 ∨ v.zm ≠ 0 then .panic "unhandled: non-utc iso"
  else
    let m := v.m + tz
    let (h, m) := localLoop m.natAbs v.h m
    .ok { v with h := h, m := m }
end Che.Lib.Time
