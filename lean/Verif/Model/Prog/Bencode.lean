import Verif.Model.Lib.Bencode

/-!
Model of `prog/bencode`, from the bytes of the file on.
-/
namespace Che.Prog.Bencode
open Che.Lib Che.Lib.Bencode

/-- What has been printed, and `_indent` (prog/bencode/bencode.c:106). -/
structure Out where
  text : Bytes
  indent : Nat

def Out.print (o : Out) (s : Bytes) : Out := { o with text := o.text ++ s }

/-- C `isprint`. -/
def isprint (c : UInt8) : Bool := 32 ≤ c && c ≤ 126

/-- `indent`, prog/bencode/bencode.c:107-112. -/
def Out.margin (o : Out) : Out := o.print (List.replicate o.indent [95, 32]).flatten

/-- The digits of `%x`. -/
def hexDigit (n : Nat) : UInt8 := if n < 10 then UInt8.ofNat (48 + n) else UInt8.ofNat (87 + n)

/-- `%x` for a byte. -/
def hexText (c : UInt8) : Bytes :=
  if c.toNat < 16 then [hexDigit c.toNat] else [hexDigit (c.toNat / 16), hexDigit (c.toNat % 16)]

/-- `%d` and `%zu`. -/
def decimal (n : Nat) : Bytes := (Nat.toDigits 10 n).map fun c => UInt8.ofNat c.toNat

/-- The second loop of `printbuf`, prog/bencode/bencode.c:38-44. -/
def hexLoop (buflen : Nat) : Nat → Bytes → Bytes
  | _, [] => []
  | i, c :: rest =>
    if i > 20 then hexText c ++ cstr "..." ++ decimal (buflen - i) ++ cstr " more..."
    else hexText c ++ hexLoop buflen (i + 1) rest

/-- `printbuf`, prog/bencode/bencode.c:25-46: what it prints. -/
def printbuf (buf : Bytes) : Bytes := if buf.all isprint then buf else hexLoop buf.length 0 buf

/-- `printf("%d", n)`. -/
def printInt (n : Int) : Bytes := if n < 0 then 45 :: decimal n.natAbs else decimal n.natAbs

mutual
/-- `printval`, prog/bencode/bencode.c:48-104. -/
def printval : Nat → R → Out → Res Unit (R × Out)
  | 0, _, _ => .diverge
  | k + 1, r, o =>
    if type r = 100 then do
      let o := o.print (cstr "{\n")
      let o := { o with indent := o.indent + 1 }
      let r ← enter r
      let (r, o) ← dictLoop k r o
      let o := { o with indent := o.indent - 1 }
      let r ← leave r
      .ok (r, o.margin.print (cstr "}"))
    else if type r = 105 then do
      let (r, n) ← readnum r
      .ok (r, o.print (printInt n))
    else if type r = 115 then do
      let (r, len) ← strsize r
      let len1 ← int (len + 1)
      if len1 < 0 then .panic "calloc failed"
      else do
        let (r, b, _) ← readbuf r len1.toNat
        .ok (r, o.print (printbuf (b.take len.toNat)))
    else if type r = 108 then do
      let o := o.print (cstr "[\n")
      let o := { o with indent := o.indent + 1 }
      let r ← enter r
      let (r, o) ← listLoop k r 0 o
      let o := { o with indent := o.indent - 1 }
      let r ← leave r
      .ok (r, o.margin.print (cstr "]"))
    else .panic "unknown type"

/-- The loop at prog/bencode/bencode.c:54-65. -/
def dictLoop : Nat → R → Out → Res Unit (R × Out)
  | 0, _, _ => .diverge
  | k + 1, r, o =>
    if more r then do
      let (r, b, keylen) ← key r 100
      let o := ((o.margin).print (printbuf (b.take keylen))).print (cstr ": ")
      let (r, o) ← printval k r o
      let o := if more r then o.print (cstr ",") else o
      dictLoop k r (o.print (cstr "\n"))
    else .ok (r, o)

/-- The loop at prog/bencode/bencode.c:86-94. -/
def listLoop : Nat → R → Nat → Out → Res Unit (R × Out)
  | 0, _, _, _ => .diverge
  | k + 1, r, i, o =>
    if more r then do
      let o := (o.margin.print (printInt i)).print (cstr ": ")
      let (r, o) ← printval k r o
      let o := if more r then o.print (cstr ",") else o
      listLoop k r (i + 1) (o.print (cstr "\n"))
    else .ok (r, o)
end

/-- The loop at prog/bencode/bencode.c:18-20. -/
def mainLoop : Nat → R → Out → Res Unit Out
  | 0, _, _ => .diverge
  | k + 1, r, o =>
    if more r then do
      let (r, o) ← printval k r o
      mainLoop k r o
    else .ok o

/-- `main`, prog/bencode/bencode.c:4-23, for the contents of the file: what it prints. -/
def main (budget : Nat) (data : Bytes) : Res Unit Bytes := do
  let o ← mainLoop budget (newreader data) { text := [], indent := 0 }
  .ok o.text

end Che.Prog.Bencode
