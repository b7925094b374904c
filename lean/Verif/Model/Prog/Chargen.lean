import Verif.Model.Basic
import Verif.Model.Lib.Enc

/-!
Model of `prog/chargen/chargen.c`: what one client gets.

What `net.read` and `net.write` return is given: a list with the results of the reads, and a function from the number of a write to its result.
The log and the messages to the standard error are left out, and so is what was sent by a write that failed.
-/
namespace Che.Prog.Chargen
open Che.Lib

/-- `client_t` and its buffer, prog/chargen/chargen.c:13-22: `data` has the first `len` bytes of the buffer; and what was sent, and the number of writes. -/
structure Client where
  charpos : Nat
  data : Bytes
  sent : Bytes
  writes : Nat
deriving DecidableEq, Repr

/-- `linechars`, prog/chargen/chargen.c:87-90, with the zero at its end. -/
def linechars : Bytes :=
  cstr "!\"#$%&'()*+,-./0123456789:;<=>?@" ++ cstr "ABCDEFGHIJKLMNOPQRSTUVWXYZ[\\]^_`" ++ cstr "abcdefghijklmnopqrstuvwxyz{|}~ " ++ [0]

/-- `nextch`, prog/chargen/chargen.c:92-98. -/
def nextch (c : Client) : Client × UInt8 :=
  let ch := linechars.getD c.charpos 0
  let charpos := c.charpos + 1
  ({ c with charpos := if charpos = linechars.length then 0 else charpos }, ch)

/-- `writech`, prog/chargen/chargen.c:74-85. -/
def writech (w : Nat → Int) (c : Client) (ch : UInt8) : Client × Bool :=
  let data := c.data ++ [ch]
  if data.length = 2048 then
    let r := w c.writes
    if r < 0 ∨ r.toNat < data.length then ({ c with data := data, writes := c.writes + 1 }, false)
    else ({ c with data := [], sent := c.sent ++ data, writes := c.writes + 1 }, true)
  else ({ c with data := data }, true)

/-- The loop of `send_line`, prog/chargen/chargen.c:66-71. -/
def lineLoop (w : Nat → Int) : Nat → Client → Client × Bool
  | 0, c => (c, true)
  | n + 1, c =>
    let (c, ch) := nextch c
    let (c, ok) := writech w c ch
    if ok then lineLoop w n c else (c, false)

/-- `send_line`, prog/chargen/chargen.c:65-72. -/
def send_line (w : Nat → Int) (c : Client) : Client × Bool := lineLoop w 72 c

/-- The loop of `process_client`, prog/chargen/chargen.c:50-58, for the results of the reads; what comes after them is not known. -/
def clientLoop (w : Nat → Int) : List Int → Client → Client
  | [], c => c
  | r :: rs, c =>
    if r = 0 then c
    else
      let (c, ok) := send_line w c
      if ok then clientLoop w rs c else c

/-- What a client has got, prog/chargen/chargen.c:39-41, 47-63. -/
def process_client (w : Nat → Int) (rs : List Int) : Bytes := (clientLoop w rs { charpos := 0, data := [], sent := [], writes := 0 }).sent

end Che.Prog.Chargen
