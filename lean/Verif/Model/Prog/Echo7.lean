import Verif.Model.Basic
import Verif.Model.Lib.Enc

/-!
Model of `prog/echo7/echo7.c`: what one client gets.

What the system does is given: for the n-th read and the n-th write, an error or how many bytes it is willing to take at most.  A read
gives zero bytes only if it is not willing to give any or if there are none left.  The log, the text of the messages and
other clients are left out.
-/
namespace Che.Prog.Echo7
open Che.Lib

/-- What the n-th read and the n-th write meet; `none` is an error. -/
structure World where
  reads : Nat → Option Nat
  writes : Nat → Option Nat

/-- How the loop ends: at the end of the input, with the message about a read, or with the message about a write; `undefined` is a read past the end of the buffer. -/
inductive End where
  | eof | readError | writeError | running | undefined
deriving DecidableEq, Repr

/-- `reader_read` and `read`, lib/os/net.c:325-328, lib/reader.c:24-28, for `size` bytes: the result, the bytes stored and the rest. -/
def read (w : World) (i size : Nat) (input : Bytes) : Int × Bytes × Bytes :=
  match w.reads i with
  | none => (-1, [], input)
  | some k =>
    let data := input.take (min k size)
    (data.length, data, input.drop data.length)

/-- `write`, lib/os/net.c:84-87: the result and the bytes sent. -/
def write (w : World) (i : Nat) (data : Bytes) : Int × Bytes :=
  match w.writes i with
  | none => (-1, [])
  | some k => ((data.take k).length, data.take k)

/-- The loop of `process_client`, prog/echo7/echo7.c:37-51, with a bound on the rounds: what is sent, and how it ends. -/
def loop (w : World) : Nat → Nat → Bytes → Bytes → Bytes × End
  | 0, _, _, _ => ([], .running)
  | k + 1, i, buf, input =>
    let (len, data, input) := read w i 256 input
    if buf.length < data.length then ([], .undefined)
    else
    let buf := data ++ buf.drop data.length
    if len < 0 then ([], .readError)
    else if len = 0 then ([], .eof)
    else
      let (n, sent) := write w i (buf.take len.toNat)
      if n < len then (sent, .writeError)
      else
        let (sent', e) := loop w k (i + 1) buf input
        (sent ++ sent', e)

/-- `process_client`, prog/echo7/echo7.c:31-56, for what the client sends. -/
def process_client (w : World) (input : Bytes) : Bytes × End :=
  loop w (input.length + 1) 0 (List.replicate 256 0) input

end Che.Prog.Echo7
