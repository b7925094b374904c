import Verif.Model.Basic
import Verif.Model.Lib.IO

/-!
Model of `lib/mem.c`.  `realloc` leaves new memory undefined: its bytes are given by
`junk`.  Sizes stay below 2^63, so that doubling a size does not wrap.
-/
namespace Che.Lib.Mem

/-- `mem_t`, lib/mem.c:3-8.  `data` has `size` bytes. -/
structure T where
  data : Bytes
  pos : Nat
  datalen : Nat
  size : Nat

/-- `memopen`, lib/mem.c:13-16. -/
def memopen : T := { data := [], pos := 0, datalen := 0, size := 0 }

/-- `rewind`, lib/mem.c:29-31. -/
def rewind (m : T) : T := { m with pos := 0 }

/-- `reset`, lib/mem.c:34-37. -/
def reset (m : T) : T := { m with pos := 0, datalen := 0 }

/-- `memtell`, lib/mem.c:40-42. -/
def memtell (m : T) : Nat := m.pos

/-- The doubling loop, lib/mem.c:158-160. -/
def double (next need : Nat) : Nat :=
  if h : next < need ∧ 0 < next then double (next * 2) need else next
termination_by need - next

/-- `makespace`, lib/mem.c:148-170. -/
def makespace (junk : Nat → UInt8) (m : T) (size : Nat) : T :=
  let need := m.pos + size
  if need ≤ m.size then m
  else
    let next := if m.size = 0 then 32 else m.size
    let next := double next need
    { m with data := m.data ++ (List.range (next - m.size)).map fun i => junk (m.size + i), size := next }

/-- Advancing `datalen`, lib/mem.c:62-64, 99-101. -/
def advance (m : T) : T := if m.pos > m.datalen then { m with datalen := m.pos } else m

/-- `memputc`, lib/mem.c:48-66.  `ch` is cut to its low byte when it is stored. -/
def memputc (junk : Nat → UInt8) (ch : Int) (m : T) : T × Int :=
  if ch = -1 then (m, -1)
  else
    let m := makespace junk m 1
    let m := { m with data := m.data.set m.pos (UInt8.ofNat (ch % 256).toNat) }
    let m := { m with pos := m.pos + 1 }
    (advance m, ch)

/-- A `char` as an `int`: `char` is signed. -/
def signed (b : UInt8) : Int := if b < 128 then b.toNat else (b.toNat : Int) - 256

/-- `memgetc`, lib/mem.c:71-79. -/
def memgetc (m : T) : T × Int :=
  if m.pos ≥ m.datalen then (m, -1)
  else ({ m with pos := m.pos + 1 }, signed (m.data.getD m.pos 0))

/-- The loop of `memwrite`, lib/mem.c:91-94. -/
def writeLoop (m : T) : Bytes → T
  | [] => m
  | b :: rest => writeLoop { m with data := m.data.set m.pos b, pos := m.pos + 1 } rest

/-- `memwrite`, lib/mem.c:85-103. -/
def memwrite (junk : Nat → UInt8) (m : T) (buf : Bytes) : T × Nat :=
  let m := makespace junk m buf.length
  let m := writeLoop m buf
  (advance m, buf.length)

/-- The loop of `memread`, lib/mem.c:136-139. -/
def readLoop (m : T) : Nat → T × Bytes
  | 0 => (m, [])
  | n + 1 =>
    let (m', rest) := readLoop { m with pos := m.pos + 1 } n
    (m', m.data.getD m.pos 0 :: rest)

/-- `memread`, lib/mem.c:131-141: the bytes put into the buffer. -/
def memread (m : T) (size : Nat) : T × Bytes :=
  let len := m.datalen - m.pos
  let len := if len > size then size else len
  readLoop m len

/-- `vsnprintf` into memory at `pos`: at most `available - 1` characters and a NUL. -/
def vsnprintf (data : Bytes) (pos available : Nat) (text : Bytes) : Bytes :=
  if available = 0 then data
  else
    let t := text.take (available - 1) ++ [0]
    data.take pos ++ t ++ data.drop (pos + t.length)

/-- `memprintf`, lib/mem.c:105-125; `text` is what the format makes.  (`available` is not
recomputed for the second try.) -/
def memprintf (junk : Nat → UInt8) (m : T) (text : Bytes) : T × Nat :=
  let available := m.size - m.datalen
  let m := { m with data := vsnprintf m.data m.pos available text }
  if text.length ≥ available then
    let m := makespace junk m (text.length + 1)
    ({ m with data := vsnprintf m.data m.pos available text }, text.length)
  else (m, text.length)

end Che.Lib.Mem
