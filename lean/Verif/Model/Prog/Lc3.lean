import Verif.Model.Basic
import Verif.Model.Lib.Tokenizer

/-!
Model of `prog/emu/lc3.c` and of the reading of words in `lib/bytereader.c`.  The answers of `term.stdin_has_input` are a
list, and what `getchar` will return are the bytes of another one; the terminal and signals are not modelled.
-/
namespace Che.Prog.Lc3
open Che.Lib

/-- The machine: `reg`, `memory` and `running`, prog/emu/lc3.c:10, 46 and 83, and its surroundings. -/
structure Vm where
  reg : Nat → UInt16
  mem : UInt16 → UInt16
  polls : List Bool
  input : Bytes
  out : Bytes
  running : Bool

/-- `reg[i] = v`. -/
def Vm.setReg (σ : Vm) (i : Nat) (v : UInt16) : Vm := { σ with reg := fun j => if j = i then v else σ.reg j }

/-- `getchar`; -1 at the end. -/
def getchar (σ : Vm) : Int × Vm :=
  match σ.input with
  | [] => (-1, σ)
  | c :: rest => (c.toNat, { σ with input := rest })

/-- Conversion to `uint16_t`. -/
def u16 (n : Int) : UInt16 := .ofNat (n % 65536).toNat

/-- `term.stdin_has_input`. -/
def poll (σ : Vm) : Bool × Vm :=
  match σ.polls with
  | [] => (false, σ)
  | b :: rest => (b, { σ with polls := rest })

/-- `mem_write`, prog/emu/lc3.c:150-153. -/
def mem_write (σ : Vm) (a v : UInt16) : Vm := { σ with mem := fun b => if b = a then v else σ.mem b }

/-- `mem_read`, prog/emu/lc3.c:155-170. -/
def mem_read (σ : Vm) (a : UInt16) : UInt16 × Vm :=
  if a = 0xFE00 then
    let (ready, σ) := poll σ
    if ready then
      let σ := mem_write σ 0xFE00 0x8000
      let (c, σ) := getchar σ
      let σ := mem_write σ 0xFE02 (u16 c)
      (σ.mem a, σ)
    else
      let σ := mem_write σ 0xFE00 0
      (σ.mem a, σ)
  else (σ.mem a, σ)

/-- `sign_extend`, prog/emu/lc3.c:344-351. -/
def sign_extend (x : UInt16) (n : UInt16) : UInt16 := if (x >>> (n - 1)) &&& 1 ≠ 0 then x ||| (0xFFFF <<< n) else x

/-- `update_flags`, prog/emu/lc3.c:353-363. -/
def update_flags (σ : Vm) (r : Nat) : Vm :=
  if σ.reg r = 0 then σ.setReg 9 2
  else if (σ.reg r) >>> 15 ≠ 0 then σ.setReg 9 4
  else σ.setReg 9 1

/-- `(instr >> 9) & 0x7` and so on. -/
def field (instr : UInt16) (shift mask : UInt16) : Nat := ((instr >>> shift) &&& mask).toNat

/-- `op_add`, prog/emu/lc3.c:179-191. -/
def op_add (σ : Vm) (instr : UInt16) : Vm :=
  let r0 := field instr 9 7
  let r1 := field instr 6 7
  let σ :=
    if field instr 5 1 ≠ 0 then σ.setReg r0 (σ.reg r1 + sign_extend (instr &&& 0x1F) 5)
    else σ.setReg r0 (σ.reg r1 + σ.reg (instr &&& 7).toNat)
  update_flags σ r0

/-- `op_and`, prog/emu/lc3.c:193-205. -/
def op_and (σ : Vm) (instr : UInt16) : Vm :=
  let r0 := field instr 9 7
  let r1 := field instr 6 7
  let σ :=
    if field instr 5 1 ≠ 0 then σ.setReg r0 (σ.reg r1 &&& sign_extend (instr &&& 0x1F) 5)
    else σ.setReg r0 (σ.reg r1 &&& σ.reg (instr &&& 7).toNat)
  update_flags σ r0

/-- `op_not`, prog/emu/lc3.c:207-212. -/
def op_not (σ : Vm) (instr : UInt16) : Vm :=
  let r0 := field instr 9 7
  update_flags (σ.setReg r0 (~~~ σ.reg (field instr 6 7))) r0

/-- `op_br`, prog/emu/lc3.c:214-220. -/
def op_br (σ : Vm) (instr : UInt16) : Vm :=
  if ((instr >>> 9) &&& 7) &&& σ.reg 9 ≠ 0 then σ.setReg 8 (σ.reg 8 + sign_extend (instr &&& 0x1FF) 9) else σ

/-- `op_jmp`, prog/emu/lc3.c:222-226. -/
def op_jmp (σ : Vm) (instr : UInt16) : Vm := σ.setReg 8 (σ.reg (field instr 6 7))

/-- `op_jsr`, prog/emu/lc3.c:228-238. -/
def op_jsr (σ : Vm) (instr : UInt16) : Vm :=
  let σ := σ.setReg 7 (σ.reg 8)
  if field instr 11 1 ≠ 0 then σ.setReg 8 (σ.reg 8 + sign_extend (instr &&& 0x7FF) 11)
  else σ.setReg 8 (σ.reg (field instr 6 7))

/-- `op_ld`, prog/emu/lc3.c:240-245. -/
def op_ld (σ : Vm) (instr : UInt16) : Vm :=
  let r0 := field instr 9 7
  let (v, σ) := mem_read σ (σ.reg 8 + sign_extend (instr &&& 0x1FF) 9)
  update_flags (σ.setReg r0 v) r0

/-- `op_ldi`, prog/emu/lc3.c:247-255. -/
def op_ldi (σ : Vm) (instr : UInt16) : Vm :=
  let r0 := field instr 9 7
  let (a, σ) := mem_read σ (σ.reg 8 + sign_extend (instr &&& 0x1FF) 9)
  let (v, σ) := mem_read σ a
  update_flags (σ.setReg r0 v) r0

/-- `op_ldr`, prog/emu/lc3.c:257-263. -/
def op_ldr (σ : Vm) (instr : UInt16) : Vm :=
  let r0 := field instr 9 7
  let (v, σ) := mem_read σ (σ.reg (field instr 6 7) + sign_extend (instr &&& 0x3F) 6)
  update_flags (σ.setReg r0 v) r0

/-- `op_lea`, prog/emu/lc3.c:265-270. -/
def op_lea (σ : Vm) (instr : UInt16) : Vm :=
  let r0 := field instr 9 7
  update_flags (σ.setReg r0 (σ.reg 8 + sign_extend (instr &&& 0x1FF) 9)) r0

/-- `op_st`, prog/emu/lc3.c:272-276. -/
def op_st (σ : Vm) (instr : UInt16) : Vm :=
  mem_write σ (σ.reg 8 + sign_extend (instr &&& 0x1FF) 9) (σ.reg (field instr 9 7))

/-- `op_sti`, prog/emu/lc3.c:278-282. -/
def op_sti (σ : Vm) (instr : UInt16) : Vm :=
  let (a, σ) := mem_read σ (σ.reg 8 + sign_extend (instr &&& 0x1FF) 9)
  mem_write σ a (σ.reg (field instr 9 7))

/-- `op_str`, prog/emu/lc3.c:284-289. -/
def op_str (σ : Vm) (instr : UInt16) : Vm :=
  mem_write σ (σ.reg (field instr 6 7) + sign_extend (instr &&& 0x3F) 6) (σ.reg (field instr 9 7))

/-- The conversion of a word to `char`. -/
def char (w : UInt16) : UInt8 := w.toUInt8

/-- The loop of `TRAP_PUTS`, prog/emu/lc3.c:307-310, from the address `65536 - k` on. -/
def puts (mem : UInt16 → UInt16) : Nat → Res String Bytes
  | 0 => .panic "undefined: read outside of an array"
  | k + 1 =>
    let w := mem (.ofNat (65536 - (k + 1)))
    if w = 0 then .ok [] else (puts mem k).bind fun t => .ok (char w :: t)

/-- The loop of `TRAP_PUTSP`, prog/emu/lc3.c:326-333, from the address `65536 - k` on. -/
def putsp (mem : UInt16 → UInt16) : Nat → Res String Bytes
  | 0 => .panic "undefined: read outside of an array"
  | k + 1 =>
    let w := mem (.ofNat (65536 - (k + 1)))
    if w = 0 then .ok []
    else
      let char1 := char (w &&& 0xFF)
      let char2 := char (w >>> 8)
      (putsp mem k).bind fun t => .ok (char1 :: if char2 ≠ 0 then char2 :: t else t)

/-- `(uint16_t)c` for a `char`, which is signed. -/
def ofChar (c : UInt8) : UInt16 := if c < 128 then c.toUInt16 else c.toUInt16 ||| 0xFF00

/-- `op_trap`, prog/emu/lc3.c:291-342. -/
def op_trap (σ : Vm) (instr : UInt16) : Res String Vm :=
  let σ := σ.setReg 7 (σ.reg 8)
  let v := instr &&& 0xFF
  if v = 0x20 then
    let (c, σ) := getchar σ
    .ok (update_flags (σ.setReg 0 (u16 c)) 0)
  else if v = 0x21 then .ok { σ with out := σ.out ++ [char (σ.reg 0)] }
  else if v = 0x22 then
    (puts σ.mem (65536 - (σ.reg 0).toNat)).bind fun t => .ok { σ with out := σ.out ++ t }
  else if v = 0x23 then
    let σ := { σ with out := σ.out ++ cstr "Enter a character: " }
    let (n, σ) := getchar σ
    let c := char (u16 n)
    let σ := { σ with out := σ.out ++ [c] }
    .ok (update_flags (σ.setReg 0 (ofChar c)) 0)
  else if v = 0x24 then
    (putsp σ.mem (65536 - (σ.reg 0).toNat)).bind fun t => .ok { σ with out := σ.out ++ t }
  else if v = 0x25 then .ok { σ with out := σ.out ++ cstr "HALT\n", running := false }
  else .ok σ

/-- The body of the loop of `run`, prog/emu/lc3.c:117-138. -/
def step (σ : Vm) : Res String Vm :=
  let pc := σ.reg 8
  let σ := σ.setReg 8 (pc + 1)
  let (instr, σ) := mem_read σ pc
  match (instr >>> 12).toNat with
  | 0 => .ok (op_br σ instr)
  | 1 => .ok (op_add σ instr)
  | 2 => .ok (op_ld σ instr)
  | 3 => .ok (op_st σ instr)
  | 4 => .ok (op_jsr σ instr)
  | 5 => .ok (op_and σ instr)
  | 6 => .ok (op_ldr σ instr)
  | 7 => .ok (op_str σ instr)
  | 9 => .ok (op_not σ instr)
  | 10 => .ok (op_ldi σ instr)
  | 11 => .ok (op_sti σ instr)
  | 12 => .ok (op_jmp σ instr)
  | 14 => .ok (op_lea σ instr)
  | 15 => op_trap σ instr
  | _ => .panic "!"

/-- The loop of `run`, prog/emu/lc3.c:116-139, for at most `n` instructions. -/
def loop : Nat → Vm → Res String Vm
  | 0, σ => .ok σ
  | n + 1, σ => if σ.running then (step σ).bind (loop n) else .ok σ

/-- A file: what is left of it, and whether its end was met. -/
structure File where
  rest : Bytes
  eof : Bool

/-- `readc`, lib/bytereader.c:24-28. -/
def readc (f : File) : Int × File :=
  match f.rest with
  | [] => (-1, { f with eof := true })
  | c :: rest => (c.toNat, { f with rest })

/-- `read16`, lib/bytereader.c:37-45. -/
def read16 (f : File) : UInt16 × File :=
  let (a, f) := readc f
  let (b, f) := readc f
  (u16 (a * 256 + b), f)

/-- The loop that reads the memory, prog/emu/lc3.c:97-102, from the address `65536 - k` on. -/
def readMem : Nat → (UInt16 → UInt16) → File → (UInt16 → UInt16) × File
  | 0, mem, f => (mem, f)
  | k + 1, mem, f =>
    let (w, f) := read16 f
    let mem := fun a => if a = .ofNat (65536 - (k + 1)) then w else mem a
    if f.eof then (mem, f) else readMem k mem f

/-- The beginning of `run`, prog/emu/lc3.c:94-114: the machine, or `none` for "input file too long". -/
def load (file : Bytes) (polls : List Bool) (input : Bytes) : Option Vm :=
  let (origin, f) := read16 ⟨file, false⟩
  let (mem, f) := readMem (65536 - origin.toNat) (fun _ => 0) f
  if !f.eof then none
  else
    some { reg := fun i => if i = 9 then 2 else if i = 8 then 0x3000 else 0, mem, polls, input, out := [], running := true }
end Che.Prog.Lc3
