import Verif.Model.Basic
import Verif.Model.Lib.Bits
import Verif.Model.Lib.Tokenizer

/-!
Model of `prog/emu/chip8.c` and of `decode` in `prog/emu/chip8instr.c`.  What the keyboard and the random generator return
are parameters; waiting, sound, signals and the disassembler are not modelled.  Reading or writing outside of an array
and reading a variable without a value is a panic whose text begins with "undefined".
-/
namespace Che.Prog.Chip8
open Che.Lib

/-- The operations, prog/emu/chip8instr.c:1-15. -/
inductive Op
  | ADDIVx | ADDVxkk | ADDVxVy | ANDVxVy | SUBNVxVy | SUBVxVy | JPnnn | JPV0nnn | CALLnnn | RET | DRWVxVyn | CLS
  | LD_I_Vx | LDBVx | LDDTVx | LDFVx | LDInnn | LDSTVx | LDVx_I_ | LDVxDT | LDVxK | LDVxkk | LDVxVy | RNDVxkk
  | SEVxkk | SEVxVy | SHLVx_Vy_ | SHRVx_Vy_ | SKNPVx | SKPVx | SNEVxkk | SNEVxVy | ORVxVy | XORVxVy
deriving DecidableEq, Repr

/-- `instr_t`, prog/emu/chip8instr.c:17-23. -/
structure Instr where
  op : Op
  x : Nat
  y : Nat
  nnn : Nat
  kk : Nat
  d4 : Nat
deriving DecidableEq, Repr

/-- The operation of the numbers, prog/emu/chip8instr.c:62-108; `none` when `OP` gets no value. -/
def operation (d1 d4 b2 : Nat) : Option Op :=
  match d1 with
  | 1 => some .JPnnn
  | 2 => some .CALLnnn
  | 3 => some .SEVxkk
  | 4 => some .SNEVxkk
  | 5 => some .SEVxVy
  | 6 => some .LDVxkk
  | 7 => some .ADDVxkk
  | 8 =>
    match d4 with
    | 0 => some .LDVxVy
    | 1 => some .ORVxVy
    | 2 => some .ANDVxVy
    | 3 => some .XORVxVy
    | 4 => some .ADDVxVy
    | 5 => some .SUBVxVy
    | 6 => some .SHRVx_Vy_
    | 7 => some .SUBNVxVy
    | 0xE => some .SHLVx_Vy_
    | _ => none
  | 9 => some .SNEVxVy
  | 0xA => some .LDInnn
  | 0xB => some .JPV0nnn
  | 0xC => some .RNDVxkk
  | 0xD => some .DRWVxVyn
  | 0xE =>
    if b2 = 0x9E then some .SKPVx
    else if b2 = 0xA1 then some .SKNPVx
    else none
  | 0xF =>
    if b2 = 0x07 then some .LDVxDT
    else if b2 = 0x0A then some .LDVxK
    else if b2 = 0x15 then some .LDDTVx
    else if b2 = 0x18 then some .LDSTVx
    else if b2 = 0x1E then some .ADDIVx
    else if b2 = 0x29 then some .LDFVx
    else if b2 = 0x33 then some .LDBVx
    else if b2 = 0x55 then some .LD_I_Vx
    else if b2 = 0x65 then some .LDVx_I_
    else none
  | _ => none

/-- `decode`, prog/emu/chip8instr.c:26-110. -/
def decode (b1 b2 : UInt8) : Res String Instr :=
  let d1 := b1.toNat >>> 4
  let d2 := b1.toNat &&& 0xF
  let d3 := b2.toNat >>> 4
  let d4 := b2.toNat &&& 0xF
  if b1 = 0 ∧ b2 = 0xEE then .ok ⟨.RET, 0, 0, 0, 0, 0⟩
  else if b1 = 0 ∧ b2 = 0xE0 then .ok ⟨.CLS, 0, 0, 0, 0, 0⟩
  else
    match operation d1 d4 b2.toNat with
    | none => .panic "undefined: variable without a value"
    | some op => .ok ⟨op, d2, d3, b2.toNat + (b1.toNat &&& 0xF) * 256, b2.toNat, d4⟩

/-- `chip8_t`, prog/emu/chip8.c:15-47. -/
structure C8 where
  mem : Nat → UInt8
  pc : UInt16
  i : UInt16
  stack : Nat → UInt16
  sp : UInt8
  dt : UInt8
  st : UInt8
  video : Nat → UInt8
  v : Nat → UInt8
  keys : Nat → Bool

/-- `c8->registers[x] = b`. -/
def C8.setV (c : C8) (x : Nat) (b : UInt8) : C8 := { c with v := fun j => if j = x then b else c.v j }

/-- Reading of `c8->memory[a]`. -/
def peek (c : C8) (a : Nat) : Res String UInt8 := if a < 4096 then .ok (c.mem a) else .panic "undefined: read outside of an array"

/-- `c8->memory[a] = b`. -/
def poke (c : C8) (a : Nat) (b : UInt8) : Res String C8 :=
  if a < 4096 then .ok { c with mem := fun j => if j = a then b else c.mem j } else .panic "undefined: write outside of an array"

/-- `xor_pixel`, prog/emu/chip8.c:427-433. -/
def xor_pixel (c : C8) (x y : Nat) (value : UInt8) : Res String (Bool × C8) :=
  let pos := y * 64 + x
  if pos < 2048 then
    let old := c.video pos
    let new := old ^^^ value
    .ok (decide (old ≠ 0 ∧ new = 0), { c with video := fun j => if j = pos then new else c.video j })
  else .panic "undefined: read outside of an array"

/-- The loop of `xor_sprite`, prog/emu/chip8.c:421-423. -/
def xor_bits : Bytes → C8 → Nat → Nat → Bool → Res String (Bool × C8)
  | [], c, _, _, collision => .ok (collision, c)
  | b :: bs, c, x, y, collision => (xor_pixel c x y b).bind fun r => xor_bits bs r.2 (x + 1) y (r.1 || collision)

/-- `xor_sprite`, prog/emu/chip8.c:416-425. -/
def xor_sprite (c : C8) (x y : Nat) (sprite : UInt8) : Res String (Bool × C8) := xor_bits (Bits.getbits_msfirst sprite) c x y false

/-- The loop of `DRW`, prog/emu/chip8.c:214-219, for `n` more rows. -/
def draw_rows (r : Instr) : Nat → Nat → C8 → Bool → Res String (Bool × C8)
  | 0, _, c, collision => .ok (collision, c)
  | n + 1, i, c, collision =>
    (peek c (c.i.toNat + i)).bind fun b =>
      (xor_sprite c (c.v r.x).toNat ((c.v r.y).toNat + i) b).bind fun s => draw_rows r n (i + 1) s.2 (s.1 || collision)

/-- The loop that saves the registers, prog/emu/chip8.c:327-329. -/
def dump : Nat → Nat → C8 → Res String C8
  | 0, _, c => .ok c
  | n + 1, i, c => (poke c (c.i.toNat + i) (c.v i)).bind fun c => dump n (i + 1) c

/-- The loop that loads the registers, prog/emu/chip8.c:334-336. -/
def fill : Nat → Nat → C8 → Res String C8
  | 0, _, c => .ok c
  | n + 1, i, c => (peek c (c.i.toNat + i)).bind fun b => fill n (i + 1) (c.setV i b)

/-- Skipping of the next instruction. -/
def C8.skip (c : C8) (b : Bool) : C8 := if b then { c with pc := c.pc + 2 } else c

/-- `step`, prog/emu/chip8.c:174-414; `rand` is what `rnd.intn(256)` returns. -/
def step (c : C8) (r : Instr) (rand : UInt8) : Res String C8 :=
  match r.op with
  | .CLS => .ok { c with video := fun j => if j < 2048 then 0 else c.video j }
  | .LDFVx =>
    if (c.v r.x).toNat > 15 then .panic "loading sprite for number - out of bounds"
    else .ok { c with i := .ofNat ((c.v r.x).toNat * 5) }
  | .LDBVx =>
    let val := c.v r.x
    let ones := val % 10
    let val := val / 10
    let tens := val % 10
    let hundreds := val / 10
    (poke c c.i.toNat hundreds).bind fun c =>
      (poke c (c.i.toNat + 1) tens).bind fun c => poke c (c.i.toNat + 2) ones
  | .DRWVxVyn =>
    (draw_rows r r.d4 0 c false).bind fun s => .ok (s.2.setV 15 (if s.1 then 1 else 0))
  | .LDVxK => .panic "implement key waiting"
  | .JPnnn => .ok { c with pc := .ofNat r.nnn }
  | .JPV0nnn => .ok { c with pc := .ofNat ((c.v 0).toNat + r.nnn) }
  | .CALLnnn =>
    if c.sp.toNat < 16 then
      .ok { c with stack := fun j => if j = c.sp.toNat then c.pc else c.stack j, sp := c.sp + 1, pc := .ofNat r.nnn }
    else .panic "undefined: write outside of an array"
  | .RET =>
    let sp := c.sp - 1
    if sp.toNat < 16 then
      .ok { c with sp, pc := c.stack sp.toNat, stack := fun j => if j = sp.toNat then 0 else c.stack j }
    else .panic "undefined: read outside of an array"
  | .SEVxkk => .ok (c.skip (decide ((c.v r.x).toNat = r.kk)))
  | .SNEVxkk => .ok (c.skip (decide ((c.v r.x).toNat ≠ r.kk)))
  | .SEVxVy => .ok (c.skip (decide (c.v r.x = c.v r.y)))
  | .SNEVxVy => .ok (c.skip (decide (c.v r.x ≠ c.v r.y)))
  | .SKPVx =>
    if (c.v r.x).toNat < 16 then .ok { c.skip (c.keys (c.v r.x).toNat) with keys := fun _ => false }
    else .panic "undefined: read outside of an array"
  | .SKNPVx =>
    if (c.v r.x).toNat < 16 then .ok (c.skip (!c.keys (c.v r.x).toNat)) else .panic "undefined: read outside of an array"
  | .LDVxkk => .ok (c.setV r.x (.ofNat r.kk))
  | .ADDVxkk => .ok (c.setV r.x (c.v r.x + .ofNat r.kk))
  | .LDVxVy => .ok (c.setV r.x (c.v r.y))
  | .LDInnn => .ok { c with i := .ofNat r.nnn }
  | .ADDIVx => .ok { c with i := c.i + (c.v r.x).toUInt16 }
  | .LD_I_Vx => dump (r.x + 1) 0 c
  | .LDVx_I_ => fill (r.x + 1) 0 c
  | .LDSTVx => .ok { c with st := c.v r.x }
  | .LDVxDT => .ok (c.setV r.x c.dt)
  | .LDDTVx => .ok { c with dt := c.v r.x }
  | .ORVxVy => .ok (c.setV r.x (c.v r.x ||| c.v r.y))
  | .ANDVxVy => .ok (c.setV r.x (c.v r.x &&& c.v r.y))
  | .XORVxVy => .ok (c.setV r.x (c.v r.x ^^^ c.v r.y))
  | .ADDVxVy =>
    let sum := (c.v r.x).toNat + (c.v r.y).toNat
    .ok ((c.setV r.x (.ofNat (sum &&& 0xFF))).setV 15 (if sum > 255 then 1 else 0))
  | .SUBVxVy =>
    if c.v r.x < c.v r.y then
      let c := c.setV 15 1
      .ok (c.setV r.x (255 + c.v r.x - c.v r.y))
    else
      let c := c.setV 15 0
      .ok (c.setV r.x (c.v r.x - c.v r.y))
  | .SHRVx_Vy_ =>
    let c := c.setV 15 (c.v r.x &&& 1)
    .ok (c.setV r.x (c.v r.x >>> 1))
  | .SHLVx_Vy_ =>
    let n := (c.v r.x).toNat <<< 1
    .ok ((c.setV 15 (if n > 255 then 1 else 0)).setV r.x (.ofNat (n &&& 0xFF)))
  | .SUBNVxVy =>
    if c.v r.y < c.v r.x then .ok ((c.setV r.x (255 + c.v r.y - c.v r.x)).setV 15 0)
    else .ok ((c.setV r.x (c.v r.y - c.v r.x)).setV 15 1)
  | .RNDVxkk => .ok (c.setV r.x (rand &&& .ofNat r.kk))

/-- `keycode`, prog/emu/chip8.c:49-73; `none` for -1. -/
def keycode (ch : UInt8) : Option Nat :=
  if ch = 49 then some 1
  else if ch = 50 then some 2
  else if ch = 51 then some 3
  else if ch = 52 then some 0xC
  else if ch = 113 then some 4
  else if ch = 119 then some 5
  else if ch = 101 then some 6
  else if ch = 114 then some 0xD
  else if ch = 97 then some 7
  else if ch = 115 then some 8
  else if ch = 100 then some 9
  else if ch = 102 then some 0xE
  else if ch = 122 then some 0xA
  else if ch = 120 then some 0
  else if ch = 99 then some 0xB
  else if ch = 118 then some 0xF
  else none

/-- `DIGITS`, prog/emu/chip8.c:83-100. -/
def digits : Bytes :=
  [0xf0, 0x90, 0x90, 0x90, 0xf0,
   0x20, 0x60, 0x20, 0x20, 0x70,
   0xf0, 0x10, 0xf0, 0x80, 0xf0,
   0xf0, 0x10, 0xf0, 0x10, 0xf0,
   0x90, 0x90, 0xf0, 0x10, 0x10,
   0xf0, 0x80, 0xf0, 0x10, 0xf0,
   0xf0, 0x80, 0xf0, 0x90, 0xf0,
   0xf0, 0x10, 0x20, 0x40, 0x40,
   0xf0, 0x90, 0xf0, 0x90, 0xf0,
   0xf0, 0x90, 0xf0, 0x10, 0xf0,
   0xf0, 0x90, 0xf0, 0x90, 0x90,
   0xe0, 0x90, 0xe0, 0x90, 0xe0,
   0xf0, 0x80, 0x80, 0x80, 0xf0,
   0xe0, 0x90, 0x90, 0x90, 0xe0,
   0xf0, 0x80, 0xf0, 0x80, 0xf0,
   0xf0, 0x80, 0xf0, 0x80, 0x80]

/-- The loop of `loadrom`, prog/emu/chip8.c:110-115. -/
def loadrom : Nat → C8 → Bytes → Res String C8
  | _, c, [] => .ok c
  | pos, c, b :: rest => (poke c pos b).bind fun c => loadrom (pos + 1) c rest

/-- The machine before the loop, prog/emu/chip8.c:120-127. -/
def load (rom : Bytes) : Res String C8 :=
  let c : C8 :=
    { mem := fun a => digits.getD a 0, pc := 0, i := 0, stack := fun _ => 0, sp := 0, dt := 0, st := 0
      video := fun _ => 0, v := fun _ => 0, keys := fun _ => false }
  (loadrom 0x200 c rom).bind fun c => .ok { c with pc := 0x200 }

/-- The key is marked, prog/emu/chip8.c:147-150. -/
def press (c : C8) (key : Option UInt8) : C8 :=
  match key.bind keycode with
  | none => c
  | some k => { c with keys := fun j => if j = k then true else c.keys j }

/-- The body of the loop of `run`, prog/emu/chip8.c:135-159; `key` is the key that was typed, if any. -/
def cycle (c : C8) (key : Option UInt8) (rand : UInt8) : Res String C8 :=
  if c.dt ≠ 0 ∨ c.st ≠ 0 then
    .ok { c with dt := if c.dt ≠ 0 then c.dt - 1 else c.dt, st := if c.st ≠ 0 then c.st - 1 else c.st }
  else
    let c := press c key
    (peek c c.pc.toNat).bind fun b1 =>
      (peek c (c.pc.toNat + 1)).bind fun b2 =>
        (decode b1 b2).bind fun instr => step { c with pc := c.pc + 2 } instr rand

/-- The text of one pixel, prog/emu/chip8.c:517-521. -/
def pixel (video : Nat → UInt8) (i : Nat) : Bytes :=
  (if video i ≠ 0 then [0xE2, 0x96, 0x88] else [32]) ++ (if (i + 1) % 64 = 0 then [10] else [])

/-- The sum of the pixels, prog/emu/chip8.c:508-511. -/
def video_sum (video : Nat → UInt8) : Int := ((List.range (64 * 32)).map fun i => ((video i).toNat : Int)).sum

/-- The text of the screen, prog/emu/chip8.c:516-523. -/
def video_text (video : Nat → UInt8) : Bytes := (List.range (64 * 32)).flatMap (pixel video) ++ [10]

/-- `draw`, prog/emu/chip8.c:505-524, for the screen of `run`: `_prevsum` and what is printed. -/
def draw (prevsum : Int) (video : Nat → UInt8) : Int × Bytes :=
  if video_sum video = prevsum then (prevsum, []) else (video_sum video, video_text video)
end Che.Prog.Chip8
