import Verif.Model.Lib.IO

/-!
The CHIP-8 of "Cowgod's Chip-8 Technical Reference v1.0": its instructions as they are written in two bytes, and what each does.
Independent of the emulator.  Left out: `SYS`, which the reference says interpreters ignore, and the extensions.
-/
namespace Che.Spec.Chip8
open Che.Lib

abbrev Reg := BitVec 4
abbrev Addr := BitVec 12

structure State where
  v : Reg → UInt8
  i : UInt16
  pc : UInt16
  /-- The return addresses, the last one first. -/
  stack : List UInt16
  dt : UInt8
  st : UInt8
  mem : Nat → UInt8
  /-- The pixels, by column and row. -/
  screen : Nat → Nat → Bool

inductive Instr
  | cls
  | ret
  | jp (a : Addr)
  | call (a : Addr)
  | se (x : Reg) (kk : BitVec 8)
  | sne (x : Reg) (kk : BitVec 8)
  | seV (x y : Reg)
  | ld (x : Reg) (kk : BitVec 8)
  | add (x : Reg) (kk : BitVec 8)
  | ldV (x y : Reg)
  | or (x y : Reg)
  | and (x y : Reg)
  | xor (x y : Reg)
  | addV (x y : Reg)
  | sub (x y : Reg)
  | shr (x y : Reg)
  | subn (x y : Reg)
  | shl (x y : Reg)
  | sneV (x y : Reg)
  | ldI (a : Addr)
  | jpV0 (a : Addr)
  | rnd (x : Reg) (kk : BitVec 8)
  | drw (x y : Reg) (n : BitVec 4)
  | skp (x : Reg)
  | sknp (x : Reg)
  | ldVDt (x : Reg)
  | ldK (x : Reg)
  | ldDt (x : Reg)
  | ldSt (x : Reg)
  | addI (x : Reg)
  | ldF (x : Reg)
  | ldB (x : Reg)
  | save (x : Reg)
  | load (x : Reg)
deriving DecidableEq

/-- How an instruction is written. -/
def encode : Instr → BitVec 16
  | .cls => 0x00E0#16
  | .ret => 0x00EE#16
  | .jp a => 1#4 ++ a
  | .call a => 2#4 ++ a
  | .se x kk => 3#4 ++ x ++ kk
  | .sne x kk => 4#4 ++ x ++ kk
  | .seV x y => 5#4 ++ x ++ y ++ 0#4
  | .ld x kk => 6#4 ++ x ++ kk
  | .add x kk => 7#4 ++ x ++ kk
  | .ldV x y => 8#4 ++ x ++ y ++ 0#4
  | .or x y => 8#4 ++ x ++ y ++ 1#4
  | .and x y => 8#4 ++ x ++ y ++ 2#4
  | .xor x y => 8#4 ++ x ++ y ++ 3#4
  | .addV x y => 8#4 ++ x ++ y ++ 4#4
  | .sub x y => 8#4 ++ x ++ y ++ 5#4
  | .shr x y => 8#4 ++ x ++ y ++ 6#4
  | .subn x y => 8#4 ++ x ++ y ++ 7#4
  | .shl x y => 8#4 ++ x ++ y ++ 0xE#4
  | .sneV x y => 9#4 ++ x ++ y ++ 0#4
  | .ldI a => 0xA#4 ++ a
  | .jpV0 a => 0xB#4 ++ a
  | .rnd x kk => 0xC#4 ++ x ++ kk
  | .drw x y n => 0xD#4 ++ x ++ y ++ n
  | .skp x => 0xE#4 ++ x ++ 0x9E#8
  | .sknp x => 0xE#4 ++ x ++ 0xA1#8
  | .ldVDt x => 0xF#4 ++ x ++ 0x07#8
  | .ldK x => 0xF#4 ++ x ++ 0x0A#8
  | .ldDt x => 0xF#4 ++ x ++ 0x15#8
  | .ldSt x => 0xF#4 ++ x ++ 0x18#8
  | .addI x => 0xF#4 ++ x ++ 0x1E#8
  | .ldF x => 0xF#4 ++ x ++ 0x29#8
  | .ldB x => 0xF#4 ++ x ++ 0x33#8
  | .save x => 0xF#4 ++ x ++ 0x55#8
  | .load x => 0xF#4 ++ x ++ 0x65#8

def State.set (s : State) (x : Reg) (b : UInt8) : State := { s with v := fun y => if y = x then b else s.v y }

/-- The flag register. -/
def VF : Reg := 15#4

def State.skip (s : State) (p : Prop) [Decidable p] : State := if p then { s with pc := s.pc + 2 } else s

/-- Whether a sprite of `n` bytes at `(x, y)` has the pixel `(px, py)`: sprites are eight pixels wide, the highest bit on the left,
and go on at the other side of the screen. -/
def covers (mem : Nat → UInt8) (i n x y px py : Nat) : Bool :=
  let col := (px + 64 - x % 64) % 64
  let row := (py + 32 - y % 32) % 32
  decide (col < 8) && decide (row < n) && (mem (i + row)).toNat.testBit (7 - col)

/-- The flag of a condition. -/
def flag (p : Prop) [Decidable p] : UInt8 := if p then 1 else 0

/-- What an instruction does once the counter is behind it; `keys` are the keys that are held, `rand` is the random byte. `none`: the
reference does not say, as the instruction leaves the memory, the stack or the keypad; or the machine waits for a key. -/
def exec (s : State) (keys : Nat → Bool) (rand : UInt8) : Instr → Option State
  | .cls => some { s with screen := fun _ _ => false }
  | .ret =>
    match s.stack with
    | [] => none
    | a :: rest => some { s with pc := a, stack := rest }
  | .jp a => some { s with pc := .ofNat a.toNat }
  | .call a => if s.stack.length < 16 then some { s with stack := s.pc :: s.stack, pc := .ofNat a.toNat } else none
  | .se x kk => some (s.skip (s.v x = ⟨kk⟩))
  | .sne x kk => some (s.skip (s.v x ≠ ⟨kk⟩))
  | .seV x y => some (s.skip (s.v x = s.v y))
  | .ld x kk => some (s.set x ⟨kk⟩)
  | .add x kk => some (s.set x (s.v x + ⟨kk⟩))
  | .ldV x y => some (s.set x (s.v y))
  | .or x y => some (s.set x (s.v x ||| s.v y))
  | .and x y => some (s.set x (s.v x &&& s.v y))
  | .xor x y => some (s.set x (s.v x ^^^ s.v y))
  | .addV x y => some ((s.set x (s.v x + s.v y)).set VF (flag ((s.v x).toNat + (s.v y).toNat ≥ 256)))
  | .sub x y => some ((s.set x (s.v x - s.v y)).set VF (flag (s.v y ≤ s.v x)))
  | .shr x _ => some ((s.set x (.ofNat ((s.v x).toNat / 2))).set VF (flag ((s.v x).toNat % 2 = 1)))
  | .subn x y => some ((s.set x (s.v y - s.v x)).set VF (flag (s.v x ≤ s.v y)))
  | .shl x _ => some ((s.set x (.ofNat ((s.v x).toNat * 2))).set VF (flag ((s.v x).toNat ≥ 128)))
  | .sneV x y => some (s.skip (s.v x ≠ s.v y))
  | .ldI a => some { s with i := .ofNat a.toNat }
  | .jpV0 a => some { s with pc := .ofNat (a.toNat + (s.v 0).toNat) }
  | .rnd x kk => some (s.set x (rand &&& ⟨kk⟩))
  | .drw x y n =>
    if s.i.toNat + n.toNat ≤ 4096 then
      let hit := covers s.mem s.i.toNat n.toNat (s.v x).toNat (s.v y).toNat
      let erased := ∃ px < 64, ∃ py < 32, s.screen px py = true ∧ hit px py = true
      some ({ s with screen := fun px py => s.screen px py ^^ hit px py }.set VF (flag erased))
    else none
  | .skp x => if (s.v x).toNat < 16 then some (s.skip (keys (s.v x).toNat = true)) else none
  | .sknp x => if (s.v x).toNat < 16 then some (s.skip (keys (s.v x).toNat = false)) else none
  | .ldVDt x => some (s.set x s.dt)
  | .ldK _ => none
  | .ldDt x => some { s with dt := s.v x }
  | .ldSt x => some { s with st := s.v x }
  | .addI x => some { s with i := s.i + .ofNat (s.v x).toNat }
  | .ldF x => if (s.v x).toNat < 16 then some { s with i := .ofNat (5 * (s.v x).toNat) } else none
  | .ldB x =>
    if s.i.toNat + 3 ≤ 4096 then
      let b := (s.v x).toNat
      let m : Nat → UInt8 := fun a =>
        if a = s.i.toNat then .ofNat (b / 100)
        else if a = s.i.toNat + 1 then .ofNat (b / 10 % 10)
        else if a = s.i.toNat + 2 then .ofNat (b % 10)
        else s.mem a
      some { s with mem := m }
    else none
  | .save x =>
    if s.i.toNat + x.toNat < 4096 then
      some { s with mem := fun a => if s.i.toNat ≤ a ∧ a ≤ s.i.toNat + x.toNat then s.v (.ofNat 4 (a - s.i.toNat)) else s.mem a }
    else none
  | .load x =>
    if s.i.toNat + x.toNat < 4096 then some { s with v := fun y => if y ≤ x then s.mem (s.i.toNat + y.toNat) else s.v y } else none
end Che.Spec.Chip8
