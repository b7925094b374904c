import Verif.Model.Lib.IO

/-!
The LC-3 of Patt and Patel, "Introduction to Computing Systems", 2nd edition, appendix A: its instructions as they are written in
a word, and what each does.  Independent of the emulator.  Interrupts and the privileged mode are left out.
-/
namespace Che.Spec.Lc3
open Che.Lib

abbrev Word := BitVec 16
abbrev Reg := BitVec 3

/-- The condition codes: one of them is set. -/
inductive Cc
  | n
  | z
  | p
deriving DecidableEq

structure State where
  r : Reg → Word
  pc : Word
  cc : Cc
  mem : Word → Word

inductive Instr
  | add (dr sr1 sr2 : Reg)
  | addi (dr sr1 : Reg) (imm : BitVec 5)
  | and (dr sr1 sr2 : Reg)
  | andi (dr sr1 : Reg) (imm : BitVec 5)
  | br (n z p : Bool) (off : BitVec 9)
  | jmp (base : Reg)
  | jsr (off : BitVec 11)
  | jsrr (base : Reg)
  | ld (dr : Reg) (off : BitVec 9)
  | ldi (dr : Reg) (off : BitVec 9)
  | ldr (dr base : Reg) (off : BitVec 6)
  | lea (dr : Reg) (off : BitVec 9)
  | not (dr sr : Reg)
  | st (sr : Reg) (off : BitVec 9)
  | sti (sr : Reg) (off : BitVec 9)
  | str (sr base : Reg) (off : BitVec 6)
  | trap (vect : BitVec 8)
deriving DecidableEq

/-- How an instruction is written. -/
def encode : Instr → Word
  | .add dr sr1 sr2 => 0b0001#4 ++ dr ++ sr1 ++ 0b000#3 ++ sr2
  | .addi dr sr1 imm => 0b0001#4 ++ dr ++ sr1 ++ 1#1 ++ imm
  | .and dr sr1 sr2 => 0b0101#4 ++ dr ++ sr1 ++ 0b000#3 ++ sr2
  | .andi dr sr1 imm => 0b0101#4 ++ dr ++ sr1 ++ 1#1 ++ imm
  | .br n z p off => 0b0000#4 ++ BitVec.ofBool n ++ BitVec.ofBool z ++ BitVec.ofBool p ++ off
  | .jmp base => 0b1100#4 ++ 0b000#3 ++ base ++ 0b000000#6
  | .jsr off => 0b0100#4 ++ 1#1 ++ off
  | .jsrr base => 0b0100#4 ++ 0#1 ++ 0b00#2 ++ base ++ 0b000000#6
  | .ld dr off => 0b0010#4 ++ dr ++ off
  | .ldi dr off => 0b1010#4 ++ dr ++ off
  | .ldr dr base off => 0b0110#4 ++ dr ++ base ++ off
  | .lea dr off => 0b1110#4 ++ dr ++ off
  | .not dr sr => 0b1001#4 ++ dr ++ sr ++ 0b111111#6
  | .st sr off => 0b0011#4 ++ sr ++ off
  | .sti sr off => 0b1011#4 ++ sr ++ off
  | .str sr base off => 0b0111#4 ++ sr ++ base ++ off
  | .trap vect => 0b1111#4 ++ 0b0000#4 ++ vect

/-- The condition code of a value. -/
def ccOf (v : Word) : Cc := if v.toInt < 0 then .n else if v.toInt = 0 then .z else .p

def State.set (s : State) (r : Reg) (v : Word) : State := { s with r := fun i => if i = r then v else s.r i }

/-- A register gets a value, and the condition codes are set. -/
def State.result (s : State) (r : Reg) (v : Word) : State := { s.set r v with cc := ccOf v }

def State.store (s : State) (a v : Word) : State := { s with mem := fun b => if b = a then v else s.mem b }

/-- Whether a branch is taken. -/
def taken (n z p : Bool) : Cc → Bool
  | .n => n
  | .z => z
  | .p => p

/-- What an instruction does, when the program counter has been incremented.  Traps are below. -/
def exec (s : State) : Instr → State
  | .add dr sr1 sr2 => s.result dr (s.r sr1 + s.r sr2)
  | .addi dr sr1 imm => s.result dr (s.r sr1 + imm.signExtend 16)
  | .and dr sr1 sr2 => s.result dr (s.r sr1 &&& s.r sr2)
  | .andi dr sr1 imm => s.result dr (s.r sr1 &&& imm.signExtend 16)
  | .br n z p off => if taken n z p s.cc then { s with pc := s.pc + off.signExtend 16 } else s
  | .jmp base => { s with pc := s.r base }
  | .jsr off => { s.set 7 s.pc with pc := s.pc + off.signExtend 16 }
  | .jsrr base => { s.set 7 s.pc with pc := s.r base }
  | .ld dr off => s.result dr (s.mem (s.pc + off.signExtend 16))
  | .ldi dr off => s.result dr (s.mem (s.mem (s.pc + off.signExtend 16)))
  | .ldr dr base off => s.result dr (s.mem (s.r base + off.signExtend 16))
  | .lea dr off => s.result dr (s.pc + off.signExtend 16)
  | .not dr sr => s.result dr (~~~ s.r sr)
  | .st sr off => s.store (s.pc + off.signExtend 16) (s.r sr)
  | .sti sr off => s.store (s.mem (s.pc + off.signExtend 16)) (s.r sr)
  | .str sr base off => s.store (s.r base + off.signExtend 16) (s.r sr)
  | .trap _ => s

/-- The addresses that an instruction reads, when the program counter has been incremented. -/
def reads (s : State) : Instr → List Word
  | .ld _ off => [s.pc + off.signExtend 16]
  | .ldi _ off => [s.pc + off.signExtend 16, s.mem (s.pc + off.signExtend 16)]
  | .ldr _ base off => [s.r base + off.signExtend 16]
  | .sti _ off => [s.pc + off.signExtend 16]
  | _ => []

/-- A machine with its keyboard and its screen. -/
structure Machine extends State where
  keys : Bytes
  screen : Bytes
  halted : Bool

/-- `n` words from an address on, none of them zero, with a zero after them, inside the memory. -/
def IsString (mem : Word → Word) (a : Word) (ws : List Word) : Prop :=
  a.toNat + ws.length < 65536 ∧ (∀ i (h : i < ws.length), ws[i] ≠ 0 ∧ mem (a + BitVec.ofNat 16 i) = ws[i]) ∧ mem (a + BitVec.ofNat 16 ws.length) = 0

/-- The low byte of a word. -/
def low (w : Word) : UInt8 := ⟨w.extractLsb' 0 8⟩
/-- The high byte of a word. -/
def high (w : Word) : UInt8 := ⟨w.extractLsb' 8 8⟩

/-- The two characters of a word of `PUTSP`; the last word may have one. -/
def pair (w : Word) : Bytes := if high w = 0 then [low w] else [low w, high w]

/-- The service routines.  The text of the prompts and the condition codes afterwards are left open where a
character is read. -/
inductive Trap (s : State) (keys screen : Bytes) : BitVec 8 → Machine → Prop
  | getc (c : UInt8) (rest : Bytes) (cc : Cc) : keys = c :: rest →
    Trap s keys screen 0x20 { s.set 0 (c.toBitVec.zeroExtend 16) with cc, keys := rest, screen, halted := false }
  | out : Trap s keys screen 0x21 { s with keys, screen := screen ++ [low (s.r 0)], halted := false }
  | puts (ws : List Word) : IsString s.mem (s.r 0) ws →
    Trap s keys screen 0x22 { s with keys, screen := screen ++ ws.map low, halted := false }
  | in_ (c : UInt8) (rest prompt : Bytes) (cc : Cc) : keys = c :: rest →
    Trap s keys screen 0x23 { s.set 0 (c.toBitVec.zeroExtend 16) with cc, keys := rest, screen := screen ++ prompt ++ [c], halted := false }
  | putsp (ws : List Word) : IsString s.mem (s.r 0) ws →
    Trap s keys screen 0x24 { s with keys, screen := screen ++ ws.flatMap pair, halted := false }
  | halt (message : Bytes) : Trap s keys screen 0x25 { s with keys, screen := screen ++ message, halted := true }

/-- The program counter is incremented when the instruction has been fetched. -/
def State.fetched (s : State) : State := { s with pc := s.pc + 1 }

/-- One step. -/
inductive Step : Machine → Machine → Prop
  | plain (m : Machine) (i : Instr) : m.halted = false → m.mem m.pc = encode i → (∀ v, i ≠ .trap v) →
    Step m { exec m.toState.fetched i with keys := m.keys, screen := m.screen, halted := false }
  | trap (m m' : Machine) (v : BitVec 8) : m.halted = false → m.mem m.pc = encode (.trap v) →
    Trap (m.toState.fetched.set 7 (m.pc + 1)) m.keys m.screen v m' → Step m m'

/-- Some steps. -/
inductive Steps : Nat → Machine → Machine → Prop
  | none (m : Machine) : Steps 0 m m
  | more (n : Nat) (a b c : Machine) : Step a b → Steps n b c → Steps (n + 1) a c
end Che.Spec.Lc3
