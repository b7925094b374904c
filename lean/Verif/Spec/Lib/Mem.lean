/-!
A file in memory: its contents and a position.
-/
namespace Che.Spec.Lib

structure MemFile where
  contents : List UInt8
  pos : Nat

/-- What can be done with it. -/
inductive MemOp
  | write (bytes : List UInt8)
  | read (n : Nat)
  | put (c : UInt8)
  | get
  | rewind
  | clear
  | tell

/-- What it answers. -/
inductive MemAnswer
  | bytes (bs : List UInt8)
  | byte (b : Option UInt8)
  | number (n : Nat)
  | nothing

/-- Writing replaces what follows the position. -/
def MemFile.write (f : MemFile) (bs : List UInt8) : MemFile :=
  ⟨f.contents.take f.pos ++ bs ++ f.contents.drop (f.pos + bs.length), f.pos + bs.length⟩

def MemFile.op (f : MemFile) : MemOp → MemFile × MemAnswer
  | .write bs => (f.write bs, .number bs.length)
  | .read n => (⟨f.contents, f.pos + ((f.contents.drop f.pos).take n).length⟩, .bytes ((f.contents.drop f.pos).take n))
  | .put c => (f.write [c], .byte (some c))
  | .get => match f.contents[f.pos]? with
    | some c => (⟨f.contents, f.pos + 1⟩, .byte (some c))
    | none => (f, .byte none)
  | .rewind => (⟨f.contents, 0⟩, .nothing)
  | .clear => (⟨[], 0⟩, .nothing)
  | .tell => (f, .number f.pos)

def MemFile.run (f : MemFile) : List MemOp → List MemAnswer
  | [] => []
  | op :: rest => (f.op op).2 :: (f.op op).1.run rest

end Che.Spec.Lib
