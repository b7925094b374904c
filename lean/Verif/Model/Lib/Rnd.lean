import Verif.Model.Basic
import Verif.Model.Lib.Time

/-!
Model of `lib/rnd.c`.

The state is `pcg32_value`.  The seed that is chosen from the time and the process when no one is given is not modelled: the state has been
seeded.  A double is a fraction, as in `Model/Lib/Time`.
-/
namespace Che.Lib.Rnd

/-- `seed`, lib/rnd.c:22-25. -/
def seed (s : UInt64) : UInt64 := s

/-- The new state, lib/rnd.c:5-6, 14. -/
def step (v : UInt64) : UInt64 := v * 0x9b60933458e17d7d + 0xd737232eeccdf7ed

/-- The number made of a state, lib/rnd.c:15-16. -/
def output (v : UInt64) : UInt32 := (v >>> ((29 : UInt64) - (v >>> (61 : UInt64)))).toUInt32

/-- `pcg32`, lib/rnd.c:8-17. -/
def pcg32 (v : UInt64) : UInt64 × UInt32 := (step v, output (step v))

/-- `intn`, lib/rnd.c:29-35. -/
def intn (v : UInt64) (n : UInt32) : Res String (UInt64 × UInt32) :=
  if n = 0 then .panic "got n = 0 in rand.intn" else .ok ((pcg32 v).1, (pcg32 v).2 % n)

/-- `u`, lib/rnd.c:38-40. -/
def u (v : UInt64) : UInt64 × (Nat × Nat) := ((pcg32 v).1, Time.double (pcg32 v).2.toNat 0xffffffff)

/-- The state after some calls, each of which changes it in the same way. -/
def after (v : UInt64) : Nat → UInt64
  | 0 => v
  | n + 1 => (pcg32 (after v n)).1

/-- The numbers that calls of `pcg32` return, the first one being number 0. -/
def value (v : UInt64) (n : Nat) : UInt32 := (pcg32 (after v n)).2
end Che.Lib.Rnd
