import Verif.Model.Basic
import Verif.Model.Lib.Enc

/-!
What the frames of MP3 files are: MPEG 1, layer III, 44100 Hz, without checksums.
-/
namespace Che.Spec.Mp3
open Che.Lib

/-- The rates of layer III, in kilobits per second. -/
def rate : Nat → Option Nat
  | 1 => some 32 | 2 => some 40 | 3 => some 48 | 4 => some 56 | 5 => some 64 | 6 => some 80 | 7 => some 96 | 8 => some 112
  | 9 => some 128 | 10 => some 160 | 11 => some 192 | 12 => some 224 | 13 => some 256 | 14 => some 320 | _ => none

/-- A frame: eleven bits of sync, the version, the layer, no checksum; the rate, the frequency, the padding, a private bit; the mode; and
the 1152 samples in as many bytes as the rate gives. -/
def Frame (s : Bytes) : Prop := ∃ (b2 b3 : UInt8) (body : Bytes) (k p x r : Nat), s = 255 :: 251 :: b2 :: b3 :: body ∧ b2.toNat = 16 * k + 4 * 0 + 2 * p + x ∧ p < 2 ∧ x < 2 ∧
  rate k = some r ∧ s.length = 144 * 1000 * r / 44100 + p

/-- The rate of a frame. -/
def rateOf : Bytes → Nat
  | _ :: _ :: c :: _ => (rate (c.toNat / 16)).getD 0
  | _ => 0

/-- One channel. -/
def Mono (s : Bytes) : Prop := ∃ a b c d rest, s = a :: b :: c :: d :: rest ∧ d.toNat / 64 = 3

/-- A frame with information about the file, after the side information of 32 bytes, or 17 for one channel. -/
def Info (s : Bytes) : Prop := ∃ a b, s = a ++ cstr "Xing" ++ b ∧ (Mono s ∧ a.length = 21 ∨ ¬ Mono s ∧ a.length = 36)
end Che.Spec.Mp3
