import Verif.Model.Basic
import Verif.Model.Lib.Enc

/-!
What WAV files with PCM samples are.
-/
namespace Che.Spec.Wav
open Che.Lib

/-- A number as `n` bytes, least significant byte first. -/
def le : Nat → Nat → Bytes
  | 0, _ => []
  | n + 1, v => UInt8.ofNat (v % 256) :: le n (v / 256)

/-- A signed number as `n` bytes. -/
def sle (n : Nat) (s : Int) : Bytes := le n (s % (256 ^ n : Nat)).toNat

/-- A sound: the samples of a frame are one for each channel. -/
structure Sound where
  channels : Nat
  frequency : Nat
  bytes : Nat
  frames : List (List Int)
deriving DecidableEq, Repr

/-- Sounds with one or two channels, and samples of two or three bytes. -/
structure Sound.Ok (s : Sound) : Prop where
  channels : s.channels = 1 ∨ s.channels = 2
  frequency : s.frequency < 2 ^ 32
  bytes : s.bytes = 2 ∨ s.bytes = 3
  frames : ∀ f ∈ s.frames, f.length = s.channels
  samples : ∀ f ∈ s.frames, ∀ x ∈ f, -(256 ^ s.bytes / 2 : Nat) ≤ x ∧ x < (256 ^ s.bytes / 2 : Nat)
  size : s.frames.length * s.channels * s.bytes < 2 ^ 32

/-- The description of the samples. -/
def format (channels frequency bytes : Nat) : Bytes :=
  le 2 1 ++ le 2 channels ++ le 4 frequency ++ le 4 (frequency * channels * bytes % 2 ^ 32) ++ le 2 (channels * bytes) ++ le 2 (8 * bytes)

/-- The samples. -/
def Sound.data (s : Sound) : Bytes := (s.frames.map fun f => (f.map (sle s.bytes)).flatten).flatten

/-- A named value; a value of odd length has a byte after it. -/
def entry (e : Bytes × Bytes) : Bytes := e.1 ++ le 4 e.2.length ++ e.2 ++ if e.2.length % 2 = 0 then [] else [0]

def body (es : List (Bytes × Bytes)) : Bytes := (es.map entry).flatten

/-- The block of named values, if there is one. -/
inductive Info : Option (List (Bytes × Bytes)) → Bytes → Prop where
  | none : Info none []
  | some (es : List (Bytes × Bytes)) : (∀ e ∈ es, e.1.length = 4) → (body es).length + 4 < 2 ^ 32 →
      Info (some es) (cstr "LIST" ++ le 4 (4 + (body es).length) ++ cstr "INFO" ++ body es)

/-- The padding, if there is one. -/
inductive Pad : Bytes → Prop where
  | none : Pad []
  | some (p : Bytes) : p.length < 2 ^ 32 → Pad (cstr "PAD " ++ le 4 p.length ++ p)

/-- A file: what follows the samples does not matter. -/
inductive File : Bytes → Sound → Option (List (Bytes × Bytes)) → Prop where
  | mk (s : Sound) (size info pad rest : Bytes) (es : Option (List (Bytes × Bytes))) : s.Ok → size.length = 4 → Info es info → Pad pad →
      File (cstr "RIFF" ++ size ++ cstr "WAVE" ++ cstr "fmt " ++ le 4 16 ++ format s.channels s.frequency s.bytes ++ info ++ pad ++
        cstr "data" ++ le 4 s.data.length ++ s.data ++ rest) s es

/-- A double `±num/den` that is the fraction `s/scale`, rounded to the nearest one with 53 bits. -/
def Rounded (neg : Bool) (num den : Nat) (s : Int) (scale : Nat) : Prop :=
  (neg = true ↔ s < 0) ∧ if s = 0 then num = 0 ∧ den = 1 else
    ∃ k, den = 2 ^ k ∧ 2 ^ 52 ≤ num ∧ num ≤ 2 ^ 53 ∧ 2 * (num * scale) ≤ 2 * (s.natAbs * den) + scale ∧ 2 * (s.natAbs * den) ≤ 2 * (num * scale) + scale
end Che.Spec.Wav
