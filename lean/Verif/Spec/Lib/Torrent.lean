import Verif.Model.Lib.Torrent

/-!
Torrents: the files one after another are cut into pieces of equal length, the last of which may be shorter.
-/
namespace Che.Spec.Torrent
open Che.Lib Che.Lib.Torrent

/-- The files of a torrent, as paths and lengths. -/
def parts (tf : Info) : List (Bytes × Nat) :=
  match tf.files with
  | [] => if tf.length = 0 then [] else [(tf.name, tf.length.toNat)]
  | fs => fs.map fun f => (tf.name ++ [47] ++ f.2, f.1.toNat)

/-- The length of files together. -/
def size (ps : List (Bytes × Nat)) : Nat := (ps.map (·.2)).sum

/-- A torrent has pieces of some length, and either one file or a list of files; sizes fit into 64 bits. -/
structure Fine (tf : Info) : Prop where
  piece : 0 < tf.piece_length.toNat
  kind : tf.length = 0 ∨ tf.files = []
  size : size (parts tf) < 2 ^ 64

/-- What is in the files together, if `disk` has them. -/
def content (ps : List (Bytes × Nat)) (disk : Bytes → Bytes) : Bytes := (ps.map fun p => disk p.1).flatten

/-- The files have their lengths. -/
def Sized (ps : List (Bytes × Nat)) (disk : Bytes → Bytes) : Prop := ∀ p ∈ ps, (disk p.1).length = p.2
end Che.Spec.Torrent
