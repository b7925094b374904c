import Batteries.Data.List.Basic
import Verif.Model.Lib.Enc
import Verif.Spec.Lib.Bencode

/-!
What is in a `.torrent` file (BEP 3): a dictionary, in which the value of `info` is a dictionary with one file, or a list of files.
Keys may stand in any order.
-/
namespace Che.Spec.TorrentFile
open Che.Lib Che.Spec.Lib

/-- The value of a key. -/
def at? (es : List (Bytes × BVal)) (k : Bytes) : Option BVal := (es.find? fun e => e.1 == k).map (·.2)

/-- The string of a key; empty if there is none. -/
def strAt (es : List (Bytes × BVal)) (k : String) : Bytes :=
  match at? es (cstr k) with
  | some (.str s) => s
  | _ => []

/-- The number of a key; 0 if there is none. -/
def intAt (es : List (Bytes × BVal)) (k : String) : Int :=
  match at? es (cstr k) with
  | some (.int n) => n
  | _ => 0

/-- The bytes of a string. -/
def strOf : BVal → Bytes
  | .str s => s
  | _ => []

/-- The strings of a list. -/
def strsAt (es : List (Bytes × BVal)) (k : String) : List Bytes :=
  match at? es (cstr k) with
  | some (.list vs) => vs.map strOf
  | _ => []

/-- The path of a file. -/
def joined : List Bytes → Bytes
  | [] => []
  | p :: ps => p ++ ps.flatMap fun q => 47 :: q

/-- Texts that fit into an array of 200 bytes. -/
def Short (s : Bytes) : Prop := s.length < 200 ∧ (0 : UInt8) ∉ s

/-- The entry of a file with a length and the parts of its path. -/
def FileVal (v : BVal) (f : Nat × List Bytes) : Prop :=
  (v = .dict [(cstr "length", .int f.1), (cstr "path", .list (f.2.map .str))] ∨ v = .dict [(cstr "path", .list (f.2.map .str)), (cstr "length", .int f.1)]) ∧
  f.1 < 2 ^ 31 ∧ (∀ p ∈ f.2, (0 : UInt8) ∉ p) ∧ (joined f.2).length < 200

/-- Entries of `info`. -/
inductive InfoEntry : Bytes → BVal → Prop
  | name (s : Bytes) : Short s → InfoEntry (cstr "name") (.str s)
  | piece_length (n : Nat) : n < 2 ^ 31 → InfoEntry (cstr "piece length") (.int n)
  | length (n : Nat) : n < 2 ^ 31 → InfoEntry (cstr "length") (.int n)
  | pieces (s : Bytes) : s.length < 2 ^ 31 → InfoEntry (cstr "pieces") (.str s)
  | files (vs : List BVal) (fs : List (Nat × List Bytes)) : List.Forall₂ FileVal vs fs → fs.length ≤ 10000 → InfoEntry (cstr "files") (.list vs)
  | priv (n : Int) : -2 ^ 31 < n → n < 2 ^ 31 → InfoEntry (cstr "private") (.int n)

/-- A dictionary with different keys. -/
def Distinct (es : List (Bytes × BVal)) : Prop := (es.map (·.1)).Nodup

/-- The keys that mean something to the reader. -/
def known : List Bytes := [cstr "announce", cstr "creation date", cstr "created by", cstr "comment", cstr "info"]

/-- Entries of the file.  Others are of no interest. -/
inductive TopEntry : Bytes → BVal → Prop
  | announce (s : Bytes) : Short s → TopEntry (cstr "announce") (.str s)
  | created_by (s : Bytes) : Short s → TopEntry (cstr "created by") (.str s)
  | comment (s : Bytes) : Short s → TopEntry (cstr "comment") (.str s)
  | creation_date (n : Int) : -2 ^ 31 < n → n < 2 ^ 31 → TopEntry (cstr "creation date") (.int n)
  | info (es : List (Bytes × BVal)) : Distinct es → (∀ e ∈ es, InfoEntry e.1 e.2) → TopEntry (cstr "info") (.dict es)
  | other (k : Bytes) (v : BVal) : k ∉ known → k.length < 1000 → (0 : UInt8) ∉ k →
      v.All (fun n => -2147483647 ≤ n ∧ n ≤ 2147483647) (fun s => s.length ≤ 2147483647) (fun s => s.length ≤ 2147483647) → bdepth v ≤ 9 → TopEntry k v
/-- The pieces of a file. -/
def cut (P : Nat) (data : Bytes) : List Bytes :=
  if h : data = [] ∨ P = 0 then [] else data.take P :: cut P (data.drop P)
termination_by data.length
decreasing_by
  rw [not_or] at h
  have := List.length_pos_iff.mpr h.1
  rw [List.length_drop]; omega

/-- What follows the last slash. -/
def lastPart (path : Bytes) : Bytes := (path.reverse.takeWhile (· ≠ 47)).reverse

/-- The file that describes one shared file. -/
def single (announce comment created_by : Bytes) (date : Int) (length : Nat) (name : Bytes) (plen : Nat) (pieces : Bytes) : List (Bytes × BVal) :=
  [(cstr "announce", .str announce), (cstr "comment", .str comment), (cstr "created by", .str created_by), (cstr "creation date", .int date),
   (cstr "info", .dict [(cstr "length", .int length), (cstr "name", .str name), (cstr "piece length", .int plen), (cstr "pieces", .str pieces)])]
end Che.Spec.TorrentFile
