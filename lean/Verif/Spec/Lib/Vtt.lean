import Verif.Model.Basic
import Verif.Model.Lib.Enc
import Mathlib.Data.List.Forall2

/-!
What WebVTT files with subtitles are, and what a program should see of them.
-/
namespace Che.Spec.Vtt
open Che.Lib

/-- The end of a line. -/
def Eol (e : Bytes) : Prop := e = [10] ∨ e = [13, 10]

/-- The text of a line. -/
structure Line (s : Bytes) : Prop where
  bytes : ∀ c ∈ s, c ≠ 10 ∧ c ≠ 0
  last : s.getLast? ≠ some 13

/-- Lines that have text. -/
inductive Lines : Bytes → List Bytes → Prop where
  | nil : Lines [] []
  | cons (l e s : Bytes) (ls : List Bytes) : Line l → l ≠ [] → Eol e → Lines s ls → Lines (l ++ e ++ s) (l :: ls)

/-- Empty lines. -/
inductive Empty : Bytes → Prop where
  | nil : Empty []
  | cons (e s : Bytes) : Eol e → Empty s → Empty (e ++ s)

def Digit (c : UInt8) : Prop := 48 ≤ c ∧ c ≤ 57

/-- `hh:mm:ss.ttt` -/
def Stamp (s : Bytes) : Prop := ∃ h1 h2 m1 m2 s1 s2 t1 t2 t3, (∀ c ∈ [h1, h2, m1, m2, s1, s2, t1, t2, t3], Digit c) ∧
  s = [h1, h2, 58, m1, m2, 58, s1, s2, 46, t1, t2, t3]

/-- A subtitle: when it is shown, how, and its lines. -/
structure Cue where
  first : Bytes
  last : Bytes
  settings : Option Bytes
  text : List Bytes
deriving DecidableEq, Repr

/-- The settings after the times. -/
def Cue.style (c : Cue) : Bytes :=
  match c.settings with
  | none => []
  | some s => 32 :: s

/-- The line with the times. -/
def Cue.timing (c : Cue) : Bytes := c.first ++ cstr " --> " ++ c.last ++ c.style

/-- A subtitle without the empty line after it. -/
inductive Block : Bytes → Cue → Prop where
  | mk (c : Cue) (e t : Bytes) : Stamp c.first → Stamp c.last → Line c.timing → Eol e → Lines t c.text → Block (c.timing ++ e ++ t) c

/-- Subtitles, each with empty lines before it and an empty line after it. -/
inductive Cues : Bytes → List Cue → Prop where
  | nil (b : Bytes) : Empty b → Cues b []
  | cons (b t e s : Bytes) (c : Cue) (cs : List Cue) : Empty b → Block t c → Eol e → Cues s cs → Cues (b ++ t ++ e ++ s) (c :: cs)

/-- `WEBVTT`, lines `name: value`, and an empty line. -/
inductive Header : Bytes → Prop where
  | mk (e t e' : Bytes) (ls : List Bytes) : Eol e → Lines t ls → (∀ l ∈ ls, cstr ": " <:+: l) → Eol e' → Header (cstr "WEBVTT" ++ e ++ t ++ e')

/-- A file; the last subtitle needs no empty line after it. -/
inductive File : Bytes → List Cue → Prop where
  | ended (h s : Bytes) (cs : List Cue) : Header h → Cues s cs → File (h ++ s) cs
  | last (h s b t : Bytes) (cs : List Cue) (c : Cue) : Header h → Cues s cs → Empty b → Block t c → File (h ++ s ++ b ++ t) (cs ++ [c])

/-- A line and what is left of it without tags. -/
inductive Plain : Bytes → Bytes → Prop where
  | nil : Plain [] []
  | char (c : UInt8) (s o : Bytes) : c ≠ 60 → Plain s o → Plain (c :: s) (c :: o)
  | tag (t s o : Bytes) : (62 : UInt8) ∉ t → Plain s o → Plain (60 :: (t ++ 62 :: s)) o

/-- White space at the beginning; vertical tabs and form feeds stay at the end. -/
def Space (c : UInt8) : Prop := c ∈ [32, 9, 10, 11, 12, 13]
def EndSpace (c : UInt8) : Prop := c ∈ [32, 9, 13, 10]

/-- A text without the space around it. -/
def Trimmed (s o : Bytes) : Prop := ∃ l r, s = l ++ o ++ r ∧ (∀ c ∈ l, Space c) ∧ (∀ c ∈ r, EndSpace c) ∧
  (∀ c, o.head? = some c → ¬ Space c) ∧ ∀ c, o.getLast? = some c → ¬ EndSpace c

/-- The lines of a subtitle without tags, joined and trimmed. -/
def Shown (ls : List Bytes) (o : Bytes) : Prop := ∃ ps, List.Forall₂ Plain ls ps ∧ Trimmed (List.intercalate [10] ps) o
end Che.Spec.Vtt
