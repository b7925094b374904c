import Verif.Model.Lib.IO
import Verif.Model.Lib.Enc

/-!
What RTF files are, for rtf2html, and what they are in HTML.
-/
namespace Che.Spec.Rtf
open Che.Lib

/-- The look of a text: whether it is centered, and the size of the letters in half points, if it is set. -/
structure Look where
  centered : Bool
  size : Option Nat
deriving DecidableEq, Repr

/-- Changes of the look. -/
inductive Cmd
  | center
  | size20
  | size30
  | font0
  | plain
deriving DecidableEq, Repr

/-- The control words for changes. -/
def Cmd.word : Cmd → String
  | .center => "qc"
  | .size20 => "fs20"
  | .size30 => "fs30"
  | .font0 => "f0"
  | .plain => "pard"

/-- What a change does. -/
def Cmd.apply (l : Look) : Cmd → Look
  | .center => { l with centered := true }
  | .size20 => { l with size := some 20 }
  | .size30 => { l with size := some 30 }
  | .font0 => l
  | .plain => { centered := false, size := none }

/-- Characters of texts. -/
inductive Ch
  | byte (c : UInt8)
  | lquote
  | rquote
deriving DecidableEq, Repr

/-- A control word with the blank after it. -/
def word (w : String) : Bytes := [92] ++ cstr w ++ [32]

/-- A character in RTF. -/
def Ch.rtf : Ch → Bytes
  | .byte c => [c]
  | .lquote => word "ldblquote"
  | .rquote => word "rdblquote"

/-- A character in HTML. -/
def Ch.html : Ch → Bytes
  | .byte c => [c]
  | .lquote => cstr "&ldquo;"
  | .rquote => cstr "&rdquo; "

/-- A text after changes of the look. -/
structure Run where
  cmds : List Cmd
  text : List Ch
deriving DecidableEq, Repr

/-- A run in RTF. -/
def Run.rtf (r : Run) : Bytes := (r.cmds.flatMap fun c => word c.word) ++ r.text.flatMap Ch.rtf

/-- White space. -/
def blank (c : UInt8) : Prop := c = 32 ∨ 9 ≤ c.toNat ∧ c.toNat ≤ 13

/-- A list of characters does not begin with white space. -/
def Solid : List Ch → Prop
  | .byte c :: _ => ¬ blank c
  | _ => True

/-- Texts without braces and backslashes, and without white space after quotes, which would be lost. -/
def GoodText : List Ch → Prop
  | [] => True
  | .byte c :: t => c ≠ 92 ∧ c ≠ 123 ∧ c ≠ 125 ∧ GoodText t
  | _ :: t => Solid t ∧ GoodText t

/-- Runs with a text that does not begin with white space. -/
def GoodRun (r : Run) : Prop := r.text ≠ [] ∧ Solid r.text ∧ GoodText r.text

/-- Paragraphs whose look changes before every run but the first. -/
def GoodPar (p : List Run) : Prop := (∀ r ∈ p, GoodRun r) ∧ ∀ r ∈ p.tail, r.cmds ≠ []

/-- The head of a file: control words without effect, and the table of fonts with the name of a font. -/
def head (ws : List String) (font : Bytes) : Bytes :=
  ws.flatMap word ++ word "deflang1033" ++ cstr "{\\fonttbl{\\f0\\fnil\\fcharset0 " ++ font ++ cstr ";}}"

/-- A file with its paragraphs. -/
def rtf (ws : List String) (font : Bytes) (ps : List (List Run)) : Bytes :=
  [123] ++ head ws font ++ (ps.flatMap fun p => p.flatMap Run.rtf ++ word "par") ++ [125]

/-- What is before and after a text with a look. -/
def openTag (l : Look) : Bytes :=
  if l = ⟨false, none⟩ then []
  else cstr "<span style=\"" ++ (if l.centered then cstr "display:block;text-align:center;" else []) ++
    (match l.size with
      | some n => cstr "font-size:" ++ cstr (toString (n / 2)) ++ cstr "pt;"
      | none => []) ++ cstr "\">"

def closeTag (l : Look) : Bytes := if l = ⟨false, none⟩ then [] else cstr "</span>"

/-- The runs of a paragraph in HTML, one after another, and the look at the end. -/
def runsHtml : Look → List Run → Bytes
  | _, [] => []
  | l, r :: rs => let l := r.cmds.foldl Cmd.apply l; openTag l ++ r.text.flatMap Ch.html ++ closeTag l ++ runsHtml l rs

def runsLook (l : Look) (rs : List Run) : Look := rs.foldl (fun l r => r.cmds.foldl Cmd.apply l) l

/-- Paragraphs in HTML. -/
def parsHtml : Look → List (List Run) → Bytes
  | _, [] => []
  | l, [] :: ps => parsHtml l ps
  | l, (r :: rs) :: ps => cstr "<p>" ++ runsHtml l (r :: rs) ++ cstr "</p>\n\n" ++ parsHtml (runsLook l (r :: rs)) ps

/-- A document in HTML; nothing if there is no text. -/
def html (ps : List (List Run)) : Bytes :=
  if ps.all List.isEmpty then []
  else cstr "<!DOCTYPE html>\n<html>\n<head></head>\n<body>\n" ++ parsHtml ⟨false, none⟩ ps ++ cstr "</body>\n</html>\n"

end Che.Spec.Rtf
