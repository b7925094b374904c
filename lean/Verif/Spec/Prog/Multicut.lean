import Verif.Model.Lib.IO

/-!
What lines of words are, and which words multicut has to print.
-/
namespace Che.Spec.Multicut
open Che.Lib

/-- White space. -/
def Blank (c : UInt8) : Prop := c = 32 ∨ 9 ≤ c.toNat ∧ c.toNat ≤ 13

/-- Words: at least one byte, no white space and no zero. -/
def Word (w : Bytes) : Prop := w ≠ [] ∧ ∀ c ∈ w, ¬ Blank c ∧ c ≠ 0

/-- White space in a line. -/
def Gap (g : Bytes) : Prop := ∀ c ∈ g, Blank c ∧ c ≠ 10

/-- A line of words with white space between them and, maybe, at the end. -/
inductive Row : List Bytes → Bytes → Prop
  | last (w g : Bytes) : Word w → Gap g → Row [w] (w ++ g)
  | cons (w g : Bytes) (ws : List Bytes) (t : Bytes) : Word w → Gap g → g ≠ [] → Row ws t → Row (w :: ws) (w ++ g ++ t)

/-- The word with a number, from one on; nothing for other numbers. -/
def pick (ws : List Bytes) (n : Int) : Bytes := if n ≤ 0 then [] else (ws[n.toNat - 1]?).getD []

/-- What is printed for a line: the words with the numbers, with tabs between them. -/
def row (ns : List Int) (ws : List Bytes) : Bytes := [9].intercalate (ns.map (pick ws)) ++ [10]
end Che.Spec.Multicut
