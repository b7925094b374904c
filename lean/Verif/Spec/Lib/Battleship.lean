import Verif.Model.Prog.Battleship

/-!
Battleship: ships lie straight on a board of ten by ten squares and do not touch each other.
-/
namespace Che.Spec.Battleship
open Che.Prog.Battleship

/-- East, south, west and north. -/
def Straight (d : Nat) : Prop := d = 0 ∨ d = 2 ∨ d = 4 ∨ d = 6

def dx : Nat → Int
  | 0 => 1
  | 4 => -1
  | _ => 0

def dy : Nat → Int
  | 2 => 1
  | 6 => -1
  | _ => 0

/-- The board. -/
def Inside (x y : Int) : Prop := 0 ≤ x ∧ x < 10 ∧ 0 ≤ y ∧ y < 10

/-- A square of a ship. -/
def On (s : Ship) (x y : Int) : Prop := ∃ l : Nat, l < s.length ∧ x = s.x + l * dx s.dir ∧ y = s.y + l * dy s.dir

/-- The same square or one beside it. -/
def Near (x y x' y' : Int) : Prop := x' ≤ x + 1 ∧ x ≤ x' + 1 ∧ y' ≤ y + 1 ∧ y ≤ y' + 1

/-- The ships of the game. -/
def kinds : List (UInt8 × Nat) := [(65, 5), (66, 4), (68, 3), (83, 3), (80, 2)]

/-- The ships of a player that have been placed are on the board, as they are there, and do not touch each other. -/
structure Fleet (p : Player) : Prop where
  kind : ∀ i, i < 5 → ((p.ships i).symbol, (p.ships i).length) = kinds.getD i (0, 0)
  straight : ∀ i, i < 5 → (p.ships i).placed = true → Straight (p.ships i).dir
  inside : ∀ i, i < 5 → (p.ships i).placed = true → ∀ x y, On (p.ships i) x y → Inside x y
  shown : ∀ i, i < 5 → (p.ships i).placed = true → ∀ x y, On (p.ships i) x y → p.board x y = (p.ships i).symbol
  only : ∀ x y, p.board x y ≠ 0 → ∃ i, i < 5 ∧ (p.ships i).placed = true ∧ On (p.ships i) x y
  apart : ∀ i j, i < 5 → j < 5 → i ≠ j → (p.ships i).placed = true → (p.ships j).placed = true → ∀ x y x' y', On (p.ships i) x y → On (p.ships j) x' y' → ¬ Near x y x' y'

/-- All ships have been placed. -/
def Ready (p : Player) : Prop := ∀ i, i < 5 → (p.ships i).placed = true

/-- A ship may lie where it is: on the board, and not beside another one. -/
def Fits (p : Player) (s : Ship) : Prop :=
  (∀ x y, On s x y → Inside x y) ∧ ∀ j, j < 5 → (p.ships j).placed = true → ∀ x y x' y', On s x y → On (p.ships j) x' y' → ¬ Near x y x' y'
end Che.Spec.Battleship

namespace Che.Spec.Battleship
open Che.Prog.Battleship

/-- How many squares of a ship have been shelled. -/
def cellsShot (s : Ship) (t : Grid) : Nat := (List.range s.length).countP fun (l : Nat) => decide (t (s.x + l * dx s.dir) (s.y + l * dy s.dir) ≠ 0)

/-- The squares of a ship and those beside it. -/
def Around (s : Ship) (a b : Int) : Prop := Inside a b ∧ ∃ c d, On s c d ∧ Near c d a b

/-- A player knows the truth about the ships of the other: the hits are those of the shells that have fallen, a shell in the water is `o`, a hit is `H`,
and a ship that has been sunk is shown. -/
structure Side (own other : Player) : Prop where
  fleet : Fleet other
  ready : Ready other
  hits : ∀ i, i < 5 → (other.ships i).hits = cellsShot (other.ships i) own.shots
  ship : ∀ i, i < 5 → ∀ x y, On (other.ships i) x y → own.shots x y ≠ 0 →
    own.shots x y = if (other.ships i).hits < (other.ships i).length then 72 else (other.ships i).symbol
  water : ∀ x y, (∀ i, i < 5 → ¬ On (other.ships i) x y) → own.shots x y ≠ 0 → own.shots x y = 111

/-- One more hit. -/
def hit (ships : Nat → Ship) (i : Nat) : Nat → Ship := fun j => if j = i then { ships i with hits := (ships i).hits + 1 } else ships j

/-- What a shell at `x`, `y` does: a miss, a hit, or a ship that sinks with the water around it. -/
def Fired (own other own' other' : Player) (x y : Int) (res : Int) : Prop :=
  own'.board = own.board ∧ own'.ships = own.ships ∧ other'.board = other.board ∧ other'.shots = other.shots ∧
  ((res = 0 ∧ (∀ i, i < 5 → ¬ On (other.ships i) x y) ∧ own'.shots = own.shots.set x y 111 ∧ other'.ships = other.ships) ∨
   (res = 1 ∧ ∃ i, i < 5 ∧ On (other.ships i) x y ∧ (other.ships i).hits + 1 < (other.ships i).length ∧ own'.shots = own.shots.set x y 72 ∧ other'.ships = hit other.ships i) ∨
   (res = -1 ∧ ∃ i, i < 5 ∧ On (other.ships i) x y ∧ (other.ships i).hits + 1 = (other.ships i).length ∧ other'.ships = hit other.ships i ∧
      (∀ a b, On (other.ships i) a b → own'.shots a b = (other.ships i).symbol) ∧
      (∀ a b, ¬ On (other.ships i) a b → Around (other.ships i) a b → own'.shots a b = 111) ∧
      (∀ a b, ¬ Around (other.ships i) a b → own'.shots a b = own.shots a b)))

/-- Games in which ships are being placed, with keys or at random. -/
inductive Placing : Game → Prop
  | start (g : Game) (h : g.closepack = false) : Placing (reset g)
  | key {g g' : Game} (i : Nat) (x y : Int) (dir : Nat) : Placing g → i < 5 → ((g.players false).ships i).placed = false → Inside x y → Straight dir → placeship_at g i x y dir = .ok g' → Placing g'
  | random {g g' : Game} (b : Bool) (r : Nat → Nat → Nat) (i n : Nat) : Placing g → i < 5 → ((g.players b).ships i).placed = false → placeship_random g b r i n = .ok g' → Placing g'

/-- Games that are being played: whoever may be next, players shell squares that they have not shelled. -/
inductive Playing : Game → AI → Prop
  | start {g : Game} (t : Bool) : Placing g → Ready (g.players false) → Ready (g.players true) → Playing { g with turn := t } ai_reset
  | computer {g g' : Game} {s s' : AI} (r : Nat → Nat) (h : Int) (t : Bool) : Playing g s → g.turn = true → winner g = none → computer_turn g s r = .ok (g', s', h) → Playing { g' with turn := t } s'
  | player {g g' : Game} {s : AI} (x y : Int) (h : Int) (t : Bool) : Playing g s → g.turn = false → winner g = none → Inside x y → (g.players false).shots x y = 0 → player_turn g x y = .ok (g', h) → Playing { g' with turn := t } s

/-- The player chooses squares of the board that have not been shelled. -/
def Picks (pick : Game → Int × Int) : Prop :=
  ∀ g : Game, (∃ x y, Inside x y ∧ (g.players false).shots x y = 0) → Inside (pick g).1 (pick g).2 ∧ (g.players false).shots (pick g).1 (pick g).2 = 0

/-- Someone has won: all squares of the ships of the other have been shelled, and not all of theirs. -/
def Won (g : Game) : Prop :=
  ∃ w, winner g = some w ∧ (∀ i, i < 5 → ∀ x y, On ((g.players (!w)).ships i) x y → (g.players w).shots x y ≠ 0) ∧
    ∃ i, i < 5 ∧ ∃ x y, On ((g.players w).ships i) x y ∧ (g.players (!w)).shots x y = 0
end Che.Spec.Battleship
