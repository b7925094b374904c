import Verif.Model.Basic
import Verif.Model.Lib.IO

/-!
Model of `prog/battleship`: `game.c`, `ai.c`, and the turns of `battleship.c`.

What is drawn and logged, and keys, are not modelled.  Numbers that `rnd.intn` returns are given by a function: any number below the bound.
The players are `false` (`PLAYER`) and `true` (`COMPUTER`).  An `int` never overflows here: all numbers are small.
-/
namespace Che.Prog.Battleship
open Che Che.Lib

abbrev Grid := Int → Int → UInt8

/-- `ship_t`, prog/battleship/game.c:53-61. -/
structure Ship where
  hits : Nat
  symbol : UInt8
  length : Nat
  x : Int
  y : Int
  dir : Nat
  placed : Bool

/-- `player_t`, prog/battleship/game.c:63-72; there are five ships. -/
structure Player where
  board : Grid
  shots : Grid
  ships : Nat → Ship

/-- `state_t`, prog/battleship/game.c:82-108.  Of `sunk_by_ai` the number of the ship. -/
structure Game where
  closepack : Bool
  players : Bool → Player
  turn : Bool
  sunk_by_ai : Option Nat

/-- prog/battleship/game.c:48-49. -/
def xincr (d : Nat) : Int := [1, 1, 0, -1, -1, -1, 0, 1].getD d 0
def yincr (d : Nat) : Int := [0, 1, 1, 1, 0, -1, -1, -1].getD d 0

/-- An element of a grid is set. -/
def Grid.set (t : Grid) (x y : Int) (v : UInt8) : Grid := fun a b => if a = x ∧ b = y then v else t a b

def Game.set (g : Game) (p : Bool) (q : Player) : Game := { g with players := fun b => if b = p then q else g.players b }

/-- `shipxy`, prog/battleship/game.c:126-134. -/
def shipxy (x y : Int) (dir dist : Nat) : Res String (Int × Int) :=
  if dir ≥ 8 then .panic "undefined: read outside of an array" else .ok (x + dist * xincr dir, y + dist * yincr dir)

/-- The ships after `reset`, prog/battleship/game.c:136-160. -/
def newShip (i : Nat) : Ship :=
  { hits := 0, symbol := [65, 66, 68, 83, 80].getD i 0, length := [5, 4, 3, 3, 2].getD i 0, x := 0, y := 0, dir := 0, placed := false }

/-- `reset`, prog/battleship/game.c:136-160. -/
def reset (g : Game) : Game := { g with players := fun _ => { board := fun _ _ => 0, shots := fun _ _ => 0, ships := newShip } }

/-- `coords_valid`, prog/battleship/game.c:166-168. -/
def coords_valid (x y : Int) : Bool := decide (x ≥ 0 ∧ x < 10 ∧ y ≥ 0 ∧ y < 10)

/-- `coords_possible`, prog/battleship/game.c:162-164. -/
def coords_possible (g : Game) (x y : Int) : Bool := coords_valid x y && (g.players true).shots x y == 0

/-- `ship_afloat`, prog/battleship/game.c:295-297. -/
def ship_afloat (s : Ship) : Bool := decide (s.hits < s.length)

/-- `winner`, prog/battleship/game.c:170-186; nothing for -1. -/
def winner (g : Game) : Option Bool :=
  if (List.range 5).all (fun j => decide (¬ ((g.players false).ships j).length > ((g.players false).ships j).hits)) then some (!g.turn)
  else if (List.range 5).all (fun j => decide (¬ ((g.players true).ships j).length > ((g.players true).ships j).hits)) then some (!g.turn)
  else none

/-- `is_ship`, prog/battleship/game.c:260-262. -/
def is_ship (c : UInt8) : Bool := decide (65 ≤ c ∧ c ≤ 90)

/-- `has_collision`, prog/battleship/game.c:189-208. -/
def has_collision (g : Game) (b : Bool) (y x : Int) : Res String Bool :=
  if !coords_valid x y then .panic "undefined: read outside of an array"
  else if is_ship ((g.players b).board x y) then .ok true
  else if g.closepack then .ok false
  else .ok ((List.range 8).any fun i => coords_valid (x + xincr i) (y + yincr i) && is_ship ((g.players b).board (x + xincr i) (y + yincr i)))

/-- The loop of `checkplacement`, prog/battleship/game.c:220-225. -/
def collideLoop (g : Game) (b : Bool) (ss : Ship) : List Nat → Res String Nat
  | [] => .ok 0
  | l :: rest => (has_collision g b (ss.y + l * yincr ss.dir) (ss.x + l * xincr ss.dir)).bind fun c => if c then .ok 2 else collideLoop g b ss rest

/-- `checkplacement`, prog/battleship/game.c:210-228, for a ship with a length that is not zero. -/
def checkplacement (g : Game) (b : Bool) (ss : Ship) : Res String Nat :=
  if ss.dir ≥ 8 then .panic "undefined: read outside of an array"
  else if !coords_valid (ss.x + (ss.length - 1) * xincr ss.dir) (ss.y + (ss.length - 1) * yincr ss.dir) then .ok 1
  else collideLoop g b ss (List.range ss.length)

/-- The loop of `placeship`, prog/battleship/game.c:252-256. -/
def placeLoop (ss : Ship) : List Nat → Grid → Res String Grid
  | [], t => .ok t
  | l :: rest, t =>
    if !coords_valid (ss.x + l * xincr ss.dir) (ss.y + l * yincr ss.dir) then .panic "undefined: write outside of an array"
    else placeLoop ss rest (t.set (ss.x + l * xincr ss.dir) (ss.y + l * yincr ss.dir) ss.symbol)

/-- `placeship`, prog/battleship/game.c:247-258. -/
def placeship (g : Game) (b : Bool) (ss : Ship) : Res String (Game × Nat) :=
  (checkplacement g b ss).bind fun err =>
  if err ≠ 0 then .ok (g, err)
  else (placeLoop ss (List.range ss.length) (g.players b).board).bind fun t => .ok (g.set b { g.players b with board := t }, 0)

/-- The ship that one round of the loop of `randomplace` tries, prog/battleship/game.c:233-241; `r` are random numbers. -/
def randomShip (r : Nat → Nat) (ss : Ship) : Ship :=
  if r 0 % 2 ≠ 0 then { ss with dir := 0, x := (r 1 % (10 - ss.length) : Nat), y := (r 2 % 10 : Nat) }
  else { ss with dir := 2, x := (r 1 % 10 : Nat), y := (r 2 % (10 - ss.length) : Nat) }

/-- `randomplace`, prog/battleship/game.c:231-245. -/
def randomplace (g : Game) (b : Bool) (r : Nat → Nat → Nat) (ss : Ship) : Nat → Res String Ship
  | 0 => .diverge
  | n + 1 => (checkplacement g b (randomShip (r n) ss)).bind fun err => if err = 0 then .ok (randomShip (r n) ss) else randomplace g b r (randomShip (r n) ss) n

/-- A ship of a player is changed. -/
def Game.setShip (g : Game) (b : Bool) (i : Nat) (s : Ship) : Game :=
  g.set b { g.players b with ships := fun j => if j = i then s else (g.players b).ships j }

/-- `placeship_random`, prog/battleship/battleship.c:280-284. -/
def placeship_random (g : Game) (b : Bool) (r : Nat → Nat → Nat) (i n : Nat) : Res String Game :=
  (randomplace g b r ((g.players b).ships i) n).bind fun ss =>
  (placeship g b ss).bind fun (g, _) => .ok (g.setShip b i { ss with placed := true })

/-- `placeship`, prog/battleship/battleship.c:286-298, at the cursor. -/
def placeship_at (g : Game) (i : Nat) (x y : Int) (dir : Nat) : Res String Game :=
  let ss := { (g.players false).ships i with x := x, y := y, dir := dir }
  (placeship g false ss).bind fun (g, err) => .ok (g.setShip false i (if err ≠ 0 then ss else { ss with placed := true }))

/-- `getshipat`, prog/battleship/game.c:280-293: the number of the ship. -/
def getshipat (g : Game) (b : Bool) (x y : Int) : Option Nat :=
  if (g.players b).board x y = 0 then none
  else (List.range 5).find? fun i => ((g.players b).ships i).symbol == (g.players b).board x y

/-- The inner loop of `mark_empty_water`, prog/battleship/game.c:306-312; `i` is one more than in the code. -/
def waterLoop (ss : Ship) (bx bY : Int) (t : Grid) : Grid :=
  (List.range (ss.length + 2)).foldl (fun t (i : Nat) =>
    let x1 := bx + ((i : Int) - 1) * xincr ss.dir
    let y1 := bY + ((i : Int) - 1) * yincr ss.dir
    if coords_valid x1 y1 then t.set x1 y1 111 else t) t

/-- `mark_empty_water`, prog/battleship/game.c:301-314, for the shots of the player whose turn it is. -/
def mark_empty_water (g : Game) (ss : Ship) : Res String Game :=
  if g.closepack then .ok g
  else if ss.dir ≥ 8 then .panic "undefined: read outside of an array"
  else
    let t := (List.range 3).foldl (fun t (j : Nat) =>
      waterLoop ss (ss.x + ((j : Int) - 1) * xincr ((ss.dir + 2) % 8)) (ss.y + ((j : Int) - 1) * yincr ((ss.dir + 2) % 8)) t) (g.players g.turn).shots
    .ok (g.set g.turn { g.players g.turn with shots := t })

/-- The end of `shoot`, prog/battleship/game.c:271-277, for the ship that has been found. -/
def shoot_ship (g : Game) (p : Bool) : Option Nat → Res String (Game × Int)
  | none => .panic "undefined: null pointer"
  | some i =>
    let ss := (g.players (!p)).ships i
    let ss := { ss with hits := ss.hits + 1 }
    let g := g.setShip (!p) i ss
    if !ship_afloat ss then (mark_empty_water g ss).bind fun g => .ok (g, -1) else .ok (g, 1)

/-- `shoot`, prog/battleship/game.c:264-278. -/
def shoot (g : Game) (p : Bool) (x y : Int) : Res String (Game × Int) :=
  if !coords_valid x y then .panic "undefined: read outside of an array"
  else if (g.players (!p)).board x y = 0 then .ok (g.set p { g.players p with shots := (g.players p).shots.set x y 111 }, 0)
  else
    let g := g.set p { g.players p with shots := (g.players p).shots.set x y 72 }
    shoot_ship g p (getshipat g (!p) x y)

/-- The loop of `mark_sunk`, prog/battleship/game.c:330-333. -/
def sunkLoop (ss : Ship) : List Nat → Grid → Res String Grid
  | [], t => .ok t
  | l :: rest, t =>
    (shipxy ss.x ss.y ss.dir l).bind fun (x, y) =>
    if !coords_valid x y then .panic "undefined: write outside of an array" else sunkLoop ss rest (t.set x y ss.symbol)

/-- `mark_sunk`, prog/battleship/game.c:329-334. -/
def mark_sunk (g : Game) (p : Bool) (ss : Ship) : Res String Game :=
  (sunkLoop ss (List.range ss.length) (g.players p).shots).bind fun t => .ok (g.set p { g.players p with shots := t })

/-! ### The computer -/

/-- `state_t`, prog/battleship/ai.c:21-35, without the coordinates for the log. -/
structure AI where
  next : Nat
  turncount : Nat
  srchstep : Nat
  huntoffs : Nat
  used : Nat → Bool
  tsx : Int
  tsy : Int
  tsdir : Nat
  tshits : Nat
  x : Int
  y : Int
  hit : Int
  d : Nat

/-- `reset`, prog/battleship/ai.c:45-48. -/
def ai_reset : AI := { next := 0, turncount := 0, srchstep := 3, huntoffs := 0, used := fun _ => false, tsx := 0, tsy := 0, tsdir := 0, tshits := 0, x := 0, y := 0, hit := 0, d := 0 }

/-- All coordinates in the order of the loops, prog/battleship/ai.c:229-230. -/
def all : List (Nat × Nat) := (List.range 10).flatMap fun x => (List.range 10).map fun y => (x, y)

/-- `ai_choose_move`, prog/battleship/ai.c:224-270; `r` are random numbers. -/
def ai_choose_move (g : Game) (s : AI) (r : Nat → Nat) : Res String AI :=
  let possible := all.filter fun c => (g.players true).shots c.1 c.2 == 0
  if possible.length = 0 then .panic "No moves possible?? Help!"
  else if s.srchstep = 0 then .panic "undefined: division by zero"
  else
    let s := if s.turncount = 0 then { s with huntoffs := r 0 % s.srchstep } else s
    let s := { s with turncount := s.turncount + 1 }
    let preferred := possible.filter fun c => decide ((c.1 + s.huntoffs) % s.srchstep ≠ c.2 % s.srchstep)
    if preferred.length ≠ 0 then
      let c := preferred.getD (r 1 % preferred.length) (0, 0)
      .ok { s with x := c.1, y := c.2 }
    else
      let c := possible.getD (r 1 % possible.length) (0, 0)
      .ok { s with x := c.1, y := c.2, srchstep := if s.srchstep > 1 then s.srchstep - 1 else s.srchstep }

/-- `ai_cpufire`, prog/battleship/ai.c:272-281. -/
def ai_cpufire (g : Game) (x y : Int) : Res String (Game × Int) :=
  (shoot g true x y).bind fun (g, result) => .ok (if result = -1 then { g with sunk_by_ai := getshipat g false x y } else g, result)

/-- `ai_random_fire`, prog/battleship/ai.c:69-89. -/
def ai_random_fire (g : Game) (s : AI) (r : Nat → Nat) : Res String (Game × AI × Int) :=
  (ai_choose_move g s r).bind fun s =>
  (ai_cpufire g s.x s.y).bind fun (g, result) =>
  .ok (g, if result = 1 then { s with tsx := s.x, tsy := s.y, tshits := 1, used := fun _ => false, next := 2 } else s, result)

/-- The loop over directions, prog/battleship/ai.c:93-101: which are used, and how many are not. -/
def availLoop (g : Game) (s : AI) : List Nat → (Nat → Bool) → Nat → Res String ((Nat → Bool) × Nat)
  | [], used, n => .ok (used, n)
  | i :: rest, used, n =>
    if used i then availLoop g s rest used n
    else (shipxy s.tsx s.tsy (i * 2) 1).bind fun (x, y) =>
      if !coords_possible g x y then availLoop g s rest (fun j => if j = i then true else used j) n
      else availLoop g s rest used (n + 1)

/-- `while (s->used[s->d]) s->d++`, prog/battleship/ai.c:110-112. -/
def skip (used : Nat → Bool) : Nat → Nat → Res String Nat
  | 0, _ => .diverge
  | n + 1, d => if d ≥ 4 then .panic "undefined: read outside of an array" else if used d then skip used n (d + 1) else .ok d

/-- `while (n)`, prog/battleship/ai.c:109-114. -/
def pick (used : Nat → Bool) : Nat → Nat → Res String Nat
  | 0, d => .ok d
  | n + 1, d => (skip used 5 d).bind fun d => pick used n d

/-- `ai_find_orientation`, prog/battleship/ai.c:91-142. -/
def ai_find_orientation (g : Game) (s : AI) (r : Nat → Nat) : Res String (Game × AI × Int) :=
  (availLoop g s (List.range 4) s.used 0).bind fun (used, navail) =>
  let s := { s with used := used }
  if navail = 0 then ai_random_fire g s r
  else
    (pick used (r 0 % navail + 1) 0).bind fun d =>
    let s := { s with d := d, used := fun j => if j = d then false else used j }
    (shipxy s.tsx s.tsy (d * 2) 1).bind fun (x, y) =>
    let s := { s with x := x, y := y }
    (ai_cpufire g x y).bind fun (g, result) =>
    let s := { s with hit := result }
    .ok (g, if result = 0 then s else if result = -1 then { s with next := 0 } else { s with tsx := x, tsy := y, tsdir := d * 2, tshits := s.tshits + 1, next := 3 }, result)

/-- `ai_first_pass`, prog/battleship/ai.c:144-167. -/
def ai_first_pass (g : Game) (s : AI) : Res String (Game × AI × Int) :=
  (shipxy s.tsx s.tsy s.tsdir 1).bind fun (x, y) =>
  let s := { s with x := x, y := y }
  if !coords_possible g x y then .ok (g, { s with next := 4 }, 0)
  else
    (ai_cpufire g x y).bind fun (g, result) =>
    let s := { s with hit := result }
    .ok (g, if result = 0 then { s with next := 4 } else if result = -1 then { s with next := 0 } else { s with tsx := x, tsy := y, tshits := s.tshits + 1 }, result)

/-- `ai_reverse_jump`, prog/battleship/ai.c:169-195. -/
def ai_reverse_jump (g : Game) (s : AI) : Res String (Game × AI × Int) :=
  let s := { s with d := s.tsdir + 4 }
  (shipxy s.tsx s.tsy s.d s.tshits).bind fun (x, y) =>
  let s := { s with x := x, y := y }
  if !coords_possible g x y then .ok (g, { s with next := 0 }, 0)
  else
    (ai_cpufire g x y).bind fun (g, result) =>
    let s := { s with hit := result }
    .ok (g, if result = 1 then { s with tsx := x, tsy := y, tsdir := s.d, tshits := s.tshits + 1, next := 5 } else { s with next := 0 }, result)

/-- `ai_second_pass`, prog/battleship/ai.c:197-222. -/
def ai_second_pass (g : Game) (s : AI) : Res String (Game × AI × Int) :=
  (shipxy s.tsx s.tsy s.tsdir 1).bind fun (x, y) =>
  let s := { s with x := x, y := y }
  if !coords_possible g x y then .ok (g, { s with next := 0 }, 0)
  else
    (ai_cpufire g x y).bind fun (g, result) =>
    let s := { s with hit := result }
    .ok (g, if result = 1 then { s with tsx := x, tsy := y, tshits := s.tshits + 1 } else { s with next := 0 }, result)

/-- `turn`, prog/battleship/ai.c:50-67. -/
def ai_turn (g : Game) (s : AI) (r : Nat → Nat) : Res String (Game × AI × Int) :=
  if s.next = 0 then ai_random_fire g s r
  else if s.next = 2 then ai_find_orientation g s r
  else if s.next = 3 then ai_first_pass g s
  else if s.next = 4 then ai_reverse_jump g s
  else if s.next = 5 then ai_second_pass g s
  else .panic "!"

/-! ### Turns -/

/-- A ship of the player has been sunk, prog/battleship/battleship.c:157-160. -/
def after_sunk (g : Game) : Option Nat → Res String Game
  | none => .panic "undefined: null pointer"
  | some i => mark_sunk g g.turn ((g.players false).ships i)

/-- `turn` of the computer, prog/battleship/battleship.c:150-176: the result is what `play_blitz` gets. -/
def computer_turn (g : Game) (s : AI) (r : Nat → Nat) : Res String (Game × AI × Int) :=
  (ai_turn g s r).bind fun (g, s, result) =>
  (if result = -1 then after_sunk g g.sunk_by_ai else .ok g).bind fun g =>
  .ok (g, s, if winner g ≠ none then 0 else s.hit)

/-- A ship of the computer has been sunk, prog/battleship/battleship.c:182-188. -/
def after_hit (g : Game) : Option Nat → Res String Game
  | none => .panic "undefined: null pointer"
  | some i => mark_sunk g g.turn ((g.players true).ships i)

/-- `turn` of the player at coordinates that have not been shelled, prog/battleship/battleship.c:177-198. -/
def player_turn (g : Game) (x y : Int) : Res String (Game × Int) :=
  (shoot g false x y).bind fun (g, result) =>
  if result = -1 then (after_hit g (getshipat g true x y)).bind fun g => .ok (g, if winner g = none then 1 else 0)
  else .ok (g, result)

/-- `play_regular`, prog/battleship/battleship.c:114-120, for at most `n` turns.  In a turn with number `k` the player chooses `pick k g`, which has not been shelled,
and the computer gets the random numbers `r k`. -/
def play_regular (pick : Nat → Game → Int × Int) (r : Nat → Nat → Nat) : Nat → Game → AI → Res String (Game × AI)
  | 0, _, _ => .diverge
  | n + 1, g, s =>
    if winner g ≠ none then .ok (g, s)
    else if g.turn then
      (computer_turn g s (r n)).bind fun (g, s, _) => play_regular pick r n { g with turn := !g.turn } s
    else
      (player_turn g (pick n g).1 (pick n g).2).bind fun (g, _) => play_regular pick r n { g with turn := !g.turn } s

/-- `turn`, prog/battleship/battleship.c:150-199; `xy` is what the player chooses. -/
def turn (g : Game) (s : AI) (xy : Int × Int) (r : Nat → Nat) : Res String (Game × AI × Int) :=
  if g.turn then computer_turn g s r else (player_turn g xy.1 xy.2).bind fun (g, h) => .ok (g, s, h)

/-- `play_blitz`, prog/battleship/battleship.c:122-130, for at most `n` turns. -/
def play_blitz (pick : Nat → Game → Int × Int) (r : Nat → Nat → Nat) : Nat → Game → AI → Res String (Game × AI)
  | 0, _, _ => .diverge
  | n + 1, g, s =>
    if winner g ≠ none then .ok (g, s)
    else (turn g s (pick n g) (r n)).bind fun (g, s, h) => play_blitz pick r n (if h = 0 then { g with turn := !g.turn } else g) s

/-- `shipscount`, prog/battleship/game.c:316-327. -/
def shipscount (g : Game) (p : Bool) : Nat := (List.range 5).countP fun i => ship_afloat ((g.players p).ships i)

/-- The inner loop of `play_salvo`, prog/battleship/battleship.c:135-145. -/
def volley (pick : Nat → Game → Int × Int) (r : Nat → Nat → Nat) : Nat → Game → AI → Res String (Game × AI)
  | 0, g, s => .ok (g, s)
  | k + 1, g, s => (turn g s (pick k g) (r k)).bind fun (g, s, _) => if winner g ≠ none then .ok (g, s) else volley pick r k g s

/-- `play_salvo`, prog/battleship/battleship.c:132-148, for at most `n` volleys. -/
def play_salvo (pick : Nat → Nat → Game → Int × Int) (r : Nat → Nat → Nat → Nat) : Nat → Game → AI → Res String (Game × AI)
  | 0, _, _ => .diverge
  | n + 1, g, s =>
    if winner g ≠ none then .ok (g, s)
    else (volley (pick n) (r n) (shipscount g g.turn) g s).bind fun (g, s) => play_salvo pick r n { g with turn := !g.turn } s
end Che.Prog.Battleship
