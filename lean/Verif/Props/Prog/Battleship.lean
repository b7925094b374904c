import Verif.Proofs.Prog.BattleshipGame

/-!
C138–C142: battleship.
-/
namespace Che.Props
open Che Che.Prog.Battleship Che.Spec.Battleship

/-! ### Placing ships -/

/-- Ships that have been placed lie on the board, are shown there, and do not touch each other; no shell has fallen. -/
theorem C138_fleet {g : Game} (h : Placing g) (b : Bool) : Fleet (g.players b) ∧ ∀ x y, (g.players b).shots x y = 0 :=
  ⟨(placing_before h).fleet b, (placing_before h).shots b⟩

/-- A ship is placed at the cursor exactly if it fits there; the other ships and the other player are as before. -/
theorem C138_key {g : Game} (h : Placing g) (i : Nat) (hi : i < 5) (hnot : ((g.players false).ships i).placed = false) (x y : Int) (hin : Inside x y) (dir : Nat) (hd : Straight dir) :
    ∃ g', placeship_at g i x y dir = .ok g' ∧ g'.players true = g.players true ∧ (∀ j, j ≠ i → (g'.players false).ships j = (g.players false).ships j) ∧
      (Fits (g.players false) { (g.players false).ships i with x := x, y := y, dir := dir } →
        (g'.players false).ships i = { (g.players false).ships i with x := x, y := y, dir := dir, placed := true }) ∧
      (¬ Fits (g.players false) { (g.players false).ships i with x := x, y := y, dir := dir } → (g'.players false).board = (g.players false).board ∧ ((g'.players false).ships i).placed = false) := by
  obtain ⟨g', e, _, q⟩ := place_at_spec g (placing_before h) i hi hnot x y hin dir hd
  exact ⟨g', e, q⟩

/-- Placing at random does not fail: if it ends, the ship has been placed. -/
theorem C138_random {g : Game} (h : Placing g) (b : Bool) (r : Nat → Nat → Nat) (i : Nat) (hi : i < 5) (hnot : ((g.players b).ships i).placed = false) (n : Nat) :
    placeship_random g b r i n = .diverge ∨ ∃ g', placeship_random g b r i n = .ok g' ∧ g'.players (!b) = g.players (!b) ∧ (∀ j, j ≠ i → (g'.players b).ships j = (g.players b).ships j) ∧
      ((g'.players b).ships i).placed = true := by
  rcases place_random_spec g (placing_before h) b r i hi hnot n with e | ⟨g', e, _, q1, q2, q3, _⟩
  · exact .inl e
  · exact .inr ⟨g', e, q1, q2, q3⟩

/-- Not every place is possible at random: no ship reaches the last column along a row, though it would fit. -/
theorem C138_counterexample (g : Game) (hc : g.closepack = false) (b : Bool) :
    Fits ((reset g).players b) { ((reset g).players b).ships 0 with x := 5, y := 0, dir := 0 } ∧
    ∀ r n g', placeship_random (reset g) b r 0 n = .ok g' → ¬ (((g'.players b).ships 0).dir = 0 ∧ ((g'.players b).ships 0).x = 5) := by
  constructor
  · constructor
    · rintro x y ⟨l, hl, hx, hy⟩
      have hl' : l < 5 := hl
      simp only [dx, dy] at hx hy
      unfold Inside
      omega
    · intro j _ hp
      simp [reset, newShip] at hp
  · intro r n g' e
    rcases place_random_spec (reset g) (before_reset g hc) b r 0 (by omega) rfl n with e2 | ⟨g2, e2, _, _, _, _, q⟩
    · rw [e] at e2; simp at e2
    · rw [e] at e2
      simp only [Res.ok.injEq] at e2
      subst e2
      have hlen : (((reset g).players b).ships 0).length = 5 := rfl
      rw [hlen] at q
      omega

/-! ### Shells -/

/-- The truth about the ships of the other: what is known at the start stays right with every shell. -/
theorem C139_truth {own other own' other' : Player} {x y res : Int} (sd : Side own other) (hz : own.shots x y = 0) (h : Fired own other own' other' x y res) : Side own' other' :=
  fired_side own other own' other' x y res sd hz h

/-- In every game both know the truth. -/
theorem C139_known {g : Game} {s : AI} (h : Playing g s) : Side (g.players true) (g.players false) ∧ Side (g.players false) (g.players true) :=
  ⟨(playing_good h).computer, (playing_good h).player⟩

/-- A shell of the player is a miss, a hit, or sinks a ship; the result says whether it was a hit and the game goes on. -/
theorem C139_player {g : Game} {s : AI} (h : Playing g s) (ht : g.turn = false) (hw : winner g = none) (x y : Int) (hin : Inside x y) (hz : (g.players false).shots x y = 0) :
    ∃ g' v res, player_turn g x y = .ok (g', v) ∧ Fired (g.players false) (g.players true) (g'.players false) (g'.players true) x y res ∧ (v ≠ 0 ↔ res ≠ 0 ∧ winner g' = none) := by
  have hg := playing_good h
  obtain ⟨g', v, res, e, _, _, hf, hv⟩ := player_turn_spec g x y hg.open' ht hg.player hin hz
  refine ⟨g', v, res, e, hf, ?_⟩
  rw [hv]
  by_cases h1 : res = -1
  · rw [if_pos h1]
    by_cases hw : winner g' = none
    · rw [if_pos hw]; simp [h1, hw]
    · rw [if_neg hw]; simp [hw]
  · rw [if_neg h1]
    constructor
    · intro h0
      refine ⟨h0, ?_⟩
      have hf' := hf
      obtain ⟨_, f2, _, _, hcase⟩ := hf'
      have h2 : res = 1 := by
        rcases hcase with ⟨h, _⟩ | ⟨h, _⟩ | ⟨h, _⟩
        · exact absurd h h0
        · exact h
        · exact absurd h h1
      subst h2
      refine (winner_none g').mpr ⟨?_, hit_alive hf⟩
      obtain ⟨⟨i, hi, hh⟩, _⟩ := (winner_none g).mp hw
      exact ⟨i, hi, by rw [f2]; exact hh⟩
    · exact fun h => h.1

/-! ### The computer -/

/-- The computer never fails: it shells a square of the board that it has not shelled, or (without a shell) turns from the first pass to the jump. -/
theorem C140_turn {g : Game} {s : AI} (h : Playing g s) (ht : g.turn = true) (hw : winner g = none) (r : Nat → Nat) :
    ∃ g' s' v, computer_turn g s r = .ok (g', s', v) ∧
      ((g' = g ∧ s.next = 3 ∧ s'.next = 4) ∨
       ∃ x y res, Inside x y ∧ (g.players true).shots x y = 0 ∧ Fired (g.players true) (g.players false) (g'.players true) (g'.players false) x y res) := by
  have hg := playing_good h
  obtain ⟨i, hi, x0, y0, ho, hz0⟩ := alive_free hg.computer ((winner_none g).mp hw).1
  obtain ⟨g', s', v, e, _, _, _, _, q⟩ := computer_turn_spec g s r hg.open' ht hg.computer hg.ai ⟨x0, y0, hg.computer.fleet.inside i hi (hg.computer.ready i hi) x0 y0 ho, by simpa [sh] using hz0⟩
  refine ⟨g', s', v, e, ?_⟩
  rcases q with q | ⟨x, y, res, q1, q2, q3, _⟩
  · exact .inl q
  · exact .inr ⟨x, y, res, q1, q2, q3⟩

/-- When it has hit a ship it sinks that ship before it looks for another: at any time at most one ship of the player is damaged, and none is when the computer shells at random. -/
theorem C140_one {g : Game} {s : AI} (h : Playing g s) :
    (∀ i j, i < 5 → j < 5 → i ≠ j → (∃ x y, On ((g.players false).ships i) x y ∧ (g.players true).shots x y ≠ 0) → (∃ x y, On ((g.players false).ships i) x y ∧ (g.players true).shots x y = 0) →
      (∃ x y, On ((g.players false).ships j) x y ∧ (g.players true).shots x y ≠ 0) → ∀ x y, On ((g.players false).ships j) x y → (g.players true).shots x y ≠ 0) ∧
    (s.next = 0 → ∀ i, i < 5 → (∃ x y, On ((g.players false).ships i) x y ∧ (g.players true).shots x y ≠ 0) → ∀ x y, On ((g.players false).ships i) x y → (g.players true).shots x y ≠ 0) := by
  have hg := (playing_good h).ai
  have hclean : ∀ i, Clean (geo (g.players false) i) (sh g) → (∃ x y, On ((g.players false).ships i) x y ∧ (g.players true).shots x y ≠ 0) → ∀ x y, On ((g.players false).ships i) x y → (g.players true).shots x y ≠ 0 := by
    rintro i hc ⟨x, y, ⟨l, hl, hx, hy⟩, hs⟩ x' y' ⟨l', hl', hx', hy'⟩
    rcases hc with hc | hc
    · exact absurd hs (by rw [hx, hy]; exact hc l hl)
    · rw [hx', hy']; exact hc l' hl'
  refine ⟨?_, fun hn i hi => hclean i (hg.fire hn i hi)⟩
  intro i j hi hj hij hsome hfree
  refine hclean j ?_
  have hnot : ¬ Clean (geo (g.players false) i) (sh g) := by
    intro hc
    obtain ⟨x, y, ho, hz⟩ := hfree
    exact hclean i hc hsome x y ho hz
  have key : ∀ k a b, Target (geo (g.players false)) (sh g) k a b → Clean (geo (g.players false) j) (sh g) := by
    intro k a b T
    have : i = k := Classical.byContradiction fun hne => hnot (T.rest i hi hne)
    subst this
    exact T.rest j hj (fun e => hij e.symm)
  rcases hg.which with e | e | e | e | e
  · exact hg.fire e j hj
  · obtain ⟨k, a, T, _⟩ := hg.hunt e; exact key _ _ _ T
  · obtain ⟨k, a, b, T, _⟩ := hg.first e; exact key _ _ _ T
  · obtain ⟨k, a, b, T, _⟩ := hg.jump e; exact key _ _ _ T
  · obtain ⟨k, a, b, T, _⟩ := hg.second e; exact key _ _ _ T

/-! ### Games -/

theorem start_left {g : Game} (b : Bool) : left { g with turn := b } ai_reset < 301 := by
  have h1 := unshot_le (g.players true).shots
  have h2 := unshot_le (g.players false).shots
  have h3 : ai_reset.next ≠ 3 := by decide
  unfold left
  rw [if_neg h3]
  simp only
  omega

theorem start_good {g : Game} (h : Placing g) (h0 : Ready (g.players false)) (h1 : Ready (g.players true)) (b : Bool) :
    Good { g with turn := b } ai_reset ∧ Alive (({ g with turn := b } : Game).players (!({ g with turn := b } : Game).turn)) := by
  obtain ⟨hg, a0, a1⟩ := before_good g (placing_before h) (fun b => by cases b; exact h0; exact h1) b
  exact ⟨hg, by cases b; exact a1; exact a0⟩

/-- A regular game ends after at most 300 turns, whatever the player chooses and whatever the random numbers are, and someone has won. -/
theorem C141_regular {g : Game} (h : Placing g) (h0 : Ready (g.players false)) (h1 : Ready (g.players true)) (b : Bool) (pick : Nat → Game → Int × Int) (hp : ∀ k, Picks (pick k)) (r : Nat → Nat → Nat) :
    ∃ g' s', play_regular pick r 301 { g with turn := b } ai_reset = .ok (g', s') ∧ Won g' := by
  obtain ⟨hg, ha⟩ := start_good h h0 h1 b
  obtain ⟨g', s', e, q⟩ := play_ends pick r hp 301 _ _ hg ha (start_left b)
  exact ⟨g', s', e, over_won q⟩

/-- The same for a blitz game. -/
theorem C141_blitz {g : Game} (h : Placing g) (h0 : Ready (g.players false)) (h1 : Ready (g.players true)) (b : Bool) (pick : Nat → Game → Int × Int) (hp : ∀ k, Picks (pick k)) (r : Nat → Nat → Nat) :
    ∃ g' s', play_blitz pick r 301 { g with turn := b } ai_reset = .ok (g', s') ∧ Won g' := by
  obtain ⟨hg, ha⟩ := start_good h h0 h1 b
  obtain ⟨g', s', e, q⟩ := blitz_ends pick r hp 301 _ _ hg ha (start_left b)
  exact ⟨g', s', e, over_won q⟩

/-- The same for a salvo game, with volleys of as many shells as the player has ships left. -/
theorem C141_salvo {g : Game} (h : Placing g) (h0 : Ready (g.players false)) (h1 : Ready (g.players true)) (b : Bool) (pick : Nat → Nat → Game → Int × Int) (hp : ∀ k j, Picks (pick k j)) (r : Nat → Nat → Nat → Nat) :
    ∃ g' s', play_salvo pick r 301 { g with turn := b } ai_reset = .ok (g', s') ∧ Won g' := by
  obtain ⟨hg, ha⟩ := start_good h h0 h1 b
  obtain ⟨g', s', e, q⟩ := salvo_ends pick r hp 301 _ _ hg ha (start_left b)
  exact ⟨g', s', e, over_won q⟩

/-! ### Who is next in a blitz game -/

/-- In a blitz game a player goes on after a hit.  Of the computer this holds when it has hit a ship and shells the rest of it.
(What is missing: shells at random, see the counterexample.) -/
theorem C142_partial {g : Game} {s : AI} (h : Playing g s) (ht : g.turn = true) (hw : winner g = none) (hn : s.next ≠ 0) (r : Nat → Nat) :
    ∃ g' s' v, computer_turn g s r = .ok (g', s', v) ∧
      ((g' = g ∧ s.next = 3) ∨ ∃ x y res, Fired (g.players true) (g.players false) (g'.players true) (g'.players false) x y res ∧ (v ≠ 0 ↔ res ≠ 0 ∧ winner g' = none)) := by
  have hg := playing_good h
  obtain ⟨i, hi, x0, y0, ho, hz0⟩ := alive_free hg.computer ((winner_none g).mp hw).1
  obtain ⟨g', s', v, e, _, _, _, hv, q⟩ := computer_turn_spec g s r hg.open' ht hg.computer hg.ai ⟨x0, y0, hg.computer.fleet.inside i hi (hg.computer.ready i hi) x0 y0 ho, by simpa [sh] using hz0⟩
  refine ⟨g', s', v, e, ?_⟩
  rcases q with ⟨q1, q2, _⟩ | ⟨x, y, res, _, _, q3, q4⟩
  · exact .inl ⟨q1, q2⟩
  · refine .inr ⟨x, y, res, q3, ?_⟩
    rw [if_neg hn] at q4
    rw [hv, q4]
    by_cases hw' : winner g' = none
    · simp [hw']
    · simp [hw']

/-- When the computer shells at random, what it says is what it said when it last shelled on purpose. -/
theorem C142_random {g : Game} {s : AI} (h : Playing g s) (ht : g.turn = true) (hw : winner g = none) (hn : s.next = 0) (r : Nat → Nat) :
    ∃ g' s' v, computer_turn g s r = .ok (g', s', v) ∧ (winner g' = none → v = s.hit) ∧ s'.hit = s.hit := by
  have hg := playing_good h
  obtain ⟨i, hi, x0, y0, ho, hz0⟩ := alive_free hg.computer ((winner_none g).mp hw).1
  obtain ⟨g', s', v, e, _, _, _, hv, q⟩ := computer_turn_spec g s r hg.open' ht hg.computer hg.ai ⟨x0, y0, hg.computer.fleet.inside i hi (hg.computer.ready i hi) x0 y0 ho, by simpa [sh] using hz0⟩
  refine ⟨g', s', v, e, ?_⟩
  rcases q with ⟨_, q2, _⟩ | ⟨x, y, res, _, _, q3, q4⟩
  · rw [hn] at q2; simp at q2
  · rw [if_pos hn] at q4
    refine ⟨fun hw' => ?_, q4⟩
    rw [hv, q4]; simp [hw']

/-! A game: the ships of the player in columns 0, 2, 4, 6 and 8 from above, those of the computer in rows 0, 2, 4, 6 and 8. -/
namespace BattleshipExample

def isOk {α : Type} : Res String α → Bool
  | .ok _ => true
  | _ => false

def get : Res String Game → Game
  | .ok g => g
  | _ => reset ⟨false, fun _ => ⟨fun _ _ => 0, fun _ _ => 0, newShip⟩, false, none⟩

theorem ok_get (o : Res String Game) (h : isOk o = true) : o = .ok (get o) := by
  cases o <;> simp_all [isOk, get]

def g0 : Game := reset ⟨false, fun _ => ⟨fun _ _ => 0, fun _ _ => 0, newShip⟩, false, none⟩

def mine (g : Game) (i : Nat) : Game := get (placeship_at g i (2 * i) 0 2)
def theirs (g : Game) (i : Nat) : Game := get (placeship_random g true (fun _ k => [1, 0, 2 * i].getD k 0) i 1)

theorem placing_mine {g : Game} (h : Placing g) (i : Nat) (hi : i < 5) (h1 : ((g.players false).ships i).placed = false) (h2 : isOk (placeship_at g i (2 * i) 0 2) = true) : Placing (mine g i) :=
  .key i (2 * i) 0 2 h hi h1 (by unfold Inside; omega) (.inr (.inl rfl)) (ok_get _ h2)

theorem placing_theirs {g : Game} (h : Placing g) (i : Nat) (hi : i < 5) (h1 : ((g.players true).ships i).placed = false) (h2 : isOk (placeship_random g true (fun _ k => [1, 0, 2 * i].getD k 0) i 1) = true) :
    Placing (theirs g i) :=
  .random true _ i 1 h hi h1 (ok_get _ h2)

def g5 : Game := mine (mine (mine (mine (mine g0 0) 1) 2) 3) 4
def g10 : Game := theirs (theirs (theirs (theirs (theirs g5 0) 1) 2) 3) 4

theorem placing5 : Placing g5 :=
  placing_mine (placing_mine (placing_mine (placing_mine (placing_mine (.start _ rfl) 0 (by decide) (by decide +kernel) (by decide +kernel)) 1 (by decide) (by decide +kernel) (by decide +kernel))
    2 (by decide) (by decide +kernel) (by decide +kernel)) 3 (by decide) (by decide +kernel) (by decide +kernel)) 4 (by decide) (by decide +kernel) (by decide +kernel)

theorem placing10 : Placing g10 :=
  placing_theirs (placing_theirs (placing_theirs (placing_theirs (placing_theirs placing5 0 (by decide) (by decide +kernel) (by decide +kernel)) 1 (by decide) (by decide +kernel) (by decide +kernel))
    2 (by decide) (by decide +kernel) (by decide +kernel)) 3 (by decide) (by decide +kernel) (by decide +kernel)) 4 (by decide) (by decide +kernel) (by decide +kernel)

theorem ready (b : Bool) : Ready (g10.players b) := by
  have : ∀ b : Bool, ∀ i, i < 5 → ((g10.players b).ships i).placed = true := by decide +kernel
  exact this b

/-- The game in which the computer is next. -/
theorem playing : Playing { g10 with turn := true } ai_reset := .start true placing10 (ready false) (ready true)
end BattleshipExample

theorem first_hit {g : Game} {s : AI} (hp : Playing g s) (ht : g.turn = true) (hw : winner g = none) (hn : s.next = 0) (hh : s.hit = 0) (r : Nat → Nat)
    (hrun : (match computer_turn g s r with
      | .ok (g', _, _) => decide (winner g' = none) && decide (((g'.players false).ships 0).hits = 1)
      | _ => false) = true)
    (h0 : ∀ i, i < 5 → ((g.players false).ships i).hits = 0) :
    ∃ g' s', computer_turn g s r = .ok (g', s', 0) ∧ winner g' = none ∧ ∃ x y, Fired (g.players true) (g.players false) (g'.players true) (g'.players false) x y 1 := by
  obtain ⟨g', s', v, e, h1, _⟩ := C142_random hp ht hw hn r
  obtain ⟨g2, s2, v2, e2, h2⟩ := C140_turn hp ht hw r
  rw [e] at e2
  simp only [Res.ok.injEq, Prod.mk.injEq] at e2
  obtain ⟨rfl, rfl, rfl⟩ := e2
  rw [e] at hrun
  simp only [Bool.and_eq_true, decide_eq_true_eq] at hrun
  have hv := h1 hrun.1
  refine ⟨g', s', by rw [e, hv, hh], hrun.1, ?_⟩
  rcases h2 with ⟨_, h, _⟩ | ⟨x, y, res, _, _, hf⟩
  · rw [hn] at h; simp at h
  · refine ⟨x, y, ?_⟩
    have hf' := hf
    obtain ⟨f1, f2, f3, f4, ⟨hr, _, _, hs⟩ | ⟨hr, _⟩ | ⟨hr, i, hi, _, hl, hs, _⟩⟩ := hf'
    · rw [hs, h0 0 (by omega)] at hrun; omega
    · subst hr; exact hf
    · rw [h0 i hi] at hl
      have := (kind_facts (playing_good hp).computer.fleet hi).1
      omega

/-- The computer hits a ship with its first shell, and its turn is over. -/
theorem C142_counterexample : ∃ g s r, Playing g s ∧ g.turn = true ∧ winner g = none ∧ ∃ g' s', computer_turn g s r = .ok (g', s', 0) ∧ winner g' = none ∧
    ∃ x y, Fired (g.players true) (g.players false) (g'.players true) (g'.players false) x y 1 := by
  obtain ⟨g, hg⟩ : ∃ g, g = ({ BattleshipExample.g10 with turn := true } : Game) := ⟨_, rfl⟩
  have hw : winner { BattleshipExample.g10 with turn := true } = none := by decide +kernel
  have hp := BattleshipExample.playing
  have hrun : (match computer_turn { BattleshipExample.g10 with turn := true } ai_reset (fun _ => 0) with
    | .ok (g', _, _) => decide (winner g' = none) && decide (((g'.players false).ships 0).hits = 1)
    | _ => false) = true := by decide +kernel
  have h0 : ∀ i, i < 5 → ((({ BattleshipExample.g10 with turn := true } : Game).players false).ships i).hits = 0 := by decide +kernel
  have ht : g.turn = true := by rw [hg]
  rw [← hg] at hw hp hrun h0
  exact ⟨g, ai_reset, fun _ => 0, hp, ht, hw, first_hit hp ht hw rfl rfl _ hrun h0⟩

/-! ### Examples -/
open BattleshipExample

/-- The board of the example. -/
example : (g10.players false).board 0 4 = 65 ∧ (g10.players false).board 0 5 = 0 ∧ (g10.players true).board 4 0 = 65 ∧ (g10.players true).board 1 8 = 80 := by decide +kernel

/-- A shell of the player in the water, and one at a ship. -/
example : (match player_turn { g10 with turn := false } 0 1 with | .ok (g, v) => ((g.players false).shots 0 1, v) | _ => (0, 7)) = (111, 0) ∧
    (match player_turn { g10 with turn := false } 0 0 with | .ok (g, v) => ((g.players false).shots 0 0, v) | _ => (0, 7)) = (72, 1) := by decide +kernel

/-- A ship does not fit beside another one. -/
example : (match placeship_at (mine g0 0) 1 1 5 0 with | .ok g => ((g.players false).ships 1).placed | _ => true) = false := by decide +kernel

/-- The player takes the first square that is free. -/
example : ∀ _ : Nat, Picks fun g => let c := (all.find? fun c => (g.players false).shots c.1 c.2 == 0).getD (0, 0); (c.1, c.2) := by
  rintro _ g ⟨x, y, hin, hz⟩
  unfold Inside at hin
  have hsome : (all.find? fun c => (g.players false).shots c.1 c.2 == 0).isSome = true := by
    rw [List.find?_isSome]
    refine ⟨(x.toNat, y.toNat), (mem_all _ _).mpr (by omega), ?_⟩
    simp only
    rw [Int.toNat_of_nonneg hin.1, Int.toNat_of_nonneg hin.2.2.1]
    simpa using hz
  obtain ⟨c, hc⟩ := Option.isSome_iff_exists.mp hsome
  have h1 := List.find?_some hc
  have h2 := (mem_all c.1 c.2).mp (List.mem_of_find?_eq_some hc)
  simp only [hc, Option.getD_some]
  exact ⟨by unfold Inside; omega, by simpa using h1⟩
end Che.Props
