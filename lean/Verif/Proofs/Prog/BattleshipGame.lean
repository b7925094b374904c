import Verif.Proofs.Prog.BattleshipTurn2

namespace Che.Prog.Battleship
open Che Che.Lib Che.Spec.Battleship

/-- Ships are left. -/
def Alive (p : Player) : Prop := ∃ i, i < 5 ∧ (p.ships i).hits < (p.ships i).length

theorem alive_iff (p : Player) : Alive p ↔ (List.range 5).all (fun j => decide (¬ (p.ships j).length > (p.ships j).hits)) = false := by
  rw [List.all_eq_false]
  constructor
  · rintro ⟨i, hi, h⟩; exact ⟨i, List.mem_range.mpr hi, by simpa using h⟩
  · rintro ⟨i, hi, h⟩; exact ⟨i, List.mem_range.mp hi, by simpa using h⟩

theorem winner_none (g : Game) : winner g = none ↔ Alive (g.players false) ∧ Alive (g.players true) := by
  rw [alive_iff, alive_iff]
  unfold winner
  by_cases h1 : (List.range 5).all (fun j => decide (¬ ((g.players false).ships j).length > ((g.players false).ships j).hits)) = true
  · rw [if_pos h1, h1]; simp
  · rw [if_neg h1]
    rw [Bool.not_eq_true] at h1
    by_cases h2 : (List.range 5).all (fun j => decide (¬ ((g.players true).ships j).length > ((g.players true).ships j).hits)) = true
    · rw [if_pos h2, h2]; simp
    · rw [if_neg h2]
      rw [Bool.not_eq_true] at h2
      rw [h1, h2]; simp

theorem winner_some (g : Game) (h : winner g ≠ none) : winner g = some (!g.turn) := by
  unfold winner at h ⊢
  split at h
  · rename_i h1; rw [if_pos h1]
  · rename_i h1
    rw [if_neg h1]
    split at h
    · rename_i h2; rw [if_pos h2]
    · simp at h

theorem alive_free {own other : Player} (sd : Side own other) (h : Alive other) : ∃ i, i < 5 ∧ ∃ x y, On (other.ships i) x y ∧ own.shots x y = 0 := by
  obtain ⟨i, hi, hlt⟩ := h
  rw [sd.hits i hi] at hlt
  refine Classical.byContradiction fun hno => ?_
  have : cellsShot (other.ships i) own.shots = (other.ships i).length := by
    unfold cellsShot
    rw [List.countP_eq_length.mpr, List.length_range]
    intro l hl
    simp only [decide_eq_true_eq]
    exact fun hz => hno ⟨i, hi, _, _, ⟨l, List.mem_range.mp hl, rfl, rfl⟩, hz⟩
  omega

theorem dead_shot {own other : Player} (sd : Side own other) (h : ¬ Alive other) : ∀ i, i < 5 → ∀ x y, On (other.ships i) x y → own.shots x y ≠ 0 := by
  intro i hi x y ho hz
  refine h ⟨i, hi, ?_⟩
  rw [sd.hits i hi]
  exact cellsShot_lt _ _ ho hz

theorem side_congr {own own' other other' : Player} (sd : Side own other) (h1 : own'.shots = own.shots) (h2 : other'.board = other.board) (h3 : other'.ships = other.ships) : Side own' other' := by
  have f := sd.fleet
  refine ⟨⟨?_, ?_, ?_, ?_, ?_, ?_⟩, ?_, ?_, ?_, ?_⟩
  · rw [h3]; exact f.kind
  · rw [h3]; exact f.straight
  · rw [h3]; exact f.inside
  · rw [h3, h2]; exact f.shown
  · rw [h3, h2]; exact f.only
  · rw [h3]; exact f.apart
  · unfold Ready; rw [h3]; exact sd.ready
  · rw [h3, h1]; exact sd.hits
  · rw [h3, h1]; exact sd.ship
  · rw [h3, h1]; exact sd.water

/-- A turn of the computer. -/
theorem computer_turn_spec (g : Game) (s : AI) (r : Nat → Nat) (hc : g.closepack = false) (ht : g.turn = true) (sd : Side (g.players true) (g.players false))
    (inv : AInv (geo (g.players false)) (sh g) s) (hfree : ∃ x y, Inside x y ∧ ¬ sh g x y) :
    ∃ g' s' h, computer_turn g s r = .ok (g', s', h) ∧ g'.closepack = false ∧ g'.turn = true ∧ AInv (geo (g'.players false)) (sh g') s' ∧ h = (if winner g' ≠ none then 0 else s'.hit) ∧
      ((g' = g ∧ s.next = 3 ∧ s'.next = 4) ∨ ∃ x y res, Inside x y ∧ (g.players true).shots x y = 0 ∧ Fired (g.players true) (g.players false) (g'.players true) (g'.players false) x y res ∧
        s'.hit = if s.next = 0 then s.hit else res) := by
  obtain ⟨G, s', res, e, hcase⟩ := acts_turn g s r hc ht sd inv hfree
  unfold computer_turn
  rw [e]
  simp only [Res.bind]
  rcases hcase with ⟨rfl, rfl, n3, n4, inv'⟩ | ⟨x, y, hin, hz, hshot, inv', hh⟩
  · rw [if_neg (by decide)]
    exact ⟨_, _, _, rfl, hc, ht, inv', rfl, .inl ⟨rfl, n3, n4⟩⟩
  · obtain ⟨ef, hgeo⟩ := shot_eff sd hin hz hshot
    have hz' : (g.players true).shots x y = 0 := by simpa [sh] using hz
    obtain ⟨t, q, h1, h2, h3, h4, h5, h6⟩ := hshot
    by_cases hr : res = -1
    · subst hr
      rw [if_pos rfl]
      obtain ⟨i, hi, hget, t', m1, hf, hsame⟩ := sink_spec (g.players true) (g.players false) G true t q x y sd h1 h2 h5
      rw [h6 rfl]
      have hget' : getshipat G false x y = some i := hget
      rw [hget']
      have hturn : G.turn = true := h4.trans ht
      have e2 : after_sunk G (some i) = .ok (G.set true { g.players true with shots := t' }) := by
        unfold after_sunk
        rw [hturn]
        exact m1
      rw [e2]
      have p1 : (G.set true { g.players true with shots := t' }).players true = { g.players true with shots := t' } := set_self _ _ _
      have p2 : (G.set true { g.players true with shots := t' }).players false = { g.players false with ships := q } := (set_other G true _).trans h2
      refine ⟨_, _, _, rfl, h3.trans hc, hturn, ?_, rfl, .inr ⟨x, y, -1, hin, hz', ?_, hh⟩⟩
      · have e3 : sh (G.set true { g.players true with shots := t' }) = sh G := by
          funext a b
          unfold sh
          rw [p1, h1]
          exact propext (hsame a b)
        rw [e3, p2, ← h2, hgeo]
        exact inv'
      · rw [p1, p2]; exact hf
    · rw [if_neg hr]
      refine ⟨_, _, _, rfl, h3.trans hc, h4.trans ht, ?_, rfl, .inr ⟨x, y, res, hin, hz', ?_, hh⟩⟩
      · rw [hgeo]; exact inv'
      · rw [h1, h2]
        refine ⟨rfl, rfl, rfl, rfl, ?_⟩
        rcases h5 with ⟨a, b, c, d⟩ | ⟨a, i, b, c, d, e', f⟩ | ⟨a, _⟩
        · exact .inl ⟨a, b, c, d⟩
        · exact .inr (.inl ⟨a, i, b, c, d, e', f⟩)
        · exact absurd a hr

/-- A turn of the player. -/
theorem player_turn_spec (g : Game) (x y : Int) (hc : g.closepack = false) (ht : g.turn = false) (sd : Side (g.players false) (g.players true)) (hin : Inside x y) (hz : (g.players false).shots x y = 0) :
    ∃ g' h res, player_turn g x y = .ok (g', h) ∧ g'.closepack = false ∧ g'.turn = false ∧ Fired (g.players false) (g.players true) (g'.players false) (g'.players true) x y res ∧
      h = (if res = -1 then (if winner g' = none then 1 else 0) else res) := by
  obtain ⟨G, res, t, q, e, h1, h2, h3, h4, _, h5⟩ := shoot_spec g false x y hc ht sd hin hz
  unfold player_turn
  rw [e]
  simp only [Res.bind]
  by_cases hr : res = -1
  · subst hr
    rw [if_pos rfl]
    obtain ⟨i, hi, hget, t', m1, hf, _⟩ := sink_spec (g.players false) (g.players true) G false t q x y sd h1 h2 h5
    have hget' : getshipat G true x y = some i := hget
    rw [hget']
    have hturn : G.turn = false := h4.trans ht
    have e2 : after_hit G (some i) = .ok (G.set false { g.players false with shots := t' }) := by
      unfold after_hit
      rw [hturn]
      exact m1
    rw [e2]
    have p1 : (G.set false { g.players false with shots := t' }).players false = { g.players false with shots := t' } := set_self _ _ _
    have p2 : (G.set false { g.players false with shots := t' }).players true = { g.players true with ships := q } := (set_other G false _).trans h2
    refine ⟨_, _, -1, rfl, h3.trans hc, hturn, ?_, rfl⟩
    rw [p1, p2]; exact hf
  · rw [if_neg hr]
    have h2' : G.players true = { g.players true with ships := q } := h2
    refine ⟨_, _, res, rfl, h3.trans hc, h4.trans ht, ?_, by rw [if_neg hr]⟩
    rw [h1, h2']
    refine ⟨rfl, rfl, rfl, rfl, ?_⟩
    rcases h5 with ⟨a, b, c, d⟩ | ⟨a, i, b, c, d, e', f⟩ | ⟨a, _⟩
    · exact .inl ⟨a, b, c, d⟩
    · exact .inr (.inl ⟨a, i, b, c, d, e', f⟩)
    · exact absurd a hr

/-! ### The end of a game -/

/-- How many squares have not been shelled. -/
def unshot (t : Grid) : Nat := all.countP fun c => decide (t c.1 c.2 = 0)

theorem unshot_le (t : Grid) : unshot t ≤ 100 := by
  have := List.countP_le_length (p := fun c : Nat × Nat => decide (t c.1 c.2 = 0)) (l := all)
  have h : all.length = 100 := by decide
  unfold unshot
  omega

theorem countP_lt {α : Type} (l : List α) (p q : α → Bool) (h : ∀ a ∈ l, q a = true → p a = true) (c : α) (hc : c ∈ l) (h1 : p c = true) (h2 : q c = false) : l.countP q < l.countP p := by
  induction l with
  | nil => simp at hc
  | cons a l ih =>
    rw [List.countP_cons, List.countP_cons]
    have hle : l.countP q ≤ l.countP p := List.countP_mono_left (fun x hx => h x (by simp [hx]))
    rcases List.mem_cons.mp hc with rfl | hc
    · rw [h1, h2, if_pos rfl, if_neg (by simp)]; omega
    · have := ih (fun x hx => h x (by simp [hx])) hc
      have ha := h a (by simp)
      cases hq : q a with
      | true => rw [ha hq]; simp only [if_true]; omega
      | false => simp only [Bool.false_eq_true, if_false]; split <;> omega

theorem unshot_lt {t t' : Grid} {x y : Int} (hin : Inside x y) (hz : t x y = 0) (hs : t' x y ≠ 0) (hm : ∀ a b, t a b ≠ 0 → t' a b ≠ 0) : unshot t' < unshot t := by
  unfold Inside at hin
  refine countP_lt _ _ _ ?_ (x.toNat, y.toNat) ((mem_all _ _).mpr (by omega)) ?_ ?_
  · intro c _ h
    simp only [decide_eq_true_eq] at h ⊢
    exact Classical.byContradiction fun hne => hm _ _ hne h
  · simp only; rw [Int.toNat_of_nonneg hin.1, Int.toNat_of_nonneg hin.2.2.1]; simpa using hz
  · simp only; rw [Int.toNat_of_nonneg hin.1, Int.toNat_of_nonneg hin.2.2.1]; simpa using hs

theorem fired_marks {own other own' other' : Player} {x y res : Int} (sd : Side own other) (h : Fired own other own' other' x y res) :
    own'.shots x y ≠ 0 ∧ ∀ a b, own.shots a b ≠ 0 → own'.shots a b ≠ 0 := by
  obtain ⟨_, _, _, _, hcase⟩ := h
  have hset : ∀ v : UInt8, v ≠ 0 → own'.shots = own.shots.set x y v → own'.shots x y ≠ 0 ∧ ∀ a b, own.shots a b ≠ 0 → own'.shots a b ≠ 0 := by
    intro v hv e
    rw [e]
    refine ⟨by simpa [Grid.set] using hv, fun a b hab => ?_⟩
    simp only [Grid.set]
    split
    · exact hv
    · exact hab
  rcases hcase with ⟨_, _, e, _⟩ | ⟨_, i, _, _, _, e, _⟩ | ⟨_, i, hi, ho, _, _, s1, s2, s3⟩
  · exact hset 111 (by decide) e
  · exact hset 72 (by decide) e
  · have hsym := (kind_facts sd.fleet hi).2.2.1
    refine ⟨by rw [s1 x y ho]; exact hsym, fun a b hab => ?_⟩
    by_cases c1 : On (other.ships i) a b
    · rw [s1 a b c1]; exact hsym
    · by_cases c2 : Around (other.ships i) a b
      · rw [s2 a b c1 c2]; decide
      · rw [s3 a b c2]; exact hab

/-- A game in which both know the truth, and the computer knows what it does. -/
structure Good (g : Game) (s : AI) : Prop where
  open' : g.closepack = false
  computer : Side (g.players true) (g.players false)
  player : Side (g.players false) (g.players true)
  ai : AInv (geo (g.players false)) (sh g) s

/-- What is left of a game. -/
def left (g : Game) (s : AI) : Nat := 2 * unshot (g.players true).shots + (if s.next = 3 then 1 else 0) + unshot (g.players false).shots

/-- A turn of the computer in a game. -/
theorem good_computer (g : Game) (s : AI) (r : Nat → Nat) (h : Good g s) (ht : g.turn = true) (hl : Alive (g.players false)) :
    ∃ g' s' v, computer_turn g s r = .ok (g', s', v) ∧ g'.turn = true ∧ Good g' s' ∧ left g' s' < left g s ∧ (g'.players true).ships = (g.players true).ships := by
  obtain ⟨i, hi, x0, y0, ho, hz0⟩ := alive_free h.computer hl
  obtain ⟨g', s', v, e, c, t, inv', _, hcase⟩ := computer_turn_spec g s r h.open' ht h.computer h.ai ⟨x0, y0, h.computer.fleet.inside i hi (h.computer.ready i hi) x0 y0 ho, by simpa [sh] using hz0⟩
  refine ⟨g', s', v, e, t, ?_⟩
  rcases hcase with ⟨rfl, n3, n4⟩ | ⟨x, y, res, hin, hz, hf, _⟩
  · refine ⟨⟨c, h.computer, h.player, inv'⟩, ?_, rfl⟩
    unfold left
    rw [if_pos n3, if_neg (by omega)]
    omega
  · have hs := fired_side _ _ _ _ _ _ _ h.computer hz hf
    obtain ⟨m1, m2⟩ := fired_marks h.computer hf
    have hlt := unshot_lt hin hz m1 m2
    obtain ⟨f1, f2, f3, f4, _⟩ := hf
    refine ⟨⟨c, hs, side_congr h.player f4 f1 f2, inv'⟩, ?_, f2⟩
    unfold left
    rw [f4]
    split <;> split <;> omega

/-- A turn of the player in a game. -/
theorem good_player (g : Game) (s : AI) (x y : Int) (h : Good g s) (ht : g.turn = false) (hin : Inside x y) (hz : (g.players false).shots x y = 0) :
    ∃ g' v, player_turn g x y = .ok (g', v) ∧ g'.turn = false ∧ Good g' s ∧ left g' s < left g s ∧ (g'.players false).ships = (g.players false).ships := by
  obtain ⟨g', v, res, e, c, t, hf, _⟩ := player_turn_spec g x y h.open' ht h.player hin hz
  have hs := fired_side _ _ _ _ _ _ _ h.player hz hf
  obtain ⟨m1, m2⟩ := fired_marks h.player hf
  have hlt := unshot_lt hin hz m1 m2
  obtain ⟨f1, f2, f3, f4, _⟩ := hf
  refine ⟨g', v, e, t, ⟨c, side_congr h.computer f4 f1 f2, hs, ?_⟩, ?_, f2⟩
  · have e1 : geo (g'.players false) = geo (g.players false) := by funext i; unfold geo; rw [f2]
    have e2 : sh g' = sh g := by unfold sh; rw [f4]
    rw [e1, e2]
    exact h.ai
  · unfold left
    rw [f4]
    omega

theorem good_turn (g : Game) (s : AI) (b : Bool) (h : Good g s) : Good { g with turn := b } s := ⟨h.open', h.computer, h.player, h.ai⟩

/-- A regular game ends. -/
theorem play_ends (pick : Nat → Game → Int × Int) (r : Nat → Nat → Nat)
    (hp : ∀ k g, (∃ x y, Inside x y ∧ (g.players false).shots x y = 0) → Inside (pick k g).1 (pick k g).2 ∧ (g.players false).shots (pick k g).1 (pick k g).2 = 0)
    (n : Nat) (g : Game) (s : AI) (h : Good g s) (hl : Alive (g.players (!g.turn))) (hn : left g s < n) :
    ∃ g' s', play_regular pick r n g s = .ok (g', s') ∧ Good g' s' ∧ ¬ Alive (g'.players g'.turn) ∧ Alive (g'.players (!g'.turn)) ∧ winner g' = some (!g'.turn) := by
  induction n generalizing g s with
  | zero => omega
  | succ n ih =>
    rw [play_regular]
    by_cases hw : winner g ≠ none
    · rw [if_pos hw]
      refine ⟨g, s, rfl, h, ?_, hl, winner_some g hw⟩
      intro ha
      refine hw ((winner_none g).mpr ?_)
      cases ht : g.turn with
      | true => rw [ht] at ha hl; exact ⟨hl, ha⟩
      | false => rw [ht] at ha hl; exact ⟨ha, hl⟩
    · rw [if_neg hw]
      have hw' : winner g = none := by simpa using hw
      obtain ⟨a0, a1⟩ := (winner_none g).mp hw'
      cases ht : g.turn with
      | true =>
        rw [if_pos rfl]
        obtain ⟨g', s', v, e, t, hg, hlt, hsh⟩ := good_computer g s (r n) h ht a0
        rw [e]
        simp only [Res.bind]
        obtain ⟨g2, s2, q⟩ := ih { g' with turn := !g'.turn } s' (good_turn g' s' _ hg) (by
          simp only [Bool.not_not, t]
          obtain ⟨i, hi, hh⟩ := a1
          exact ⟨i, hi, by rw [hsh]; exact hh⟩) (by
          have : left { g' with turn := !g'.turn } s' = left g' s' := rfl
          omega)
        exact ⟨g2, s2, q⟩
      | false =>
        rw [if_neg (by simp)]
        obtain ⟨i, hi, x0, y0, ho, hz0⟩ := alive_free h.player a1
        obtain ⟨p1, p2⟩ := hp n g ⟨x0, y0, h.player.fleet.inside i hi (h.player.ready i hi) x0 y0 ho, hz0⟩
        obtain ⟨g', v, e, t, hg, hlt, hsh⟩ := good_player g s _ _ h ht p1 p2
        rw [e]
        simp only [Res.bind]
        obtain ⟨g2, s2, q⟩ := ih { g' with turn := !g'.turn } s (good_turn g' s _ hg) (by
          simp only [Bool.not_not, t]
          obtain ⟨i, hi, hh⟩ := a0
          exact ⟨i, hi, by rw [hsh]; exact hh⟩) (by
          have : left { g' with turn := !g'.turn } s = left g' s := rfl
          omega)
        exact ⟨g2, s2, q⟩

theorem hit_alive {own other own' other' : Player} {x y : Int} (h : Fired own other own' other' x y 1) : Alive other' := by
  obtain ⟨_, _, _, _, ⟨h, _⟩ | ⟨_, i, hi, _, hlt, _, hs⟩ | ⟨h, _⟩⟩ := h
  · simp at h
  · exact ⟨i, hi, by rw [hs]; simp only [Spec.Battleship.hit, if_true]; exact hlt⟩
  · simp at h

theorem turn_spec (g : Game) (s : AI) (pick : Game → Int × Int) (r : Nat → Nat) (hp : Picks pick) (h : Good g s) (a0 : Alive (g.players false)) (a1 : Alive (g.players true)) :
    ∃ g' s' v, turn g s (pick g) r = .ok (g', s', v) ∧ g'.turn = g.turn ∧ Good g' s' ∧ left g' s' < left g s ∧ Alive (g'.players g.turn) ∧ (v ≠ 0 → winner g' = none) := by
  unfold turn
  cases ht : g.turn with
  | true =>
    rw [if_pos rfl]
    obtain ⟨g', s', v, e, t, hg, hlt, hsh⟩ := good_computer g s r h ht a0
    refine ⟨g', s', v, e, t, hg, hlt, ?_, ?_⟩
    · obtain ⟨i, hi, hh⟩ := a1; exact ⟨i, hi, by rw [hsh]; exact hh⟩
    · intro hv
      obtain ⟨i, hi, x0, y0, ho, hz0⟩ := alive_free h.computer a0
      obtain ⟨g2, s2, v2, e2, _, _, _, hv2, _⟩ := computer_turn_spec g s r h.open' ht h.computer h.ai ⟨x0, y0, h.computer.fleet.inside i hi (h.computer.ready i hi) x0 y0 ho, by simpa [sh] using hz0⟩
      rw [e] at e2
      simp only [Res.ok.injEq, Prod.mk.injEq] at e2
      obtain ⟨rfl, rfl, rfl⟩ := e2
      refine Classical.byContradiction fun hw => ?_
      rw [if_pos hw] at hv2
      exact hv hv2
  | false =>
    rw [if_neg (by simp)]
    obtain ⟨i, hi, x0, y0, ho, hz0⟩ := alive_free h.player a1
    obtain ⟨p1, p2⟩ := hp g ⟨x0, y0, h.player.fleet.inside i hi (h.player.ready i hi) x0 y0 ho, hz0⟩
    obtain ⟨g', v, e, t, hg, hlt, hsh⟩ := good_player g s _ _ h ht p1 p2
    rw [e]
    simp only [Res.bind]
    have ha : Alive (g'.players false) := by obtain ⟨i, hi, hh⟩ := a0; exact ⟨i, hi, by rw [hsh]; exact hh⟩
    refine ⟨g', s, v, rfl, t, hg, hlt, ha, ?_⟩
    intro hv
    obtain ⟨g2, v2, res, e2, _, _, hf, hv2⟩ := player_turn_spec g _ _ h.open' ht h.player p1 p2
    rw [e] at e2
    simp only [Res.ok.injEq, Prod.mk.injEq] at e2
    obtain ⟨rfl, rfl⟩ := e2
    by_cases hr : res = -1
    · rw [if_pos hr] at hv2
      by_cases hw : winner g' = none
      · exact hw
      · rw [if_neg hw] at hv2; exact absurd hv2 hv
    · rw [if_neg hr] at hv2
      have h1 : res = 1 := by
        obtain ⟨_, _, _, _, ⟨h, _⟩ | ⟨h, _⟩ | ⟨h, _⟩⟩ := hf
        · rw [h] at hv2; exact absurd hv2 hv
        · exact h
        · exact absurd h hr
      subst h1
      exact (winner_none g').mpr ⟨ha, hit_alive hf⟩

/-- How a game ends. -/
def Over (g : Game) (s : AI) : Prop := Good g s ∧ ¬ Alive (g.players g.turn) ∧ Alive (g.players (!g.turn)) ∧ winner g = some (!g.turn)

theorem over_of {g : Game} {s : AI} (h : Good g s) (hl : Alive (g.players (!g.turn))) (hw : winner g ≠ none) : Over g s := by
  refine ⟨h, ?_, hl, winner_some g hw⟩
  intro ha
  refine hw ((winner_none g).mpr ?_)
  cases ht : g.turn with
  | true => rw [ht] at ha hl; exact ⟨hl, ha⟩
  | false => rw [ht] at ha hl; exact ⟨ha, hl⟩

/-- A blitz game ends. -/
theorem blitz_ends (pick : Nat → Game → Int × Int) (r : Nat → Nat → Nat) (hp : ∀ k, Picks (pick k))
    (n : Nat) (g : Game) (s : AI) (h : Good g s) (hl : Alive (g.players (!g.turn))) (hn : left g s < n) :
    ∃ g' s', play_blitz pick r n g s = .ok (g', s') ∧ Over g' s' := by
  induction n generalizing g s with
  | zero => omega
  | succ n ih =>
    rw [play_blitz]
    by_cases hw : winner g ≠ none
    · rw [if_pos hw]
      exact ⟨g, s, rfl, over_of h hl hw⟩
    · rw [if_neg hw]
      have hw' : winner g = none := by simpa using hw
      obtain ⟨a0, a1⟩ := (winner_none g).mp hw'
      obtain ⟨g', s', v, e, t, hg, hlt, ha, hv⟩ := turn_spec g s (pick n) (r n) (hp n) h a0 a1
      rw [e]
      simp only [Res.bind]
      by_cases h0 : v = 0
      · rw [if_pos h0]
        refine ih _ _ (good_turn g' s' _ hg) (by simp only [Bool.not_not, t]; exact ha) ?_
        have : left { g' with turn := !g'.turn } s' = left g' s' := rfl
        omega
      · rw [if_neg h0]
        obtain ⟨b0, b1⟩ := (winner_none g').mp (hv h0)
        refine ih _ _ hg (by cases g'.turn; exact b1; exact b0) (by omega)

/-- Turns of a player in one volley. -/
theorem volley_spec (pick : Nat → Game → Int × Int) (r : Nat → Nat → Nat) (hp : ∀ k, Picks (pick k)) (k : Nat) (g : Game) (s : AI) (h : Good g s) (a0 : Alive (g.players false)) (a1 : Alive (g.players true)) :
    ∃ g' s', volley pick r k g s = .ok (g', s') ∧ g'.turn = g.turn ∧ Good g' s' ∧ Alive (g'.players g.turn) ∧ left g' s' + (if k = 0 then 0 else 1) ≤ left g s := by
  induction k generalizing g s with
  | zero => exact ⟨g, s, rfl, rfl, h, by cases g.turn; exact a0; exact a1, by simp⟩
  | succ k ih =>
    obtain ⟨g', s', v, e, t, hg, hlt, ha, _⟩ := turn_spec g s (pick k) (r k) (hp k) h a0 a1
    rw [volley, e]
    simp only [Res.bind]
    rw [if_neg (show ¬ (k + 1 = 0) by omega)]
    by_cases hw : winner g' ≠ none
    · rw [if_pos hw]
      exact ⟨g', s', rfl, t, hg, ha, by omega⟩
    · rw [if_neg hw]
      have hw' : winner g' = none := by simpa using hw
      obtain ⟨b0, b1⟩ := (winner_none g').mp hw'
      obtain ⟨g2, s2, e2, t2, hg2, ha2, hl2⟩ := ih g' s' hg b0 b1
      refine ⟨g2, s2, e2, t2.trans t, hg2, by rw [← t]; exact ha2, by omega⟩

theorem shipscount_pos (g : Game) (p : Bool) (h : Alive (g.players p)) : shipscount g p ≠ 0 := by
  obtain ⟨i, hi, hlt⟩ := h
  intro h0
  have := List.countP_eq_zero.mp h0 i (List.mem_range.mpr hi)
  simp [ship_afloat, hlt] at this

/-- A salvo game ends. -/
theorem salvo_ends (pick : Nat → Nat → Game → Int × Int) (r : Nat → Nat → Nat → Nat) (hp : ∀ k j, Picks (pick k j))
    (n : Nat) (g : Game) (s : AI) (h : Good g s) (hl : Alive (g.players (!g.turn))) (hn : left g s < n) :
    ∃ g' s', play_salvo pick r n g s = .ok (g', s') ∧ Over g' s' := by
  induction n generalizing g s with
  | zero => omega
  | succ n ih =>
    rw [play_salvo]
    by_cases hw : winner g ≠ none
    · rw [if_pos hw]
      exact ⟨g, s, rfl, over_of h hl hw⟩
    · rw [if_neg hw]
      have hw' : winner g = none := by simpa using hw
      obtain ⟨a0, a1⟩ := (winner_none g).mp hw'
      obtain ⟨g', s', e, t, hg, ha, hlt⟩ := volley_spec (pick n) (r n) (hp n) (shipscount g g.turn) g s h a0 a1
      rw [if_neg (shipscount_pos g g.turn (by cases g.turn; exact a0; exact a1))] at hlt
      rw [e]
      simp only [Res.bind]
      refine ih _ _ (good_turn g' s' _ hg) (by simp only [Bool.not_not, t]; exact ha) ?_
      have : left { g' with turn := !g'.turn } s' = left g' s' := rfl
      omega

/-! ### Placing -/

theorem randomShip_facts (r : Nat → Nat) (ss : Ship) (h : ss.length < 10) :
    Straight (randomShip r ss).dir ∧ Inside (randomShip r ss).x (randomShip r ss).y ∧ (randomShip r ss).symbol = ss.symbol ∧ (randomShip r ss).length = ss.length ∧ (randomShip r ss).hits = ss.hits ∧
      (randomShip r ss).placed = ss.placed ∧ (((randomShip r ss).dir = 0 ∧ (randomShip r ss).x + ss.length < 10) ∨ ((randomShip r ss).dir = 2 ∧ (randomShip r ss).y + ss.length < 10)) := by
  have h1 := Nat.mod_lt (r 1) (show 10 - ss.length > 0 by omega)
  have h2 := Nat.mod_lt (r 2) (show 10 > 0 by omega)
  have h3 := Nat.mod_lt (r 1) (show 10 > 0 by omega)
  have h4 := Nat.mod_lt (r 2) (show 10 - ss.length > 0 by omega)
  unfold randomShip
  generalize r 1 % (10 - ss.length) = m1 at *
  generalize r 2 % 10 = m2 at *
  generalize r 1 % 10 = m3 at *
  generalize r 2 % (10 - ss.length) = m4 at *
  by_cases h0 : r 0 % 2 ≠ 0
  · rw [if_pos h0]
    refine ⟨.inl rfl, ?_, rfl, rfl, rfl, rfl, .inl ⟨rfl, ?_⟩⟩
    · unfold Inside; simp only; omega
    · simp only; omega
  · rw [if_neg h0]
    refine ⟨.inr (.inl rfl), ?_, rfl, rfl, rfl, rfl, .inr ⟨rfl, ?_⟩⟩
    · unfold Inside; simp only; omega
    · simp only; omega

theorem randomplace_spec (g : Game) (b : Bool) (r : Nat → Nat → Nat) (hc : g.closepack = false) (f : Fleet (g.players b)) (n : Nat) (ss : Ship) (hl : 0 < ss.length ∧ ss.length < 10) :
    randomplace g b r ss n = .diverge ∨ ∃ s', randomplace g b r ss n = .ok s' ∧ Straight s'.dir ∧ Inside s'.x s'.y ∧ s'.symbol = ss.symbol ∧ s'.length = ss.length ∧ s'.hits = ss.hits ∧
      Fits (g.players b) s' ∧ ((s'.dir = 0 ∧ s'.x + ss.length < 10) ∨ (s'.dir = 2 ∧ s'.y + ss.length < 10)) := by
  induction n generalizing ss with
  | zero => exact .inl rfl
  | succ n ih =>
    obtain ⟨h1, h2, h3, h4, h5, h6, h7⟩ := randomShip_facts (r n) ss hl.2
    obtain ⟨e, c1, c2⟩ := checkplacement_eq g b (randomShip (r n) ss) hc f h1 h2 (by rw [h4]; exact hl.1)
    rw [randomplace, c1]
    simp only [Res.bind]
    by_cases he : e = 0
    · rw [if_pos he]
      exact .inr ⟨_, rfl, h1, h2, h3, h4, h5, c2.mp he, h7⟩
    · rw [if_neg he]
      rcases ih (randomShip (r n) ss) (by rw [h4]; exact hl) with h | ⟨s', q1, q2, q3, q4, q5, q6, q7, q8⟩
      · exact .inl h
      · refine .inr ⟨s', q1, q2, q3, q4.trans h3, q5.trans h4, q6.trans h5, q7, ?_⟩
        rw [h4] at q8; exact q8

/-- A game before the first shell. -/
structure Before (g : Game) : Prop where
  open' : g.closepack = false
  fleet : ∀ b, Fleet (g.players b)
  shots : ∀ b x y, (g.players b).shots x y = 0
  hits : ∀ b i, i < 5 → ((g.players b).ships i).hits = 0

theorem before_reset (g : Game) (h : g.closepack = false) : Before (reset g) := by
  have hp : ∀ i, (newShip i).placed = false := fun i => rfl
  refine ⟨h, fun b => ⟨?_, ?_, ?_, ?_, ?_, ?_⟩, fun _ _ _ => rfl, fun _ _ _ => rfl⟩
  · intro i hi
    match i, hi with
    | 0, _ | 1, _ | 2, _ | 3, _ | 4, _ => rfl
  · intro i _ h; simp [reset, hp] at h
  · intro i _ h; simp [reset, hp] at h
  · intro i _ h; simp [reset, hp] at h
  · intro x y h; simp [reset] at h
  · intro i j _ _ _ h; simp [reset, hp] at h

theorem set_any (g : Game) (p c : Bool) (q : Player) : (g.set p q).players c = if c = p then q else g.players c := rfl

/-- The player places a ship. -/
theorem place_at_spec (g : Game) (h : Before g) (i : Nat) (hi : i < 5) (hnot : ((g.players false).ships i).placed = false) (x y : Int) (hin : Inside x y) (dir : Nat) (hd : Straight dir) :
    ∃ g', placeship_at g i x y dir = .ok g' ∧ Before g' ∧ g'.players true = g.players true ∧ (∀ j, j ≠ i → (g'.players false).ships j = (g.players false).ships j) ∧
      (Fits (g.players false) { (g.players false).ships i with x := x, y := y, dir := dir } →
        (g'.players false).ships i = { (g.players false).ships i with x := x, y := y, dir := dir, placed := true }) ∧
      (¬ Fits (g.players false) { (g.players false).ships i with x := x, y := y, dir := dir } → (g'.players false).board = (g.players false).board ∧ ((g'.players false).ships i).placed = false) := by
  obtain ⟨f1, f2⟩ := placeship_eq g false { (g.players false).ships i with x := x, y := y, dir := dir } h.open' (h.fleet false) hd hin (by have := (kind_facts (h.fleet false) hi).1; simp only; omega)
  unfold placeship_at
  simp only
  by_cases hf : Fits (g.players false) { (g.players false).ships i with x := x, y := y, dir := dir }
  · obtain ⟨t, e, t1, t2⟩ := f2 hf
    rw [e]
    simp only [Res.bind, ne_eq, not_true_eq_false, if_false]
    have hpl : ∀ c, ((g.set false { g.players false with board := t }).setShip false i { (g.players false).ships i with x := x, y := y, dir := dir, placed := true }).players c =
        if c = false then { board := t, shots := (g.players false).shots, ships := fun j => if j = i then { (g.players false).ships i with x := x, y := y, dir := dir, placed := true } else (g.players false).ships j } else g.players c := by
      intro c
      rw [Game.setShip, set_any, set_self]
      by_cases ec : c = false
      · rw [if_pos ec, if_pos ec]
      · rw [if_neg ec, if_neg ec, set_any, if_neg ec]
    have hfl := fleet_add (g.players false) (h.fleet false) i hi hnot { (g.players false).ships i with x := x, y := y, dir := dir } t ⟨rfl, rfl⟩ hd hf t1 t2 (g.players false).shots
    refine ⟨_, rfl, ⟨h.open', ?_, ?_, ?_⟩, ?_, ?_, ?_, fun hn => absurd hf hn⟩
    · intro c; rw [hpl]; split
      · exact hfl
      · exact h.fleet c
    · intro c a b; rw [hpl]; split
      · exact h.shots false a b
      · exact h.shots c a b
    · intro c j hj; rw [hpl]; split
      · simp only; split
        · exact h.hits false i hi
        · exact h.hits false j hj
      · exact h.hits c j hj
    · rw [hpl, if_neg (by simp)]
    · intro j hj; rw [hpl, if_pos rfl]; simp only; rw [if_neg hj]
    · intro _; rw [hpl, if_pos rfl]; simp only [if_true]
  · obtain ⟨e, he, q⟩ := f1 hf
    rw [q]
    simp only [Res.bind]
    rw [if_pos he]
    have hpl : ∀ c, (g.setShip false i { (g.players false).ships i with x := x, y := y, dir := dir }).players c =
        if c = false then { g.players false with ships := fun j => if j = i then { (g.players false).ships i with x := x, y := y, dir := dir } else (g.players false).ships j } else g.players c := by
      intro c
      rw [Game.setShip, set_any]
    have hfl := fleet_same (g.players false) (h.fleet false) i hnot { (g.players false).ships i with x := x, y := y, dir := dir } ⟨rfl, rfl⟩ hnot
    refine ⟨_, rfl, ⟨h.open', ?_, ?_, ?_⟩, ?_, ?_, fun hn => absurd hn hf, ?_⟩
    · intro c; rw [hpl]; split
      · exact hfl
      · exact h.fleet c
    · intro c a b; rw [hpl]; split
      · exact h.shots false a b
      · exact h.shots c a b
    · intro c j hj; rw [hpl]; split
      · simp only; split
        · exact h.hits false i hi
        · exact h.hits false j hj
      · exact h.hits c j hj
    · rw [hpl, if_neg (by simp)]
    · intro j hj; rw [hpl, if_pos rfl]; simp only; rw [if_neg hj]
    · intro _; rw [hpl, if_pos rfl]; simp only [if_true]; exact ⟨trivial, hnot⟩

/-- A ship is placed at random. -/
theorem place_random_spec (g : Game) (h : Before g) (b : Bool) (r : Nat → Nat → Nat) (i : Nat) (hi : i < 5) (hnot : ((g.players b).ships i).placed = false) (n : Nat) :
    placeship_random g b r i n = .diverge ∨ ∃ g', placeship_random g b r i n = .ok g' ∧ Before g' ∧ g'.players (!b) = g.players (!b) ∧ (∀ j, j ≠ i → (g'.players b).ships j = (g.players b).ships j) ∧
      ((g'.players b).ships i).placed = true ∧
      ((((g'.players b).ships i).dir = 0 ∧ ((g'.players b).ships i).x + ((g.players b).ships i).length < 10) ∨ (((g'.players b).ships i).dir = 2 ∧ ((g'.players b).ships i).y + ((g.players b).ships i).length < 10)) := by
  obtain ⟨k1, k2, _, _⟩ := kind_facts (h.fleet b) hi
  unfold placeship_random
  rcases randomplace_spec g b r h.open' (h.fleet b) n ((g.players b).ships i) (by omega) with e | ⟨ss, e, q1, q2, q3, q4, q5, q6, q7⟩
  · rw [e]; exact .inl rfl
  · rw [e]
    simp only [Res.bind]
    obtain ⟨_, f2⟩ := placeship_eq g b ss h.open' (h.fleet b) q1 q2 (by omega)
    obtain ⟨t, e2, t1, t2⟩ := f2 q6
    rw [e2]
    simp only
    have hpl : ∀ c, ((g.set b { g.players b with board := t }).setShip b i { ss with placed := true }).players c =
        if c = b then { board := t, shots := (g.players b).shots, ships := fun j => if j = i then { ss with placed := true } else (g.players b).ships j } else g.players c := by
      intro c
      rw [Game.setShip, set_any, set_self]
      by_cases ec : c = b
      · rw [if_pos ec, if_pos ec]
      · rw [if_neg ec, if_neg ec, set_any, if_neg ec]
    have hfl := fleet_add (g.players b) (h.fleet b) i hi hnot ss t ⟨q3, q4⟩ q1 q6 t1 t2 (g.players b).shots
    refine .inr ⟨_, rfl, ⟨h.open', ?_, ?_, ?_⟩, ?_, ?_, ?_, ?_⟩
    · intro c; rw [hpl]; split
      · exact hfl
      · exact h.fleet c
    · intro c x y; rw [hpl]; split
      · exact h.shots b x y
      · exact h.shots c x y
    · intro c j hj; rw [hpl]; split
      · simp only; split
        · rw [q5]; exact h.hits b i hi
        · exact h.hits b j hj
      · exact h.hits c j hj
    · rw [hpl, if_neg (by cases b <;> simp)]
    · intro j hj; rw [hpl, if_pos rfl]; simp only; rw [if_neg hj]
    · rw [hpl, if_pos rfl]; simp only [if_true]
    · rw [hpl, if_pos rfl]; simp only [if_true]; exact q7

/-- When all ships have been placed, the game can start. -/
theorem before_good (g : Game) (h : Before g) (hr : ∀ b, Ready (g.players b)) (b : Bool) : Good { g with turn := b } ai_reset ∧ Alive (g.players false) ∧ Alive (g.players true) := by
  have hs : ∀ p q, Side (g.players p) (g.players q) := by
    intro p q
    refine ⟨h.fleet q, hr q, ?_, ?_, ?_⟩
    · intro i hi
      rw [h.hits q i hi]
      unfold cellsShot
      symm
      rw [List.countP_eq_zero]
      intro l _
      simp [h.shots p]
    · intro i _ x y _ hne; exact absurd (h.shots p x y) hne
    · intro x y _ hne; exact absurd (h.shots p x y) hne
  have ha : ∀ p, Alive (g.players p) := fun p => ⟨0, by omega, by
    rw [h.hits p 0 (by omega)]; have := (kind_facts (h.fleet p) (show 0 < 5 by omega)).1; omega⟩
  refine ⟨⟨h.open', hs _ _, hs _ _, ainv_zero (by decide) rfl ?_⟩, ha false, ha true⟩
  intro i _
  exact .inl fun l _ hsh => hsh (h.shots true _ _)

theorem placing_before {g : Game} (h : Placing g) : Before g := by
  induction h with
  | start g h => exact before_reset g h
  | key i x y dir _ hi hn hin hd e ih =>
    obtain ⟨g2, e2, hb, _⟩ := place_at_spec _ ih i hi hn x y hin dir hd
    rw [e] at e2
    simp only [Res.ok.injEq] at e2
    rw [e2]; exact hb
  | random b r i n _ hi hn e ih =>
    rcases place_random_spec _ ih b r i hi hn n with e2 | ⟨g2, e2, hb, _⟩
    · rw [e] at e2; simp at e2
    · rw [e] at e2
      simp only [Res.ok.injEq] at e2
      rw [e2]; exact hb

theorem playing_good {g : Game} {s : AI} (h : Playing g s) : Good g s := by
  induction h with
  | start t hp h0 h1 => exact (before_good _ (placing_before hp) (fun b => by cases b; exact h0; exact h1) t).1
  | computer r v t _ ht hw e ih =>
    obtain ⟨g2, s2, v2, e2, _, hg, _⟩ := good_computer _ _ r ih ht ((winner_none _).mp hw).1
    rw [e] at e2
    simp only [Res.ok.injEq, Prod.mk.injEq] at e2
    obtain ⟨rfl, rfl, rfl⟩ := e2
    exact good_turn _ _ _ hg
  | player x y v t _ ht hw hin hz e ih =>
    obtain ⟨g2, v2, e2, _, hg, _⟩ := good_player _ _ x y ih ht hin hz
    rw [e] at e2
    simp only [Res.ok.injEq, Prod.mk.injEq] at e2
    obtain ⟨rfl, rfl⟩ := e2
    exact good_turn _ _ _ hg

theorem over_won {g : Game} {s : AI} (h : Over g s) : Won g := by
  obtain ⟨hg, hd, ha, hw⟩ := h
  refine ⟨!g.turn, hw, ?_⟩
  rw [Bool.not_not]
  cases ht : g.turn with
  | true =>
    rw [ht] at hd ha
    exact ⟨dead_shot hg.player hd, alive_free hg.computer ha⟩
  | false =>
    rw [ht] at hd ha
    exact ⟨dead_shot hg.computer hd, alive_free hg.player ha⟩
end Che.Prog.Battleship
