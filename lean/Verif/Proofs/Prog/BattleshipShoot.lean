import Verif.Proofs.Prog.Battleship

namespace Che.Prog.Battleship
open Che Che.Lib Che.Spec.Battleship

theorem set_self (g : Game) (p : Bool) (q : Player) : (g.set p q).players p = q := by simp [Game.set]
theorem set_other (g : Game) (p : Bool) (q : Player) : (g.set p q).players (!p) = g.players (!p) := by
  simp only [Game.set]; rw [if_neg (by cases p <;> simp)]
theorem set_other' (g : Game) (p : Bool) (q : Player) : (g.set (!p) q).players p = g.players p := by
  simp only [Game.set]; rw [if_neg (by cases p <;> simp)]

/-- A row of water. -/
theorem paint (f h : Nat → Int) (ls : List Nat) (t : Grid) (a b : Int) :
    ((Inside a b ∧ ∃ i ∈ ls, a = f i ∧ b = h i) → (ls.foldl (fun t (i : Nat) => if coords_valid (f i) (h i) then t.set (f i) (h i) 111 else t) t) a b = 111) ∧
    (¬ (Inside a b ∧ ∃ i ∈ ls, a = f i ∧ b = h i) → (ls.foldl (fun t (i : Nat) => if coords_valid (f i) (h i) then t.set (f i) (h i) 111 else t) t) a b = t a b) := by
  induction ls generalizing t with
  | nil => exact ⟨fun h => by simp at h, fun _ => rfl⟩
  | cons l ls ih =>
    rw [List.foldl_cons]
    obtain ⟨h1, h2⟩ := ih (if coords_valid (f l) (h l) then t.set (f l) (h l) 111 else t)
    constructor
    · rintro ⟨hin, i, hi, ea, eb⟩
      by_cases hm : ∃ i ∈ ls, a = f i ∧ b = h i
      · exact h1 ⟨hin, hm⟩
      · rw [h2 (fun x => hm x.2)]
        rcases List.mem_cons.mp hi with rfl | hi
        · rw [← ea, ← eb, (valid_iff a b).mpr hin]; simp [Grid.set]
        · exact absurd ⟨i, hi, ea, eb⟩ hm
    · intro hn
      rw [h2 (fun x => hn ⟨x.1, by obtain ⟨i, hi, e⟩ := x.2; exact ⟨i, by simp [hi], e⟩⟩)]
      by_cases hv : coords_valid (f l) (h l) = true
      · rw [if_pos hv]
        simp only [Grid.set]
        rw [if_neg]
        rintro ⟨ea, eb⟩
        exact hn ⟨by rw [ea, eb]; exact (valid_iff _ _).mp hv, l, by simp, ea, eb⟩
      · rw [if_neg hv]

theorem water_eq (g : Game) (ss : Ship) (hc : g.closepack = false) (hs : Straight ss.dir) (hl : 0 < ss.length) :
    ∃ t, mark_empty_water g ss = .ok (g.set g.turn { g.players g.turn with shots := t }) ∧
      (∀ a b, Around ss a b → t a b = 111) ∧ ∀ a b, ¬ Around ss a b → t a b = (g.players g.turn).shots a b := by
  unfold mark_empty_water
  rw [hc, if_neg (by simp), if_neg (by have := straight_lt hs; omega)]
  refine ⟨_, rfl, ?_⟩
  have hfold : ∀ (f : Grid → Nat → Grid) t, (List.range 3).foldl f t = f (f (f t 0) 1) 2 := fun f t => rfl
  rw [hfold]
  have hrow : ∀ (j : Nat) (t : Grid) a b,
      ((Inside a b ∧ ∃ i ∈ List.range (ss.length + 2), a = (ss.x + ((j : Int) - 1) * xincr ((ss.dir + 2) % 8)) + ((i : Int) - 1) * xincr ss.dir ∧ b = (ss.y + ((j : Int) - 1) * yincr ((ss.dir + 2) % 8)) + ((i : Int) - 1) * yincr ss.dir) →
        waterLoop ss (ss.x + ((j : Int) - 1) * xincr ((ss.dir + 2) % 8)) (ss.y + ((j : Int) - 1) * yincr ((ss.dir + 2) % 8)) t a b = 111) ∧
      (¬ (Inside a b ∧ ∃ i ∈ List.range (ss.length + 2), a = (ss.x + ((j : Int) - 1) * xincr ((ss.dir + 2) % 8)) + ((i : Int) - 1) * xincr ss.dir ∧ b = (ss.y + ((j : Int) - 1) * yincr ((ss.dir + 2) % 8)) + ((i : Int) - 1) * yincr ss.dir) →
        waterLoop ss (ss.x + ((j : Int) - 1) * xincr ((ss.dir + 2) % 8)) (ss.y + ((j : Int) - 1) * yincr ((ss.dir + 2) % 8)) t a b = t a b) :=
    fun j t a b => paint (fun i => (ss.x + ((j : Int) - 1) * xincr ((ss.dir + 2) % 8)) + ((i : Int) - 1) * xincr ss.dir) (fun i => (ss.y + ((j : Int) - 1) * yincr ((ss.dir + 2) % 8)) + ((i : Int) - 1) * yincr ss.dir) (List.range (ss.length + 2)) t a b
  have geo : ∀ a b, Around ss a b ↔ Inside a b ∧ ∃ j, j < 3 ∧ ∃ i ∈ List.range (ss.length + 2), a = (ss.x + ((j : Nat) - 1 : Int) * xincr ((ss.dir + 2) % 8)) + ((i : Int) - 1) * xincr ss.dir ∧ b = (ss.y + ((j : Nat) - 1 : Int) * yincr ((ss.dir + 2) % 8)) + ((i : Int) - 1) * yincr ss.dir := by
    intro a b
    unfold Around On
    constructor
    · rintro ⟨hin, c, d, ⟨l, hlt, hc', hd⟩, hn⟩
      refine ⟨hin, ?_⟩
      unfold Near at hn
      rcases hs with e | e | e | e <;> rw [e] at hc' hd ⊢
      · refine ⟨(b - ss.y + 1).toNat, ?_, (a - ss.x + 1).toNat, List.mem_range.mpr ?_, ?_, ?_⟩ <;> simp [dx, dy, xincr, yincr] at * <;> omega
      · refine ⟨(ss.x - a + 1).toNat, ?_, (b - ss.y + 1).toNat, List.mem_range.mpr ?_, ?_, ?_⟩ <;> simp [dx, dy, xincr, yincr] at * <;> omega
      · refine ⟨(ss.y - b + 1).toNat, ?_, (ss.x - a + 1).toNat, List.mem_range.mpr ?_, ?_, ?_⟩ <;> simp [dx, dy, xincr, yincr] at * <;> omega
      · refine ⟨(a - ss.x + 1).toNat, ?_, (ss.y - b + 1).toNat, List.mem_range.mpr ?_, ?_, ?_⟩ <;> simp [dx, dy, xincr, yincr] at * <;> omega
    · rintro ⟨hin, j, hj, i, hi, ha, hb⟩
      have hi' := List.mem_range.mp hi
      have hl' : (if i = 0 then 0 else if i ≤ ss.length then i - 1 else ss.length - 1) < ss.length := by
        split
        · omega
        · split <;> omega
      refine ⟨hin, _, _, ⟨(if i = 0 then 0 else if i ≤ ss.length then i - 1 else ss.length - 1 : Nat), hl', rfl, rfl⟩, ?_⟩
      unfold Near
      by_cases e0 : i = 0
      · rw [if_pos e0]
        rcases hs with e | e | e | e <;> rw [e] at ha hb ⊢ <;> simp [dx, dy, xincr, yincr] at * <;> omega
      · rw [if_neg e0]
        by_cases e1 : i ≤ ss.length
        · rw [if_pos e1]
          rcases hs with e | e | e | e <;> rw [e] at ha hb ⊢ <;> simp [dx, dy, xincr, yincr] at * <;> omega
        · rw [if_neg e1]
          rcases hs with e | e | e | e <;> rw [e] at ha hb ⊢ <;> simp [dx, dy, xincr, yincr] at * <;> omega
  constructor
  · intro a b h
    obtain ⟨hin, j, hj, hi⟩ := (geo a b).mp h
    by_cases h2 : ∃ i ∈ List.range (ss.length + 2), a = (ss.x + (((2 : Nat) : Int) - 1) * xincr ((ss.dir + 2) % 8)) + ((i : Int) - 1) * xincr ss.dir ∧ b = (ss.y + (((2 : Nat) : Int) - 1) * yincr ((ss.dir + 2) % 8)) + ((i : Int) - 1) * yincr ss.dir
    · exact (hrow 2 _ a b).1 ⟨hin, h2⟩
    · rw [(hrow 2 _ a b).2 (fun x => h2 x.2)]
      by_cases h1 : ∃ i ∈ List.range (ss.length + 2), a = (ss.x + (((1 : Nat) : Int) - 1) * xincr ((ss.dir + 2) % 8)) + ((i : Int) - 1) * xincr ss.dir ∧ b = (ss.y + (((1 : Nat) : Int) - 1) * yincr ((ss.dir + 2) % 8)) + ((i : Int) - 1) * yincr ss.dir
      · exact (hrow 1 _ a b).1 ⟨hin, h1⟩
      · rw [(hrow 1 _ a b).2 (fun x => h1 x.2)]
        match j, hj with
        | 0, _ => exact (hrow 0 _ a b).1 ⟨hin, hi⟩
        | 1, _ => exact absurd hi h1
        | 2, _ => exact absurd hi h2
  · intro a b h
    have hno : ∀ j, j < 3 → ¬ (Inside a b ∧ ∃ i ∈ List.range (ss.length + 2), a = (ss.x + ((j : Nat) - 1 : Int) * xincr ((ss.dir + 2) % 8)) + ((i : Int) - 1) * xincr ss.dir ∧ b = (ss.y + ((j : Nat) - 1 : Int) * yincr ((ss.dir + 2) % 8)) + ((i : Int) - 1) * yincr ss.dir) :=
      fun j hj hh => h ((geo a b).mpr ⟨hh.1, j, hj, hh.2⟩)
    rw [(hrow 2 _ a b).2 (hno 2 (by omega)), (hrow 1 _ a b).2 (hno 1 (by omega)), (hrow 0 _ a b).2 (hno 0 (by omega))]

theorem sunkLoop_eq (ss : Ship) (hs : Straight ss.dir) (ls : List Nat) (t : Grid) (hin : ∀ l ∈ ls, Inside (ss.x + l * dx ss.dir) (ss.y + l * dy ss.dir)) :
    ∃ t', sunkLoop ss ls t = .ok t' ∧ (∀ l ∈ ls, t' (ss.x + l * dx ss.dir) (ss.y + l * dy ss.dir) = ss.symbol) ∧
      ∀ x y, (∀ l ∈ ls, ¬ (x = ss.x + l * dx ss.dir ∧ y = ss.y + l * dy ss.dir)) → t' x y = t x y := by
  have : ∀ (ls : List Nat) t, (∀ l ∈ ls, Inside (ss.x + l * dx ss.dir) (ss.y + l * dy ss.dir)) → sunkLoop ss ls t = placeLoop ss ls t := by
    intro ls
    induction ls with
    | nil => intro t _; rfl
    | cons l ls ih =>
      intro t h
      have hv := (valid_iff _ _).mpr (h l (by simp))
      rw [sunkLoop, placeLoop, shipxy, if_neg (by have := straight_lt hs; omega), xincr_eq hs, yincr_eq hs]
      simp only [Res.bind, hv, Bool.not_true, Bool.false_eq_true, if_false]
      exact ih _ (fun k hk => h k (by simp [hk]))
  rw [this ls t hin]
  exact placeLoop_eq ss hs ls t hin

theorem mark_sunk_eq (g : Game) (p : Bool) (ss : Ship) (hs : Straight ss.dir) (hin : ∀ x y, On ss x y → Inside x y) :
    ∃ t, mark_sunk g p ss = .ok (g.set p { g.players p with shots := t }) ∧ (∀ a b, On ss a b → t a b = ss.symbol) ∧ ∀ a b, ¬ On ss a b → t a b = (g.players p).shots a b := by
  obtain ⟨t, h1, h2, h3⟩ := sunkLoop_eq ss hs (List.range ss.length) (g.players p).shots (fun l hl => hin _ _ ⟨l, List.mem_range.mp hl, rfl, rfl⟩)
  refine ⟨t, by rw [mark_sunk, h1]; rfl, ?_, ?_⟩
  · intro a b ⟨l, hl, ha, hb⟩
    rw [ha, hb]; exact h2 l (List.mem_range.mpr hl)
  · intro a b hn
    exact h3 a b (fun l hl hh => hn ⟨l, List.mem_range.mp hl, hh.1, hh.2⟩)

theorem getshipat_eq (g : Game) (b : Bool) (f : Fleet (g.players b)) (hr : Ready (g.players b)) {i : Nat} (hi : i < 5) {x y : Int} (ho : On ((g.players b).ships i) x y) :
    getshipat g b x y = some i := by
  have hb := f.shown i hi (hr i hi) x y ho
  unfold getshipat
  rw [if_neg (by rw [hb]; exact (kind_facts f hi).2.2.1), hb]
  have h0 : ∀ j, j < 5 → (((g.players b).ships j).symbol == ((g.players b).ships i).symbol) = decide (j = i) := by
    intro j hj
    by_cases e : j = i
    · subst e; simp
    · simp only [e, decide_false, beq_eq_false_iff_ne]
      exact fun h => e (symbol_inj f hj hi h)
  have : (List.range 5).find? (fun k => ((g.players b).ships k).symbol == ((g.players b).ships i).symbol) = (List.range 5).find? (fun k => decide (k = i)) := by
    have e5 : List.range 5 = [0, 1, 2, 3, 4] := rfl
    rw [e5]
    simp only [List.find?, h0 0 (by omega), h0 1 (by omega), h0 2 (by omega), h0 3 (by omega), h0 4 (by omega)]
  rw [this]
  match i, hi with
  | 0, _ | 1, _ | 2, _ | 3, _ | 4, _ => rfl

/-- A square of a ship that has not been shelled. -/
theorem cellsShot_lt (s : Ship) (t : Grid) {x y : Int} (h : On s x y) (hz : t x y = 0) : cellsShot s t < s.length := by
  obtain ⟨l, hl, hx, hy⟩ := h
  unfold cellsShot
  have hle := List.countP_le_length (p := fun l : Nat => decide (t (s.x + l * dx s.dir) (s.y + l * dy s.dir) ≠ 0)) (l := List.range s.length)
  rw [List.length_range] at hle
  refine Nat.lt_of_le_of_ne hle (fun he => ?_)
  have := List.countP_eq_length.mp (he.trans List.length_range.symm) l (List.mem_range.mpr hl)
  rw [← hx, ← hy, hz] at this
  simp at this

theorem fleet_hit {p : Player} (f : Fleet p) (i : Nat) (shots : Grid) : Fleet { p with ships := hit p.ships i, shots := shots } := by
  have hsame : ∀ j, (hit p.ships i j).symbol = (p.ships j).symbol ∧ (hit p.ships i j).length = (p.ships j).length ∧ (hit p.ships i j).dir = (p.ships j).dir ∧ (hit p.ships i j).placed = (p.ships j).placed := by
    intro j; unfold hit; by_cases e : j = i
    · subst e; rw [if_pos rfl]; exact ⟨rfl, rfl, rfl, rfl⟩
    · rw [if_neg e]; exact ⟨rfl, rfl, rfl, rfl⟩
  have hon : ∀ j x y, On (hit p.ships i j) x y ↔ On (p.ships j) x y := by
    intro j x y; unfold hit; by_cases e : j = i
    · subst e; rw [if_pos rfl]; exact Iff.rfl
    · rw [if_neg e]
  refine ⟨?_, ?_, ?_, ?_, ?_, ?_⟩
  · intro j hj; simp only; rw [(hsame j).1, (hsame j).2.1]; exact f.kind j hj
  · intro j hj hp; simp only at hp ⊢; rw [(hsame j).2.2.2] at hp; rw [(hsame j).2.2.1]; exact f.straight j hj hp
  · intro j hj hp x y ho; simp only at hp ho; rw [(hsame j).2.2.2] at hp; exact f.inside j hj hp x y ((hon j x y).mp ho)
  · intro j hj hp x y ho; simp only at hp ho ⊢; rw [(hsame j).2.2.2] at hp; rw [(hsame j).1]; exact f.shown j hj hp x y ((hon j x y).mp ho)
  · intro x y hb
    obtain ⟨j, hj, hp, ho⟩ := f.only x y hb
    exact ⟨j, hj, by simp only; rw [(hsame j).2.2.2]; exact hp, (hon j x y).mpr ho⟩
  · intro j k hj hk hne hpj hpk x y x' y' h1 h2
    simp only at hpj hpk h1 h2
    rw [(hsame j).2.2.2] at hpj
    rw [(hsame k).2.2.2] at hpk
    exact f.apart j k hj hk hne hpj hpk x y x' y' ((hon j x y).mp h1) ((hon k x' y').mp h2)

theorem players_ext {f : Bool → Player} {p : Bool} {a b : Player} (h1 : f p = a) (h2 : f (!p) = b) : f = fun c => if c = p then a else b := by
  funext c
  by_cases e : c = p
  · rw [if_pos e, e, h1]
  · rw [if_neg e]
    have : c = !p := by cases c <;> cases p <;> simp_all
    rw [this, h2]

/-- What `shoot` does, before a ship that has been sunk is marked. -/
def Shelled (own other : Player) (t : Grid) (sh : Nat → Ship) (x y : Int) (res : Int) : Prop :=
  (res = 0 ∧ (∀ i, i < 5 → ¬ On (other.ships i) x y) ∧ t = own.shots.set x y 111 ∧ sh = other.ships) ∨
  (res = 1 ∧ ∃ i, i < 5 ∧ On (other.ships i) x y ∧ (other.ships i).hits + 1 < (other.ships i).length ∧ t = own.shots.set x y 72 ∧ sh = hit other.ships i) ∨
  (res = -1 ∧ ∃ i, i < 5 ∧ On (other.ships i) x y ∧ (other.ships i).hits + 1 = (other.ships i).length ∧ sh = hit other.ships i ∧
      (∀ a b, Around (other.ships i) a b → t a b = 111) ∧ (∀ a b, ¬ Around (other.ships i) a b → t a b = own.shots a b))

theorem shoot_spec (g : Game) (p : Bool) (x y : Int) (hc : g.closepack = false) (ht : g.turn = p) (sd : Side (g.players p) (g.players (!p)))
    (hin : Inside x y) (hz : (g.players p).shots x y = 0) :
    ∃ G res t sh, shoot g p x y = .ok (G, res) ∧ G.players p = { g.players p with shots := t } ∧ G.players (!p) = { g.players (!p) with ships := sh } ∧
      G.closepack = g.closepack ∧ G.turn = g.turn ∧ G.sunk_by_ai = g.sunk_by_ai ∧ Shelled (g.players p) (g.players (!p)) t sh x y res := by
  unfold shoot
  rw [(valid_iff x y).mpr hin]
  simp only [Bool.not_true, Bool.false_eq_true, if_false]
  by_cases hb : (g.players (!p)).board x y = 0
  · rw [if_pos hb]
    refine ⟨_, _, _, (g.players (!p)).ships, rfl, set_self _ _ _, set_other _ _ _, rfl, rfl, rfl, .inl ⟨rfl, ?_, rfl, rfl⟩⟩
    intro i hi ho
    have := sd.fleet.shown i hi (sd.ready i hi) x y ho
    rw [hb] at this
    exact (kind_facts sd.fleet hi).2.2.1 this.symm
  · rw [if_neg hb]
    obtain ⟨i, hi, _, ho⟩ := sd.fleet.only x y hb
    have hget : getshipat (g.set p { g.players p with shots := (g.players p).shots.set x y 72 }) (!p) x y = some i := by
      refine getshipat_eq _ _ ?_ ?_ hi ?_ <;> rw [set_other]
      · exact sd.fleet
      · exact sd.ready
      · exact ho
    rw [hget]
    simp only [shoot_ship, set_other]
    have hlt : ((g.players (!p)).ships i).hits < ((g.players (!p)).ships i).length := by
      rw [sd.hits i hi]; exact cellsShot_lt _ _ ho hz
    have e1 : ((g.set p { g.players p with shots := (g.players p).shots.set x y 72 }).setShip (!p) i { (g.players (!p)).ships i with hits := ((g.players (!p)).ships i).hits + 1 }).players (!p) = { g.players (!p) with ships := hit (g.players (!p)).ships i } := by
      rw [Game.setShip, set_self, set_other]; rfl
    have e2 : ((g.set p { g.players p with shots := (g.players p).shots.set x y 72 }).setShip (!p) i { (g.players (!p)).ships i with hits := ((g.players (!p)).ships i).hits + 1 }).players p = { g.players p with shots := (g.players p).shots.set x y 72 } := by
      rw [Game.setShip, set_other', set_self]
    by_cases ha : ((g.players (!p)).ships i).hits + 1 < ((g.players (!p)).ships i).length
    · have hf : ship_afloat { (g.players (!p)).ships i with hits := ((g.players (!p)).ships i).hits + 1 } = true := by simp [ship_afloat, ha]
      rw [hf]
      simp only [Bool.not_true, Bool.false_eq_true, if_false]
      exact ⟨_, _, _, _, rfl, e2, e1, rfl, rfl, rfl, .inr (.inl ⟨rfl, i, hi, ho, ha, rfl, rfl⟩)⟩
    · have hf : ship_afloat { (g.players (!p)).ships i with hits := ((g.players (!p)).ships i).hits + 1 } = false := by simp [ship_afloat]; omega
      rw [hf]
      simp only [Bool.not_false, if_true]
      obtain ⟨t, w1, w2, w3⟩ := water_eq ((g.set p { g.players p with shots := (g.players p).shots.set x y 72 }).setShip (!p) i { (g.players (!p)).ships i with hits := ((g.players (!p)).ships i).hits + 1 })
        { (g.players (!p)).ships i with hits := ((g.players (!p)).ships i).hits + 1 } hc (sd.fleet.straight i hi (sd.ready i hi)) (by have := (kind_facts sd.fleet hi).1; simp only; omega)
      rw [w1]
      have et : ((g.set p { g.players p with shots := (g.players p).shots.set x y 72 }).setShip (!p) i { (g.players (!p)).ships i with hits := ((g.players (!p)).ships i).hits + 1 }).turn = p := ht
      rw [et] at w3 ⊢
      rw [e2] at w3 ⊢
      refine ⟨_, _, t, _, rfl, set_self _ _ _, (set_other _ _ _).trans e1, rfl, rfl, rfl, .inr (.inr ⟨rfl, i, hi, ho, by omega, rfl, ?_, ?_⟩)⟩
      · exact w2
      · intro a b hn
        rw [w3 a b hn]
        simp only [Grid.set]
        rw [if_neg]
        rintro ⟨rfl, rfl⟩
        exact hn ⟨hin, a, b, ho, by unfold Near; omega⟩

/-- The ship is marked. -/
theorem sink_spec (own other : Player) (G : Game) (p : Bool) (t : Grid) (sh : Nat → Ship) (x y : Int) (sd : Side own other)
    (h1 : G.players p = { own with shots := t }) (h2 : G.players (!p) = { other with ships := sh }) (hs : Shelled own other t sh x y (-1)) :
    ∃ i, i < 5 ∧ getshipat G (!p) x y = some i ∧ ∃ t', mark_sunk G p ((G.players (!p)).ships i) = .ok (G.set p { own with shots := t' }) ∧
      Fired own other { own with shots := t' } { other with ships := sh } x y (-1) ∧ ∀ a b, t' a b ≠ 0 ↔ t a b ≠ 0 := by
  rcases hs with ⟨h, _⟩ | ⟨h, _⟩ | ⟨_, i, hi, ho, hl, hsh, ha, hn⟩
  · simp at h
  · simp at h
  · have hon : ∀ a b, On (sh i) a b ↔ On (other.ships i) a b := by
      intro a b; rw [hsh]; simp only [hit, if_true]; exact Iff.rfl
    have hf : Fleet (G.players (!p)) := by rw [h2, hsh]; exact fleet_hit sd.fleet i _
    have hr : Ready (G.players (!p)) := by
      rw [h2, hsh]; intro j hj; simp only [hit]
      by_cases e : j = i
      · subst e; rw [if_pos rfl]; exact sd.ready j hj
      · rw [if_neg e]; exact sd.ready j hj
    have hoi : On ((G.players (!p)).ships i) x y := by rw [h2]; exact (hon x y).mpr ho
    refine ⟨i, hi, getshipat_eq G (!p) hf hr hi hoi, ?_⟩
    obtain ⟨t', m1, m2, m3⟩ := mark_sunk_eq G p ((G.players (!p)).ships i) (hf.straight i hi (hr i hi)) (hf.inside i hi (hr i hi))
    rw [h1] at m1 m3
    rw [h2] at m2 m3
    refine ⟨t', m1, ⟨rfl, rfl, rfl, rfl, .inr (.inr ⟨rfl, i, hi, ho, hl, hsh, ?_, ?_, ?_⟩)⟩, ?_⟩
    · intro a b hab
      simp only
      rw [m2 a b ((hon a b).mpr hab)]
      simp only [hsh, hit, if_true]
    · intro a b hab har
      simp only
      rw [m3 a b (fun h => hab ((hon a b).mp h))]
      exact ha a b har
    · intro a b hab
      simp only
      rw [m3 a b (fun h => hab ⟨sd.fleet.inside i hi (sd.ready i hi) a b ((hon a b).mp h), a, b, (hon a b).mp h, by unfold Near; omega⟩)]
      exact hn a b hab
    · intro a b
      by_cases hab : On (other.ships i) a b
      · rw [m2 a b ((hon a b).mpr hab), ha a b ⟨sd.fleet.inside i hi (sd.ready i hi) a b hab, a, b, hab, by unfold Near; omega⟩]
        simp only [hsh, hit, if_true]
        exact ⟨fun _ => by decide, fun _ => (kind_facts sd.fleet hi).2.2.1⟩
      · rw [m3 a b (fun h => hab ((hon a b).mp h))]

theorem countP_one (l : List Nat) (p q : Nat → Bool) (k : Nat) (hk : k ∈ l) (hn : l.Nodup) (h : ∀ i ∈ l, i ≠ k → q i = p i) (h0 : p k = false) (h1 : q k = true) :
    l.countP q = l.countP p + 1 := by
  induction l with
  | nil => simp at hk
  | cons a l ih =>
    obtain ⟨hna, hnl⟩ := List.nodup_cons.mp hn
    rw [List.countP_cons, List.countP_cons]
    by_cases e : a = k
    · subst e
      rw [h0, h1, if_pos rfl, if_neg (by simp)]
      have : l.countP q = l.countP p := List.countP_congr (fun i hi => by rw [h i (by simp [hi]) (fun e => hna (e ▸ hi))])
      omega
    · rw [h a (by simp) e, ih (by rcases List.mem_cons.mp hk with h | h; exact absurd h.symm e; exact h) hnl (fun i hi => h i (by simp [hi]))]
      omega

/-- Squares of a ship are different. -/
theorem cell_inj (s : Ship) (hs : Straight s.dir) {k l : Nat} (h1 : s.x + k * dx s.dir = s.x + l * dx s.dir) (h2 : s.y + k * dy s.dir = s.y + l * dy s.dir) : k = l := by
  rcases dir_cases hs with ⟨_, a, b⟩ | ⟨_, a, b⟩ | ⟨_, a, b⟩ | ⟨_, a, b⟩ <;> rw [a] at h1 <;> rw [b] at h2 <;> omega

theorem shot_one (s : Ship) (hs : Straight s.dir) (t t' : Grid) {x y : Int} (ho : On s x y) (h0 : t x y = 0) (h1 : t' x y ≠ 0)
    (h : ∀ a b, On s a b → ¬ (a = x ∧ b = y) → (t' a b ≠ 0 ↔ t a b ≠ 0)) : cellsShot s t' = cellsShot s t + 1 := by
  obtain ⟨k, hk, hx, hy⟩ := ho
  unfold cellsShot
  refine countP_one _ _ _ k (List.mem_range.mpr hk) List.nodup_range ?_ ?_ ?_
  · intro i hi hne
    refine decide_eq_decide.mpr (h _ _ ⟨i, List.mem_range.mp hi, rfl, rfl⟩ ?_)
    rintro ⟨e1, e2⟩
    exact hne (cell_inj s hs (e1.trans hx) (e2.trans hy))
  · rw [← hx, ← hy]; simp [h0]
  · rw [← hx, ← hy]; simp [h1]

theorem shot_same (s : Ship) (t t' : Grid) (h : ∀ a b, On s a b → (t' a b ≠ 0 ↔ t a b ≠ 0)) : cellsShot s t' = cellsShot s t := by
  unfold cellsShot
  refine List.countP_congr (fun i hi => ?_)
  have := h _ _ ⟨i, List.mem_range.mp hi, rfl, rfl⟩
  simp only [decide_eq_true_eq]
  exact this

/-- On at most one ship. -/
theorem one_ship {p : Player} (f : Fleet p) (hr : Ready p) {i j : Nat} (hi : i < 5) (hj : j < 5) {x y x' y' : Int} (h1 : On (p.ships i) x y) (h2 : On (p.ships j) x' y') (hn : Near x y x' y') : i = j :=
  Classical.byContradiction fun hne => f.apart i j hi hj hne (hr i hi) (hr j hj) x y x' y' h1 h2 hn

theorem near_self (x y : Int) : Near x y x y := by unfold Near; omega

theorem all_shot (s : Ship) (t : Grid) (h : s.length ≤ cellsShot s t) {a b : Int} (ho : On s a b) : t a b ≠ 0 := by
  intro hz
  have := cellsShot_lt s t ho hz
  omega

/-- The truth stays known. -/
theorem fired_side (own other own' other' : Player) (x y : Int) (res : Int) (sd : Side own other) (hz : own.shots x y = 0) (h : Fired own other own' other' x y res) :
    Side own' other' := by
  obtain ⟨_, _, hbd, _, hcase⟩ := h
  have hst : ∀ i, i < 5 → Straight (other.ships i).dir := fun i hi => sd.fleet.straight i hi (sd.ready i hi)
  have hset : ∀ (v : UInt8) a b, ¬ (a = x ∧ b = y) → own.shots.set x y v a b = own.shots a b := fun v a b hne => by simp only [Grid.set]; rw [if_neg hne]
  have hset' : ∀ (v : UInt8), own.shots.set x y v x y = v := fun v => by simp [Grid.set]
  rcases hcase with ⟨_, hno, hsh, hships⟩ | ⟨_, i, hi, ho, hl, hsh, hships⟩ | ⟨_, i, hi, ho, hl, hships, s1, s2, s3⟩
  · have hne : ∀ i, i < 5 → ∀ a b, On (other.ships i) a b → ¬ (a = x ∧ b = y) := by
      rintro i hi a b hab ⟨rfl, rfl⟩; exact hno i hi hab
    have hoth : other' = { other with shots := other'.shots } := by cases other'; simp only at hbd hships; rw [hbd, hships]
    refine ⟨?_, ?_, ?_, ?_, ?_⟩
    · rw [hoth]; exact ⟨sd.fleet.kind, sd.fleet.straight, sd.fleet.inside, sd.fleet.shown, sd.fleet.only, sd.fleet.apart⟩
    · intro j hj; rw [hships]; exact sd.ready j hj
    · intro j hj
      rw [hships, hsh, sd.hits j hj]
      exact (shot_same _ _ _ (fun a b hab => by rw [hset _ a b (hne j hj a b hab)])).symm
    · intro j hj a b hab hs
      rw [hships] at hab ⊢
      rw [hsh, hset _ a b (hne j hj a b hab)] at hs ⊢
      exact sd.ship j hj a b hab hs
    · intro a b hn hs
      rw [hships] at hn
      rw [hsh] at hs ⊢
      by_cases e : a = x ∧ b = y
      · rw [e.1, e.2]; exact hset' _
      · rw [hset _ a b e] at hs ⊢; exact sd.water a b hn hs
  · have hoth : other' = { other with ships := hit other.ships i, shots := other'.shots } := by cases other'; simp only at hbd hships; rw [hbd, hships]
    have hon : ∀ j a b, On (hit other.ships i j) a b ↔ On (other.ships j) a b := by
      intro j a b; unfold hit; by_cases e : j = i
      · subst e; rw [if_pos rfl]; exact Iff.rfl
      · rw [if_neg e]
    have hother : ∀ j, j < 5 → j ≠ i → ∀ a b, On (other.ships j) a b → ¬ (a = x ∧ b = y) := by
      rintro j hj hji a b hab ⟨rfl, rfl⟩
      exact hji (one_ship sd.fleet sd.ready hj hi hab ho (near_self _ _))
    refine ⟨?_, ?_, ?_, ?_, ?_⟩
    · rw [hoth]; exact fleet_hit sd.fleet i _
    · intro j hj; rw [hships]; unfold hit; by_cases e : j = i
      · subst e; rw [if_pos rfl]; exact sd.ready j hj
      · rw [if_neg e]; exact sd.ready j hj
    · intro j hj
      rw [hships, hsh]; unfold hit; by_cases e : j = i
      · subst e; rw [if_pos rfl]
        have := shot_one (other.ships j) (hst j hj) own.shots (own.shots.set x y 72) ho hz (by rw [hset']; decide) (fun a b _ hne => by rw [hset _ a b hne])
        simp only
        rw [sd.hits j hj, ← this]
        rfl
      · rw [if_neg e, sd.hits j hj]
        exact (shot_same _ _ _ (fun a b hab => by rw [hset _ a b (hother j hj e a b hab)])).symm
    · intro j hj a b hab hs
      rw [hships] at hab ⊢
      rw [hsh] at hs ⊢
      have hab' := (hon j a b).mp hab
      unfold hit
      by_cases e : j = i
      · subst e; rw [if_pos rfl]
        simp only
        rw [if_pos hl]
        by_cases e2 : a = x ∧ b = y
        · rw [e2.1, e2.2]; exact hset' _
        · rw [hset _ a b e2] at hs ⊢
          rw [sd.ship j hj a b hab' hs, if_pos (by omega)]
      · rw [if_neg e]
        rw [hset _ a b (hother j hj e a b hab')] at hs ⊢
        exact sd.ship j hj a b hab' hs
    · intro a b hn hs
      rw [hships] at hn
      rw [hsh] at hs ⊢
      have e : ¬ (a = x ∧ b = y) := by rintro ⟨rfl, rfl⟩; exact hn i hi ((hon i a b).mpr ho)
      rw [hset _ a b e] at hs ⊢
      exact sd.water a b (fun j hj h => hn j hj ((hon j a b).mpr h)) hs
  · have hoth : other' = { other with ships := hit other.ships i, shots := other'.shots } := by cases other'; simp only at hbd hships; rw [hbd, hships]
    have hon : ∀ j a b, On (hit other.ships i j) a b ↔ On (other.ships j) a b := by
      intro j a b; unfold hit; by_cases e : j = i
      · subst e; rw [if_pos rfl]; exact Iff.rfl
      · rw [if_neg e]
    have hfar : ∀ j, j < 5 → j ≠ i → ∀ a b, On (other.ships j) a b → ¬ Around (other.ships i) a b := by
      rintro j hj hji a b hab ⟨_, c, d, hcd, hn⟩
      exact hji (one_ship sd.fleet sd.ready hi hj hcd hab hn).symm
    have hshot : ∀ a b, On (other.ships i) a b → ¬ (a = x ∧ b = y) → own.shots a b ≠ 0 := by
      intro a b hab hne hz'
      obtain ⟨t1, ht1⟩ : ∃ t1, t1 = own.shots.set x y 72 := ⟨_, rfl⟩
      have h1 := shot_one (other.ships i) (hst i hi) own.shots t1 ho hz (by rw [ht1, hset']; decide) (fun a b _ hne => by rw [ht1, hset _ a b hne])
      rw [← sd.hits i hi, hl] at h1
      have := cellsShot_lt (other.ships i) t1 hab (by rw [ht1, hset _ a b hne]; exact hz')
      omega
    refine ⟨?_, ?_, ?_, ?_, ?_⟩
    · rw [hoth]; exact fleet_hit sd.fleet i _
    · intro j hj; rw [hships]; unfold hit; by_cases e : j = i
      · subst e; rw [if_pos rfl]; exact sd.ready j hj
      · rw [if_neg e]; exact sd.ready j hj
    · intro j hj
      rw [hships]; unfold hit; by_cases e : j = i
      · subst e; rw [if_pos rfl]
        have := shot_one (other.ships j) (hst j hj) own.shots own'.shots ho hz (by rw [s1 _ _ ho]; exact (kind_facts sd.fleet hi).2.2.1)
          (fun a b hab hne => ⟨fun _ => hshot a b hab hne, fun _ => by rw [s1 a b hab]; exact (kind_facts sd.fleet hi).2.2.1⟩)
        simp only
        rw [sd.hits j hj, ← this]
        rfl
      · rw [if_neg e, sd.hits j hj]
        exact (shot_same _ _ _ (fun a b hab => by rw [s3 a b (hfar j hj e a b hab)])).symm
    · intro j hj a b hab hs
      rw [hships] at hab ⊢
      have hab' := (hon j a b).mp hab
      unfold hit
      by_cases e : j = i
      · subst e; rw [if_pos rfl]
        simp only
        rw [if_neg (by omega)]
        exact s1 a b hab'
      · rw [if_neg e]
        rw [s3 a b (hfar j hj e a b hab')] at hs ⊢
        exact sd.ship j hj a b hab' hs
    · intro a b hn hs
      rw [hships] at hn
      have hn' : ∀ j, j < 5 → ¬ On (other.ships j) a b := fun j hj h => hn j hj ((hon j a b).mpr h)
      by_cases har : Around (other.ships i) a b
      · exact s2 a b (hn' i hi) har
      · rw [s3 a b har] at hs ⊢; exact sd.water a b hn' hs
end Che.Prog.Battleship
