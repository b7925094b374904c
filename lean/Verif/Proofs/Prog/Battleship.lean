import Verif.Spec.Lib.Battleship

namespace Che.Prog.Battleship
open Che Che.Lib Che.Spec.Battleship

theorem valid_iff (x y : Int) : coords_valid x y = true ↔ Inside x y := by
  simp only [coords_valid, Inside, decide_eq_true_eq, ge_iff_le]

theorem xincr_eq {d : Nat} (h : Straight d) : xincr d = dx d := by rcases h with rfl | rfl | rfl | rfl <;> rfl
theorem yincr_eq {d : Nat} (h : Straight d) : yincr d = dy d := by rcases h with rfl | rfl | rfl | rfl <;> rfl
theorem straight_lt {d : Nat} (h : Straight d) : d < 8 := by rcases h with rfl | rfl | rfl | rfl <;> decide

/-- What a direction is. -/
theorem dir_cases {d : Nat} (h : Straight d) :
    (d = 0 ∧ dx d = 1 ∧ dy d = 0) ∨ (d = 2 ∧ dx d = 0 ∧ dy d = 1) ∨ (d = 4 ∧ dx d = -1 ∧ dy d = 0) ∨ (d = 6 ∧ dx d = 0 ∧ dy d = -1) := by
  rcases h with rfl | rfl | rfl | rfl <;> decide

theorem kind_facts {p : Player} (f : Fleet p) {i : Nat} (hi : i < 5) :
    2 ≤ (p.ships i).length ∧ (p.ships i).length ≤ 5 ∧ (p.ships i).symbol ≠ 0 ∧ is_ship (p.ships i).symbol = true := by
  have h := f.kind i hi
  match i, hi with
  | 0, _ | 1, _ | 2, _ | 3, _ | 4, _ =>
    simp only [kinds, List.getD_cons_zero, List.getD_cons_succ, Prod.mk.injEq] at h
    rw [h.1, h.2]
    decide

theorem symbol_inj {p : Player} (f : Fleet p) {i j : Nat} (hi : i < 5) (hj : j < 5) (h : (p.ships i).symbol = (p.ships j).symbol) : i = j := by
  have a := f.kind i hi
  have b := f.kind j hj
  have : ∀ i : Fin 5, ∀ j : Fin 5, (kinds.getD i.val (0, 0)).1 = (kinds.getD j.val (0, 0)).1 → i.val = j.val := by decide
  refine this ⟨i, hi⟩ ⟨j, hj⟩ ?_
  simp only
  rw [← a, ← b]
  exact h

/-! ### Placing ships -/

theorem no_collision (g : Game) (b : Bool) (x y : Int) (hc : g.closepack = false) (hin : Inside x y) :
    ∃ c, has_collision g b y x = .ok c ∧ (c = false ↔ ∀ x' y', Inside x' y' → Near x y x' y' → is_ship ((g.players b).board x' y') = false) := by
  unfold has_collision
  have hv := (valid_iff x y).mpr hin
  rw [hv]
  simp only [Bool.not_true, Bool.false_eq_true, if_false, hc]
  by_cases h0 : is_ship ((g.players b).board x y) = true
  · rw [if_pos h0]
    refine ⟨true, rfl, by simp, fun h => ?_⟩
    have := h x y hin (by unfold Near; omega)
    rw [h0] at this
    exact this
  · rw [if_neg h0]
    refine ⟨_, rfl, ?_⟩
    rw [List.any_eq_false]
    simp only [Bool.not_eq_true] at h0
    constructor
    · intro h x' y' hin' hn
      have key : ∀ i, i < 8 → x' = x + xincr i → y' = y + yincr i → is_ship ((g.players b).board x' y') = false := by
        intro i hi hx hy
        have := h i (List.mem_range.mpr hi)
        rw [← hx, ← hy, (valid_iff x' y').mpr hin', Bool.true_and] at this
        simpa using this
      unfold Near at hn
      by_cases e1 : x' = x + 1
      · by_cases e2 : y' = y + 1
        · exact key 1 (by omega) e1 e2
        · by_cases e3 : y' = y
          · exact key 0 (by omega) e1 (by rw [e3]; simp [yincr])
          · exact key 7 (by omega) e1 (by have : yincr 7 = -1 := rfl; omega)
      · by_cases e4 : x' = x
        · by_cases e2 : y' = y + 1
          · exact key 2 (by omega) (by rw [e4]; simp [xincr]) e2
          · by_cases e3 : y' = y
            · rw [e4, e3]; exact h0
            · exact key 6 (by omega) (by rw [e4]; simp [xincr]) (by have : yincr 6 = -1 := rfl; omega)
        · by_cases e2 : y' = y + 1
          · exact key 3 (by omega) (by have : xincr 3 = -1 := rfl; omega) e2
          · by_cases e3 : y' = y
            · exact key 4 (by omega) (by have : xincr 4 = -1 := rfl; omega) (by rw [e3]; simp [yincr])
            · exact key 5 (by omega) (by have : xincr 5 = -1 := rfl; omega) (by have : yincr 5 = -1 := rfl; omega)
    · intro h i hi
      simp only [Bool.and_eq_true, not_and, Bool.not_eq_true]
      intro hv'
      have hi' := List.mem_range.mp hi
      refine h _ _ ((valid_iff _ _).mp hv') ?_
      have hb : ∀ i : Fin 8, -1 ≤ xincr i.val ∧ xincr i.val ≤ 1 ∧ -1 ≤ yincr i.val ∧ yincr i.val ≤ 1 := by decide
      have := hb ⟨i, hi'⟩
      simp only at this
      unfold Near
      omega

theorem collideLoop_eq (g : Game) (b : Bool) (ss : Ship) (hc : g.closepack = false) (ls : List Nat)
    (hin : ∀ l ∈ ls, Inside (ss.x + l * xincr ss.dir) (ss.y + l * yincr ss.dir)) :
    ∃ e, collideLoop g b ss ls = .ok e ∧ (e = 0 ↔ ∀ l ∈ ls, ∀ x' y', Inside x' y' → Near (ss.x + l * xincr ss.dir) (ss.y + l * yincr ss.dir) x' y' → is_ship ((g.players b).board x' y') = false) := by
  induction ls with
  | nil => exact ⟨0, rfl, by simp⟩
  | cons l ls ih =>
    obtain ⟨e, h1, h2⟩ := ih (fun k hk => hin k (by simp [hk]))
    obtain ⟨c, h3, h4⟩ := no_collision g b _ _ hc (hin l (by simp))
    rw [collideLoop, h3]
    simp only [Res.bind]
    cases c with
    | true =>
      rw [if_pos rfl]
      refine ⟨2, rfl, by simp, fun h => ?_⟩
      exact absurd (h4.mpr (h l (by simp))) (by simp)
    | false =>
      rw [if_neg (by simp)]
      refine ⟨e, h1, ?_⟩
      rw [h2]
      constructor
      · intro h k hk
        rcases List.mem_cons.mp hk with rfl | hk
        · exact h4.mp rfl
        · exact h k hk
      · intro h k hk
        exact h k (by simp [hk])

/-- A ship between two squares of the board is on the board. -/
theorem between (s : Ship) (hs : Straight s.dir) (h0 : Inside s.x s.y) (hl : 0 < s.length)
    (h1 : Inside (s.x + (s.length - 1) * dx s.dir) (s.y + (s.length - 1) * dy s.dir)) (l : Nat) (hlt : l < s.length) :
    Inside (s.x + l * dx s.dir) (s.y + l * dy s.dir) := by
  unfold Inside at *
  rcases dir_cases hs with ⟨_, a, b⟩ | ⟨_, a, b⟩ | ⟨_, a, b⟩ | ⟨_, a, b⟩ <;> rw [a, b] at h1 ⊢ <;> omega

theorem checkplacement_eq (g : Game) (b : Bool) (ss : Ship) (hc : g.closepack = false) (f : Fleet (g.players b)) (hs : Straight ss.dir) (h0 : Inside ss.x ss.y) (hl : 0 < ss.length) :
    ∃ e, checkplacement g b ss = .ok e ∧ (e = 0 ↔ Fits (g.players b) ss) := by
  unfold checkplacement
  rw [if_neg (by have := straight_lt hs; omega)]
  have hcell : ∀ l : Nat, ss.x + l * xincr ss.dir = ss.x + l * dx ss.dir ∧ ss.y + l * yincr ss.dir = ss.y + l * dy ss.dir := fun l => by rw [xincr_eq hs, yincr_eq hs]; exact ⟨rfl, rfl⟩
  by_cases hv : Inside (ss.x + (ss.length - 1) * dx ss.dir) (ss.y + (ss.length - 1) * dy ss.dir)
  · rw [xincr_eq hs, yincr_eq hs, (valid_iff _ _).mpr hv]
    simp only [Bool.not_true, Bool.false_eq_true, if_false]
    have hb := between ss hs h0 hl hv
    obtain ⟨e, h1, h2⟩ := collideLoop_eq g b ss hc (List.range ss.length) (fun l hl' => by
      obtain ⟨a, c⟩ := hcell l; rw [a, c]; exact hb l (List.mem_range.mp hl'))
    refine ⟨e, h1, ?_⟩
    rw [h2]
    constructor
    · intro h
      refine ⟨fun x y ⟨l, hlt, hx, hy⟩ => by rw [hx, hy]; exact hb l hlt, ?_⟩
      intro j hj hp x y x' y' ⟨l, hlt, hx, hy⟩ hon hn
      have hin' := f.inside j hj hp x' y' hon
      have := h l (List.mem_range.mpr hlt) x' y' hin' (by obtain ⟨a, c⟩ := hcell l; rw [a, c, ← hx, ← hy]; exact hn)
      rw [f.shown j hj hp x' y' hon, (kind_facts f hj).2.2.2] at this
      simp at this
    · intro h l hlt x' y' hin' hn
      by_cases hz : (g.players b).board x' y' = 0
      · rw [hz]; rfl
      · obtain ⟨j, hj, hp, hon⟩ := f.only x' y' hz
        obtain ⟨a, c⟩ := hcell l
        rw [a, c] at hn
        exact absurd hn (h.2 j hj hp _ _ x' y' ⟨l, List.mem_range.mp hlt, rfl, rfl⟩ hon)
  · rw [xincr_eq hs, yincr_eq hs]
    have hv' : coords_valid (ss.x + (ss.length - 1) * dx ss.dir) (ss.y + (ss.length - 1) * dy ss.dir) = false := by
      rw [← Bool.not_eq_true, valid_iff]; exact hv
    rw [hv']
    refine ⟨1, rfl, by simp, fun h => ?_⟩
    refine absurd (h.1 _ _ ⟨ss.length - 1, by omega, ?_, ?_⟩) hv
    · rw [Int.natCast_sub (by omega)]; rfl
    · rw [Int.natCast_sub (by omega)]; rfl

theorem placeLoop_eq (ss : Ship) (hs : Straight ss.dir) (ls : List Nat) (t : Grid) (hin : ∀ l ∈ ls, Inside (ss.x + l * dx ss.dir) (ss.y + l * dy ss.dir)) :
    ∃ t', placeLoop ss ls t = .ok t' ∧ (∀ l ∈ ls, t' (ss.x + l * dx ss.dir) (ss.y + l * dy ss.dir) = ss.symbol) ∧
      ∀ x y, (∀ l ∈ ls, ¬ (x = ss.x + l * dx ss.dir ∧ y = ss.y + l * dy ss.dir)) → t' x y = t x y := by
  induction ls generalizing t with
  | nil => exact ⟨t, rfl, by simp, fun _ _ _ => rfl⟩
  | cons l ls ih =>
    obtain ⟨t', h1, h2, h3⟩ := ih (t.set (ss.x + l * dx ss.dir) (ss.y + l * dy ss.dir) ss.symbol) (fun k hk => hin k (by simp [hk]))
    refine ⟨t', ?_, ?_, ?_⟩
    · rw [placeLoop, xincr_eq hs, yincr_eq hs, (valid_iff _ _).mpr (hin l (by simp))]
      simpa using h1
    · intro k hk
      by_cases hm : k ∈ ls
      · exact h2 k hm
      · rcases List.mem_cons.mp hk with rfl | hk
        · by_cases hany : ∀ l ∈ ls, ¬ (ss.x + k * dx ss.dir = ss.x + l * dx ss.dir ∧ ss.y + k * dy ss.dir = ss.y + l * dy ss.dir)
          · rw [h3 _ _ hany]; simp [Grid.set]
          · simp only [Classical.not_forall, Classical.not_not] at hany
            obtain ⟨m, hm2, e1, e2⟩ := hany
            rw [e1, e2]; exact h2 m hm2
        · exact absurd hk hm
    · intro x y hn
      rw [h3 x y (fun k hk => hn k (by simp [hk]))]
      simp only [Grid.set]
      rw [if_neg (hn l (by simp))]

/-- Placing a ship: it is placed exactly if it fits. -/
theorem placeship_eq (g : Game) (b : Bool) (ss : Ship) (hc : g.closepack = false) (f : Fleet (g.players b)) (hs : Straight ss.dir) (h0 : Inside ss.x ss.y) (hl : 0 < ss.length) :
    (¬ Fits (g.players b) ss → ∃ e, e ≠ 0 ∧ placeship g b ss = .ok (g, e)) ∧
    (Fits (g.players b) ss → ∃ t, placeship g b ss = .ok (g.set b { g.players b with board := t }, 0) ∧ (∀ x y, On ss x y → t x y = ss.symbol) ∧
      ∀ x y, ¬ On ss x y → t x y = (g.players b).board x y) := by
  obtain ⟨e, h1, h2⟩ := checkplacement_eq g b ss hc f hs h0 hl
  unfold placeship
  rw [h1]
  simp only [Res.bind]
  constructor
  · intro h
    have he : e ≠ 0 := fun x => h (h2.mp x)
    rw [if_pos he]
    exact ⟨e, he, rfl⟩
  · intro h
    rw [if_neg (by simpa using h2.mpr h)]
    obtain ⟨t, p1, p2, p3⟩ := placeLoop_eq ss hs (List.range ss.length) (g.players b).board (fun l hl' => h.1 _ _ ⟨l, List.mem_range.mp hl', rfl, rfl⟩)
    rw [p1]
    refine ⟨t, rfl, ?_, ?_⟩
    · intro x y ⟨l, hlt, hx, hy⟩
      rw [hx, hy]; exact p2 l (List.mem_range.mpr hlt)
    · intro x y hn
      exact p3 x y (fun l hl' hh => hn ⟨l, List.mem_range.mp hl', hh.1, hh.2⟩)

/-- The ships with one more of them. -/
theorem fleet_add (p : Player) (f : Fleet p) (i : Nat) (hi : i < 5) (hnot : (p.ships i).placed = false) (ss : Ship) (t : Grid)
    (hk : ss.symbol = (p.ships i).symbol ∧ ss.length = (p.ships i).length) (hs : Straight ss.dir) (hf : Fits p ss)
    (h1 : ∀ x y, On ss x y → t x y = ss.symbol) (h2 : ∀ x y, ¬ On ss x y → t x y = p.board x y) (shots : Grid) :
    Fleet { board := t, shots := shots, ships := fun j => if j = i then { ss with placed := true } else p.ships j } := by
  have hon : ∀ x y, On { ss with placed := true } x y ↔ On ss x y := fun x y => Iff.rfl
  refine ⟨?_, ?_, ?_, ?_, ?_, ?_⟩
  · intro j hj
    simp only
    by_cases e : j = i
    · subst e; rw [if_pos rfl]; simp only [hk.1, hk.2]; exact f.kind j hj
    · rw [if_neg e]; exact f.kind j hj
  · intro j hj hp
    simp only at hp ⊢
    by_cases e : j = i
    · rw [if_pos e]; exact hs
    · rw [if_neg e] at hp ⊢; exact f.straight j hj hp
  · intro j hj hp x y ho
    simp only at hp ho
    by_cases e : j = i
    · rw [if_pos e] at ho; exact hf.1 x y ho
    · rw [if_neg e] at hp ho; exact f.inside j hj hp x y ho
  · intro j hj hp x y ho
    simp only at hp ho ⊢
    by_cases e : j = i
    · rw [if_pos e] at ho ⊢; exact h1 x y ho
    · rw [if_neg e] at hp ho ⊢
      rw [h2 x y ?_]
      · exact f.shown j hj hp x y ho
      · intro hss
        exact hf.2 j hj hp x y x y hss ho (by unfold Near; omega)
  · intro x y hb
    simp only at hb
    by_cases ho : On ss x y
    · exact ⟨i, hi, by simp, by simp only [if_true]; exact ho⟩
    · rw [h2 x y ho] at hb
      obtain ⟨j, hj, hp, hoj⟩ := f.only x y hb
      have : j ≠ i := by intro e; rw [e, hnot] at hp; simp at hp
      exact ⟨j, hj, by simp [this, hp], by simpa [this] using hoj⟩
  · intro j k hj hk' hne hpj hpk x y x' y' hoj hok
    simp only at hpj hpk hoj hok
    by_cases ej : j = i
    · have ek : k ≠ i := fun e => hne (by rw [ej, e])
      rw [if_pos ej] at hoj
      rw [if_neg ek] at hpk hok
      exact hf.2 k hk' hpk x y x' y' hoj hok
    · rw [if_neg ej] at hpj hoj
      by_cases ek : k = i
      · rw [if_pos ek] at hok
        intro hn
        exact hf.2 j hj hpj x' y' x y hok hoj (by unfold Near at *; omega)
      · rw [if_neg ek] at hpk hok
        exact f.apart j k hj hk' hne hpj hpk x y x' y' hoj hok

/-- A ship that is not placed may be changed. -/
theorem fleet_same (p : Player) (f : Fleet p) (i : Nat) (hnot : (p.ships i).placed = false) (ss : Ship) (hk : ss.symbol = (p.ships i).symbol ∧ ss.length = (p.ships i).length) (hp : ss.placed = false) :
    Fleet { p with ships := fun j => if j = i then ss else p.ships j } := by
  have key : ∀ j, (if j = i then ss else p.ships j).placed = true → (if j = i then ss else p.ships j) = p.ships j := by
    intro j h
    by_cases e : j = i
    · rw [if_pos e, hp] at h; simp at h
    · rw [if_neg e]
  refine ⟨?_, ?_, ?_, ?_, ?_, ?_⟩
  · intro j hj
    simp only
    by_cases e : j = i
    · subst e; rw [if_pos rfl, hk.1, hk.2]; exact f.kind j hj
    · rw [if_neg e]; exact f.kind j hj
  · intro j hj h
    simp only at h ⊢
    have e := key j h
    rw [e] at h ⊢
    exact f.straight j hj h
  · intro j hj h x y ho
    simp only at h ho
    have e := key j h
    rw [e] at h ho
    exact f.inside j hj h x y ho
  · intro j hj h x y ho
    simp only at h ho ⊢
    have e := key j h
    rw [e] at h ho ⊢
    exact f.shown j hj h x y ho
  · intro x y hb
    obtain ⟨j, hj, h, ho⟩ := f.only x y hb
    have : j ≠ i := by intro e; rw [e, hnot] at h; simp at h
    exact ⟨j, hj, by simp [this, h], by simpa [this] using ho⟩
  · intro j k hj hk' hne hpj hpk x y x' y' hoj hok
    simp only at hpj hpk hoj hok
    have ej := key j hpj
    have ek := key k hpk
    rw [ej] at hpj hoj
    rw [ek] at hpk hok
    exact f.apart j k hj hk' hne hpj hpk x y x' y' hoj hok
end Che.Prog.Battleship
