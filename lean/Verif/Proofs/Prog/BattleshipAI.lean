import Verif.Proofs.Prog.BattleshipShoot

namespace Che.Prog.Battleship
open Che Che.Lib Che.Spec.Battleship

/-! ### Where ships are -/

/-- A ship without its hits. -/
structure Geo where
  x : Int
  y : Int
  dir : Nat
  len : Nat

def geo (p : Player) (i : Nat) : Geo := ⟨(p.ships i).x, (p.ships i).y, (p.ships i).dir, (p.ships i).length⟩

def Geo.cx (G : Geo) (l : Nat) : Int := G.x + l * dx G.dir
def Geo.cy (G : Geo) (l : Nat) : Int := G.y + l * dy G.dir

def opp (d : Nat) : Nat := (d + 4) % 8

theorem on_iff (p : Player) (i : Nat) (x y : Int) : On (p.ships i) x y ↔ ∃ l, l < (geo p i).len ∧ x = (geo p i).cx l ∧ y = (geo p i).cy l := Iff.rfl

structure Ships (G : Nat → Geo) : Prop where
  straight : ∀ i, i < 5 → Straight (G i).dir
  two : ∀ i, i < 5 → 2 ≤ (G i).len
  inside : ∀ i, i < 5 → ∀ l, l < (G i).len → Inside ((G i).cx l) ((G i).cy l)
  near : ∀ i j, i < 5 → j < 5 → ∀ l m, l < (G i).len → m < (G j).len → Near ((G i).cx l) ((G i).cy l) ((G j).cx m) ((G j).cy m) → i = j

theorem side_ships {own other : Player} (sd : Side own other) : Ships (geo other) :=
  ⟨fun i hi => sd.fleet.straight i hi (sd.ready i hi), fun i hi => (kind_facts sd.fleet hi).1,
   fun i hi l hl => sd.fleet.inside i hi (sd.ready i hi) _ _ ⟨l, hl, rfl, rfl⟩,
   fun i j hi hj l m hl hm hn => one_ship sd.fleet sd.ready hi hj ⟨l, hl, rfl, rfl⟩ ⟨m, hm, rfl, rfl⟩ hn⟩

theorem cell_ne (G : Geo) (hs : Straight G.dir) {k l : Nat} (h1 : G.cx k = G.cx l) (h2 : G.cy k = G.cy l) : k = l := by
  unfold Geo.cx at h1; unfold Geo.cy at h2
  rcases dir_cases hs with ⟨_, a, b⟩ | ⟨_, a, b⟩ | ⟨_, a, b⟩ | ⟨_, a, b⟩ <;> rw [a] at h1 <;> rw [b] at h2 <;> omega

/-- The square beside a square of a ship is on the same ship only along the ship. -/
theorem beside (G : Geo) (hs : Straight G.dir) (d : Nat) (hd : Straight d) {a l : Nat} (h1 : G.cx a + dx d = G.cx l) (h2 : G.cy a + dy d = G.cy l) :
    (d = G.dir ∧ l = a + 1) ∨ (d = opp G.dir ∧ l + 1 = a) := by
  unfold Geo.cx at h1; unfold Geo.cy at h2
  unfold opp
  rcases hs with e | e | e | e <;> rw [e] at h1 h2 ⊢ <;> rcases hd with f | f | f | f <;> rw [f] at h1 h2 ⊢ <;> simp only [dx, dy] at h1 h2 <;> omega

theorem fwd (G : Geo) (a : Nat) : G.cx a + dx G.dir = G.cx (a + 1) ∧ G.cy a + dy G.dir = G.cy (a + 1) := by
  unfold Geo.cx Geo.cy
  constructor
  · rw [Int.natCast_add, Int.add_mul]; simp only [Int.natCast_one, Int.one_mul]; omega
  · rw [Int.natCast_add, Int.add_mul]; simp only [Int.natCast_one, Int.one_mul]; omega

theorem opp_dx {d : Nat} (h : Straight d) : dx (opp d) = - dx d ∧ dy (opp d) = - dy d ∧ Straight (opp d) := by
  rcases h with rfl | rfl | rfl | rfl <;> simp [opp, dx, dy, Straight]

theorem bwd (G : Geo) (hs : Straight G.dir) (a : Nat) : G.cx (a + 1) + dx (opp G.dir) = G.cx a ∧ G.cy (a + 1) + dy (opp G.dir) = G.cy a := by
  obtain ⟨h1, h2, _⟩ := opp_dx hs
  obtain ⟨f1, f2⟩ := fwd G a
  rw [h1, h2]
  omega

/-! ### What the computer knows -/

/-- A ship has not been touched, or has been shelled all over. -/
def Clean (G : Geo) (sh : Int → Int → Prop) : Prop := (∀ l, l < G.len → ¬ sh (G.cx l) (G.cy l)) ∨ ∀ l, l < G.len → sh (G.cx l) (G.cy l)

/-- Ship `i` has been shelled at the squares from `a` to `b`, and no other ship has been damaged only. -/
structure Target (G : Nat → Geo) (sh : Int → Int → Prop) (i a b : Nat) : Prop where
  lt : i < 5
  ab : a < b
  le : b ≤ (G i).len
  part : b - a < (G i).len
  seg : ∀ l, l < (G i).len → (sh ((G i).cx l) ((G i).cy l) ↔ a ≤ l ∧ l < b)
  rest : ∀ j, j < 5 → j ≠ i → Clean (G j) sh

/-- At an end of the part that has been shelled, looking away from it. -/
def Front (G : Geo) (a b : Nat) (s : AI) : Prop := s.tsdir = G.dir ∧ s.tsx = G.cx (b - 1) ∧ s.tsy = G.cy (b - 1)
def Back (G : Geo) (a : Nat) (s : AI) : Prop := s.tsdir = opp G.dir ∧ s.tsx = G.cx a ∧ s.tsy = G.cy a

/-- The invariant. -/
structure AInv (G : Nat → Geo) (sh : Int → Int → Prop) (s : AI) : Prop where
  step : s.srchstep ≥ 1
  which : s.next = 0 ∨ s.next = 2 ∨ s.next = 3 ∨ s.next = 4 ∨ s.next = 5
  fire : s.next = 0 → ∀ i, i < 5 → Clean (G i) sh
  hunt : s.next = 2 → ∃ i a, Target G sh i a (a + 1) ∧ s.tsx = (G i).cx a ∧ s.tsy = (G i).cy a ∧ s.tshits = 1 ∧
    ∀ k, k < 4 → s.used k = true → ¬ (Inside (s.tsx + dx (k * 2)) (s.tsy + dy (k * 2)) ∧ ¬ sh (s.tsx + dx (k * 2)) (s.tsy + dy (k * 2)))
  first : s.next = 3 → ∃ i a b, Target G sh i a b ∧ s.tshits = b - a ∧
    ((Front (G i) a b s ∧ (4 ≤ s.tsdir → a = 0)) ∨ (Back (G i) a s ∧ (4 ≤ s.tsdir → b = (G i).len)))
  jump : s.next = 4 → ∃ i a b, Target G sh i a b ∧ s.tshits = b - a ∧ s.tsdir < 4 ∧
    ((Front (G i) a b s ∧ b = (G i).len) ∨ (Back (G i) a s ∧ a = 0))
  second : s.next = 5 → ∃ i a b, Target G sh i a b ∧ s.tshits = b - a ∧ ((Front (G i) a b s ∧ a = 0) ∨ (Back (G i) a s ∧ b = (G i).len))

/-- What a shell does to the squares that have been shelled. -/
structure Eff (G : Nat → Geo) (sh sh' : Int → Int → Prop) (x y : Int) (res : Int) : Prop where
  mono : ∀ a b, sh a b → sh' a b
  here : sh' x y
  which : res = 0 ∨ res = 1 ∨ res = -1
  miss : res = 0 → (∀ i, i < 5 → ∀ l, l < (G i).len → ¬ (x = (G i).cx l ∧ y = (G i).cy l)) ∧ ∀ a b, sh' a b → sh a b ∨ (a = x ∧ b = y)
  hit : res = 1 → ∃ i l, i < 5 ∧ l < (G i).len ∧ x = (G i).cx l ∧ y = (G i).cy l ∧ (∀ a b, sh' a b → sh a b ∨ (a = x ∧ b = y)) ∧ ∃ m, m < (G i).len ∧ ¬ sh' ((G i).cx m) ((G i).cy m)
  sunk : res = -1 → ∃ i l, i < 5 ∧ l < (G i).len ∧ x = (G i).cx l ∧ y = (G i).cy l ∧ (∀ j, j < 5 → j ≠ i → ∀ m, m < (G j).len → sh' ((G j).cx m) ((G j).cy m) → sh ((G j).cx m) ((G j).cy m)) ∧
    ∀ m, m < (G i).len → sh' ((G i).cx m) ((G i).cy m)

variable {G : Nat → Geo} {sh sh' : Int → Int → Prop} {x y res : Int}

theorem clean_of (j : Nat) (hm : ∀ a b, sh a b → sh' a b) (h : ∀ m, m < (G j).len → sh' ((G j).cx m) ((G j).cy m) → sh ((G j).cx m) ((G j).cy m)) (hc : Clean (G j) sh) : Clean (G j) sh' := by
  rcases hc with hc | hc
  · exact .inl fun l hl hs => hc l hl (h l hl hs)
  · exact .inr fun l hl => hm _ _ (hc l hl)

/-- On a ship other than `i`, nothing changes. -/
theorem other_clean (S : Ships G) (hm : ∀ a b, sh a b → sh' a b) (h : ∀ a b, sh' a b → sh a b ∨ (a = x ∧ b = y)) {i l j : Nat} (hi : i < 5) (hl : l < (G i).len) (hx : x = (G i).cx l) (hy : y = (G i).cy l)
    (hj : j < 5) (hji : j ≠ i) (hc : Clean (G j) sh) : Clean (G j) sh' := by
  refine clean_of j hm (fun m hml hs => ?_) hc
  rcases h _ _ hs with h | ⟨e1, e2⟩
  · exact h
  · exact absurd (S.near j i hj hi m l hml hl (by rw [e1, e2, ← hx, ← hy]; exact near_self _ _)) hji

theorem eff_clean (S : Ships G) (e : Eff G sh sh' x y res) (hz : ¬ sh x y) (hc : ∀ i, i < 5 → Clean (G i) sh) :
    (res ≠ 1 → ∀ i, i < 5 → Clean (G i) sh') ∧ (res = 1 → ∃ i a, Target G sh' i a (a + 1) ∧ x = (G i).cx a ∧ y = (G i).cy a) := by
  constructor
  · intro hne
    rcases e.which with h | h | h
    · obtain ⟨h1, h2⟩ := e.miss h
      intro i hi
      refine clean_of i e.mono (fun m hm hs => ?_) (hc i hi)
      rcases h2 _ _ hs with h | ⟨e1, e2⟩
      · exact h
      · exact absurd ⟨e1.symm, e2.symm⟩ (h1 i hi m hm)
    · exact absurd h hne
    · obtain ⟨i, l, hi, hl, hx, hy, h1, h2⟩ := e.sunk h
      intro j hj
      by_cases ej : j = i
      · subst ej; exact .inr h2
      · exact clean_of j e.mono (h1 j hj ej) (hc j hj)
  · intro h
    obtain ⟨i, l, hi, hl, hx, hy, h1, _⟩ := e.hit h
    refine ⟨i, l, ⟨hi, by omega, by omega, by have := S.two i hi; omega, ?_, ?_⟩, hx, hy⟩
    · have hun : ∀ m, m < (G i).len → ¬ sh ((G i).cx m) ((G i).cy m) := by
        rcases hc i hi with hc | hc
        · exact hc
        · exact absurd (hc l hl) (by rw [← hx, ← hy]; exact hz)
      intro m hm
      constructor
      · intro hs
        rcases h1 _ _ hs with h | ⟨e1, e2⟩
        · exact absurd h (hun m hm)
        · have := cell_ne (G i) (S.straight i hi) (e1.trans hx) (e2.trans hy); omega
      · intro hm'
        have : m = l := by omega
        subst this
        rw [← hx, ← hy]; exact e.here
    · intro j hj hji
      exact other_clean S e.mono h1 hi hl hx hy hj hji (hc j hj)

theorem eff_target (S : Ships G) (e : Eff G sh sh' x y res) (hz : ¬ sh x y) {i a b : Nat} (T : Target G sh i a b) {c : Nat} (hc : c < (G i).len) (hn : Near ((G i).cx c) ((G i).cy c) x y) :
    (res = 0 → Target G sh' i a b ∧ ∀ l, l < (G i).len → ¬ (x = (G i).cx l ∧ y = (G i).cy l)) ∧
    (res = -1 → ∀ j, j < 5 → Clean (G j) sh') ∧
    (res = 1 → ∃ l, l < (G i).len ∧ x = (G i).cx l ∧ y = (G i).cy l ∧
      ((l = b → Target G sh' i a (b + 1)) ∧ (l + 1 = a → Target G sh' i l b))) := by
  have hi := T.lt
  refine ⟨?_, ?_, ?_⟩
  · intro h
    obtain ⟨h1, h2⟩ := e.miss h
    have same : ∀ j, j < 5 → ∀ m, m < (G j).len → sh' ((G j).cx m) ((G j).cy m) → sh ((G j).cx m) ((G j).cy m) := by
      intro j hj m hm hs
      rcases h2 _ _ hs with h | ⟨e1, e2⟩
      · exact h
      · exact absurd ⟨e1.symm, e2.symm⟩ (h1 j hj m hm)
    refine ⟨⟨hi, T.ab, T.le, T.part, ?_, ?_⟩, h1 i hi⟩
    · intro l hl
      rw [← T.seg l hl]
      exact ⟨same i hi l hl, e.mono _ _⟩
    · intro j hj hji
      exact clean_of j e.mono (same j hj) (T.rest j hj hji)
  · intro h
    obtain ⟨k, l, hk, hl, hx, hy, h1, h2⟩ := e.sunk h
    have : i = k := S.near i k hi hk c l hc hl (by rw [← hx, ← hy]; exact hn)
    subst this
    intro j hj
    by_cases ej : j = i
    · subst ej; exact .inr h2
    · exact clean_of j e.mono (h1 j hj ej) (T.rest j hj ej)
  · intro h
    obtain ⟨k, l, hk, hl, hx, hy, h1, m, hm, h2⟩ := e.hit h
    have : i = k := S.near i k hi hk c l hc hl (by rw [← hx, ← hy]; exact hn)
    subst this
    have hseg : ∀ q, q < (G i).len → (sh' ((G i).cx q) ((G i).cy q) ↔ (a ≤ q ∧ q < b) ∨ q = l) := by
      intro q hq
      constructor
      · intro hs
        rcases h1 _ _ hs with h | ⟨e1, e2⟩
        · exact .inl ((T.seg q hq).mp h)
        · exact .inr (cell_ne (G i) (S.straight i hi) (e1.trans hx) (e2.trans hy))
      · rintro (h | rfl)
        · exact e.mono _ _ ((T.seg q hq).mpr h)
        · rw [← hx, ← hy]; exact e.here
    have hrest : ∀ j, j < 5 → j ≠ i → Clean (G j) sh' := fun j hj hji => other_clean S e.mono h1 hi hl hx hy hj hji (T.rest j hj hji)
    have hout : ¬ ((a ≤ m ∧ m < b) ∨ m = l) := fun h => h2 ((hseg m hm).mpr h)
    have hab := T.ab
    have hle := T.le
    refine ⟨l, hl, hx, hy, ?_, ?_⟩
    · intro hlb
      refine ⟨hi, by omega, by omega, by omega, ?_, hrest⟩
      intro q hq
      rw [hseg q hq]
      omega
    · intro hla
      refine ⟨hi, by omega, by omega, by omega, ?_, hrest⟩
      intro q hq
      rw [hseg q hq]
      omega
end Che.Prog.Battleship
