import Verif.Proofs.Prog.BattleshipAI

namespace Che.Prog.Battleship
open Che Che.Lib Che.Spec.Battleship

/-- Squares that the computer has shelled. -/
def sh (g : Game) : Int → Int → Prop := fun a b => (g.players true).shots a b ≠ 0

/-- A shell of the computer. -/
def Shot (g G : Game) (x y : Int) (res : Int) : Prop :=
  ∃ t s, G.players true = { g.players true with shots := t } ∧ G.players false = { g.players false with ships := s } ∧ G.closepack = g.closepack ∧ G.turn = g.turn ∧
    Shelled (g.players true) (g.players false) t s x y res ∧ (res = -1 → G.sunk_by_ai = getshipat G false x y)

theorem cpufire_spec (g : Game) (x y : Int) (hc : g.closepack = false) (ht : g.turn = true) (sd : Side (g.players true) (g.players false)) (hin : Inside x y) (hz : ¬ sh g x y) :
    ∃ G res, ai_cpufire g x y = .ok (G, res) ∧ Shot g G x y res := by
  obtain ⟨G, res, t, s, h1, h2, h3, h4, h5, h6, h7⟩ := shoot_spec g true x y hc ht sd hin (by simpa [sh] using hz)
  unfold ai_cpufire
  rw [h1]
  simp only [Res.bind]
  by_cases e : res = -1
  · rw [if_pos e]
    exact ⟨_, _, rfl, t, s, h2, h3, h4, h5, h7, fun _ => rfl⟩
  · rw [if_neg e]
    exact ⟨_, _, rfl, t, s, h2, h3, h4, h5, h7, fun h => absurd h e⟩

theorem shot_eff {g G : Game} {x y res : Int} (sd : Side (g.players true) (g.players false)) (hin : Inside x y) (hz : ¬ sh g x y) (h : Shot g G x y res) :
    Eff (geo (g.players false)) (sh g) (sh G) x y res ∧ geo (G.players false) = geo (g.players false) := by
  obtain ⟨t, s, h1, h2, _, _, h3, _⟩ := h
  have hz' : (g.players true).shots x y = 0 := by simpa [sh] using hz
  have hG : ∀ a b, sh G a b ↔ t a b ≠ 0 := fun a b => by unfold sh; rw [h1]
  have hset : ∀ (v : UInt8), v ≠ 0 → t = (g.players true).shots.set x y v → (∀ a b, sh g a b → sh G a b) ∧ sh G x y ∧ ∀ a b, sh G a b → sh g a b ∨ (a = x ∧ b = y) := by
    intro v hv e
    refine ⟨?_, ?_, ?_⟩
    · intro a b hab
      rw [hG, e]
      simp only [Grid.set]
      split
      · exact hv
      · exact hab
    · rw [hG, e]; simpa [Grid.set] using hv
    · intro a b hab
      rw [hG, e] at hab
      simp only [Grid.set] at hab
      by_cases c : a = x ∧ b = y
      · exact .inr c
      · rw [if_neg c] at hab; exact .inl hab
  have hgeo : ∀ i, s = hit (g.players false).ships i → geo (G.players false) = geo (g.players false) := by
    intro i e
    funext j
    rw [h2, e]
    simp only [geo, hit]
    by_cases ej : j = i
    · subst ej; rw [if_pos rfl]
    · rw [if_neg ej]
  rcases h3 with ⟨hr, hno, ht, hs⟩ | ⟨hr, i, hi, ⟨l, hl, hx, hy⟩, hlt, ht, hs⟩ | ⟨hr, i, hi, ⟨l, hl, hx, hy⟩, hlt, hs, ha, hn⟩
  · obtain ⟨m, k, q⟩ := hset 111 (by decide) ht
    subst hr
    refine ⟨⟨m, k, .inl rfl, fun _ => ⟨fun i hi l hl hh => hno i hi ⟨l, hl, hh.1, hh.2⟩, q⟩, fun h => by simp at h, fun h => by simp at h⟩, ?_⟩
    rw [h2, hs]
  · obtain ⟨m, k, q⟩ := hset 72 (by decide) ht
    subst hr
    refine ⟨⟨m, k, .inr (.inl rfl), fun h => by simp at h, fun _ => ⟨i, l, hi, hl, hx, hy, q, ?_⟩, fun h => by simp at h⟩, hgeo i hs⟩
    refine Classical.byContradiction fun hc => ?_
    have hall : ∀ a b, On ((g.players false).ships i) a b → t a b ≠ 0 := by
      rintro a b ⟨m, hm, e1, e2⟩
      refine Classical.byContradiction fun hh => hc ⟨m, hm, ?_⟩
      rw [hG]
      rw [e1, e2] at hh
      exact hh
    have h1' := shot_one ((g.players false).ships i) (sd.fleet.straight i hi (sd.ready i hi)) (g.players true).shots t ⟨l, hl, hx, hy⟩ hz' (hall x y ⟨l, hl, hx, hy⟩)
      (fun a b _ hne => by rw [ht]; simp only [Grid.set]; rw [if_neg hne])
    rw [← sd.hits i hi] at h1'
    have : cellsShot ((g.players false).ships i) t = ((g.players false).ships i).length := by
      unfold cellsShot
      rw [List.countP_eq_length.mpr, List.length_range]
      intro m hm
      simpa using hall _ _ ⟨m, List.mem_range.mp hm, rfl, rfl⟩
    omega
  · subst hr
    have hmono : ∀ a b, sh g a b → sh G a b := by
      intro a b hab
      rw [hG]
      by_cases c : Around ((g.players false).ships i) a b
      · rw [ha a b c]; decide
      · rw [hn a b c]; exact hab
    have hon : ∀ a b, On ((g.players false).ships i) a b → sh G a b := by
      intro a b hab
      rw [hG, ha a b ⟨sd.fleet.inside i hi (sd.ready i hi) a b hab, a, b, hab, near_self _ _⟩]; decide
    refine ⟨⟨hmono, hon x y ⟨l, hl, hx, hy⟩, .inr (.inr rfl), fun h => by simp at h, fun h => by simp at h, fun _ => ⟨i, l, hi, hl, hx, hy, ?_, ?_⟩⟩, hgeo i hs⟩
    · intro j hj hji m hm hsm
      rw [hG] at hsm
      rw [hn] at hsm
      · exact hsm
      · rintro ⟨_, c, d, hcd, hnear⟩
        exact hji (one_ship sd.fleet sd.ready hi hj hcd ⟨m, hm, rfl, rfl⟩ hnear).symm
    · intro m hm
      exact hon _ _ ⟨m, hm, rfl, rfl⟩

/-! ### Choosing a square -/

theorem mem_all (a b : Nat) : (a, b) ∈ all ↔ a < 10 ∧ b < 10 := by
  simp only [all, List.mem_flatMap, List.mem_range, List.mem_map, Prod.mk.injEq]
  constructor
  · rintro ⟨c, hc, d, hd, rfl, rfl⟩; exact ⟨hc, hd⟩
  · rintro ⟨ha, hb⟩; exact ⟨a, ha, b, hb, rfl, rfl⟩

theorem getD_mem {l : List (Nat × Nat)} (i : Nat) (h : l.length ≠ 0) : l.getD (i % l.length) (0, 0) ∈ l := by
  have : i % l.length < l.length := Nat.mod_lt _ (by omega)
  rw [List.getD_eq_getElem?_getD, List.getElem?_eq_getElem this]
  exact List.getElem_mem this

/-- Everything that is not changed by a choice. -/
def Kept (s s' : AI) : Prop := s'.next = s.next ∧ s'.hit = s.hit ∧ s'.srchstep ≥ 1

theorem choose_spec (g : Game) (s : AI) (r : Nat → Nat) (hs : s.srchstep ≥ 1) (hfree : ∃ x y, Inside x y ∧ ¬ sh g x y) :
    ∃ s', ai_choose_move g s r = .ok s' ∧ Kept s s' ∧ Inside s'.x s'.y ∧ ¬ sh g s'.x s'.y := by
  have hposs : ∀ c : Nat × Nat, c ∈ all.filter (fun c => (g.players true).shots c.1 c.2 == 0) ↔ (c.1 < 10 ∧ c.2 < 10) ∧ (g.players true).shots c.1 c.2 = 0 := by
    intro c
    obtain ⟨a, b⟩ := c
    rw [List.mem_filter, mem_all, beq_iff_eq]
  have hgood : ∀ c : Nat × Nat, c ∈ all.filter (fun c => (g.players true).shots c.1 c.2 == 0) → Inside c.1 c.2 ∧ ¬ sh g c.1 c.2 := by
    intro c hc
    obtain ⟨⟨h1, h2⟩, h3⟩ := (hposs c).mp hc
    exact ⟨by unfold Inside; omega, by simpa [sh] using h3⟩
  have hne : (all.filter (fun c => (g.players true).shots c.1 c.2 == 0)).length ≠ 0 := by
    obtain ⟨x, y, hin, hz⟩ := hfree
    unfold Inside at hin
    have : (x.toNat, y.toNat) ∈ all.filter (fun c => (g.players true).shots c.1 c.2 == 0) := by
      rw [hposs]
      refine ⟨by simp only; omega, ?_⟩
      simp only
      rw [Int.toNat_of_nonneg hin.1, Int.toNat_of_nonneg hin.2.2.1]
      simpa [sh] using hz
    intro h
    rw [List.length_eq_zero_iff] at h
    rw [h] at this
    simp at this
  unfold ai_choose_move
  rw [if_neg hne, if_neg (by omega)]
  generalize all.filter (fun c => (g.players true).shots c.1 c.2 == 0) = poss at *
  simp only
  have hk : ∀ b : Bool, ∀ s1 : AI, (s1 = if s.turncount = 0 then { s with huntoffs := r 0 % s.srchstep } else s) → s1.next = s.next ∧ s1.hit = s.hit ∧ s1.srchstep = s.srchstep := by
    intro _ s1 e; rw [e]; split <;> exact ⟨rfl, rfl, rfl⟩
  obtain ⟨k1, k2, k3⟩ := hk true _ rfl
  generalize (if s.turncount = 0 then ({ s with huntoffs := r 0 % s.srchstep } : AI) else s) = s1 at *
  generalize hp : poss.filter (fun c => decide ((c.1 + s1.huntoffs) % s1.srchstep ≠ c.2 % s1.srchstep)) = pref
  by_cases hpn : pref.length ≠ 0
  · rw [if_pos hpn]
    refine ⟨_, rfl, ⟨k1, k2, by simp only; omega⟩, ?_⟩
    have := getD_mem (r 1) hpn
    rw [← hp] at this
    have := hgood _ (List.mem_filter.mp this).1
    rw [hp] at this
    exact this
  · rw [if_neg hpn]
    refine ⟨_, rfl, ⟨k1, k2, by simp only; split <;> omega⟩, ?_⟩
    exact hgood _ (getD_mem (r 1) hne)

/-! ### The five states -/

/-- One action of the computer: a shell where none has fallen, or the end of the first pass. -/
def Acts (g : Game) (s : AI) (o : Res String (Game × AI × Int)) : Prop :=
  ∃ G s' res, o = .ok (G, s', res) ∧
    ((G = g ∧ res = 0 ∧ s.next = 3 ∧ s'.next = 4 ∧ AInv (geo (g.players false)) (sh g) s') ∨
     ∃ x y, Inside x y ∧ ¬ sh g x y ∧ Shot g G x y res ∧ AInv (geo (g.players false)) (sh G) s' ∧ s'.hit = if s.next = 0 then s.hit else res)

theorem ainv_zero {G : Nat → Geo} {q : Int → Int → Prop} {s : AI} (h1 : s.srchstep ≥ 1) (h2 : s.next = 0) (h3 : ∀ i, i < 5 → Clean (G i) q) : AInv G q s :=
  ⟨h1, .inl h2, fun _ => h3, fun h => by omega, fun h => by omega, fun h => by omega, fun h => by omega⟩

theorem acts_fire (g : Game) (s : AI) (r : Nat → Nat) (hc : g.closepack = false) (ht : g.turn = true) (sd : Side (g.players true) (g.players false))
    (inv : AInv (geo (g.players false)) (sh g) s) (hfree : ∃ x y, Inside x y ∧ ¬ sh g x y) (hn : s.next = 0) : Acts g s (ai_random_fire g s r) := by
  obtain ⟨s1, e1, ⟨k1, k2, k3⟩, hin, hz⟩ := choose_spec g s r inv.step hfree
  obtain ⟨G, res, e2, h2⟩ := cpufire_spec g s1.x s1.y hc ht sd hin hz
  obtain ⟨ef, hgeo⟩ := shot_eff sd hin hz h2
  obtain ⟨c1, c2⟩ := eff_clean (side_ships sd) ef hz (inv.fire hn)
  unfold ai_random_fire
  rw [e1]
  simp only [Res.bind]
  rw [e2]
  refine ⟨G, _, res, rfl, .inr ⟨s1.x, s1.y, hin, hz, h2, ?_, by rw [if_pos hn]; split <;> exact k2⟩⟩
  by_cases hr : res = 1
  · rw [if_pos hr]
    obtain ⟨i, a, T, hx, hy⟩ := c2 hr
    refine ⟨k3, .inr (.inl rfl), fun h => by simp at h, fun _ => ⟨i, a, T, hx, hy, rfl, ?_⟩, fun h => by simp at h, fun h => by simp at h, fun h => by simp at h⟩
    intro k _ hk
    simp at hk
  · rw [if_neg hr]
    exact ainv_zero k3 (k1.trans hn) (c1 hr)

theorem shipxy_eq (x y : Int) {d : Nat} (h : Straight d) (n : Nat) : shipxy x y d n = .ok (x + n * dx d, y + n * dy d) := by
  rw [shipxy, if_neg (by have := straight_lt h; omega), xincr_eq h, yincr_eq h]

theorem possible_iff (g : Game) (x y : Int) : coords_possible g x y = true ↔ Inside x y ∧ ¬ sh g x y := by
  unfold coords_possible sh
  rw [Bool.and_eq_true, valid_iff, beq_iff_eq]
  simp

theorem dx_bound (d : Nat) : -1 ≤ dx d ∧ dx d ≤ 1 ∧ -1 ≤ dy d ∧ dy d ≤ 1 := by
  unfold dx dy
  refine ⟨?_, ?_, ?_, ?_⟩ <;> split <;> omega

theorem near_dir (x y : Int) (d : Nat) : Near x y (x + dx d) (y + dy d) := by
  have := dx_bound d
  unfold Near
  omega

theorem straight_two {k : Nat} (h : k < 4) : Straight (k * 2) := by unfold Straight; omega

theorem acts_first (g : Game) (s : AI) (hc : g.closepack = false) (ht : g.turn = true) (sd : Side (g.players true) (g.players false))
    (inv : AInv (geo (g.players false)) (sh g) s) (hn : s.next = 3) : Acts g s (ai_first_pass g s) := by
  have S := side_ships sd
  obtain ⟨i, a, b, T, hh, hpos⟩ := inv.first hn
  have hst := S.straight i T.lt
  generalize hG : geo (g.players false) = Gs at *
  have hab := T.ab
  have hle := T.le
  have hpart := T.part
  have plus1 : s.tshits + 1 = b + 1 - a := by rw [hh]; omega
  have plus2 : ∀ l, l + 1 = a → s.tshits + 1 = b - l := fun l hl => by rw [hh]; omega
  have hd : Straight s.tsdir := by
    rcases hpos with ⟨⟨e, _⟩, _⟩ | ⟨⟨e, _⟩, _⟩
    · rw [e]; exact hst
    · rw [e]; exact (opp_dx hst).2.2
  have e1 : shipxy s.tsx s.tsy s.tsdir 1 = .ok (s.tsx + dx s.tsdir, s.tsy + dy s.tsdir) := by rw [shipxy_eq _ _ hd]; simp
  -- what being at the end means
  have hend : ∀ s' : AI, s'.next = 4 → s'.srchstep = s.srchstep → s'.tsx = s.tsx → s'.tsy = s.tsy → s'.tsdir = s.tsdir → s'.tshits = s.tshits → ∀ q, Target Gs q i a b →
      (∀ l, l < (Gs i).len → (l < a ∨ b ≤ l) → ¬ (s.tsx + dx s.tsdir = (Gs i).cx l ∧ s.tsy + dy s.tsdir = (Gs i).cy l)) → AInv Gs q s' := by
    intro s' n1 n2 n3 n4 n5 n6 q Tq hno
    refine ⟨by rw [n2]; exact inv.step, .inr (.inr (.inr (.inl n1))), fun h => by omega, fun h => by omega, fun h => by omega, fun _ => ?_, fun h => by omega⟩
    refine ⟨i, a, b, Tq, n6.trans hh, ?_⟩
    rcases hpos with ⟨⟨p1, p2, p3⟩, p4⟩ | ⟨⟨p1, p2, p3⟩, p4⟩
    · have hb : b = (Gs i).len := by
        refine Classical.byContradiction fun hne => hno b (by omega) (.inr (Nat.le_refl b)) ?_
        rw [p1, p2, p3]
        have := fwd (Gs i) (b - 1)
        rw [Nat.sub_add_cancel (by omega)] at this
        exact this
      refine ⟨?_, .inl ⟨⟨n5.trans p1, n3.trans p2, n4.trans p3⟩, hb⟩⟩
      rw [n5]
      refine Nat.lt_of_not_le fun h4 => ?_
      have := p4 h4
      omega
    · have ha : a = 0 := by
        refine Classical.byContradiction fun hne => hno (a - 1) (by omega) (.inl (by omega)) ?_
        rw [p1, p2, p3]
        have := bwd (Gs i) hst (a - 1)
        rw [Nat.sub_add_cancel (by omega)] at this
        exact this
      refine ⟨?_, .inr ⟨⟨n5.trans p1, n3.trans p2, n4.trans p3⟩, ha⟩⟩
      rw [n5]
      refine Nat.lt_of_not_le fun h4 => ?_
      have := p4 h4
      omega
  obtain ⟨c, hclt, hcx, hcy⟩ : ∃ c, c < (Gs i).len ∧ s.tsx = (Gs i).cx c ∧ s.tsy = (Gs i).cy c := by
    rcases hpos with ⟨⟨_, p2, p3⟩, _⟩ | ⟨⟨_, p2, p3⟩, _⟩
    · exact ⟨b - 1, by omega, p2, p3⟩
    · exact ⟨a, by omega, p2, p3⟩
  unfold ai_first_pass
  rw [e1]
  simp only [Res.bind]
  by_cases hp : coords_possible g (s.tsx + dx s.tsdir) (s.tsy + dy s.tsdir) = true
  · rw [hp]
    simp only [Bool.not_true, Bool.false_eq_true, if_false]
    obtain ⟨hin, hz⟩ := (possible_iff _ _ _).mp hp
    obtain ⟨G, res, e2, h2⟩ := cpufire_spec g _ _ hc ht sd hin hz
    obtain ⟨ef, _⟩ := shot_eff sd hin hz h2
    rw [hG] at ef
    rw [e2]
    refine ⟨G, _, res, rfl, .inr ⟨_, _, hin, hz, h2, ?_, by rw [if_neg (show ¬ s.next = 0 by rw [hn]; decide)]; (repeat' split) <;> rfl⟩⟩
    rw [hG]
    obtain ⟨t0, t2, t1⟩ := eff_target S ef hz T hclt (by rw [← hcx, ← hcy]; exact near_dir _ _ _)
    rcases ef.which with hr | hr | hr
    · rw [if_pos hr]
      obtain ⟨T', hno⟩ := t0 hr
      exact hend _ (by rfl) (by rfl) (by rfl) (by rfl) (by rfl) (by rfl) _ T' (fun l hl _ => hno l hl)
    · rw [if_neg (by omega), if_neg (by omega)]
      obtain ⟨l, hl, hx, hy, q1, q2⟩ := t1 hr
      refine ⟨inv.step, .inr (.inr (.inl hn)), fun h => ?_, fun h => ?_, fun _ => ?_, fun h => ?_, fun h => ?_⟩
      · rw [hn] at h; simp at h
      · rw [hn] at h; simp at h
      · rcases hpos with ⟨⟨p1, p2, p3⟩, p4⟩ | ⟨⟨p1, p2, p3⟩, p4⟩
        · have hlb : l = b := by
            have hx' := hx; have hy' := hy
            rw [p2] at hx'; rw [p3] at hy'
            rcases beside (Gs i) hst s.tsdir hd hx' hy' with ⟨_, h⟩ | ⟨h, _⟩
            · omega
            · rw [p1] at h; unfold opp at h; have := straight_lt hst; omega
          refine ⟨i, a, b + 1, q1 hlb, plus1, .inl ⟨⟨p1, ?_, ?_⟩, p4⟩⟩
          · rw [Nat.add_sub_cancel, ← hlb]; exact hx
          · rw [Nat.add_sub_cancel, ← hlb]; exact hy
        · have hla : l + 1 = a := by
            have hx' := hx; have hy' := hy
            rw [p2] at hx'; rw [p3] at hy'
            rcases beside (Gs i) hst s.tsdir hd hx' hy' with ⟨h, _⟩ | ⟨_, h⟩
            · rw [p1] at h; unfold opp at h; have := straight_lt hst; omega
            · exact h
          exact ⟨i, l, b, q2 hla, plus2 l hla, .inr ⟨⟨p1, hx, hy⟩, p4⟩⟩
      · rw [hn] at h; simp at h
      · rw [hn] at h; simp at h
    · rw [if_neg (by omega), if_pos hr]
      exact ainv_zero inv.step rfl (t2 hr)
  · rw [Bool.not_eq_true] at hp
    rw [hp]
    simp only [Bool.not_false, if_true]
    refine ⟨g, _, 0, rfl, .inl ⟨rfl, rfl, hn, rfl, ?_⟩⟩
    rw [hG]
    refine hend _ (by rfl) (by rfl) (by rfl) (by rfl) (by rfl) (by rfl) _ T (fun l hl hout hxy => ?_)
    have : coords_possible g (s.tsx + dx s.tsdir) (s.tsy + dy s.tsdir) = true := by
      rw [possible_iff, hxy.1, hxy.2, T.seg l hl]
      exact ⟨S.inside i T.lt l hl, by omega⟩
    rw [hp] at this
    simp at this
end Che.Prog.Battleship
