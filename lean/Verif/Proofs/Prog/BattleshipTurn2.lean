import Verif.Proofs.Prog.BattleshipTurn

namespace Che.Prog.Battleship
open Che Che.Lib Che.Spec.Battleship

theorem jump_back (G : Geo) (hs : Straight G.dir) {a b n : Nat} (hn : n = b - a) (ha : 1 ≤ a) (hab : a < b) :
    G.cx (b - 1) + n * dx (opp G.dir) = G.cx (a - 1) ∧ G.cy (b - 1) + n * dy (opp G.dir) = G.cy (a - 1) := by
  obtain ⟨o1, o2, _⟩ := opp_dx hs
  rw [o1, o2]
  unfold Geo.cx Geo.cy
  rcases dir_cases hs with ⟨_, e, f⟩ | ⟨_, e, f⟩ | ⟨_, e, f⟩ | ⟨_, e, f⟩ <;> rw [e, f] <;> omega

theorem jump_fwd (G : Geo) (hs : Straight G.dir) (b : Nat) :
    G.cx 0 + b * dx G.dir = G.cx b ∧ G.cy 0 + b * dy G.dir = G.cy b := by
  unfold Geo.cx Geo.cy
  rcases dir_cases hs with ⟨_, e, f⟩ | ⟨_, e, f⟩ | ⟨_, e, f⟩ | ⟨_, e, f⟩ <;> rw [e, f] <;> omega

theorem opp_opp {d : Nat} (h : Straight d) : opp (opp d) = d := by rcases h with rfl | rfl | rfl | rfl <;> rfl

/-- The next square of the ship is hit. -/
theorem hit_next (g : Game) (s : AI) (hc : g.closepack = false) (ht : g.turn = true) (sd : Side (g.players true) (g.players false))
    {i a b : Nat} (T : Target (geo (g.players false)) (sh g) i a b) {x y : Int}
    (hx : (1 ≤ a ∧ x = (geo (g.players false) i).cx (a - 1) ∧ y = (geo (g.players false) i).cy (a - 1)) ∨ (b < (geo (g.players false) i).len ∧ x = (geo (g.players false) i).cx b ∧ y = (geo (g.players false) i).cy b)) :
    Inside x y ∧ ¬ sh g x y ∧ ∃ G res, ai_cpufire g x y = .ok (G, res) ∧ Shot g G x y res ∧ res ≠ 0 ∧ (res ≠ 1 → res = -1 ∧ ∀ j, j < 5 → Clean (geo (g.players false) j) (sh G)) ∧
      (res = 1 → (1 ≤ a → x = (geo (g.players false) i).cx (a - 1) → y = (geo (g.players false) i).cy (a - 1) → Target (geo (g.players false)) (sh G) i (a - 1) b) ∧
        (b < (geo (g.players false) i).len → x = (geo (g.players false) i).cx b → y = (geo (g.players false) i).cy b → Target (geo (g.players false)) (sh G) i a (b + 1))) := by
  have S := side_ships sd
  generalize hG : geo (g.players false) = Gs at *
  have hst := S.straight i T.lt
  have hab := T.ab
  have hle := T.le
  obtain ⟨l, hl, hxl, hyl, hout, c, hcl, hnear⟩ : ∃ l, l < (Gs i).len ∧ x = (Gs i).cx l ∧ y = (Gs i).cy l ∧ ¬ (a ≤ l ∧ l < b) ∧ ∃ c, c < (Gs i).len ∧ Near ((Gs i).cx c) ((Gs i).cy c) x y := by
    rcases hx with ⟨h1, h2, h3⟩ | ⟨h1, h2, h3⟩
    · refine ⟨a - 1, by omega, h2, h3, by omega, a - 1, by omega, ?_⟩
      rw [h2, h3]; exact near_self _ _
    · refine ⟨b, by omega, h2, h3, by omega, b, by omega, ?_⟩
      rw [h2, h3]; exact near_self _ _
  have hin : Inside x y := by rw [hxl, hyl]; exact S.inside i T.lt l hl
  have hz : ¬ sh g x y := by rw [hxl, hyl, T.seg l hl]; exact hout
  obtain ⟨G, res, e2, h2⟩ := cpufire_spec g x y hc ht sd hin hz
  obtain ⟨ef, _⟩ := shot_eff sd hin hz h2
  rw [hG] at ef
  obtain ⟨t0, t2, t1⟩ := eff_target S ef hz T hcl hnear
  have hr0 : res ≠ 0 := fun h => (t0 h).2 l hl ⟨hxl, hyl⟩
  refine ⟨hin, hz, G, res, e2, h2, hr0, ?_, ?_⟩
  · intro h1
    have : res = -1 := by rcases ef.which with h | h | h; exact absurd h hr0; exact absurd h h1; exact h
    exact ⟨this, t2 this⟩
  · intro h1
    obtain ⟨l', hl', hx', hy', q1, q2⟩ := t1 h1
    constructor
    · intro ha e1 e2
      have : l' = a - 1 := cell_ne (Gs i) hst (hx'.symm.trans e1) (hy'.symm.trans e2)
      have h3 := q2 (by omega)
      rw [this] at h3
      exact h3
    · intro hb e1 e2
      exact q1 (cell_ne (Gs i) hst (hx'.symm.trans e1) (hy'.symm.trans e2))

theorem acts_jump (g : Game) (s : AI) (hc : g.closepack = false) (ht : g.turn = true) (sd : Side (g.players true) (g.players false))
    (inv : AInv (geo (g.players false)) (sh g) s) (hn : s.next = 4) : Acts g s (ai_reverse_jump g s) := by
  have S := side_ships sd
  obtain ⟨i, a, b, T, hh, h4, hpos⟩ := inv.jump hn
  have hst := S.straight i T.lt
  have hab := T.ab
  have hle := T.le
  have hpart := T.part
  unfold ai_reverse_jump
  simp only
  rcases hpos with ⟨⟨p1, p2, p3⟩, p4⟩ | ⟨⟨p1, p2, p3⟩, p4⟩
  · have hd : s.tsdir + 4 = opp (geo (g.players false) i).dir := by rw [p1] at h4 ⊢; unfold opp; omega
    rw [hd, shipxy_eq _ _ (opp_dx hst).2.2, p2, p3]
    have ha : 1 ≤ a := by omega
    obtain ⟨j1, j2⟩ := jump_back (geo (g.players false) i) hst hh ha hab
    rw [j1, j2]
    obtain ⟨hin, hz, G, res, e2, h2, hr0, hrs, hr1⟩ := hit_next g s hc ht sd T (.inl ⟨ha, rfl, rfl⟩)
    simp only [Res.bind]
    rw [(possible_iff _ _ _).mpr ⟨hin, hz⟩]
    simp only [Bool.not_true, Bool.false_eq_true, if_false]
    rw [e2]
    refine ⟨G, _, res, rfl, .inr ⟨_, _, hin, hz, h2, ?_, by rw [if_neg (show ¬ s.next = 0 by rw [hn]; decide)]; (repeat' split) <;> rfl⟩⟩
    by_cases h1 : res = 1
    · rw [if_pos h1]
      have T' := (hr1 h1).1 ha rfl rfl
      have hplus : s.tshits + 1 = b - (a - 1) := by rw [hh]; omega
      exact ⟨inv.step, .inr (.inr (.inr (.inr rfl))), fun h => by simp at h, fun h => by simp at h, fun h => by simp at h, fun h => by simp at h,
        fun _ => ⟨i, a - 1, b, T', hplus, .inr ⟨⟨rfl, rfl, rfl⟩, p4⟩⟩⟩
    · rw [if_neg h1]
      exact ainv_zero inv.step rfl (hrs h1).2
  · have hd : s.tsdir + 4 = (geo (g.players false) i).dir := by
      have : s.tsdir + 4 = opp (opp (geo (g.players false) i).dir) := by rw [← p1]; unfold opp; omega
      rw [this, opp_opp hst]
    have hb : b < (geo (g.players false) i).len := by omega
    have hh' : s.tshits = b := by rw [hh, p4]; rfl
    rw [hd, shipxy_eq _ _ hst, p2, p3, p4, hh']
    obtain ⟨j1, j2⟩ := jump_fwd (geo (g.players false) i) hst b
    rw [j1, j2]
    obtain ⟨hin, hz, G, res, e2, h2, hr0, hrs, hr1⟩ := hit_next g s hc ht sd T (.inr ⟨hb, rfl, rfl⟩)
    simp only [Res.bind]
    rw [(possible_iff _ _ _).mpr ⟨hin, hz⟩]
    simp only [Bool.not_true, Bool.false_eq_true, if_false]
    rw [e2]
    refine ⟨G, _, res, rfl, .inr ⟨_, _, hin, hz, h2, ?_, by rw [if_neg (show ¬ s.next = 0 by rw [hn]; decide)]; (repeat' split) <;> rfl⟩⟩
    by_cases h1 : res = 1
    · rw [if_pos h1]
      have T' := (hr1 h1).2 hb rfl rfl
      have hplus : b + 1 = b + 1 - a := by rw [p4]; rfl
      exact ⟨inv.step, .inr (.inr (.inr (.inr rfl))), fun h => by simp at h, fun h => by simp at h, fun h => by simp at h, fun h => by simp at h,
        fun _ => ⟨i, a, b + 1, T', hplus, .inl ⟨⟨rfl, rfl, rfl⟩, p4⟩⟩⟩
    · rw [if_neg h1]
      exact ainv_zero inv.step rfl (hrs h1).2

theorem acts_second (g : Game) (s : AI) (hc : g.closepack = false) (ht : g.turn = true) (sd : Side (g.players true) (g.players false))
    (inv : AInv (geo (g.players false)) (sh g) s) (hn : s.next = 5) : Acts g s (ai_second_pass g s) := by
  have S := side_ships sd
  obtain ⟨i, a, b, T, hh, hpos⟩ := inv.second hn
  have hst := S.straight i T.lt
  have hab := T.ab
  have hle := T.le
  have hpart := T.part
  unfold ai_second_pass
  rcases hpos with ⟨⟨p1, p2, p3⟩, p4⟩ | ⟨⟨p1, p2, p3⟩, p4⟩
  · have hb : b < (geo (g.players false) i).len := by omega
    have j := fwd (geo (g.players false) i) (b - 1)
    rw [Nat.sub_add_cancel (by omega)] at j
    rw [p1, shipxy_eq _ _ hst, p2, p3]
    simp only [Int.natCast_one, Int.one_mul]
    rw [j.1, j.2]
    obtain ⟨hin, hz, G, res, e2, h2, hr0, hrs, hr1⟩ := hit_next g s hc ht sd T (.inr ⟨hb, rfl, rfl⟩)
    simp only [Res.bind]
    rw [(possible_iff _ _ _).mpr ⟨hin, hz⟩]
    simp only [Bool.not_true, Bool.false_eq_true, if_false]
    rw [e2]
    refine ⟨G, _, res, rfl, .inr ⟨_, _, hin, hz, h2, ?_, by rw [if_neg (show ¬ s.next = 0 by rw [hn]; decide)]; (repeat' split) <;> rfl⟩⟩
    by_cases h1 : res = 1
    · rw [if_pos h1]
      have T' := (hr1 h1).2 hb rfl rfl
      have hplus : s.tshits + 1 = b + 1 - a := by rw [hh]; omega
      refine ⟨inv.step, .inr (.inr (.inr (.inr hn))), fun h => ?_, fun h => ?_, fun h => ?_, fun h => ?_, fun _ => ⟨i, a, b + 1, T', hplus, .inl ⟨⟨rfl, rfl, rfl⟩, p4⟩⟩⟩ <;>
        simp only [hn] at h <;> simp at h
    · rw [if_neg h1]
      exact ainv_zero inv.step rfl (hrs h1).2
  · have ha : 1 ≤ a := by omega
    have j := bwd (geo (g.players false) i) hst (a - 1)
    rw [Nat.sub_add_cancel (by omega)] at j
    rw [p1, shipxy_eq _ _ (opp_dx hst).2.2, p2, p3]
    simp only [Int.natCast_one, Int.one_mul]
    rw [j.1, j.2]
    obtain ⟨hin, hz, G, res, e2, h2, hr0, hrs, hr1⟩ := hit_next g s hc ht sd T (.inl ⟨ha, rfl, rfl⟩)
    simp only [Res.bind]
    rw [(possible_iff _ _ _).mpr ⟨hin, hz⟩]
    simp only [Bool.not_true, Bool.false_eq_true, if_false]
    rw [e2]
    refine ⟨G, _, res, rfl, .inr ⟨_, _, hin, hz, h2, ?_, by rw [if_neg (show ¬ s.next = 0 by rw [hn]; decide)]; (repeat' split) <;> rfl⟩⟩
    by_cases h1 : res = 1
    · rw [if_pos h1]
      have T' := (hr1 h1).1 ha rfl rfl
      have hplus : s.tshits + 1 = b - (a - 1) := by rw [hh]; omega
      refine ⟨inv.step, .inr (.inr (.inr (.inr hn))), fun h => ?_, fun h => ?_, fun h => ?_, fun h => ?_, fun _ => ⟨i, a - 1, b, T', hplus, .inr ⟨⟨rfl, rfl, rfl⟩, p4⟩⟩⟩ <;>
        simp only [hn] at h <;> simp at h
    · rw [if_neg h1]
      exact ainv_zero inv.step rfl (hrs h1).2

/-! ### Looking for the direction -/

theorem availLoop_eq (g : Game) (s : AI) (ls : List Nat) (hls : ∀ k ∈ ls, k < 4) (hnd : ls.Nodup) (used : Nat → Bool) (n : Nat) :
    ∃ used', availLoop g s ls used n = .ok (used', n + ls.countP (fun k => !used' k)) ∧
      ∀ k, used' k = (used k || (decide (k ∈ ls) && !coords_possible g (s.tsx + dx (k * 2)) (s.tsy + dy (k * 2)))) := by
  induction ls generalizing used n with
  | nil => exact ⟨used, by simp [availLoop], fun k => by simp⟩
  | cons i ls ih =>
    obtain ⟨hi, hnd'⟩ := List.nodup_cons.mp hnd
    have hi4 := hls i (by simp)
    rw [availLoop]
    by_cases hu : used i = true
    · rw [if_pos hu]
      obtain ⟨u', h1, h2⟩ := ih (fun k hk => hls k (by simp [hk])) hnd' used n
      refine ⟨u', ?_, ?_⟩
      · rw [h1, List.countP_cons]
        have : u' i = true := by rw [h2, hu]; rfl
        simp [this]
      · intro k
        rw [h2]
        by_cases e : k = i
        · subst e; simp [hu]
        · simp [e]
    · rw [if_neg hu, shipxy_eq _ _ (straight_two hi4)]
      simp only [Res.bind, Int.natCast_one, Int.one_mul]
      by_cases hp : coords_possible g (s.tsx + dx (i * 2)) (s.tsy + dy (i * 2)) = true
      · rw [hp]
        simp only [Bool.not_true, Bool.false_eq_true, if_false]
        obtain ⟨u', h1, h2⟩ := ih (fun k hk => hls k (by simp [hk])) hnd' used (n + 1)
        refine ⟨u', ?_, ?_⟩
        · rw [h1, List.countP_cons]
          have : u' i = false := by rw [h2]; simp [hi]; simpa using hu
          rw [this]
          simp only [Bool.not_false, if_true]
          rw [show n + 1 + List.countP (fun k => !u' k) ls = n + (List.countP (fun k => !u' k) ls + 1) from by omega]
        · intro k
          rw [h2]
          by_cases e : k = i
          · subst e; simp [hp]
          · simp [e]
      · rw [Bool.not_eq_true] at hp
        rw [hp]
        simp only [Bool.not_false, if_true]
        obtain ⟨u', h1, h2⟩ := ih (fun k hk => hls k (by simp [hk])) hnd' (fun j => if j = i then true else used j) n
        refine ⟨u', ?_, ?_⟩
        · rw [h1, List.countP_cons]
          have : u' i = true := by rw [h2]; simp
          simp [this]
        · intro k
          rw [h2]
          by_cases e : k = i
          · subst e; simp [hp]
          · simp [e]

theorem skip_eq (used : Nat → Bool) (h : ∃ k, k < 4 ∧ used k = false) :
    ∃ k, k < 4 ∧ used k = false ∧ (∀ j, j < k → used j = true) ∧ skip used 5 0 = .ok k ∧ skip used 5 k = .ok k := by
  have hk : ∀ k, k < 4 → used k = false → skip used 5 k = .ok k := by
    intro k h1 h2; rw [skip, if_neg (by omega), if_neg (by simp [h2])]
  by_cases h0 : used 0 = true
  · by_cases h1 : used 1 = true
    · by_cases h2 : used 2 = true
      · have h3 : used 3 = false := by
          obtain ⟨k, hk, hf⟩ := h
          match k, hk with
          | 0, _ => rw [h0] at hf; simp at hf
          | 1, _ => rw [h1] at hf; simp at hf
          | 2, _ => rw [h2] at hf; simp at hf
          | 3, _ => exact hf
        refine ⟨3, by omega, h3, ?_, by simp [skip, h0, h1, h2, h3], hk 3 (by omega) h3⟩
        intro j hj
        match j, hj with
        | 0, _ => exact h0
        | 1, _ => exact h1
        | 2, _ => exact h2
      · rw [Bool.not_eq_true] at h2
        refine ⟨2, by omega, h2, ?_, by simp [skip, h0, h1, h2], hk 2 (by omega) h2⟩
        intro j hj
        match j, hj with
        | 0, _ => exact h0
        | 1, _ => exact h1
    · rw [Bool.not_eq_true] at h1
      refine ⟨1, by omega, h1, ?_, by simp [skip, h0, h1], hk 1 (by omega) h1⟩
      intro j hj
      match j, hj with
      | 0, _ => exact h0
  · rw [Bool.not_eq_true] at h0
    exact ⟨0, by omega, h0, fun j hj => by omega, hk 0 (by omega) h0, hk 0 (by omega) h0⟩

theorem pick_eq (used : Nat → Bool) (h : ∃ k, k < 4 ∧ used k = false) :
    ∃ k, k < 4 ∧ used k = false ∧ (∀ j, j < k → used j = true) ∧ ∀ n, pick used (n + 1) 0 = .ok k := by
  obtain ⟨k, h1, h2, h3, h4, h5⟩ := skip_eq used h
  have hk : ∀ n, pick used n k = .ok k := by
    intro n
    induction n with
    | zero => rfl
    | succ n ih => rw [pick, h5]; exact ih
  exact ⟨k, h1, h2, h3, fun n => by rw [pick, h4]; exact hk n⟩

theorem acts_hunt (g : Game) (s : AI) (r : Nat → Nat) (hc : g.closepack = false) (ht : g.turn = true) (sd : Side (g.players true) (g.players false))
    (inv : AInv (geo (g.players false)) (sh g) s) (hn : s.next = 2) : Acts g s (ai_find_orientation g s r) := by
  have S := side_ships sd
  obtain ⟨i, a, T, hx, hy, hh, hused⟩ := inv.hunt hn
  have hst := S.straight i T.lt
  have htwo := S.two i T.lt
  have hle := T.le
  obtain ⟨used, e1, hu⟩ := availLoop_eq g s (List.range 4) (fun k hk => List.mem_range.mp hk) List.nodup_range s.used 0
  -- a direction that is used leads nowhere
  have hno : ∀ k, k < 4 → used k = true → ¬ (Inside (s.tsx + dx (k * 2)) (s.tsy + dy (k * 2)) ∧ ¬ sh g (s.tsx + dx (k * 2)) (s.tsy + dy (k * 2))) := by
    intro k hk hk'
    rw [hu] at hk'
    rcases Bool.or_eq_true _ _ |>.mp hk' with h | h
    · exact hused k hk h
    · intro hp
      have := (possible_iff _ _ _).mpr hp
      simp [this] at h
  have hyes : ∀ k, k < 4 → used k = false → Inside (s.tsx + dx (k * 2)) (s.tsy + dy (k * 2)) ∧ ¬ sh g (s.tsx + dx (k * 2)) (s.tsy + dy (k * 2)) := by
    intro k hk hk'
    rw [hu] at hk'
    rw [← possible_iff]
    simp only [Bool.or_eq_false_iff, Bool.and_eq_false_iff, List.mem_range, hk, decide_true, Bool.not_eq_false'] at hk'
    simpa using hk'.2
  generalize hG : geo (g.players false) = Gs at *
  -- the squares of the ship beside the one that has been hit are free
  have hfree : ∀ k, k < 4 → ∀ l, l < (Gs i).len → l ≠ a → s.tsx + dx (k * 2) = (Gs i).cx l → s.tsy + dy (k * 2) = (Gs i).cy l → used k = false := by
    intro k hk l hl hla h1 h2
    rw [← Bool.not_eq_true]
    intro h
    refine hno k hk h ?_
    rw [h1, h2, T.seg l hl]
    exact ⟨S.inside i T.lt l hl, by omega⟩
  have hfwd := fwd (Gs i) a
  have hdirs : ∃ k, k < 4 ∧ k * 2 = (Gs i).dir := by
    rcases hst with e | e | e | e
    · exact ⟨0, by omega, by omega⟩
    · exact ⟨1, by omega, by omega⟩
    · exact ⟨2, by omega, by omega⟩
    · exact ⟨3, by omega, by omega⟩
  have hopps : ∃ k, k < 4 ∧ k * 2 = opp (Gs i).dir := by
    unfold opp
    rcases hst with e | e | e | e
    · exact ⟨2, by omega, by omega⟩
    · exact ⟨3, by omega, by omega⟩
    · exact ⟨0, by omega, by omega⟩
    · exact ⟨1, by omega, by omega⟩
  obtain ⟨kd, hkd, ekd⟩ := hdirs
  obtain ⟨ko, hko, eko⟩ := hopps
  have hfd : a + 1 < (Gs i).len → used kd = false := by
    intro h
    refine hfree kd hkd (a + 1) h (by omega) ?_ ?_
    · rw [hx, ekd]; exact hfwd.1
    · rw [hy, ekd]; exact hfwd.2
  have hfo : 1 ≤ a → used ko = false := by
    intro h
    have hb := bwd (Gs i) hst (a - 1)
    rw [Nat.sub_add_cancel h] at hb
    refine hfree ko hko (a - 1) (by omega) (by omega) ?_ ?_
    · rw [hx, eko]; exact hb.1
    · rw [hy, eko]; exact hb.2
  have hany : ∃ k, k < 4 ∧ used k = false := by
    by_cases h : a + 1 < (Gs i).len
    · exact ⟨kd, hkd, hfd h⟩
    · exact ⟨ko, hko, hfo (by omega)⟩
  obtain ⟨d, hd4, hdu, hdl, hpick⟩ := pick_eq used hany
  unfold ai_find_orientation
  rw [e1]
  simp only [Res.bind]
  have hav : ¬ (0 + (List.range 4).countP (fun k => !used k) = 0) := by
    rw [Nat.zero_add]
    intro h
    have := List.countP_eq_zero.mp h d (List.mem_range.mpr hd4)
    simp [hdu] at this
  rw [if_neg hav, hpick]
  simp only
  rw [shipxy_eq _ _ (straight_two hd4)]
  simp only [Int.natCast_one, Int.one_mul]
  obtain ⟨hin, hz⟩ := hyes d hd4 hdu
  obtain ⟨G, res, e2, h2⟩ := cpufire_spec g _ _ hc ht sd hin hz
  obtain ⟨ef, _⟩ := shot_eff sd hin hz h2
  rw [hG] at ef
  rw [e2]
  refine ⟨G, _, res, rfl, .inr ⟨_, _, hin, hz, h2, ?_, by rw [if_neg (show ¬ s.next = 0 by rw [hn]; decide)]; (repeat' split) <;> rfl⟩⟩
  rw [hG]
  obtain ⟨t0, t2, t1⟩ := eff_target S ef hz T (c := a) (by omega) (by rw [← hx, ← hy]; exact near_dir _ _ _)
  rcases ef.which with hr | hr | hr
  · rw [if_pos hr]
    refine ⟨inv.step, .inr (.inl hn), fun h => ?_, fun _ => ⟨i, a, (t0 hr).1, hx, hy, hh, ?_⟩, fun h => ?_, fun h => ?_, fun h => ?_⟩
    · simp only [hn] at h; simp at h
    · intro k hk hk'
      simp only at hk' ⊢
      have hku : used k = true := by
        by_cases e : k = d
        · rw [if_pos e] at hk'; simp at hk'
        · rw [if_neg e] at hk'; exact hk'
      exact fun hp => hno k hk hku ⟨hp.1, fun h => hp.2 (ef.mono _ _ h)⟩
    · simp only [hn] at h; simp at h
    · simp only [hn] at h; simp at h
    · simp only [hn] at h; simp at h
  · rw [if_neg (by omega), if_neg (by omega)]
    obtain ⟨l, hl, hxl, hyl, q1, q2⟩ := t1 hr
    refine ⟨inv.step, .inr (.inr (.inl rfl)), fun h => by simp at h, fun h => by simp at h, fun _ => ?_, fun h => by simp at h, fun h => by simp at h⟩
    have hx' := hxl
    have hy' := hyl
    rw [hx] at hx'
    rw [hy] at hy'
    rcases beside (Gs i) hst (d * 2) (straight_two hd4) hx' hy' with ⟨h1, h3⟩ | ⟨h1, h3⟩
    · refine ⟨i, a, a + 2, q1 h3, by simp only; rw [hh]; omega, .inl ⟨⟨h1, ?_, ?_⟩, ?_⟩⟩
      · rw [show a + 2 - 1 = a + 1 from rfl, ← h3]; exact hxl
      · rw [show a + 2 - 1 = a + 1 from rfl, ← h3]; exact hyl
      · intro h4
        simp only at h4
        refine Classical.byContradiction fun hne => ?_
        have hko' := hfo (by omega)
        have : ko < d := by
          have : ko * 2 = opp (d * 2) := by rw [eko, h1]
          unfold opp at this
          omega
        rw [hdl ko this] at hko'
        simp at hko'
    · refine ⟨i, l, a + 1, q2 h3, by simp only; rw [hh]; omega, .inr ⟨⟨h1, hxl, hyl⟩, ?_⟩⟩
      intro h4
      simp only at h4
      refine Classical.byContradiction fun hne => ?_
      have hkd' := hfd (by omega)
      have : kd < d := by
        have h5 : opp (d * 2) = kd * 2 := by rw [h1, opp_opp hst, ekd]
        unfold opp at h5
        omega
      rw [hdl kd this] at hkd'
      simp at hkd'
  · rw [if_neg (by omega), if_pos hr]
    exact ainv_zero inv.step rfl (t2 hr)

theorem acts_turn (g : Game) (s : AI) (r : Nat → Nat) (hc : g.closepack = false) (ht : g.turn = true) (sd : Side (g.players true) (g.players false))
    (inv : AInv (geo (g.players false)) (sh g) s) (hfree : ∃ x y, Inside x y ∧ ¬ sh g x y) : Acts g s (ai_turn g s r) := by
  unfold ai_turn
  rcases inv.which with h | h | h | h | h
  · rw [if_pos h]; exact acts_fire g s r hc ht sd inv hfree h
  · rw [if_neg (by omega), if_pos h]; exact acts_hunt g s r hc ht sd inv h
  · rw [if_neg (by omega), if_neg (by omega), if_pos h]; exact acts_first g s hc ht sd inv h
  · rw [if_neg (by omega), if_neg (by omega), if_neg (by omega), if_pos h]; exact acts_jump g s hc ht sd inv h
  · rw [if_neg (by omega), if_neg (by omega), if_neg (by omega), if_neg (by omega), if_pos h]; exact acts_second g s hc ht sd inv h
end Che.Prog.Battleship
