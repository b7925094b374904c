import Verif.Spec.Lib.Image

namespace Che.Lib.Image
open Che.Lib Che.Spec.Image

theorem ok_bind {ε α β : Type} (a : α) (f : α → Res ε β) : (Res.ok a).bind f = f a := rfl

/-- Loops with invariants. -/
theorem loop_inv {σ : Type} (f : Nat → σ → Res String σ) (N : Nat) (P : Nat → σ → Prop)
    (hstep : ∀ i s, i < N → P i s → ∃ s', f i s = .ok s' ∧ P (i + 1) s') :
    ∀ (n i : Nat) (s : σ), i + n = N → P i s → ∃ s', loop f i n s = .ok s' ∧ P N s' := by
  intro n
  induction n with
  | zero => intro i s h hp; exact ⟨s, rfl, by have : i = N := by omega
                                              rw [← this]; exact hp⟩
  | succ n ih =>
    intro i s h hp
    obtain ⟨s', h1, h2⟩ := hstep i s (by omega) hp
    obtain ⟨s'', h3, h4⟩ := ih (i + 1) s' (by omega) h2
    exact ⟨s'', by unfold loop; rw [h1, ok_bind, h3], h4⟩

theorem index_lt {w h x y : Nat} (hx : x < w) (hy : y < h) : y * w + x < w * h := by
  have : y * w + w ≤ h * w := by rw [← Nat.succ_mul]; exact Nat.mul_le_mul_right w hy
  rw [Nat.mul_comm w h]
  omega

theorem index_inj {w x y x' y' : Nat} (hx : x < w) (hx' : x' < w) (h : y * w + x = y' * w + x') : x = x' ∧ y = y' := by
  have h1 : (y * w + x) % w = x := by rw [Nat.mul_comm, Nat.mul_add_mod, Nat.mod_eq_of_lt hx]
  have h2 : (y' * w + x') % w = x' := by rw [Nat.mul_comm, Nat.mul_add_mod, Nat.mod_eq_of_lt hx']
  have h3 : (y * w + x) / w = y := by rw [Nat.mul_comm, Nat.mul_add_div (by omega), Nat.div_eq_of_lt hx, Nat.add_zero]
  have h4 : (y' * w + x') / w = y' := by rw [Nat.mul_comm, Nat.mul_add_div (by omega), Nat.div_eq_of_lt hx', Nat.add_zero]
  exact ⟨by rw [← h1, h, h2], by rw [← h3, h, h4]⟩

theorem at_some {img : Image} (hw : Whole img) {x y : Nat} (hx : x < img.width) (hy : y < img.height) : ∃ c, at' img x y = some c := by
  unfold at'
  rw [if_pos ⟨hx, hy⟩]
  have := index_lt hx hy
  rw [← hw] at this
  exact ⟨_, List.getElem?_eq_getElem this⟩

theorem check_ok {img : Image} {x y : Nat} (hx : x < img.width) (hy : y < img.height) : checkcoords img x y = .ok () := by
  unfold checkcoords
  rw [if_neg (by omega), if_neg (by omega)]

theorem idx (w x y : Nat) : ((y : Int) * (w : Int) + (x : Int)).toNat = y * w + x := by
  have : ((y : Int) * (w : Int) + (x : Int)) = ((y * w + x : Nat) : Int) := by simp
  rw [this]; rfl

theorem get_eq {img : Image} {x y : Nat} (hx : x < img.width) (hy : y < img.height) {c : Rgba} (h : at' img x y = some c) :
    get img x y = .ok c := by
  unfold get
  rw [check_ok hx hy, ok_bind, idx]
  unfold at' at h
  rw [if_pos ⟨hx, hy⟩] at h
  rw [h]

theorem set_eq {img : Image} (hw : Whole img) {x y : Nat} (hx : x < img.width) (hy : y < img.height) (c : Rgba) :
    ∃ img', set img x y c = .ok img' ∧ put img x y c = .ok img' ∧ Whole img' ∧ img'.width = img.width ∧ img'.height = img.height ∧
      ∀ i j, at' img' i j = if i = x ∧ j = y then some c else at' img i j := by
  have hlt := index_lt hx hy
  rw [← hw] at hlt
  refine ⟨{ img with data := img.data.set (y * img.width + x) c }, ?_, ?_, ?_, rfl, rfl, ?_⟩
  · unfold set
    rw [check_ok hx hy, ok_bind, idx, if_pos hlt]
  · unfold put
    rw [if_pos hlt]
  · unfold Whole
    simp only [List.length_set]
    exact hw
  · intro i j
    unfold at'
    simp only
    by_cases hij : i < img.width ∧ j < img.height
    · rw [if_pos hij, if_pos hij, List.getElem?_set]
      by_cases he : i = x ∧ j = y
      · obtain ⟨rfl, rfl⟩ := he
        rw [if_pos rfl, if_pos hlt, if_pos ⟨rfl, rfl⟩]
      · rw [if_neg he, if_neg (by intro e; obtain ⟨h1, h2⟩ := index_inj hx hij.1 e; exact he ⟨h1.symm, h2.symm⟩)]
    · rw [if_neg hij, if_neg (by rintro ⟨rfl, rfl⟩; exact hij ⟨hx, hy⟩), if_neg hij]

theorem get_outside (img : Image) (x y : Int) (h : x < 0 ∨ y < 0 ∨ img.width ≤ x ∨ img.height ≤ y) :
    get img x y = .panic "invalid pixel coordinates" ∧ ∀ c, set img x y c = .panic "invalid pixel coordinates" := by
  have : checkcoords img x y = .panic "invalid pixel coordinates" := by
    unfold checkcoords
    by_cases h1 : x < 0 ∨ y < 0
    · rw [if_pos h1]
    · rw [if_neg h1, if_pos (by omega)]
  unfold get set
  rw [this]
  exact ⟨rfl, fun c => rfl⟩

/-- Images with the same size and colours are the same. -/
theorem shows_unique {a b : Image} {w h : Nat} {f : Nat → Nat → Option Rgba} (ha : Shows a w h f) (hb : Shows b w h f) : a = b := by
  obtain ⟨a1, a2, a3, a4⟩ := ha
  obtain ⟨b1, b2, b3, b4⟩ := hb
  obtain ⟨aw, ah, ad⟩ := a
  obtain ⟨bw, bh, bd⟩ := b
  simp only at a2 a3 b2 b3
  subst a2; subst a3; subst b2; subst b3
  have hl : ad.length = bd.length := by
    unfold Whole at a1 b1
    simp only at a1 b1
    omega
  have hd : ad = bd := by
    apply List.ext_getElem? 
    intro i
    by_cases hi : i < bw * bh
    · have hw : 0 < bw := by
        rcases Nat.eq_zero_or_pos bw with h | h
        · subst h; omega
        · exact h
      have hy : i / bw < bh := (Nat.div_lt_iff_lt_mul hw).mpr (by rw [Nat.mul_comm]; exact hi)
      have hx : i % bw < bw := Nat.mod_lt _ hw
      have e1 := a4 _ _ hx hy
      have e2 := b4 _ _ hx hy
      unfold at' at e1 e2
      simp only at e1 e2
      rw [if_pos ⟨hx, hy⟩] at e1 e2
      have : i / bw * bw + i % bw = i := by rw [Nat.mul_comm]; exact Nat.div_add_mod i bw
      rw [this] at e1 e2
      rw [e1, e2]
    · unfold Whole at a1 b1
      simp only at a1 b1
      rw [List.getElem?_eq_none (by omega), List.getElem?_eq_none (by omega)]
  rw [hd]

theorem new_shows (w h : Nat) : Shows (new w h) w h (fun _ _ => some ⟨0, 0, 0, 0⟩) := by
  refine ⟨by simp [Whole, new], rfl, rfl, ?_⟩
  intro x y hx hy
  unfold at' new
  simp only
  rw [if_pos ⟨hx, hy⟩, List.getElem?_replicate, if_pos (index_lt hx hy)]

theorem shows_self {img : Image} (hw : Whole img) : Shows img img.width img.height (at' img) := ⟨hw, rfl, rfl, fun _ _ _ _ => rfl⟩

theorem fill_shows (img : Image) (hw : Whole img) (c : Rgba) :
    ∃ img', fill img c = .ok img' ∧ Shows img' img.width img.height (fun _ _ => some c) := by
  obtain ⟨img', h1, h2⟩ := loop_inv (fun x s => loop (fun y s => put s x y c) 0 s.height s) img.width
    (fun x s => Shows s img.width img.height (fun i j => if i < x then some c else at' img i j)) (by
      intro x s hx hs
      obtain ⟨s', h1, h2⟩ := loop_inv (fun y s => put s x y c) img.height
        (fun y s => Shows s img.width img.height (fun i j => if i < x ∨ (i = x ∧ j < y) then some c else at' img i j)) (by
          intro y s hy hs
          obtain ⟨s', k1, k2, k3, k4, k5, k6⟩ := set_eq hs.whole (x := x) (y := y) (by rw [hs.width]; exact hx) (by rw [hs.height]; exact hy) c
          refine ⟨s', k2, k3, by rw [k4, hs.width], by rw [k5, hs.height], ?_⟩
          intro i j hi hj
          rw [k6, hs.colours i j hi hj]
          by_cases he : i = x ∧ j = y
          · rw [if_pos he, if_pos (by omega)]
          · rw [if_neg he]
            by_cases h : i < x ∨ (i = x ∧ j < y)
            · rw [if_pos h, if_pos (by omega)]
            · rw [if_neg h, if_neg (by omega)]) img.height 0 s (by omega) (by
          refine ⟨hs.whole, hs.width, hs.height, ?_⟩
          intro i j hi hj
          rw [hs.colours i j hi hj]
          by_cases h : i < x
          · rw [if_pos h, if_pos (.inl h)]
          · rw [if_neg h, if_neg (by omega)])
      refine ⟨s', by rw [hs.height]; exact h1, h2.whole, h2.width, h2.height, ?_⟩
      intro i j hi hj
      rw [h2.colours i j hi hj]
      by_cases h : i < x + 1
      · rw [if_pos h, if_pos (by omega)]
      · rw [if_neg h, if_neg (by omega)]) img.width 0 img (by omega) (by
      refine ⟨hw, rfl, rfl, ?_⟩
      intro i j _ _
      rw [if_neg (by omega)])
  refine ⟨img', h1, h2.whole, h2.width, h2.height, ?_⟩
  intro i j hi hj
  rw [h2.colours i j hi hj, if_pos hi]

theorem apply_shows (img : Image) (hw : Whole img) (f : Rgba → Rgba) :
    ∃ img', apply img f = .ok img' ∧ Shows img' img.width img.height (fun x y => (at' img x y).map f) := by
  obtain ⟨img', h1, h2⟩ := loop_inv (fun (y : Nat) s => loop (fun (x : Nat) s => (get s x y).bind fun color => set s x y (f color)) 0 s.width s) img.height
    (fun y s => Shows s img.width img.height (fun i j => if j < y then (at' img i j).map f else at' img i j)) (by
      intro y s hy hs
      obtain ⟨s', h1, h2⟩ := loop_inv (fun (x : Nat) s => (get s x y).bind fun color => set s x y (f color)) img.width
        (fun x s => Shows s img.width img.height (fun i j => if j < y ∨ (j = y ∧ i < x) then (at' img i j).map f else at' img i j)) (by
          intro x s hx hs
          have hx' : x < s.width := by rw [hs.width]; exact hx
          have hy' : y < s.height := by rw [hs.height]; exact hy
          obtain ⟨c, hc⟩ := at_some hs.whole hx' hy'
          have hc' := hc
          rw [hs.colours x y hx hy, if_neg (by omega)] at hc'
          obtain ⟨s', k1, _, k3, k4, k5, k6⟩ := set_eq hs.whole hx' hy' (f c)
          refine ⟨s', by rw [get_eq hx' hy' hc, ok_bind]; exact k1, k3, by rw [k4, hs.width], by rw [k5, hs.height], ?_⟩
          intro i j hi hj
          rw [k6, hs.colours i j hi hj]
          by_cases he : i = x ∧ j = y
          · rw [if_pos he, if_pos (by omega), he.1, he.2, hc']; rfl
          · rw [if_neg he]
            by_cases h : j < y ∨ (j = y ∧ i < x)
            · rw [if_pos h, if_pos (by omega)]
            · rw [if_neg h, if_neg (by omega)]) img.width 0 s (by omega) (by
          refine ⟨hs.whole, hs.width, hs.height, ?_⟩
          intro i j hi hj
          rw [hs.colours i j hi hj]
          by_cases h : j < y
          · rw [if_pos h, if_pos (.inl h)]
          · rw [if_neg h, if_neg (by omega)])
      refine ⟨s', by rw [hs.width]; exact h1, h2.whole, h2.width, h2.height, ?_⟩
      intro i j hi hj
      rw [h2.colours i j hi hj]
      by_cases h : j < y + 1
      · rw [if_pos h, if_pos (by omega)]
      · rw [if_neg h, if_neg (by omega)]) img.height 0 img (by omega) (by
      refine ⟨hw, rfl, rfl, ?_⟩
      intro i j _ _
      rw [if_neg (by omega)])
  refine ⟨img', h1, h2.whole, h2.width, h2.height, ?_⟩
  intro i j hi hj
  rw [h2.colours i j hi hj, if_pos hj]

/-- A row of an enlarged image. -/
theorem explodeRow_shows (img : Image) (hw : Whole img) (n bigy y : Nat) (hy : y < img.height) (hb : bigy < img.height * n)
    (g : Nat → Nat → Option Rgba) (big : Image) (hs : Shows big (img.width * n) (img.height * n) g) :
    ∃ big', explodeRow img n bigy y big = .ok (big', img.width * n) ∧
      Shows big' (img.width * n) (img.height * n) (fun i j => if j = bigy then at' img (i / n) y else g i j) := by
  have hmul : ∀ x k : Nat, x < img.width → k < n → x * n + k < img.width * n := by
    intro x k hx hk
    have : x * n + n ≤ img.width * n := by rw [← Nat.succ_mul]; exact Nat.mul_le_mul_right n hx
    omega
  have hdiv : ∀ x k : Nat, k < n → (x * n + k) / n = x := by
    intro x k hk
    rw [Nat.mul_comm, Nat.mul_add_div (by omega), Nat.div_eq_of_lt hk, Nat.add_zero]
  obtain ⟨⟨big', bx⟩, h1, h2, h3⟩ := loop_inv (fun (x : Nat) (big, bigx) => (get img x y).bind fun c =>
      loop (fun _ (big, bigx) => (set big ((bigx : Nat) : Int) bigy c).bind fun big => .ok (big, bigx + 1)) 0 n (big, bigx)) img.width
    (fun x s => s.2 = x * n ∧ Shows s.1 (img.width * n) (img.height * n) (fun i j => if j = bigy ∧ i < x * n then at' img (i / n) y else g i j)) (by
      rintro x ⟨s, bx⟩ hx ⟨hbx, hs⟩
      simp only at hbx hs
      obtain ⟨c, hc⟩ := at_some hw hx hy
      obtain ⟨⟨s', bx'⟩, h1, h2, h3⟩ := loop_inv (fun _ (big, bigx) => (set big ((bigx : Nat) : Int) bigy c).bind fun big => .ok (big, bigx + 1)) n
        (fun k s => s.2 = x * n + k ∧
          Shows s.1 (img.width * n) (img.height * n) (fun i j => if j = bigy ∧ i < x * n + k then at' img (i / n) y else g i j)) (by
          rintro k ⟨s, bx⟩ hk ⟨hbx, hs⟩
          simp only at hbx hs
          subst hbx
          obtain ⟨s', k1, _, k3, k4, k5, k6⟩ := set_eq hs.whole (x := x * n + k) (y := bigy) (by rw [hs.width]; exact hmul x k hx hk)
            (by rw [hs.height]; exact hb) c
          refine ⟨(s', x * n + k + 1), ?_, ?_, ?_⟩
          · show (set s ((x * n + k : Nat) : Int) bigy c).bind _ = _
            rw [k1, ok_bind]
          · show x * n + k + 1 = x * n + (k + 1); omega
          · refine ⟨k3, by rw [k4, hs.width], by rw [k5, hs.height], ?_⟩
            intro i j hi hj
            show at' s' i j = _
            rw [k6, hs.colours i j hi hj]
            by_cases he : i = x * n + k ∧ j = bigy
            · rw [if_pos he, if_pos (by omega), he.1, hdiv x k hk, hc]
            · rw [if_neg he]
              by_cases h : j = bigy ∧ i < x * n + k
              · rw [if_pos h, if_pos (by omega)]
              · rw [if_neg h, if_neg (by omega)]) n 0 (s, bx) (by omega) ⟨by rw [Nat.add_zero]; exact hbx, by rw [Nat.add_zero]; exact hs⟩
      simp only at h2 h3
      refine ⟨(s', bx'), ?_, ?_, ?_⟩
      · show (get img x y).bind _ = _
        rw [get_eq hx hy hc, ok_bind]
        exact h1
      · show bx' = (x + 1) * n
        rw [h2, Nat.succ_mul]
      · rw [Nat.succ_mul]; exact h3) img.width 0 (big, 0) (by omega) (by
      refine ⟨by simp, hs.whole, hs.width, hs.height, ?_⟩
      intro i j hi hj
      show at' big i j = _
      rw [if_neg (by omega), hs.colours i j hi hj])
  simp only at h2 h3
  subst h2
  refine ⟨big', h1, h3.whole, h3.width, h3.height, ?_⟩
  intro i j hi hj
  rw [h3.colours i j hi hj]
  by_cases h : j = bigy
  · rw [if_pos h, if_pos ⟨h, hi⟩]
  · rw [if_neg h, if_neg (fun e => h e.1)]

theorem explode_shows (img : Image) (hw : Whole img) (n : Nat) :
    ∃ big, explode img n = .ok big ∧ Shows big (img.width * n) (img.height * n) (fun x y => at' img (x / n) (y / n)) := by
  have hmul : ∀ x k : Nat, x < img.height → k < n → x * n + k < img.height * n := by
    intro x k hx hk
    have : x * n + n ≤ img.height * n := by rw [← Nat.succ_mul]; exact Nat.mul_le_mul_right n hx
    omega
  have hdiv : ∀ x k : Nat, k < n → (x * n + k) / n = x := by
    intro x k hk
    rw [Nat.mul_comm, Nat.mul_add_div (by omega), Nat.div_eq_of_lt hk, Nat.add_zero]
  have hnew := new_shows (img.width * n) (img.height * n)
  obtain ⟨⟨big, b⟩, h1, h2, h3⟩ := loop_inv (fun (y : Nat) (big, bigy) =>
      loop (fun _ (big, bigy) => (explodeRow img n bigy y big).bind fun (big, _) => .ok (big, bigy + 1)) 0 n (big, bigy)) img.height
    (fun y s => s.2 = y * n ∧ Shows s.1 (img.width * n) (img.height * n)
      (fun i j => if j < y * n then at' img (i / n) (j / n) else some ⟨0, 0, 0, 0⟩)) (by
      rintro y ⟨s, b⟩ hy ⟨hb, hs⟩
      simp only at hb hs
      obtain ⟨⟨s', b'⟩, h1, h2, h3⟩ := loop_inv (fun (_ : Nat) (big, bigy) => (explodeRow img n bigy y big).bind fun (big, _) => Res.ok (big, bigy + 1)) n
        (fun k s => s.2 = y * n + k ∧ Shows s.1 (img.width * n) (img.height * n)
          (fun i j => if j < y * n + k then at' img (i / n) (j / n) else some ⟨0, 0, 0, 0⟩)) (by
          rintro k ⟨s, b⟩ hk ⟨hb, hs⟩
          simp only at hb hs
          subst hb
          obtain ⟨s', k1, k2⟩ := explodeRow_shows img hw n (y * n + k) y hy (hmul y k hy hk) _ s hs
          refine ⟨(s', y * n + k + 1), ?_, ?_, ?_⟩
          · show (explodeRow img n (y * n + k) y s).bind _ = _
            rw [k1, ok_bind]
          · show y * n + k + 1 = y * n + (k + 1); omega
          · refine ⟨k2.whole, k2.width, k2.height, ?_⟩
            intro i j hi hj
            show at' s' i j = _
            rw [k2.colours i j hi hj]
            by_cases he : j = y * n + k
            · rw [if_pos he, if_pos (by omega), he, hdiv y k hk]
            · rw [if_neg he]
              by_cases h : j < y * n + k
              · rw [if_pos h, if_pos (by omega)]
              · rw [if_neg h, if_neg (by omega)]) n 0 (s, b) (by omega) ⟨by rw [Nat.add_zero]; exact hb, by rw [Nat.add_zero]; exact hs⟩
      simp only at h2 h3
      refine ⟨(s', b'), h1, ?_, ?_⟩
      · show b' = (y + 1) * n
        rw [h2, Nat.succ_mul]
      · rw [Nat.succ_mul]; exact h3) img.height 0 (new (img.width * n) (img.height * n), 0) (by omega) (by
      refine ⟨by simp, hnew.whole, hnew.width, hnew.height, ?_⟩
      intro i j hi hj
      show at' (new _ _) i j = _
      rw [if_neg (by omega), hnew.colours i j hi hj])
  simp only at h2 h3
  refine ⟨big, ?_, h3.whole, h3.width, h3.height, ?_⟩
  · unfold explode
    rw [h1]
    rfl
  · intro i j hi hj
    rw [h3.colours i j hi hj, if_pos hj]

/-- A row that is pasted. -/
theorem pasteRow_shows (p : Image) (hp : Whole p) (x yi yp : Nat) (hyp : yp < p.height) (w h : Nat) (hyi : yi < h) :
    ∀ (n xp : Nat) (img : Image) (g : Nat → Nat → Option Rgba), xp + n = p.width → Shows img w h g →
      ∃ img', pasteRow p x yi yp xp n img = .ok img' ∧
        Shows img' w h (fun i j => if j = yi ∧ x + xp ≤ i ∧ i < x + p.width then at' p (i - x) yp else g i j) := by
  intro n
  induction n with
  | zero =>
    intro xp img g hn hs
    refine ⟨img, rfl, hs.whole, hs.width, hs.height, ?_⟩
    intro i j hi hj
    rw [hs.colours i j hi hj, if_neg (by omega)]
  | succ n ih =>
    intro xp img g hn hs
    unfold pasteRow
    by_cases hge : (x : Int) + xp ≥ img.width
    · rw [if_pos hge]
      refine ⟨img, rfl, hs.whole, hs.width, hs.height, ?_⟩
      intro i j hi hj
      have := hs.width
      rw [hs.colours i j hi hj, if_neg (by omega)]
    · rw [if_neg hge]
      have hx : xp < p.width := by omega
      obtain ⟨c, hc⟩ := at_some hp hx hyp
      rw [get_eq hx hyp hc, ok_bind]
      obtain ⟨s', k1, _, k3, k4, k5, k6⟩ := set_eq hs.whole (x := x + xp) (y := yi) (by omega) (by rw [hs.height]; exact hyi) c
      have e : ((x : Int) + (xp : Int)) = ((x + xp : Nat) : Int) := by omega
      rw [e, k1, ok_bind]
      obtain ⟨img', h1, h2⟩ := ih (xp + 1) s' (fun i j => if i = x + xp ∧ j = yi then some c else g i j) (by omega)
        ⟨k3, by rw [k4, hs.width], by rw [k5, hs.height], by
          intro i j hi hj
          rw [k6, hs.colours i j hi hj]⟩
      refine ⟨img', h1, h2.whole, h2.width, h2.height, ?_⟩
      intro i j hi hj
      rw [h2.colours i j hi hj]
      by_cases h : j = yi ∧ x + (xp + 1) ≤ i ∧ i < x + p.width
      · rw [if_pos h, if_pos (by omega)]
      · rw [if_neg h]
        by_cases he : i = x + xp ∧ j = yi
        · rw [if_pos he, if_pos (by omega), ← hc, he.1]
          congr 1
          omega
        · rw [if_neg he, if_neg (by omega)]

theorem pasteLoop_shows (p : Image) (hp : Whole p) (x y w h : Nat) :
    ∀ (n yp : Nat) (img : Image) (g : Nat → Nat → Option Rgba), yp + n = p.height → Shows img w h g →
      ∃ img', pasteLoop p x y yp n img = .ok img' ∧
        Shows img' w h (fun i j => if y + yp ≤ j ∧ j < y + p.height ∧ x ≤ i ∧ i < x + p.width then at' p (i - x) (j - y) else g i j) := by
  intro n
  induction n with
  | zero =>
    intro yp img g hn hs
    refine ⟨img, rfl, hs.whole, hs.width, hs.height, ?_⟩
    intro i j hi hj
    rw [hs.colours i j hi hj, if_neg (by omega)]
  | succ n ih =>
    intro yp img g hn hs
    unfold pasteLoop
    by_cases hge : (y : Int) + yp ≥ img.height
    · rw [if_pos hge]
      refine ⟨img, rfl, hs.whole, hs.width, hs.height, ?_⟩
      intro i j hi hj
      have := hs.height
      rw [hs.colours i j hi hj, if_neg (by omega)]
    · rw [if_neg hge]
      have hh := hs.height
      have e : ((y : Int) + (yp : Int)) = ((y + yp : Nat) : Int) := by omega
      obtain ⟨s', k1, k2⟩ := pasteRow_shows p hp x (y + yp) yp (by omega) w h (by omega) p.width 0 img g (by omega) hs
      rw [e, k1, ok_bind]
      obtain ⟨img', h1, h2⟩ := ih (yp + 1) s' _ (by omega) k2
      refine ⟨img', h1, h2.whole, h2.width, h2.height, ?_⟩
      intro i j hi hj
      rw [h2.colours i j hi hj]
      by_cases h : y + (yp + 1) ≤ j ∧ j < y + p.height ∧ x ≤ i ∧ i < x + p.width
      · rw [if_pos h, if_pos (by omega)]
      · rw [if_neg h]
        by_cases he : j = y + yp ∧ x + 0 ≤ i ∧ i < x + p.width
        · rw [if_pos he, if_pos (by omega)]
          congr 1
          omega
        · rw [if_neg he, if_neg (by omega)]

/-- A place left of or above the image is refused. -/
theorem paste_negative (img p : Image) (hp : Whole p) (x y : Int) (hpw : 0 < p.width) (hph : 0 < p.height)
    (hneg : x < 0 ∨ y < 0) (hx : x < img.width) (hy : y < img.height) :
    paste img p x y = .panic "invalid pixel coordinates" := by
  unfold paste
  obtain ⟨n, hn⟩ : ∃ n, p.height = n + 1 := ⟨p.height - 1, by omega⟩
  obtain ⟨m, hm⟩ : ∃ m, p.width = m + 1 := ⟨p.width - 1, by omega⟩
  obtain ⟨c, hc⟩ := at_some hp hpw hph
  have hg : get p ((0 : Nat) : Int) ((0 : Nat) : Int) = .ok c := get_eq hpw hph hc
  rw [hn]
  unfold pasteLoop
  rw [if_neg (by omega), hm]
  unfold pasteRow
  rw [if_neg (by omega), hg, ok_bind, (get_outside img _ _ (by omega)).2 c]
  rfl
end Che.Lib.Image
