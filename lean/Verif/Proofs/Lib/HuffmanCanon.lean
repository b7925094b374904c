import Verif.Proofs.Lib.Huffman

/-! The tree that `treefrom` makes. -/
namespace Che.Proofs.Lib.Huff
open Che Che.Lib Che.Lib.Bits Che.Lib.Huffman Che.Spec.Lib Che.Spec.Lib.Huff

/-- A tree filled from the left: `k` of the `2 ^ d` places at depth `d` are used. -/
inductive Pk : Nat → Node → Nat → Prop
  | null (d) : Pk d .null 0
  | char (d v c) : Pk d (.mk true v c .null .null) (2 ^ d)
  | inner {d l r kl kr} (v c) : Pk d l kl → Pk d r kr → (r ≠ .null → kl = 2 ^ d) → Pk (d + 1) (.mk false v c l r) (kl + kr)

theorem pk_le {d n k} (h : Pk d n k) : k ≤ 2 ^ d := by
  induction h with
  | null d => simp
  | char => simp
  | inner v c _ _ _ h1 h2 => rw [Nat.pow_succ]; omega

theorem pk_null {d k} (h : Pk d .null k) : k = 0 := by cases h; rfl

theorem pk_fresh (d : Nat) : Pk (d + 1) fresh 0 := .inner 0 0 (.null d) (.null d) (by simp)

/-- One level more. -/
theorem pk_deeper {d n k} (h : Pk d n k) : Pk (d + 1) n (2 * k) := by
  induction h with
  | null d => exact .null _
  | char d v c => rw [Nat.mul_comm, ← Nat.pow_succ]; exact .char _ v c
  | inner v c _ _ hr h1 h2 =>
    rw [Nat.mul_add]
    exact .inner v c h1 h2 (fun h => by rw [hr h, Nat.pow_succ, Nat.mul_comm])

/-- The number of nodes. -/
def size : Node → Nat
  | .null => 0
  | .mk _ _ _ l r => size l + size r + 1

/-- The values of a tree being made. -/
def cwords : Node → List (Nat × List Bool)
  | .null => []
  | .mk true v _ _ _ => [(v, [])]
  | .mk false _ _ l r => (cwords l).map (fun p => (p.1, false :: p.2)) ++ (cwords r).map (fun p => (p.1, true :: p.2))

/-- Every inner node has a left child. -/
def Ne : Node → Prop
  | .null => True
  | .mk true _ _ l r => l = .null ∧ r = .null
  | .mk false _ _ l r => l ≠ .null ∧ Ne l ∧ Ne r

theorem words_cwords : ∀ {n}, Ne n → words n = cwords n
  | .null, _ => rfl
  | .mk true v c l r, h => by
    obtain ⟨rfl, rfl⟩ := h
    rfl
  | .mk false v c l r, h => by
    rw [words_inner h.1, words_cwords h.2.1, words_cwords h.2.2]; rfl

theorem bits_zero (v : Nat) : bitsOfNat 0 v = [] := rfl

theorem bits_left {d k : Nat} (h : k < 2 ^ d) : bitsOfNat (d + 1) k = false :: bitsOfNat d k := by
  rw [bitsOfNat, List.range_succ, List.reverse_append]
  simp only [List.reverse_cons, List.reverse_nil, List.nil_append, List.cons_append, List.map_cons]
  rw [Nat.testBit_lt_two_pow h]
  rfl

theorem bits_right {d k : Nat} (h : k < 2 ^ d) : bitsOfNat (d + 1) (2 ^ d + k) = true :: bitsOfNat d k := by
  rw [bitsOfNat, List.range_succ, List.reverse_append]
  simp only [List.reverse_cons, List.reverse_nil, List.nil_append, List.cons_append, List.map_cons]
  rw [Nat.testBit_two_pow_add_eq, Nat.testBit_lt_two_pow h]
  congr 1
  rw [bitsOfNat]
  apply List.map_congr_left
  intro i hi
  rw [List.mem_reverse, List.mem_range] at hi
  exact Nat.testBit_two_pow_add_gt hi k

theorem child_mk (b : Bool) (v c : Nat) (l r : Node) (pos : Nat) : child (.mk b v c l r) pos = .ok (pos, .mk b v c l r) := rfl

theorem bind_ok' {α β} (x : α) (f : α → Res Empty β) : (Res.ok x).bind f = f x := rfl

/-- Try a child. -/
def tryIn (ch d pos : Nat) (n : Node) : Res Empty (Nat × Node × Bool) :=
  if n.ischar then .ok (pos, n, false) else createnode ch d pos n

theorem createnode_succ (ch d pos : Nat) (b : Bool) (v c : Nat) (l r : Node) :
    createnode ch (d + 2) pos (.mk b v c l r) =
      (child l pos).bind fun x => (tryIn ch (d + 1) x.1 x.2).bind fun y =>
        if y.2.2 then .ok (y.1, .mk b v c y.2.1 r, true)
        else (child r y.1).bind fun z => (tryIn ch (d + 1) z.1 z.2).bind fun u =>
          .ok (u.1, .mk b v c y.2.1 u.2.1, u.2.2) := by
  rw [createnode]
  cases child l pos with
  | ok x =>
    obtain ⟨p, l⟩ := x
    have hr : ∀ (y : Nat × Node × Bool),
        (if y.2.2 then .ok (y.1, .mk b v c y.2.1 r, true)
          else do
            let x ← child r y.1
            if x.2.ischar then do
              let x ← pure (x.1, x.2, false)
              pure (x.1, .mk b v c y.2.1 x.2.1, x.2.2)
            else do
              let x ← createnode ch (d + 1) x.1 x.2
              pure (x.1, .mk b v c y.2.1 x.2.1, x.2.2) : Res Empty (Nat × Node × Bool)) =
        if y.2.2 then .ok (y.1, .mk b v c y.2.1 r, true)
        else (child r y.1).bind fun z => (tryIn ch (d + 1) z.1 z.2).bind fun u =>
          .ok (u.1, .mk b v c y.2.1 u.2.1, u.2.2) := by
      intro y
      congr 1
      cases child r y.1 with
      | ok z =>
        show (if z.2.ischar then _ else _) = (tryIn ch (d + 1) z.1 z.2).bind _
        rw [tryIn]
        split <;> rfl
      | err e => rfl
      | panic m => rfl
      | diverge => rfl
    show (if l.ischar then _ else _) = (tryIn ch (d + 1) p l).bind _
    rw [tryIn]
    split
    · exact hr (p, l, false)
    · cases createnode ch (d + 1) p l with
      | ok y => exact hr y
      | err e => rfl
      | panic m => rfl
      | diverge => rfl
  | err e => rfl
  | panic m => rfl
  | diverge => rfl

/-- A full tree takes no more. -/
theorem create_full {d n k} (h : Pk d n k) (hk : k = 2 ^ d) (hn : n ≠ .null) (hc : n.ischar = false) (ch pos : Nat) :
    createnode ch d pos n = .ok (pos, n, false) := by
  induction h generalizing pos with
  | null => exact absurd rfl hn
  | char => simp [Node.ischar] at hc
  | @inner d l r kl kr v c hl hr hf h1 h2 =>
    have b1 := pk_le hl
    have b2 := pk_le hr
    rw [Nat.pow_succ] at hk
    have p := Nat.two_pow_pos d
    have hln : l ≠ .null := by rintro rfl; have := pk_null hl; omega
    have hrn : r ≠ .null := by rintro rfl; have := pk_null hr; omega
    cases l with
    | null => exact absurd rfl hln
    | mk lb v1 c1 l1 r1 =>
    cases r with
    | null => exact absurd rfl hrn
    | mk rb v2 c2 l2 r2 =>
    cases d with
    | zero => rfl
    | succ d =>
      have e1 : tryIn ch (d + 1) pos (Node.mk lb v1 c1 l1 r1) = .ok (pos, Node.mk lb v1 c1 l1 r1, false) := by
        rw [tryIn]
        by_cases hi : (Node.mk lb v1 c1 l1 r1).ischar = true
        · rw [if_pos hi]
        · rw [if_neg hi]; exact h1 (by omega) (by simp) (by simpa using hi) pos
      have e2 : tryIn ch (d + 1) pos (Node.mk rb v2 c2 l2 r2) = .ok (pos, Node.mk rb v2 c2 l2 r2, false) := by
        rw [tryIn]
        by_cases hi : (Node.mk rb v2 c2 l2 r2).ischar = true
        · rw [if_pos hi]
        · rw [if_neg hi]; exact h2 (by omega) (by simp) (by simpa using hi) pos
      rw [createnode_succ]
      simp only [child_mk, bind_ok', e1, e2, Bool.false_eq_true, if_false]

def tooMany {α} : Res Empty α := .panic "huffman.c:26: too many nodes"

theorem newnode_ok {pos} (h : pos < 512) : newnode pos = .ok (pos + 1) := by
  rw [newnode, if_neg (by omega)]

theorem newnode_full : newnode 512 = tooMany := rfl

/-- What making a node comes to: `m` nodes are taken, or there are not as many. -/
def Makes (ch d : Nat) (n n' : Node) (k : Nat) : Prop :=
  Pk d n' (k + 1) ∧ n'.ischar = false ∧ Ne n' ∧ cwords n' = cwords n ++ [(ch, bitsOfNat d k)] ∧
  ∃ m, size n' = size n + m ∧ 0 < m ∧ ∀ pos, pos ≤ 512 →
    createnode ch d pos n = if pos + m ≤ 512 then .ok (pos + m, n', true) else tooMany

theorem create_fresh (ch : Nat) : ∀ (d v c : Nat), ∃ n', Makes ch (d + 1) (.mk false v c .null .null) n' 0
  | 0, v, c => by
    refine ⟨.mk false v c (.mk true ch 0 .null .null) .null, ?_, rfl, ⟨by simp, ⟨rfl, rfl⟩, trivial⟩, rfl, 1, rfl, by omega, ?_⟩
    · exact Pk.inner (kl := 1) (kr := 0) v c (.char 0 ch 0) (.null 0) (by simp)
    · intro pos hp
      by_cases h : pos = 512
      · subst h; rfl
      · rw [if_pos (by omega), createnode, newnode_ok (by omega)]; rfl
  | d + 1, v, c => by
    obtain ⟨l, h1, h2, h3, h4, m, h5, h6, h7⟩ := create_fresh ch d 0 0
    have hln : l ≠ .null := by rintro rfl; have := pk_null h1; omega
    refine ⟨.mk false v c l .null, Pk.inner (kl := 0 + 1) (kr := 0) v c h1 (.null _) (by simp), rfl, ⟨hln, h3, trivial⟩, ?_, m + 1, ?_, by omega, ?_⟩
    · have e : cwords (.mk false v c l .null) = (cwords l).map (fun p => (p.1, false :: p.2)) := by simp [cwords]
      have e0 : ∀ v c, cwords (.mk false v c .null .null) = [] := fun _ _ => rfl
      rw [e, h4, e0, e0, bits_left (d := d + 1) (Nat.two_pow_pos _)]
      rfl
    · simp only [size] at h5 ⊢; omega
    · intro pos hp
      by_cases h : pos = 512
      · subst h
        rw [if_neg (by omega)]
        rfl
      · have e := h7 (pos + 1) (by omega)
        rw [createnode_succ, child, newnode_ok (show pos < 512 by omega)]
        show (createnode ch (d + 1) (pos + 1) fresh).bind _ = _
        rw [show createnode ch (d + 1) (pos + 1) fresh = _ from e]
        by_cases hm : pos + 1 + m ≤ 512
        · rw [if_pos hm, if_pos (show pos + (m + 1) ≤ 512 by omega), show pos + 1 + m = pos + (m + 1) by omega]
          rfl
        · rw [if_neg hm, if_neg (show ¬ pos + (m + 1) ≤ 512 by omega)]
          rfl

/-- A tree that is not full gets the next word. -/
theorem create_step {d n k} (h : Pk d n k) (hk : k < 2 ^ d) (hn : n ≠ .null) (hc : n.ischar = false) (hne : Ne n) (ch : Nat) :
    ∃ n', Makes ch d n n' k := by
  induction h with
  | null => exact absurd rfl hn
  | char => simp [Node.ischar] at hc
  | @inner d l r kl kr v c hl hr hf h1 h2 =>
    have b1 := pk_le hl
    have b2 := pk_le hr
    rw [Nat.pow_succ] at hk
    have p := Nat.two_pow_pos d
    obtain ⟨hln, hnl, hnr⟩ := hne
    by_cases hfull : kl = 2 ^ d
    · -- to the right
      have hkr : kr < 2 ^ d := by omega
      have hbits : bitsOfNat (d + 1) (kl + kr) = true :: bitsOfNat d kr := by rw [hfull]; exact bits_right hkr
      cases l with
      | null => exact absurd rfl hln
      | mk lb lv lc ll lr =>
      cases d with
      | zero =>
        have hr0 : r = .null := by
          cases hr with
          | null => rfl
          | char => simp at hkr
        subst hr0
        obtain rfl := pk_null hr
        refine ⟨.mk false v c (.mk lb lv lc ll lr) (.mk true ch 0 .null .null), ?_, rfl, ⟨hln, hnl, rfl, rfl⟩, ?_, 1, ?_, by omega, ?_⟩
        · exact .inner v c hl (.char 0 ch 0) (fun _ => hfull)
        · rw [hbits]; simp [cwords, bits_zero]
        · simp [size]
        · intro pos hp
          by_cases h : pos = 512
          · subst h; rfl
          · rw [if_pos (by omega)]
            simp only [createnode, newnode_ok (show pos < 512 by omega)]
            rfl
      | succ d =>
        have e1 : ∀ pos, tryIn ch (d + 1) pos (Node.mk lb lv lc ll lr) = .ok (pos, Node.mk lb lv lc ll lr, false) := by
          intro pos
          rw [tryIn]
          by_cases hi : (Node.mk lb lv lc ll lr).ischar = true
          · rw [if_pos hi]
          · rw [if_neg hi]; exact create_full hl hfull (by simp) (by simpa using hi) ch pos
        cases r with
        | null =>
          obtain rfl := pk_null hr
          obtain ⟨r', m1, m2, m3, m4, m, m5, m6, m7⟩ := create_fresh ch d 0 0
          have hrn : r' ≠ .null := by rintro rfl; have := pk_null m1; omega
          refine ⟨.mk false v c (.mk lb lv lc ll lr) r', ?_, rfl, ⟨hln, hnl, m3⟩, ?_, m + 1, ?_, by omega, ?_⟩
          · have := Pk.inner v c hl m1 (fun _ => hfull)
            rwa [show kl + (0 + 1) = kl + 0 + 1 by omega] at this
          · rw [hbits]
            have e0 : cwords (.mk false 0 0 .null .null) = [] := rfl
            rw [e0] at m4
            simp [cwords, m4]
          · simp only [size] at m5 ⊢; omega
          · intro pos hp
            rw [createnode_succ]
            simp only [child_mk, bind_ok', e1, Bool.false_eq_true, if_false]
            by_cases h : pos = 512
            · subst h
              rw [if_neg (by omega)]
              rfl
            · have e := m7 (pos + 1) (by omega)
              rw [child, newnode_ok (show pos < 512 by omega)]
              show (createnode ch (d + 1) (pos + 1) fresh).bind _ = _
              rw [show createnode ch (d + 1) (pos + 1) fresh = _ from e]
              by_cases hm : pos + 1 + m ≤ 512
              · rw [if_pos hm, if_pos (show pos + (m + 1) ≤ 512 by omega), show pos + 1 + m = pos + (m + 1) by omega]
                rfl
              · rw [if_neg hm, if_neg (show ¬ pos + (m + 1) ≤ 512 by omega)]
                rfl
        | mk rb rv rc rl rr =>
          have hrc : (Node.mk rb rv rc rl rr).ischar = false := by
            cases hr with
            | char => simp at hkr
            | inner => rfl
          obtain ⟨r', m1, m2, m3, m4, m, m5, m6, m7⟩ := h2 hkr (by simp) hrc hnr
          refine ⟨.mk false v c (.mk lb lv lc ll lr) r', ?_, rfl, ⟨hln, hnl, m3⟩, ?_, m, ?_, m6, ?_⟩
          · have := Pk.inner v c hl m1 (fun _ => hfull)
            rwa [show kl + (kr + 1) = kl + kr + 1 by omega] at this
          · rw [hbits]
            have e : ∀ r, cwords (.mk false v c (.mk lb lv lc ll lr) r) =
              (cwords (.mk lb lv lc ll lr)).map (fun p => (p.1, false :: p.2)) ++ (cwords r).map (fun p => (p.1, true :: p.2)) := fun _ => rfl
            rw [e, e, m4]
            simp
          · simp only [size] at m5 ⊢; omega
          · intro pos hp
            rw [createnode_succ]
            simp only [child_mk, bind_ok', e1, Bool.false_eq_true, if_false]
            rw [tryIn, if_neg (by rw [hrc]; simp), m7 pos hp]
            by_cases hm : pos + m ≤ 512
            · rw [if_pos hm, if_pos hm]; rfl
            · rw [if_neg hm, if_neg hm]; rfl
    · -- to the left
      have hr0 : r = .null := Decidable.byContradiction fun h => hfull (hf h)
      subst hr0
      obtain rfl := pk_null hr
      have hkl : kl < 2 ^ d := by omega
      cases l with
      | null => exact absurd rfl hln
      | mk lb lv lc ll lr =>
      have hlc : (Node.mk lb lv lc ll lr).ischar = false := by
        cases hl with
        | char => simp at hkl
        | inner => rfl
      cases d with
      | zero =>
        cases hl with
        | char => simp at hkl
      | succ d =>
        obtain ⟨l', m1, m2, m3, m4, m, m5, m6, m7⟩ := h1 hkl (by simp) hlc hnl
        have hln' : l' ≠ .null := by rintro rfl; have := pk_null m1; omega
        refine ⟨.mk false v c l' .null, ?_, rfl, ⟨hln', m3, trivial⟩, ?_, m, ?_, m6, ?_⟩
        · exact Pk.inner (kl := kl + 1) (kr := 0) v c m1 (.null _) (by simp)
        · rw [show kl + 0 = kl from rfl, bits_left (d := d + 1) hkl]
          have e : ∀ l, cwords (.mk false v c l .null) = (cwords l).map (fun p => (p.1, false :: p.2)) := fun _ => by simp [cwords]
          rw [e, e, m4]
          simp
        · simp only [size] at m5 ⊢; omega
        · intro pos hp
          rw [createnode_succ]
          simp only [child_mk, bind_ok']
          rw [tryIn, if_neg (by rw [hlc]; simp), m7 pos hp]
          by_cases hm : pos + m ≤ 512
          · rw [if_pos hm, if_pos hm]; rfl
          · rw [if_neg hm, if_neg hm]; rfl

/-! ## The loops -/

theorem size_le {d n k} (h : Pk d n k) (hn : n ≠ .null) :
    (k = 2 ^ d → size n + 1 ≤ 2 * (cwords n).length) ∧ size n ≤ 2 * (cwords n).length + d := by
  induction h with
  | null => exact absurd rfl hn
  | char => simp [size, cwords]; omega
  | @inner d l r kl kr v c hl hr hf h1 h2 =>
    have b1 := pk_le hl
    have b2 := pk_le hr
    have p := Nat.two_pow_pos d
    simp only [size, cwords, List.length_append, List.length_map]
    have hl0 : l = .null → size l = 0 ∧ (cwords l).length = 0 ∧ kl = 0 := by
      rintro rfl; exact ⟨rfl, rfl, pk_null hl⟩
    have hr0 : r = .null → size r = 0 ∧ (cwords r).length = 0 ∧ kr = 0 := by
      rintro rfl; exact ⟨rfl, rfl, pk_null hr⟩
    by_cases hrn : r = .null
    · obtain ⟨r1, r2, r3⟩ := hr0 hrn
      by_cases hln : l = .null
      · obtain ⟨l1, l2, l3⟩ := hl0 hln
        constructor
        · intro hk; rw [Nat.pow_succ] at hk; omega
        · omega
      · have := h1 hln
        constructor
        · intro hk; rw [Nat.pow_succ] at hk; omega
        · omega
    · have h2 := h2 hrn
      have hkl := hf hrn
      have hln : l ≠ .null := by rintro rfl; have := pk_null hl; omega
      have h1 := (h1 hln).1 hkl
      constructor
      · intro hk
        rw [Nat.pow_succ] at hk
        have := h2.1 (by omega)
        omega
      · omega

/-- The tree while values are added at depth `d`. -/
structure Inv (d : Nat) (n : Node) (k pos : Nat) : Prop where
  pk : Pk d n k
  inner : n.ischar = false
  nn : n ≠ .null
  ne : Ne n ∨ n = fresh
  psz : pos = size n
  le : pos ≤ 512

theorem Inv.create {d n k pos} (h : Inv (d + 1) n k pos) (hk : k < 2 ^ (d + 1)) (ch : Nat) :
    ∃ n', Makes ch (d + 1) n n' k := by
  rcases h.ne with hne | rfl
  · exact create_step h.pk hk h.nn h.inner hne ch
  · have : k = 0 := by
      cases h.pk with
      | inner _ _ hl hr _ => rw [pk_null hl, pk_null hr]
    subst this
    exact create_fresh ch d 0 0

/-- The words of `j` values of one length. -/
def row (vals : List Nat) (d k j : Nat) : List (Nat × List Bool) :=
  List.zip vals ((List.range j).map fun i => bitsOfNat d (k + i))

theorem row_succ (ch : Nat) (vals : List Nat) (d k j : Nat) :
    row (ch :: vals) d k (j + 1) = (ch, bitsOfNat d k) :: row vals d (k + 1) j := by
  rw [row, List.range_succ_eq_map, List.map_cons, List.map_map, List.zip_cons_cons, row, Nat.add_zero]
  congr 2
  apply List.map_congr_left
  intro i _
  simp only [Function.comp_apply]
  congr 1
  omega

theorem valsLoop_sound (d : Nat) : ∀ (j : Nat) (vals : List Nat) (pos : Nat) (n : Node) (k : Nat) (r : List Nat × Nat × Node),
    Inv (d + 1) n k pos → valsLoop (d + 1) j vals pos n = .ok r →
    k + j ≤ 2 ^ (d + 1) ∧ j ≤ vals.length ∧ r.1 = vals.drop j ∧ Inv (d + 1) r.2.2 (k + j) r.2.1 ∧
      cwords r.2.2 = cwords n ++ row vals (d + 1) k j
  | 0, vals, pos, n, k, r, h, hr => by
    have e : r = (vals, pos, n) := by
      simp only [valsLoop] at hr; exact (Res.ok.inj hr).symm
    subst e
    exact ⟨pk_le h.pk, by simp, by simp, h, by simp [row]⟩
  | j + 1, [], pos, n, k, r, h, hr => by simp [valsLoop] at hr
  | j + 1, ch :: vals, pos, n, k, r, h, hr => by
    rw [valsLoop] at hr
    by_cases hk : k < 2 ^ (d + 1)
    · obtain ⟨n', m1, m2, m3, m4, m, m5, m6, m7⟩ := h.create hk ch
      have e := m7 pos h.le
      by_cases hm : pos + m ≤ 512
      · rw [if_pos hm] at e
        rw [e] at hr
        have hn' : n' ≠ .null := by rintro rfl; have := pk_null m1; omega
        have hi : Inv (d + 1) n' (k + 1) (pos + m) := ⟨m1, m2, hn', .inl m3, by rw [m5, h.psz], hm⟩
        obtain ⟨a1, a2, a3, a4, a5⟩ := valsLoop_sound d j vals (pos + m) n' (k + 1) r hi hr
        refine ⟨by omega, by simp; omega, by simpa using a3, ?_, ?_⟩
        · rw [show k + (j + 1) = k + 1 + j by omega]; exact a4
        · rw [a5, m4, row_succ]; simp
      · rw [if_neg hm] at e
        rw [e] at hr
        cases hr
    · have hf : k = 2 ^ (d + 1) := by have := pk_le h.pk; omega
      rw [create_full h.pk hf h.nn h.inner] at hr
      cases hr

theorem valsLoop_complete (d : Nat) : ∀ (j : Nat) (vals : List Nat) (pos : Nat) (n : Node) (k : Nat),
    Inv (d + 1) n k pos → k + j ≤ 2 ^ (d + 1) → j ≤ vals.length → 2 * ((cwords n).length + j) + (d + 1) ≤ 512 →
    ∃ r, valsLoop (d + 1) j vals pos n = .ok r
  | 0, vals, pos, n, k, _, _, _, _ => ⟨(vals, pos, n), rfl⟩
  | j + 1, [], pos, n, k, _, _, h, _ => by simp at h
  | j + 1, ch :: vals, pos, n, k, h, hk, hj, hs => by
    obtain ⟨n', m1, m2, m3, m4, m, m5, m6, m7⟩ := h.create (by omega) ch
    have hn' : n' ≠ .null := by rintro rfl; have := pk_null m1; omega
    have hsz := (size_le m1 hn').2
    rw [m5, m4, List.length_append, List.length_singleton] at hsz
    have hm : pos + m ≤ 512 := by have := h.psz; omega
    have e := m7 pos h.le
    rw [if_pos hm] at e
    have hi : Inv (d + 1) n' (k + 1) (pos + m) := ⟨m1, m2, hn', .inl m3, by rw [m5, h.psz], hm⟩
    obtain ⟨r, hr⟩ := valsLoop_complete d j vals (pos + m) n' (k + 1) hi (by omega) (by simpa using hj)
      (by rw [m4, List.length_append, List.length_singleton]; omega)
    refine ⟨r, ?_⟩
    rw [valsLoop, e]
    exact hr

/-- The lengths from index `i` on. -/
def lengthsFrom : Nat → List Nat → List Nat
  | _, [] => []
  | i, c :: cs => List.replicate c (i + 1) ++ lengthsFrom (i + 1) cs

theorem lengths_from (counts : List Nat) : lengths counts = lengthsFrom 0 counts := by
  have : ∀ (cs : List Nat) (i : Nat), ((cs.zipIdx i).flatMap fun p => List.replicate p.1 (p.2 + 1)) = lengthsFrom i cs := by
    intro cs
    induction cs with
    | nil => exact fun _ => rfl
    | cons c cs ih =>
      intro i
      rw [List.zipIdx_cons, List.flatMap_cons, ih]
      rfl
  exact this counts 0

theorem lengthsFrom_ge {i : Nat} {cs : List Nat} {x} (h : x ∈ lengthsFrom i cs) : i + 1 ≤ x := by
  induction cs generalizing i with
  | nil => simp [lengthsFrom] at h
  | cons c cs ih =>
    rw [lengthsFrom, List.mem_append] at h
    rcases h with h | h
    · exact Nat.le_of_eq (List.eq_of_mem_replicate h).symm
    · have := ih h; omega

theorem canonicalFrom_rescale {k l l' : Nat} {ls : List Nat} (hl : l ≤ l') (h : ∀ x ∈ ls, l' ≤ x) :
    canonicalFrom k l ls = canonicalFrom (k * 2 ^ (l' - l)) l' ls := by
  cases ls with
  | nil => rfl
  | cons x xs =>
    have hx := h x (by simp)
    have e : k * 2 ^ (l' - l) * 2 ^ (x - l') = k * 2 ^ (x - l) := by
      rw [Nat.mul_assoc, ← Nat.pow_add]; congr 2; omega
    rw [canonicalFrom, canonicalFrom, e]

theorem canonicalFrom_row (l : Nat) (rest : List Nat) : ∀ (c k : Nat),
    canonicalFrom k l (List.replicate c l ++ rest) = (List.range c).map (k + ·) ++ canonicalFrom (k + c) l rest
  | 0, k => by simp
  | c + 1, k => by
    rw [List.replicate_succ, List.cons_append, canonicalFrom, Nat.sub_self, Nat.pow_zero, Nat.mul_one,
      canonicalFrom_row l rest c (k + 1), List.range_succ_eq_map, List.map_cons, List.map_map]
    simp only [List.cons_append, Nat.add_zero]
    congr 1
    rw [show k + 1 + c = k + (c + 1) by omega]
    congr 1
    apply List.map_congr_left
    intro i _
    simp only [Function.comp_apply]
    omega

theorem canonicalFrom_length (k l : Nat) : ∀ ls : List Nat, (canonicalFrom k l ls).length = ls.length
  | [] => rfl
  | x :: xs => by rw [canonicalFrom, List.length_cons, canonicalFrom_length, List.length_cons]

/-- The words of the lengths, the first number being `k`. -/
def codeWords (k l : Nat) (ls : List Nat) : List (List Bool) :=
  (List.zip ls (canonicalFrom k l ls)).map fun p => bitsOfNat p.1 p.2

/-- All numbers are short enough. -/
def FitsFrom (k l : Nat) (ls : List Nat) : Prop := ∀ p ∈ List.zip ls (canonicalFrom k l ls), p.2 < 2 ^ p.1

theorem zip_row (l c k : Nat) (rest cs : List Nat) :
    List.zip (List.replicate c l ++ rest) ((List.range c).map (k + ·) ++ cs) =
      ((List.range c).map fun i => (l, k + i)) ++ List.zip rest cs := by
  rw [List.zip_append (by simp)]
  congr 1
  induction c generalizing k with
  | zero => rfl
  | succ c ih =>
    rw [List.replicate_succ, List.range_succ_eq_map, List.map_cons, List.zip_cons_cons, List.map_map, List.map_cons, List.map_map]
    congr 1
    have h1 : (List.range c).map ((k + ·) ∘ Nat.succ) = (List.range c).map ((k + 1) + ·) := by
      apply List.map_congr_left; intro i _; simp only [Function.comp_apply]; omega
    have h2 : (List.range c).map ((fun i => (l, k + i)) ∘ Nat.succ) = (List.range c).map (fun i => (l, (k + 1) + i)) := by
      apply List.map_congr_left; intro i _; simp only [Function.comp_apply, Prod.mk.injEq, true_and]; omega
    rw [h1, h2]
    exact ih (k + 1)

theorem canon_split (i k c : Nat) (cs : List Nat) :
    List.zip (lengthsFrom i (c :: cs)) (canonicalFrom k (i + 1) (lengthsFrom i (c :: cs))) =
      ((List.range c).map fun x => (i + 1, k + x)) ++
        List.zip (lengthsFrom (i + 1) cs) (canonicalFrom (2 * (k + c)) (i + 2) (lengthsFrom (i + 1) cs)) := by
  rw [lengthsFrom, canonicalFrom_row, zip_row, canonicalFrom_rescale (l := i + 1) (l' := i + 2) (by omega)
    (fun x hx => lengthsFrom_ge hx)]
  rw [show i + 2 - (i + 1) = 1 by omega, Nat.pow_one, Nat.mul_comm]

theorem zip_append_left {α β} (vals : List α) (a b : List β) (h : a.length ≤ vals.length) :
    List.zip vals (a ++ b) = List.zip vals a ++ List.zip (vals.drop a.length) b := by
  induction a generalizing vals with
  | nil => simp
  | cons x a ih =>
    cases vals with
    | nil => simp at h
    | cons v vals =>
      simp only [List.cons_append, List.zip_cons_cons, List.length_cons, List.drop_succ_cons]
      rw [ih vals (by simpa using h)]

theorem Inv.deeper {d n k pos} (h : Inv d n k pos) : Inv (d + 1) n (2 * k) pos :=
  ⟨pk_deeper h.pk, h.inner, h.nn, h.ne, h.psz, h.le⟩

theorem lensLoop_sound : ∀ (counts : List Nat) (i : Nat) (vals : List Nat) (pos : Nat) (n : Node) (k : Nat) (t : Node),
    Inv (i + 1) n k pos → lensLoop i counts vals pos n = .ok t →
    FitsFrom k (i + 1) (lengthsFrom i counts) ∧ (lengthsFrom i counts).length ≤ vals.length ∧ (Ne t ∨ t = fresh) ∧
      cwords t = cwords n ++ List.zip vals (codeWords k (i + 1) (lengthsFrom i counts))
  | [], i, vals, pos, n, k, t, h, ht => by
    have e : t = n := (Res.ok.inj ht).symm
    subst e
    exact ⟨by simp [FitsFrom, lengthsFrom], by simp [lengthsFrom], h.ne, by simp [lengthsFrom, codeWords]⟩
  | c :: cs, i, vals, pos, n, k, t, h, ht => by
    rw [lensLoop] at ht
    obtain ⟨r, h1, h2⟩ : ∃ r, valsLoop (i + 1) c vals pos n = .ok r ∧ lensLoop (i + 1) cs r.1 r.2.1 r.2.2 = .ok t := by
      cases hv : valsLoop (i + 1) c vals pos n with
      | ok r => rw [hv] at ht; exact ⟨r, rfl, ht⟩
      | err e => exact nomatch e
      | panic m => rw [hv] at ht; cases ht
      | diverge => rw [hv] at ht; cases ht
    obtain ⟨a1, a2, a3, a4, a5⟩ := valsLoop_sound i c vals pos n k r h h1
    obtain ⟨b1, b2, b3, b4⟩ := lensLoop_sound cs (i + 1) r.1 r.2.1 r.2.2 (2 * (k + c)) t a4.deeper h2
    refine ⟨?_, ?_, b3, ?_⟩
    · intro p hp
      rw [canon_split] at hp
      rcases List.mem_append.1 hp with hp | hp
      · obtain ⟨x, hx, rfl⟩ := List.mem_map.1 hp
        rw [List.mem_range] at hx
        simp only; omega
      · exact b1 p hp
    · rw [lengthsFrom, List.length_append, List.length_replicate]
      rw [a3, List.length_drop] at b2
      omega
    · have e : codeWords k (i + 1) (lengthsFrom i (c :: cs)) =
          (List.range c).map (fun x => bitsOfNat (i + 1) (k + x)) ++ codeWords (2 * (k + c)) (i + 2) (lengthsFrom (i + 1) cs) := by
        rw [codeWords, canon_split, List.map_append, List.map_map]
        rfl
      rw [b4, a5, a3, e, zip_append_left _ _ _ (by simpa using a2)]
      simp only [List.length_map, List.length_range, List.append_assoc]
      rfl

theorem lensLoop_complete : ∀ (counts : List Nat) (i : Nat) (vals : List Nat) (pos : Nat) (n : Node) (k : Nat),
    Inv (i + 1) n k pos → FitsFrom k (i + 1) (lengthsFrom i counts) → (lengthsFrom i counts).length ≤ vals.length →
    2 * ((cwords n).length + (lengthsFrom i counts).length) + (i + counts.length) ≤ 512 →
    ∃ t, lensLoop i counts vals pos n = .ok t
  | [], i, vals, pos, n, k, _, _, _, _ => ⟨n, rfl⟩
  | c :: cs, i, vals, pos, n, k, h, hf, hv, hs => by
    have hlen : (lengthsFrom i (c :: cs)).length = c + (lengthsFrom (i + 1) cs).length := by
      rw [lengthsFrom, List.length_append, List.length_replicate]
    have hkc : k + c ≤ 2 ^ (i + 1) := by
      cases c with
      | zero => exact pk_le h.pk
      | succ c =>
        have := hf (i + 1, k + c) (by
          rw [canon_split]
          exact List.mem_append_left _ (List.mem_map.2 ⟨c, by simp, rfl⟩))
        simp only at this; omega
    rw [List.length_cons] at hs
    obtain ⟨r, hr⟩ := valsLoop_complete i c vals pos n k h hkc (by omega) (by omega)
    obtain ⟨a1, a2, a3, a4, a5⟩ := valsLoop_sound i c vals pos n k r h hr
    have hrow : (row vals (i + 1) k c).length = c := by
      simp only [row, List.length_zip, List.length_map, List.length_range]; omega
    obtain ⟨t, ht⟩ := lensLoop_complete cs (i + 1) r.1 r.2.1 r.2.2 (2 * (k + c)) a4.deeper
      (fun p hp => hf p (by rw [canon_split]; exact List.mem_append_right _ hp))
      (by rw [a3, List.length_drop]; omega)
      (by rw [a5, List.length_append, hrow]; omega)
    refine ⟨t, ?_⟩
    rw [lensLoop, hr]
    exact ht

theorem inv_start : Inv 1 fresh 0 1 := ⟨pk_fresh 0, rfl, by simp [fresh], .inr rfl, rfl, by omega⟩

theorem codeWords_canonical (ls : List Nat) (h : ∀ x ∈ ls, 1 ≤ x) : codeWords 0 1 ls = canonical ls := by
  rw [codeWords, canonical, canonicalFrom_rescale (k := 0) (l := 0) (l' := 1) (by omega) h, Nat.zero_mul]

end Che.Proofs.Lib.Huff
