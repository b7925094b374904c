import Verif.Model.Prog.Torrent
import Verif.Spec.Lib.Torrent

namespace Che.Prog.Torrent
open Che Che.Lib Che.Lib.Torrent Che.Spec.Torrent

theorem slash : cstr "/" = [47] := by decide

theorem foldl_toNat (fs : List (UInt64 × Bytes)) (acc : UInt64) (h : acc.toNat + (fs.map fun f => f.1.toNat).sum < 2 ^ 64) :
    (fs.foldl (fun total f => total + f.1) acc).toNat = acc.toNat + (fs.map fun f => f.1.toNat).sum := by
  induction fs generalizing acc with
  | nil => simp
  | cons f fs ih =>
    simp only [List.map_cons, List.sum_cons] at h ⊢
    have e : (acc + f.1).toNat = acc.toNat + f.1.toNat := by rw [UInt64.toNat_add]; omega
    rw [List.foldl_cons, ih _ (by rw [e]; omega), e]
    omega

theorem size_files (name : Bytes) (fs : List (UInt64 × Bytes)) : size (fs.map fun f => (name ++ [47] ++ f.2, f.1.toNat)) = (fs.map fun f => f.1.toNat).sum := by
  simp [size, List.map_map, Function.comp_def]

theorem totalsize_eq (tf : Info) (h : Fine tf) : (totalsize tf).toNat = size (parts tf) := by
  have hs := h.size
  unfold totalsize parts at *
  cases hf : tf.files with
  | nil =>
    by_cases h0 : tf.length = 0
    · simp [h0, size]
    · simp [h0, size]
  | cons f fs =>
    rw [hf] at hs
    simp only at hs ⊢
    rw [size_files] at hs ⊢
    rw [if_neg (by simp), foldl_toNat _ 0 (by simpa using hs)]
    simp

/-- The number of pieces. -/
theorem npieces_eq (tf : Info) (h : Fine tf) :
    ∃ n, npieces tf = .ok n ∧ n.toNat = (size (parts tf) + tf.piece_length.toNat - 1) / tf.piece_length.toNat := by
  have hp := h.piece
  have hs := h.size
  have hne : tf.piece_length ≠ 0 := by intro e; rw [e] at hp; simp at hp
  refine ⟨_, by unfold npieces; rw [if_neg hne], ?_⟩
  have ht := totalsize_eq tf h
  have hd : (totalsize tf / tf.piece_length).toNat = size (parts tf) / tf.piece_length.toNat := by rw [UInt64.toNat_div, ht]
  have hm : (totalsize tf % tf.piece_length).toNat = size (parts tf) % tf.piece_length.toNat := by rw [UInt64.toNat_mod, ht]
  generalize size (parts tf) = S at *
  generalize tf.piece_length.toNat = P at *
  have hdm := Nat.div_add_mod S P
  have hlt := Nat.mod_lt S hp
  have hle : S / P ≤ S := Nat.div_le_self _ _
  by_cases hz : S % P = 0
  · rw [if_neg (by intro hx; exact hx (by apply UInt64.toNat_inj.mp; rw [hm, hz]; rfl)), hd]
    rw [hz, Nat.add_zero] at hdm
    have : S + P - 1 = (P - 1) + P * (S / P) := by omega
    rw [this, Nat.add_mul_div_left _ _ hp, Nat.div_eq_of_lt (show P - 1 < P by omega), Nat.zero_add]
  · rw [if_pos (by intro hx; rw [hx] at hm; exact hz hm.symm), UInt64.toNat_add, hd]
    have : S + P - 1 = (S % P - 1) + P * (S / P + 1) := by rw [Nat.mul_add, Nat.mul_one]; omega
    rw [this, Nat.add_mul_div_left _ _ hp, Nat.div_eq_of_lt (show S % P - 1 < P by omega), Nat.zero_add]
    have : S / P < S := by
      rcases Nat.eq_zero_or_pos (S / P) with h0 | h0
      · rw [h0]; rcases Nat.eq_zero_or_pos S with h1 | h1
        · rw [h1] at hz; simp at hz
        · exact h1
      · have : S / P ≤ P * (S / P) := Nat.le_mul_of_pos_left _ hp
        omega
    exact Nat.mod_eq_of_lt (show S / P + 1 < 2 ^ 64 by omega)

theorem lastlen_eq (tf : Info) (h : Fine tf) :
    ∃ n, lastlen tf = .ok n ∧ n.toNat = if size (parts tf) % tf.piece_length.toNat = 0 then tf.piece_length.toNat else size (parts tf) % tf.piece_length.toNat := by
  have hp := h.piece
  have hne : tf.piece_length ≠ 0 := by intro e; rw [e] at hp; simp at hp
  refine ⟨_, by unfold lastlen; rw [if_neg hne], ?_⟩
  have ht := totalsize_eq tf h
  have hm : (totalsize tf % tf.piece_length).toNat = size (parts tf) % tf.piece_length.toNat := by rw [UInt64.toNat_mod, ht]
  by_cases hz : size (parts tf) % tf.piece_length.toNat = 0
  · rw [if_neg (by intro hx; exact hx (by apply UInt64.toNat_inj.mp; rw [hm, hz]; rfl)), if_pos hz]
  · rw [if_pos (by intro hx; rw [hx] at hm; exact hz hm.symm), if_neg hz, hm]

/-- The length of a piece. -/
theorem piece_length_eq (tf : Info) (h : Fine tf) (i : UInt64) (hi : i.toNat * tf.piece_length.toNat < size (parts tf)) :
    ∃ l, get_piece_length tf i = .ok l ∧ l.toNat = min tf.piece_length.toNat (size (parts tf) - i.toNat * tf.piece_length.toNat) := by
  obtain ⟨n, hn, hv⟩ := npieces_eq tf h
  obtain ⟨m, hm, hw⟩ := lastlen_eq tf h
  have hp := h.piece
  have hil := i.toNat_lt
  unfold get_piece_length
  rw [hn]
  simp only [Res.bind]
  have hn1 : 0 < n.toNat := by
    rw [hv]
    exact Nat.div_pos (by omega) hp
  have e1 : (n - 1).toNat = n.toNat - 1 := by
    rw [UInt64.toNat_sub_of_le _ _ (by rw [UInt64.le_iff_toNat_le]; exact hn1)]
    rfl
  generalize size (parts tf) = S at *
  generalize hP : tf.piece_length.toNat = P at *
  -- n - 1 = (S - 1) / P
  have e2 : n.toNat - 1 = (S - 1) / P := by
    rw [hv, show S + P - 1 = (S - 1) + P by omega, Nat.add_div_right _ hp]
    rfl
  have hdm := Nat.div_add_mod (S - 1) P
  have hlt := Nat.mod_lt (S - 1) hp
  by_cases hc : i = n - 1
  · rw [if_pos hc, hm]
    refine ⟨m, rfl, ?_⟩
    have hi2 : i.toNat = (S - 1) / P := by rw [hc, e1, e2]
    rw [hw, hi2, Nat.mul_comm]
    generalize hq : (S - 1) / P = q at *
    have hS : S = P * q + ((S - 1) % P + 1) := by omega
    by_cases hz : (S - 1) % P + 1 = P
    · have : S % P = 0 := by rw [hS, hz, Nat.mul_add_mod, Nat.mod_self]
      rw [if_pos this]
      omega
    · have : S % P = (S - 1) % P + 1 := by
        conv => lhs; rw [hS]
        rw [Nat.mul_add_mod]
        exact Nat.mod_eq_of_lt (by omega)
      rw [this, if_neg (by omega)]
      omega
  · rw [if_neg hc]
    refine ⟨_, rfl, ?_⟩
    rw [hP]
    have hi2 : i.toNat ≠ (S - 1) / P := by
      intro e
      exact hc (UInt64.toNat_inj.mp (by rw [e1, e2, e]))
    have hle : i.toNat ≤ (S - 1) / P := (Nat.le_div_iff_mul_le hp).mpr (by omega)
    have : (i.toNat + 1) * P ≤ S - 1 := (Nat.le_div_iff_mul_le hp).mp (by omega)
    rw [Nat.add_mul] at this
    omega

/-- The lengths of the pieces together. -/
theorem sum_pieces (P S : Nat) (k : Nat) : ((List.range k).map fun i => min P (S - i * P)).sum = min S (k * P) := by
  induction k with
  | zero => simp
  | succ k ih =>
    rw [List.range_succ, List.map_append, List.sum_append, ih, Nat.succ_mul]
    simp
    omega

/-! ### The files of a range -/

/-- What a slice says about the files. -/
def bytesOf (disk : Bytes → Bytes) (x : Slice) : Bytes := ((disk x.path).drop x.begin.toNat).take x.length.toNat

/-- The files of a list, from a position on. -/
inductive Listed : Nat → List (Bytes × Nat) → List File → Prop
  | nil {pos : Nat} : Listed pos [] []
  | cons {pos n : Nat} {path : Bytes} {ps : List (Bytes × Nat)} {fs : List File} {f : File} : f.path = path → f.beginpos.toNat = pos → f.endpos.toNat = pos + n → Listed (pos + n) ps fs →
    Listed pos ((path, n) :: ps) (f :: fs)

theorem fileLoop_listed (name : Bytes) (fs : List (UInt64 × Bytes)) (pos : UInt64) (h : pos.toNat + (fs.map fun f => f.1.toNat).sum < 2 ^ 64) :
    Listed pos.toNat (fs.map fun f => (name ++ [47] ++ f.2, f.1.toNat)) (fileLoop name pos fs) := by
  induction fs generalizing pos with
  | nil => exact .nil
  | cons f fs ih =>
    simp only [List.map_cons, List.sum_cons] at h ⊢
    have e : (pos + f.1).toNat = pos.toNat + f.1.toNat := by rw [UInt64.toNat_add]; omega
    refine .cons (by rw [slash]) rfl e ?_
    rw [← e]
    exact ih _ (by rw [e]; omega)

theorem get_file_list_listed (tf : Info) (h : Fine tf) : Listed 0 (parts tf) (get_file_list tf) := by
  have hs := h.size
  unfold parts get_file_list at *
  cases hf : tf.files with
  | nil =>
    by_cases h0 : tf.length = 0
    · simp only [h0, if_true]
      exact .nil
    · have hp : tf.length > 0 := by
        rw [gt_iff_lt, UInt64.lt_iff_toNat_lt]
        have : tf.length.toNat ≠ 0 := fun e => h0 (UInt64.toNat_inj.mp e)
        simpa using Nat.pos_of_ne_zero this
      simp only [h0, if_false]
      rw [if_pos hp]
      exact .cons rfl rfl (by simp) .nil
  | cons f fs =>
    have h0 : tf.length = 0 := by
      rcases h.kind with h1 | h1
      · exact h1
      · rw [hf] at h1; cases h1
    rw [hf] at hs
    simp only at hs ⊢
    rw [size_files] at hs
    rw [h0, if_neg (by decide)]
    exact fileLoop_listed tf.name (f :: fs) 0 (by simpa using hs)

theorem maxsz_toNat (a b : UInt64) : (maxsz a b).toNat = max a.toNat b.toNat := by
  unfold maxsz
  by_cases h : a < b
  · rw [if_pos h]; rw [UInt64.lt_iff_toNat_lt] at h; omega
  · rw [if_neg h]; rw [UInt64.lt_iff_toNat_lt] at h; omega

theorem minsz_toNat (a b : UInt64) : (minsz a b).toNat = min a.toNat b.toNat := by
  unfold minsz
  by_cases h : a < b
  · rw [if_pos h]; rw [UInt64.lt_iff_toNat_lt] at h; omega
  · rw [if_neg h]; rw [UInt64.lt_iff_toNat_lt] at h; omega

/-- What a file gives. -/
theorem slice_eq (a b : UInt64) (f : File) (hf : f.beginpos.toNat ≤ f.endpos.toNat) (hab : a.toNat ≤ b.toNat) :
    (f.endpos.toNat ≤ a.toNat ∨ b.toNat ≤ f.beginpos.toNat → slice a b f = none) ∧
    (a.toNat < f.endpos.toNat → f.beginpos.toNat < b.toNat → ∃ x, slice a b f = some x ∧ x.path = f.path ∧ x.begin.toNat = a.toNat - f.beginpos.toNat ∧
      x.length.toNat = min f.endpos.toNat b.toNat - max f.beginpos.toNat a.toNat) := by
  unfold slice
  constructor
  · intro h
    rw [if_pos (by simpa only [UInt64.le_iff_toNat_le, ge_iff_le] using h)]
  · intro h1 h2
    rw [if_neg (by simp only [UInt64.le_iff_toNat_le, ge_iff_le]; omega)]
    refine ⟨_, rfl, rfl, ?_, ?_⟩
    · rw [UInt64.toNat_sub_of_le _ _ (by rw [UInt64.le_iff_toNat_le, maxsz_toNat]; omega), maxsz_toNat]; omega
    · rw [UInt64.toNat_sub_of_le _ _ (by rw [UInt64.le_iff_toNat_le, maxsz_toNat, minsz_toNat]; omega), maxsz_toNat, minsz_toNat]

/-- The slices of a range say what is in it. -/
theorem slices_content (disk : Bytes → Bytes) (a b : UInt64) (hab : a.toNat ≤ b.toNat) {pos : Nat} {ps : List (Bytes × Nat)} {fs : List File} (h : Listed pos ps fs) (hd : Sized ps disk) :
    ((fs.filterMap (slice a b)).map (bytesOf disk)).flatten = ((content ps disk).drop (a.toNat - pos)).take (b.toNat - max a.toNat pos) ∧
    ((fs.filterMap (slice a b)).map fun x => x.length.toNat).sum = min (pos + size ps) b.toNat - max a.toNat pos := by
  induction h with
  | nil =>
    refine ⟨by simp [content], ?_⟩
    simp only [List.filterMap_nil, List.map_nil, List.sum_nil, size, Nat.add_zero]
    omega
  | @cons pos n path ps fs f h1 h2 h3 _ ih =>
    obtain ⟨ih1, ih2⟩ := ih (fun p hp => hd p (List.mem_cons_of_mem _ hp))
    have hl : (disk path).length = n := hd (path, n) (by simp)
    have hc : content ((path, n) :: ps) disk = disk path ++ content ps disk := rfl
    have hsz : size ((path, n) :: ps) = n + size ps := by simp [size]
    obtain ⟨s1, s2⟩ := slice_eq a b f (by omega) hab
    rw [hc, hsz, List.drop_append, List.take_append, hl, List.length_drop, hl,
      show a.toNat - pos - n = a.toNat - (pos + n) by omega,
      show b.toNat - max a.toNat pos - (n - (a.toNat - pos)) = b.toNat - max a.toNat (pos + n) by omega]
    by_cases hout : f.endpos.toNat ≤ a.toNat ∨ b.toNat ≤ f.beginpos.toNat
    · rw [List.filterMap_cons, s1 hout]
      clear s1 s2
      simp only
      rw [ih1, ih2]
      constructor
      · have : ((disk path).drop (a.toNat - pos)).take (b.toNat - max a.toNat pos) = [] := by
          rw [List.eq_nil_iff_length_eq_zero, List.length_take, List.length_drop, hl]
          omega
        rw [this, List.nil_append]
      · omega
    · obtain ⟨x, hx, x1, x2, x3⟩ := s2 (by omega) (by omega)
      clear s1 s2
      rw [List.filterMap_cons, hx]
      simp only [List.map_cons, List.flatten_cons, List.sum_cons]
      rw [ih1, ih2]
      constructor
      · congr 1
        rw [bytesOf, x1, x2, x3, h1, h2, h3]
        rw [List.take_eq_take_iff, List.length_drop, hl]
        omega
      · rw [x3, h2, h3]
        omega

/-- The slices are those of files in the list, in the same order, and are inside them. -/
theorem slices_in (a b : UInt64) (hab : a.toNat ≤ b.toNat) {pos : Nat} {ps : List (Bytes × Nat)} {fs : List File} (h : Listed pos ps fs) :
    ((fs.filterMap (slice a b)).map (·.path)).Sublist (ps.map (·.1)) ∧
    ∀ x ∈ fs.filterMap (slice a b), ∃ n, (x.path, n) ∈ ps ∧ x.begin.toNat + x.length.toNat ≤ n := by
  induction h with
  | nil => simp
  | @cons pos n path ps fs f h1 h2 h3 _ ih =>
    obtain ⟨ih1, ih2⟩ := ih
    obtain ⟨s1, s2⟩ := slice_eq a b f (by omega) hab
    by_cases hout : f.endpos.toNat ≤ a.toNat ∨ b.toNat ≤ f.beginpos.toNat
    · rw [List.filterMap_cons, s1 hout]
      simp only [List.map_cons]
      refine ⟨ih1.cons _, ?_⟩
      intro x hx
      obtain ⟨m, hm, hl⟩ := ih2 x hx
      exact ⟨m, List.mem_cons_of_mem _ hm, hl⟩
    · obtain ⟨x, hx, x1, x2, x3⟩ := s2 (by omega) (by omega)
      clear s1 s2
      rw [List.filterMap_cons, hx]
      simp only [List.map_cons]
      rw [x1, h1]
      refine ⟨ih1.cons_cons _, ?_⟩
      intro y hy
      rcases List.mem_cons.mp hy with rfl | hy
      · exact ⟨n, by rw [x1, h1]; simp, by rw [x2, x3, h2, h3]; omega⟩
      · obtain ⟨m, hm, hl⟩ := ih2 y hy
        exact ⟨m, List.mem_cons_of_mem _ hm, hl⟩
end Che.Prog.Torrent
