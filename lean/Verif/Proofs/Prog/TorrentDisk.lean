import Verif.Proofs.Prog.Torrent

namespace Che.Prog.Torrent
open Che Che.Lib Che.Lib.Torrent Che.Spec.Torrent

theorem toInt_small (n : Nat) (h : n < 2 ^ 31) : toInt n = n := by
  unfold toInt
  have : n % 2 ^ 32 = n := Nat.mod_eq_of_lt (by omega)
  rw [this, if_pos h]

/-- The files of a torrent are on the disk. -/
def Has (pre : Bytes) (ps : List (Bytes × Nat)) (disk : Bytes → Bytes) (d : Disk) : Prop := ∀ p ∈ ps, d (pre ++ [47] ++ p.1) = some (disk p.1)

/-- What is read over the beginning of a buffer. -/
def overlay (disk : Bytes → Bytes) (buf : Bytes) (x : Slice) : Bytes := bytesOf disk x ++ buf.drop x.length.toNat

theorem readLoop_eq (pre : Bytes) (d : Disk) (disk : Bytes → Bytes) (xs : List Slice) (buf : Bytes) (c : Nat)
    (hd : ∀ x ∈ xs, d (pre ++ [47] ++ x.path) = some (disk x.path)) (hl : ∀ x ∈ xs, (bytesOf disk x).length = x.length.toNat)
    (hb : ∀ x ∈ xs, x.length.toNat ≤ buf.length) (hc : c + (xs.map fun x => x.length.toNat).sum < 2 ^ 31) :
    readLoop pre d xs buf c = .ok (xs.foldl (overlay disk) buf, ((c + (xs.map fun x => x.length.toNat).sum : Nat) : Int)) := by
  induction xs generalizing buf c with
  | nil => simp [readLoop]
  | cons x xs ih =>
    simp only [List.map_cons, List.sum_cons] at hc ⊢
    have h1 := hl x (by simp)
    have h2 := hb x (by simp)
    unfold readLoop read
    rw [slash, hd x (by simp)]
    simp only
    change Res.bind (if buf.length < (bytesOf disk x).length then _ else .ok (bytesOf disk x ++ buf.drop (bytesOf disk x).length, toInt (bytesOf disk x).length)) _ = _
    rw [if_neg (by omega), h1, toInt_small _ (by omega)]
    simp only [Res.bind]
    rw [if_neg (by omega), count, if_neg (by omega)]
    simp only
    rw [show (c : Int) + (x.length.toNat : Int) = ((c + x.length.toNat : Nat) : Int) by omega]
    have hlen : (bytesOf disk x ++ buf.drop x.length.toNat).length = buf.length := by
      rw [List.length_append, h1, List.length_drop]; omega
    rw [ih (bytesOf disk x ++ buf.drop x.length.toNat) (c + x.length.toNat) (fun y hy => hd y (by simp [hy])) (fun y hy => hl y (by simp [hy]))
      (fun y hy => by rw [hlen]; exact hb y (by simp [hy])) (by omega)]
    rw [List.foldl_cons]
    refine congrArg Res.ok (Prod.ext rfl ?_)
    simp only
    omega

/-- The disk after a slice has been written. -/
def after (pre data : Bytes) (d : Disk) (x : Slice) : Disk :=
  fun p => if p = pre ++ [47] ++ x.path then some (put ((d (pre ++ [47] ++ x.path)).getD []) x.begin.toNat (data.take x.length.toNat)) else d p

theorem writeLoop_eq (pre data : Bytes) (xs : List Slice) (d : Disk) (c : Nat)
    (hb : ∀ x ∈ xs, x.length.toNat ≤ data.length) (hc : c + (xs.map fun x => x.length.toNat).sum < 2 ^ 31) :
    writeLoop pre data xs d c = .ok (xs.foldl (after pre data) d, ((c + (xs.map fun x => x.length.toNat).sum : Nat) : Int)) := by
  induction xs generalizing d c with
  | nil => simp [writeLoop]
  | cons x xs ih =>
    simp only [List.map_cons, List.sum_cons] at hc ⊢
    have h2 := hb x (by simp)
    unfold writeLoop write
    rw [slash, if_neg (by omega), toInt_small _ (by omega)]
    simp only [Res.bind]
    rw [if_neg (by omega), count, if_neg (by omega)]
    simp only
    rw [show (c : Int) + (x.length.toNat : Int) = ((c + x.length.toNat : Nat) : Int) by omega]
    rw [ih _ (c + x.length.toNat) (fun y hy => hb y (by simp [hy])) (by omega)]
    rw [List.foldl_cons]
    refine congrArg Res.ok (Prod.ext rfl ?_)
    simp only
    omega

/-- Files with different paths are written each for itself. -/
theorem written (pre data : Bytes) (xs : List Slice) (d : Disk) (hn : (xs.map (·.path)).Nodup) :
    (∀ x ∈ xs, xs.foldl (after pre data) d (pre ++ [47] ++ x.path) = some (put ((d (pre ++ [47] ++ x.path)).getD []) x.begin.toNat (data.take x.length.toNat))) ∧
    ∀ p, (∀ x ∈ xs, p ≠ pre ++ [47] ++ x.path) → xs.foldl (after pre data) d p = d p := by
  induction xs generalizing d with
  | nil => simp
  | cons x xs ih =>
    rw [List.map_cons, List.nodup_cons] at hn
    obtain ⟨ih1, ih2⟩ := ih (after pre data d x) hn.2
    have hne : ∀ y ∈ xs, pre ++ [47] ++ x.path ≠ pre ++ [47] ++ y.path := by
      intro y hy e
      exact hn.1 (by rw [List.append_cancel_left e]; exact List.mem_map_of_mem hy)
    simp only [List.foldl_cons]
    constructor
    · intro y hy
      rcases List.mem_cons.mp hy with rfl | hy
      · rw [ih2 _ hne, after, if_pos rfl]
      · rw [ih1 y hy, after, if_neg (fun e => hne y hy e.symm)]
    · intro p hp
      rw [ih2 p (fun y hy => hp y (by simp [hy])), after, if_neg (hp x (by simp))]

/-! ### Ranges inside of a file -/

theorem listed_append {pos : Nat} {ps qs : List (Bytes × Nat)} {fs : List File} (h : Listed pos (ps ++ qs) fs) :
    ∃ f1 f2, fs = f1 ++ f2 ∧ Listed pos ps f1 ∧ Listed (pos + size ps) qs f2 := by
  induction ps generalizing pos fs with
  | nil => exact ⟨[], fs, rfl, .nil, by simpa [size] using h⟩
  | cons p ps ih =>
    cases h with
    | cons h1 h2 h3 h4 =>
      rename_i f fs n path
      obtain ⟨f1, f2, rfl, a, b⟩ := ih h4
      exact ⟨_ :: f1, f2, rfl, .cons h1 h2 h3 a, by simpa [size, Nat.add_assoc] using b⟩

theorem listed_before (a b : UInt64) (hab : a.toNat ≤ b.toNat) {pos : Nat} {ps : List (Bytes × Nat)} {fs : List File} (h : Listed pos ps fs) (hp : pos + size ps ≤ a.toNat) :
    fs.filterMap (slice a b) = [] := by
  induction h with
  | nil => rfl
  | @cons pos n path ps fs f h1 h2 h3 _ ih =>
    have e : size ((path, n) :: ps) = n + size ps := by simp [size]
    rw [e] at hp
    rw [List.filterMap_cons, (slice_eq a b f (by omega) hab).1 (by omega)]
    exact ih (by omega)

theorem listed_after (a b : UInt64) (hab : a.toNat ≤ b.toNat) {pos : Nat} {ps : List (Bytes × Nat)} {fs : List File} (h : Listed pos ps fs) (hp : b.toNat ≤ pos) :
    fs.filterMap (slice a b) = [] := by
  induction h with
  | nil => rfl
  | @cons pos n path ps fs f h1 h2 h3 _ ih =>
    rw [List.filterMap_cons, (slice_eq a b f (by omega) hab).1 (by omega)]
    exact ih (by omega)

/-- The range of `r` in the content: its beginning. -/
def start (tf : Info) (r : Range) : Nat := r.index.toNat * tf.piece_length.toNat + r.begin.toNat

theorem bounds (tf : Info) (r : Range) (h : start tf r + r.length.toNat < 2 ^ 64) :
    (r.index.toUInt64 * tf.piece_length + r.begin.toUInt64).toNat = start tf r ∧
    (r.index.toUInt64 * tf.piece_length + r.begin.toUInt64 + r.length.toUInt64).toNat = start tf r + r.length.toNat := by
  unfold start at *
  have e1 : r.index.toUInt64.toNat = r.index.toNat := by simp
  have e2 : r.begin.toUInt64.toNat = r.begin.toNat := by simp
  have e3 : r.length.toUInt64.toNat = r.length.toNat := by simp
  have f : (r.index.toUInt64 * tf.piece_length + r.begin.toUInt64).toNat = r.index.toNat * tf.piece_length.toNat + r.begin.toNat := by
    rw [UInt64.toNat_add, UInt64.toNat_mul, e1, e2]
    generalize r.index.toNat * tf.piece_length.toNat = m at *
    omega
  refine ⟨f, ?_⟩
  rw [UInt64.toNat_add, f, e3]
  generalize r.index.toNat * tf.piece_length.toNat = m at *
  omega

/-- A range with bytes inside of a file is a slice of it. -/
theorem map_single (tf : Info) (h : Fine tf) (r : Range) (ps qs : List (Bytes × Nat)) (path : Bytes) (n : Nat) (hp : parts tf = ps ++ (path, n) :: qs)
    (h1 : size ps ≤ start tf r) (h2 : start tf r + r.length.toNat ≤ size ps + n) (h3 : 0 < r.length.toNat) :
    ∃ x, map tf r = [x] ∧ x.path = path ∧ x.begin.toNat = start tf r - size ps ∧ x.length.toNat = r.length.toNat := by
  have hs := h.size
  have hl := get_file_list_listed tf h
  rw [hp] at hl hs
  have e : size (ps ++ (path, n) :: qs) = size ps + (n + size qs) := by simp [size]
  rw [e] at hs
  obtain ⟨b1, b2⟩ := bounds tf r (by omega)
  unfold map
  simp only
  generalize r.index.toUInt64 * tf.piece_length + r.begin.toUInt64 = a at *
  generalize a + r.length.toUInt64 = b at *
  have hab : a.toNat ≤ b.toNat := by omega
  obtain ⟨f1, f2, e, l1, l2⟩ := listed_append hl
  rw [e, List.filterMap_append, listed_before a b hab l1 (by omega), List.nil_append]
  cases l2 with
  | @cons _ _ _ _ fs f g1 g2 g3 g4 =>
    obtain ⟨x, hx, x1, x2, x3⟩ := (slice_eq a b f (by omega) hab).2 (by omega) (by omega)
    rw [List.filterMap_cons, hx, listed_after a b hab g4 (by omega)]
    refine ⟨x, rfl, by rw [x1, g1], by rw [x2, b1, g2]; omega, by rw [x3]; omega⟩

/-- A range over the end of a file has a slice of it and one of the next one. -/
theorem map_two (tf : Info) (h : Fine tf) (r : Range) (ps qs : List (Bytes × Nat)) (path path' : Bytes) (n n' : Nat) (hp : parts tf = ps ++ (path, n) :: (path', n') :: qs)
    (h1 : size ps ≤ start tf r) (h2 : start tf r < size ps + n) (h3 : size ps + n < start tf r + r.length.toNat) (h4 : start tf r + r.length.toNat ≤ size ps + n + n') :
    ∃ x y, map tf r = [x, y] ∧ x.path = path ∧ x.begin.toNat = start tf r - size ps ∧ x.length.toNat = size ps + n - start tf r ∧
      y.path = path' ∧ y.begin.toNat = 0 ∧ y.length.toNat = start tf r + r.length.toNat - (size ps + n) := by
  have hs := h.size
  have hl := get_file_list_listed tf h
  rw [hp] at hl hs
  have e : size (ps ++ (path, n) :: (path', n') :: qs) = size ps + (n + (n' + size qs)) := by simp [size]
  rw [e] at hs
  obtain ⟨b1, b2⟩ := bounds tf r (by omega)
  unfold map
  simp only
  generalize r.index.toUInt64 * tf.piece_length + r.begin.toUInt64 = a at *
  generalize a + r.length.toUInt64 = b at *
  have hab : a.toNat ≤ b.toNat := by omega
  obtain ⟨f1, f2, e, l1, l2⟩ := listed_append hl
  rw [e, List.filterMap_append, listed_before a b hab l1 (by omega), List.nil_append]
  cases l2 with
  | @cons _ _ _ _ fs f g1 g2 g3 g4 =>
    cases g4 with
    | @cons _ _ _ _ fs f' k1 k2 k3 k4 =>
      obtain ⟨x, hx, x1, x2, x3⟩ := (slice_eq a b f (by omega) hab).2 (by omega) (by omega)
      obtain ⟨y, hy, y1, y2, y3⟩ := (slice_eq a b f' (by omega) hab).2 (by omega) (by omega)
      rw [List.filterMap_cons, hx, List.filterMap_cons, hy, listed_after a b hab k4 (by omega)]
      refine ⟨x, y, rfl, by rw [x1, g1], by rw [x2, b1, g2]; omega, ?_, by rw [y1, k1], by rw [y2, b1, k2]; omega, ?_⟩
      · rw [x3]; clear hx hy; omega
      · rw [y3]; clear hx hy; omega

/-- A byte of a file after something has been put into it. -/
theorem put_get (old : Bytes) (begin : Nat) (new : Bytes) (hn : new ≠ []) (i : Nat) :
    (put old begin new)[i]? = if i < begin then (if i < old.length then old[i]? else some 0) else if i < begin + new.length then new[i - begin]? else old[i]? := by
  unfold put
  rw [if_neg hn]
  have hl : ((old ++ List.replicate (begin - old.length) 0).take begin).length = begin := by
    rw [List.length_take, List.length_append, List.length_replicate]; omega
  by_cases h1 : i < begin
  · rw [if_pos h1, List.append_assoc, List.getElem?_append_left (by omega), List.getElem?_take_of_lt h1]
    by_cases h2 : i < old.length
    · rw [if_pos h2, List.getElem?_append_left h2]
    · rw [if_neg h2, List.getElem?_append_right (by omega), List.getElem?_replicate, if_pos (by omega)]
  · rw [if_neg h1, List.append_assoc, List.getElem?_append_right (by omega), hl]
    by_cases h2 : i < begin + new.length
    · rw [if_pos h2, List.getElem?_append_left (by omega)]
    · rw [if_neg h2, List.getElem?_append_right (by omega), List.getElem?_drop]
      congr 1
      omega

theorem put_length (old : Bytes) (begin : Nat) (new : Bytes) (hn : new ≠ []) : (put old begin new).length = max old.length (begin + new.length) := by
  unfold put
  rw [if_neg hn, List.length_append, List.length_append, List.length_take, List.length_append, List.length_replicate, List.length_drop]
  omega
end Che.Prog.Torrent
