import Verif.Proofs.Prog.TorrentDisk
import Verif.Props.Lib.Sha1

/-!
C132-C135: the pieces of a torrent and its files.
-/
namespace Che.Props
open Che Che.Lib Che.Lib.Torrent Che.Prog.Torrent Che.Spec.Torrent Che.Spec.Lib

/-! ### Pieces -/

/-- There are as many pieces as are needed, each of them has bytes, all but the last have the same length, and together they are the files. -/
theorem C132_pieces (tf : Info) (h : Fine tf) :
    ∃ n, npieces tf = .ok n ∧ (n.toNat - 1) * tf.piece_length.toNat ≤ size (parts tf) ∧ size (parts tf) ≤ n.toNat * tf.piece_length.toNat ∧
      (n = 0 ↔ size (parts tf) = 0) ∧
      (∀ i, i < n → ∃ l, get_piece_length tf i = .ok l ∧ 0 < l.toNat ∧ l.toNat ≤ tf.piece_length.toNat ∧ (i.toNat + 1 < n.toNat → l = tf.piece_length) ∧
        i.toNat * tf.piece_length.toNat + l.toNat ≤ size (parts tf)) ∧
      ∃ ls : List UInt64, (List.range n.toNat).map (fun i => get_piece_length tf (UInt64.ofNat i)) = ls.map Res.ok ∧ (ls.map (·.toNat)).sum = size (parts tf) := by
  obtain ⟨n, hn, hv⟩ := npieces_eq tf h
  have hp := h.piece
  have hs := h.size
  have hnl := n.toNat_lt
  generalize hP : tf.piece_length.toNat = P at *
  generalize hS : size (parts tf) = S at *
  have d1 : n.toNat * P < S + P := by
    have := Nat.div_mul_le_self (S + P - 1) P
    rw [← hv] at this
    omega
  have d2 : S ≤ n.toNat * P := by
    have := Nat.lt_div_mul_add (a := S + P - 1) hp
    rw [← hv] at this
    omega
  have hsub : (n.toNat - 1) * P = n.toNat * P - P := by rw [Nat.sub_mul, Nat.one_mul]
  have hlt : ∀ i : Nat, i < n.toNat → i * P < S := by
    intro i hi
    have : (i + 1) * P ≤ n.toNat * P := Nat.mul_le_mul_right P hi
    rw [Nat.succ_mul] at this
    omega
  have hpl : ∀ i : UInt64, i.toNat < n.toNat → ∃ l, get_piece_length tf i = .ok l ∧ l.toNat = min P (S - i.toNat * P) := by
    intro i hi
    have := piece_length_eq tf h i (by rw [hP, hS]; exact hlt _ hi)
    rwa [hP, hS] at this
  refine ⟨n, hn, by rw [hsub]; omega, d2, ?_, ?_, ?_⟩
  · constructor
    · intro e; rw [e] at d2; simpa using d2
    · intro e
      have hz : n.toNat = 0 := by
        rcases Nat.eq_zero_or_pos n.toNat with h0 | h0
        · exact h0
        · have := hlt 0 h0; omega
      exact UInt64.toNat_inj.mp (by simpa using hz)
  · intro i hi
    rw [UInt64.lt_iff_toNat_lt] at hi
    obtain ⟨l, e, v⟩ := hpl i hi
    have := hlt _ hi
    refine ⟨l, e, by omega, by omega, fun hlast => ?_, by omega⟩
    have h2 := hlt _ hlast
    rw [Nat.succ_mul] at h2
    exact UInt64.toNat_inj.mp (by omega)
  · have hls : ∀ k, k ≤ n.toNat → ∃ ls : List UInt64, (List.range k).map (fun i => get_piece_length tf (UInt64.ofNat i)) = ls.map Res.ok ∧
        (ls.map (·.toNat)) = (List.range k).map fun i => min P (S - i * P) := by
      intro k
      induction k with
      | zero => intro _; exact ⟨[], rfl, rfl⟩
      | succ k ih =>
        intro hk
        obtain ⟨ls, e1, e2⟩ := ih (by omega)
        have hv : (UInt64.ofNat k).toNat = k := by rw [UInt64.toNat_ofNat']; omega
        obtain ⟨l, e, v⟩ := hpl (UInt64.ofNat k) (by omega)
        refine ⟨ls ++ [l], ?_, ?_⟩
        · rw [List.range_succ, List.map_append, e1, List.map_append]; simp [e]
        · rw [List.map_append, e2, List.range_succ, List.map_append]; simp [v, hv]
    obtain ⟨ls, e1, e2⟩ := hls n.toNat (by omega)
    refine ⟨ls, e1, ?_⟩
    rw [e2, sum_pieces]
    omega

private def two : Info := { piece_length := 4, name := [110], pieces := [], length := 0, files := [(3, [97]), (0, [98]), (6, [99])] }

private theorem two_fine : Fine two := ⟨by decide, by decide, by decide⟩

/-- Nine bytes in pieces of four: three pieces, of four, four and one. -/
example : npieces two = .ok 3 ∧ (List.range 3).map (fun i => get_piece_length two (UInt64.ofNat i)) = [.ok 4, .ok 4, .ok 1] ∧ Fine two := ⟨by decide, by decide, two_fine⟩

/-- A torrent with pieces of length zero is divided by it. -/
theorem C132_counterexample_zero (tf : Info) (h : tf.piece_length = 0) : npieces tf = .panic "undefined: division by zero" := by
  rw [npieces, if_pos h]

/-! ### Where pieces are -/

/-- A range of a piece is found in the files: the slices one after another are what is there in all files together, in the order of the files. -/
theorem C133_map (tf : Info) (h : Fine tf) (disk : Bytes → Bytes) (hd : Sized (parts tf) disk) (r : Range) (hr : start tf r + r.length.toNat ≤ size (parts tf)) :
    ((map tf r).map fun x => ((disk x.path).drop x.begin.toNat).take x.length.toNat).flatten = ((content (parts tf) disk).drop (start tf r)).take r.length.toNat ∧
    ((map tf r).map fun x => x.length.toNat).sum = r.length.toNat ∧
    ((map tf r).map (·.path)).Sublist ((parts tf).map (·.1)) ∧
    ∀ x ∈ map tf r, ∃ n, (x.path, n) ∈ parts tf ∧ x.begin.toNat + x.length.toNat ≤ n := by
  have hs := h.size
  have hl := get_file_list_listed tf h
  obtain ⟨b1, b2⟩ := bounds tf r (by omega)
  unfold map
  simp only
  generalize r.index.toUInt64 * tf.piece_length + r.begin.toUInt64 = a at *
  generalize a + r.length.toUInt64 = b at *
  have hab : a.toNat ≤ b.toNat := by omega
  obtain ⟨c1, c2⟩ := slices_content disk a b hab hl hd
  obtain ⟨c3, c4⟩ := slices_in a b hab hl
  refine ⟨?_, ?_, c3, c4⟩
  · refine Eq.trans c1 ?_
    rw [b1, b2, Nat.sub_zero, Nat.max_eq_left (Nat.zero_le _), Nat.add_sub_cancel_left]
  · rw [c2, b1, b2]; omega

example : map two ⟨0, 1, 3⟩ = [⟨[110, 47, 97], 1, 2⟩, ⟨[110, 47, 98], 0, 0⟩, ⟨[110, 47, 99], 0, 1⟩] := by decide

/-! ### Reading and writing -/

/-- A range with bytes in one of the files, which begins after `o` bytes. -/
structure Within (tf : Info) (r : Range) (ps : List (Bytes × Nat)) (path : Bytes) (n : Nat) (qs : List (Bytes × Nat)) : Prop where
  split : parts tf = ps ++ (path, n) :: qs
  from_ : size ps ≤ start tf r
  to : start tf r + r.length.toNat ≤ size ps + n
  some : 0 < r.length.toNat
  int : r.length.toNat < 2 ^ 31

theorem within_size {tf : Info} {r : Range} {ps qs : List (Bytes × Nat)} {path : Bytes} {n : Nat} (w : Within tf r ps path n qs) :
    start tf r + r.length.toNat ≤ size (parts tf) := by
  have := w.to
  rw [w.split]
  have e : size (ps ++ (path, n) :: qs) = size ps + (n + size qs) := by simp [size]
  omega

/-- A range in one file is read from there. -/
theorem C134_read_partial (pre : Bytes) (tf : Info) (h : Fine tf) (disk : Bytes → Bytes) (hd : Sized (parts tf) disk) (d : Disk) (hh : Has pre (parts tf) disk d)
    (r : Range) (ps qs : List (Bytes × Nat)) (path : Bytes) (n : Nat) (w : Within tf r ps path n qs) (buf : Bytes) (hb : r.length.toNat ≤ buf.length) :
    readslice pre tf r buf d = .ok (((content (parts tf) disk).drop (start tf r)).take r.length.toNat ++ buf.drop r.length.toNat) := by
  obtain ⟨x, hx, x1, x2, x3⟩ := map_single tf h r ps qs path n w.split w.from_ w.to w.some
  obtain ⟨c1, c2, c3, c4⟩ := C133_map tf h disk hd r (within_size w)
  have hm : (path, n) ∈ parts tf := by rw [w.split]; simp
  have hi := w.int
  have ht := w.to
  have hf := w.from_
  have hlen : (disk path).length = n := hd _ hm
  have hbl : (bytesOf disk x).length = x.length.toNat := by
    unfold bytesOf
    rw [List.length_take, List.length_drop, x1, hlen]; omega
  unfold readslice
  rw [hx] at c1 ⊢
  have hone : ∀ y ∈ [x], y = x := by simp
  rw [show (0 : Int) = ((0 : Nat) : Int) by rfl, readLoop_eq pre d disk [x] buf 0 (fun y hy => by rw [hone y hy, x1]; exact hh _ hm) (fun y hy => by rw [hone y hy]; exact hbl)
    (fun y hy => by rw [hone y hy, x3]; exact hb) (by simpa [x3] using hi)]
  simp only [Res.bind]
  rw [if_neg (by omega)]
  simp only [List.map_cons, List.map_nil, List.flatten_cons, List.flatten_nil, List.append_nil] at c1
  simp only [List.foldl_cons, List.foldl_nil, overlay]
  rw [← c1, x3]
  simp only [bytesOf, x3]

/-- A file that is not there cannot be read. -/
theorem C134_missing (pre : Bytes) (tf : Info) (h : Fine tf) (d : Disk) (r : Range) (ps qs : List (Bytes × Nat)) (path : Bytes) (n : Nat) (w : Within tf r ps path n qs) (buf : Bytes)
    (hd : d (pre ++ [47] ++ path) = none) : readslice pre tf r buf d = .panic "sliceop failed" := by
  obtain ⟨x, hx, x1, x2, x3⟩ := map_single tf h r ps qs path n w.split w.from_ w.to w.some
  have hd' : d (pre ++ cstr "/" ++ x.path) = none := by rw [x1]; exact hd
  unfold readslice
  rw [hx, readLoop]
  unfold Che.Prog.Torrent.read
  rw [hd']
  rfl

/-- Reading over the end of a file into the next one: what is in the next file goes over what is in the first one. -/
theorem C134_read_two (pre : Bytes) (tf : Info) (h : Fine tf) (disk : Bytes → Bytes) (hd : Sized (parts tf) disk) (d : Disk) (hh : Has pre (parts tf) disk d)
    (r : Range) (ps qs : List (Bytes × Nat)) (p1 p2 : Bytes) (n1 n2 : Nat) (hp : parts tf = ps ++ (p1, n1) :: (p2, n2) :: qs)
    (h1 : size ps ≤ start tf r) (h2 : start tf r < size ps + n1) (h3 : size ps + n1 < start tf r + r.length.toNat) (h4 : start tf r + r.length.toNat ≤ size ps + n1 + n2)
    (hi : r.length.toNat < 2 ^ 31) (buf : Bytes) (hb : r.length.toNat ≤ buf.length) :
    ∃ b1 b2 : Bytes, ((content (parts tf) disk).drop (start tf r)).take r.length.toNat = b1 ++ b2 ∧ b1 ≠ [] ∧ b2 ≠ [] ∧
      readslice pre tf r buf d = .ok (b2 ++ (b1 ++ buf.drop b1.length).drop b2.length) := by
  obtain ⟨x, y, hx, x1, x2, x3, y1, y2, y3⟩ := map_two tf h r ps qs p1 p2 n1 n2 hp h1 h2 h3 h4
  have hsz : start tf r + r.length.toNat ≤ size (parts tf) := by
    rw [hp]
    have e : size (ps ++ (p1, n1) :: (p2, n2) :: qs) = size ps + (n1 + (n2 + size qs)) := by simp [size]
    omega
  obtain ⟨c1, c2, c3, c4⟩ := C133_map tf h disk hd r hsz
  have m1 : (p1, n1) ∈ parts tf := by rw [hp]; simp
  have m2 : (p2, n2) ∈ parts tf := by rw [hp]; simp
  have l1 : (disk p1).length = n1 := hd _ m1
  have l2 : (disk p2).length = n2 := hd _ m2
  have bx : (bytesOf disk x).length = x.length.toNat := by
    unfold bytesOf
    rw [List.length_take, List.length_drop, x1, l1]; omega
  have by' : (bytesOf disk y).length = y.length.toNat := by
    unfold bytesOf
    rw [List.length_take, List.length_drop, y1, l2]; omega
  rw [hx] at c1
  simp only [List.map_cons, List.map_nil, List.flatten_cons, List.flatten_nil, List.append_nil] at c1
  refine ⟨bytesOf disk x, bytesOf disk y, c1.symm, ?_, ?_, ?_⟩
  · intro e; rw [e] at bx; simp only [List.length_nil] at bx; omega
  · intro e; rw [e] at by'; simp only [List.length_nil] at by'; omega
  unfold readslice
  rw [hx]
  have htwo : ∀ z ∈ [x, y], z = x ∨ z = y := by simp
  rw [show (0 : Int) = ((0 : Nat) : Int) by rfl, readLoop_eq pre d disk [x, y] buf 0
    (fun z hz => (htwo z hz).elim (fun e => by rw [e, x1]; exact hh _ m1) (fun e => by rw [e, y1]; exact hh _ m2))
    (fun z hz => by rcases htwo z hz with rfl | rfl <;> assumption)
    (fun z hz => by rcases htwo z hz with rfl | rfl <;> omega) (by simp only [List.map_cons, List.map_nil, List.sum_cons, List.sum_nil]; omega)]
  simp only [Res.bind]
  rw [if_neg (by omega)]
  simp only [List.foldl_cons, List.foldl_nil, overlay, bx, by']

private def letters : Bytes → Bytes := fun p => if p = [110, 47, 97] then [1, 2, 3] else if p = [110, 47, 99] then [4, 5, 6, 7, 8, 9] else []

/-- The first piece, 1 2 3 4, is read as 4 2 3 0; the second one is right. -/
theorem C134_counterexample_read : Fine two ∧ Sized (parts two) letters ∧ (content (parts two) letters).take 4 = [1, 2, 3, 4] ∧
    readslice [112] two ⟨0, 0, 4⟩ [0, 0, 0, 0] (fun p => some (letters (p.drop 2))) = .ok [4, 2, 3, 0] ∧
    readslice [112] two ⟨1, 0, 4⟩ [0, 0, 0, 0] (fun p => some (letters (p.drop 2))) = .ok [5, 6, 7, 8] := by
  refine ⟨two_fine, ?_, by decide, by decide, by decide⟩
  intro p hp
  have : ∀ p ∈ parts two, (letters p.1).length = p.2 := by decide
  exact this p hp

/-- A range in one file is written there, and no other file is touched. -/
theorem C134_write_partial (pre : Bytes) (tf : Info) (h : Fine tf) (d : Disk) (r : Range) (ps qs : List (Bytes × Nat)) (path : Bytes) (n : Nat) (w : Within tf r ps path n qs)
    (data : Bytes) (hb : data.length = r.length.toNat) :
    ∃ d', writeslice pre tf r data d = .ok d' ∧ (∀ p, p ≠ pre ++ [47] ++ path → d' p = d p) ∧
      ∃ f, d' (pre ++ [47] ++ path) = some f ∧ f.length = max ((d (pre ++ [47] ++ path)).getD []).length (start tf r - size ps + r.length.toNat) ∧
        ∀ i, f[i]? = if i < start tf r - size ps then (if i < ((d (pre ++ [47] ++ path)).getD []).length then ((d (pre ++ [47] ++ path)).getD [])[i]? else some 0)
          else if i < start tf r - size ps + r.length.toNat then data[i - (start tf r - size ps)]? else ((d (pre ++ [47] ++ path)).getD [])[i]? := by
  obtain ⟨x, hx, x1, x2, x3⟩ := map_single tf h r ps qs path n w.split w.from_ w.to w.some
  have hi := w.int
  have hne : data ≠ [] := by intro e; rw [e] at hb; have := w.some; simp only [List.length_nil] at hb; omega
  have hone : ∀ y ∈ [x], y = x := by simp
  have ht : data.take x.length.toNat = data := by rw [x3, ← hb, List.take_length]
  obtain ⟨w1, w2⟩ := written pre data [x] d (by simp)
  refine ⟨[x].foldl (after pre data) d, ?_, fun p hp => w2 p (fun y hy => by rw [hone y hy, x1]; exact hp), _, by rw [← x1]; exact w1 x (by simp), ?_, ?_⟩
  · unfold writeslice
    rw [hx, show (0 : Int) = ((0 : Nat) : Int) by rfl, writeLoop_eq pre data [x] d 0 (fun y hy => by rw [hone y hy]; omega) (by simpa [x3] using hi)]
    simp only [Res.bind]
    rw [if_neg (by omega)]
  · rw [ht, put_length _ _ _ hne, x1, x2, hb]
  · intro i
    rw [ht, put_get _ _ _ hne, x1, x2, hb]

/-- Writing over the end of a file into the next one: both get the beginning of the data. -/
theorem C134_write_two (pre : Bytes) (tf : Info) (h : Fine tf) (d : Disk) (r : Range) (ps qs : List (Bytes × Nat)) (p1 p2 : Bytes) (n1 n2 : Nat) (hp : parts tf = ps ++ (p1, n1) :: (p2, n2) :: qs)
    (hn : p1 ≠ p2) (h1 : size ps ≤ start tf r) (h2 : start tf r < size ps + n1) (h3 : size ps + n1 < start tf r + r.length.toNat) (h4 : start tf r + r.length.toNat ≤ size ps + n1 + n2)
    (hi : r.length.toNat < 2 ^ 31) (data : Bytes) (hb : data.length = r.length.toNat) :
    ∃ d', writeslice pre tf r data d = .ok d' ∧
      d' (pre ++ [47] ++ p1) = some (put ((d (pre ++ [47] ++ p1)).getD []) (start tf r - size ps) (data.take (size ps + n1 - start tf r))) ∧
      d' (pre ++ [47] ++ p2) = some (put ((d (pre ++ [47] ++ p2)).getD []) 0 (data.take (start tf r + r.length.toNat - (size ps + n1)))) := by
  obtain ⟨x, y, hx, x1, x2, x3, y1, y2, y3⟩ := map_two tf h r ps qs p1 p2 n1 n2 hp h1 h2 h3 h4
  obtain ⟨w1, w2⟩ := written pre data [x, y] d (by simp [x1, y1, hn])
  have htwo : ∀ z ∈ [x, y], z = x ∨ z = y := by simp
  refine ⟨[x, y].foldl (after pre data) d, ?_, ?_, ?_⟩
  · unfold writeslice
    rw [hx, show (0 : Int) = ((0 : Nat) : Int) by rfl, writeLoop_eq pre data [x, y] d 0
      (fun z hz => by rcases htwo z hz with rfl | rfl <;> omega) (by simp only [List.map_cons, List.map_nil, List.sum_cons, List.sum_nil]; omega)]
    simp only [Res.bind]
    rw [if_neg (by omega)]
  · have := w1 x (by simp)
    rwa [x1, x2, x3] at this
  · have := w1 y (by simp)
    rwa [y1, y2, y3] at this

/-- The last byte of the first piece, 4, belongs into the second file, where 1 is written. -/
theorem C134_counterexample_write : ∃ d', writeslice [112] two ⟨0, 0, 4⟩ [1, 2, 3, 4] (fun _ => none) = .ok d' ∧
    d' [112, 47, 110, 47, 97] = some [1, 2, 3] ∧ d' [112, 47, 110, 47, 99] = some [1] := by
  exact ⟨_, rfl, by decide, by decide⟩

/-! ### Downloads -/

theorem split_cases {ps qs ps' qs' : List (Bytes × Nat)} {a b : Bytes × Nat} (h : ps ++ a :: qs = ps' ++ b :: qs') :
    (ps = ps' ∧ a = b) ∨ (size ps + a.2 ≤ size ps' ∧ b ∈ qs) ∨ (size ps' + b.2 ≤ size ps ∧ a ∈ qs') := by
  induction ps generalizing ps' with
  | nil =>
    cases ps' with
    | nil => simp only [List.nil_append, List.cons.injEq] at h; exact .inl ⟨rfl, h.1⟩
    | cons c ps' =>
      simp only [List.nil_append, List.cons_append, List.cons.injEq] at h
      refine .inr (.inl ⟨?_, by rw [h.2]; simp⟩)
      rw [h.1]; simp [size]
  | cons c ps ih =>
    cases ps' with
    | nil =>
      simp only [List.nil_append, List.cons_append, List.cons.injEq] at h
      refine .inr (.inr ⟨?_, by rw [← h.2]; simp⟩)
      rw [← h.1]; simp [size]
    | cons c' ps' =>
      simp only [List.cons_append, List.cons.injEq] at h
      obtain ⟨rfl, h⟩ := h
      have e1 : size (c :: ps) = c.2 + size ps := by simp [size]
      have e2 : size (c :: ps') = c.2 + size ps' := by simp [size]
      rcases ih h with ⟨rfl, r⟩ | ⟨r, m⟩ | ⟨r, m⟩
      · exact .inl ⟨rfl, r⟩
      · exact .inr (.inl ⟨by omega, m⟩)
      · exact .inr (.inr ⟨by omega, m⟩)

/-- Writing ranges one after another, each with what belongs there. -/
def downloads (pre : Bytes) (tf : Info) (src : Bytes) : List Range → Disk → Res String Disk
  | [], d => .ok d
  | r :: rs, d => (writeslice pre tf r ((src.drop (start tf r)).take r.length.toNat) d).bind fun d => downloads pre tf src rs d

/-- What has been written so far is right. -/
def Right (pre : Bytes) (tf : Info) (src : Bytes) (done : List Range) (d : Disk) : Prop :=
  ∀ ps path n qs, parts tf = ps ++ (path, n) :: qs → ((d (pre ++ [47] ++ path)).getD []).length ≤ n ∧
    ∀ i, i < n → (∃ r ∈ done, start tf r ≤ size ps + i ∧ size ps + i < start tf r + r.length.toNat) → ((d (pre ++ [47] ++ path)).getD [])[i]? = src[size ps + i]?

theorem right_step (pre : Bytes) (tf : Info) (h : Fine tf) (hn : ((parts tf).map (·.1)).Nodup) (src : Bytes) (hsrc : src.length = size (parts tf)) (done : List Range) (d : Disk)
    (hr : Right pre tf src done d) (r : Range) (w : ∃ ps path n qs, Within tf r ps path n qs) :
    ∃ d', writeslice pre tf r ((src.drop (start tf r)).take r.length.toNat) d = .ok d' ∧ Right pre tf src (done ++ [r]) d' := by
  obtain ⟨ps0, path0, n0, qs0, w⟩ := w
  have hsz := within_size w
  have hdl : ((src.drop (start tf r)).take r.length.toNat).length = r.length.toNat := by rw [List.length_take, List.length_drop]; omega
  obtain ⟨d', e, o, f, hf, fl, fi⟩ := C134_write_partial pre tf h d r ps0 qs0 path0 n0 w _ hdl
  refine ⟨d', e, ?_⟩
  intro ps path n qs hp
  obtain ⟨g1, g2⟩ := hr ps path n qs hp
  have hto := w.to
  have hfrom := w.from_
  have hnn := hn
  rw [hp, List.map_append, List.map_cons, List.nodup_append, List.nodup_cons] at hnn
  have hs := w.split
  rcases split_cases (hp.symm.trans hs) with ⟨rfl, e2⟩ | ⟨e1, e2⟩ | ⟨e1, e2⟩
  · simp only [Prod.mk.injEq] at e2
    obtain ⟨rfl, rfl⟩ := e2
    rw [hf]
    simp only [Option.getD_some]
    have hlen : size (parts tf) = size ps + (n + size qs) := by rw [hp]; simp [size]
    refine ⟨by rw [fl]; omega, ?_⟩
    intro i hi hc
    rw [fi i]
    by_cases hin : start tf r ≤ size ps + i ∧ size ps + i < start tf r + r.length.toNat
    · rw [if_neg (by omega), if_pos (by omega), List.getElem?_take_of_lt (by omega), List.getElem?_drop]
      congr 1
      omega
    · obtain ⟨r', hr', c⟩ := hc
      have hd : r' ∈ done := by
        rcases List.mem_append.mp hr' with m | m
        · exact m
        · simp only [List.mem_singleton] at m; rw [m] at c; exact absurd c hin
      have hv := g2 i hi ⟨r', hd, c⟩
      by_cases hlt : i < start tf r - size ps
      · rw [if_pos hlt, if_pos ?_, hv]
        rcases Nat.lt_or_ge i ((d (pre ++ [47] ++ path)).getD []).length with k | k
        · exact k
        · rw [List.getElem?_eq_none k] at hv
          have := List.getElem?_eq_none_iff.mp hv.symm
          omega
      · rw [if_neg hlt, if_neg (by omega), hv]
  all_goals
    have hne : path ≠ path0 := by
      intro e3
      first
        | exact hnn.2.1.1 (by rw [e3]; exact List.mem_map_of_mem (f := (·.1)) e2)
        | (have hn0 := hn
           rw [hs, List.map_append, List.map_cons, List.nodup_append, List.nodup_cons] at hn0
           exact hn0.2.1.1 (by rw [← e3]; exact List.mem_map_of_mem (f := (·.1)) e2))
    have hd' : d' (pre ++ [47] ++ path) = d (pre ++ [47] ++ path) := o _ (fun e3 => hne (List.append_cancel_left e3))
    rw [hd']
    refine ⟨g1, fun i hi hc => g2 i hi ?_⟩
    obtain ⟨r', hr', c⟩ := hc
    rcases List.mem_append.mp hr' with m | m
    · exact ⟨r', m, c⟩
    · simp only [List.mem_singleton] at m
      simp only at e1
      rw [m] at c
      omega

/-- A torrent whose ranges all lie in single files is downloaded: when the ranges that have come in, in any order and any number of times, cover all files, then
each file that has bytes is what it should be. -/
theorem C134_download (pre : Bytes) (tf : Info) (h : Fine tf) (hn : ((parts tf).map (·.1)).Nodup) (src : Bytes) (hsrc : src.length = size (parts tf)) (rs : List Range) (d : Disk)
    (hd : ∀ p ∈ parts tf, ((d (pre ++ [47] ++ p.1)).getD []).length ≤ p.2)
    (hw : ∀ r ∈ rs, ∃ ps path n qs, Within tf r ps path n qs)
    (hc : ∀ i, i < size (parts tf) → ∃ r ∈ rs, start tf r ≤ i ∧ i < start tf r + r.length.toNat) :
    ∃ d', downloads pre tf src rs d = .ok d' ∧ ∀ ps path n qs, parts tf = ps ++ (path, n) :: qs → 0 < n → d' (pre ++ [47] ++ path) = some ((src.drop (size ps)).take n) := by
  have key : ∀ rs : List Range, ∀ done d, Right pre tf src done d → (∀ r ∈ rs, ∃ ps path n qs, Within tf r ps path n qs) →
      ∃ d', downloads pre tf src rs d = .ok d' ∧ Right pre tf src (done ++ rs) d' := by
    intro rs
    induction rs with
    | nil => intro done d hr _; exact ⟨d, rfl, by simpa using hr⟩
    | cons r rs ih =>
      intro done d hr hw
      obtain ⟨d1, e1, h1⟩ := right_step pre tf h hn src hsrc done d hr r (hw r (by simp))
      obtain ⟨d2, e2, h2⟩ := ih _ d1 h1 (fun x hx => hw x (by simp [hx]))
      refine ⟨d2, by rw [downloads, e1]; exact e2, by simpa using h2⟩
  obtain ⟨d', e, hr⟩ := key rs [] d (by
    intro ps path n qs hp
    exact ⟨hd (path, n) (by rw [hp]; simp), fun i _ hx => by obtain ⟨r, m, _⟩ := hx; simp at m⟩) hw
  refine ⟨d', e, ?_⟩
  intro ps path n qs hp hpos
  obtain ⟨g1, g2⟩ := hr ps path n qs hp
  have hlen : size (parts tf) = size ps + (n + size qs) := by rw [hp]; simp [size]
  have hall : ∀ i, i < n → ((d' (pre ++ [47] ++ path)).getD [])[i]? = src[size ps + i]? := fun i hi =>
    g2 i hi (by simpa using hc (size ps + i) (by omega))
  have heq : (d' (pre ++ [47] ++ path)).getD [] = (src.drop (size ps)).take n := by
    apply List.ext_getElem?
    intro i
    by_cases hi : i < n
    · rw [hall i hi, List.getElem?_take_of_lt hi, List.getElem?_drop]
    · rw [List.getElem?_eq_none (by omega), List.getElem?_eq_none]
      rw [List.length_take]; omega
  cases hx : d' (pre ++ [47] ++ path) with
  | some f => rw [hx] at heq; simpa using heq
  | none =>
    rw [hx] at heq
    have := congrArg List.length heq
    simp only [Option.getD_none, List.length_nil, List.length_take, List.length_drop] at this
    omega

/-! ### Checking -/

theorem sha1_ok (m d : Bytes) (h : Sha1.digest m = .ok d) : Che.Prog.Torrent.sha1 m = .ok d := by
  unfold Che.Prog.Torrent.sha1; rw [h]

/-- A piece in one file is accepted exactly if its SHA-1 digest is the one in the torrent. -/
theorem C135_check_partial (pre : Bytes) (tf : Info) (h : Fine tf) (disk : Bytes → Bytes) (hd : Sized (parts tf) disk) (d : Disk) (hh : Has pre (parts tf) disk d)
    (i : UInt64) (hi : i.toNat < 2 ^ 32) (hpc : 20 * i.toNat + 20 ≤ tf.pieces.length)
    (hP : tf.piece_length.toNat < 2 ^ 31 - 72)
    (ps qs : List (Bytes × Nat)) (path : Bytes) (n : Nat) (hp : parts tf = ps ++ (path, n) :: qs) (h0 : i.toNat * tf.piece_length.toNat < size (parts tf))
    (h1 : size ps ≤ i.toNat * tf.piece_length.toNat) (h2 : min (size (parts tf)) ((i.toNat + 1) * tf.piece_length.toNat) ≤ size ps + n) :
    ∃ dg : Bytes, dg.length = 20 ∧
      SHA1.bits dg = SHA1.sha1 (SHA1.bits (((content (parts tf) disk).drop (i.toNat * tf.piece_length.toNat)).take tf.piece_length.toNat)) ∧
      check_piece pre tf i d = .ok (decide ((tf.pieces.drop (20 * i.toNat)).take 20 = dg)) := by
  obtain ⟨l, hl, lv⟩ := piece_length_eq tf h i h0
  have hpos := h.piece
  rw [Nat.succ_mul] at h2
  have hcl : (content (parts tf) disk).length = size (parts tf) := by
    have : ∀ ps : List (Bytes × Nat), Sized ps disk → (content ps disk).length = size ps := by
      intro ps
      induction ps with
      | nil => intro _; rfl
      | cons p ps ih =>
        intro hs
        have a := ih (fun q hq => hs q (by simp [hq]))
        have b := hs p (by simp)
        simp only [content, size, List.map_cons, List.flatten_cons, List.length_append, List.sum_cons] at *
        omega
    exact this _ hd
  have lt := l.toNat_lt
  have e1 : i.toUInt32.toNat = i.toNat := by simp; omega
  have e2 : l.toUInt32.toNat = l.toNat := by simp; omega
  have hst : start tf ⟨i.toUInt32, 0, l.toUInt32⟩ = i.toNat * tf.piece_length.toNat := by unfold start; simp only [e1]; rfl
  have w : Within tf ⟨i.toUInt32, 0, l.toUInt32⟩ ps path n qs := ⟨hp, by rw [hst]; exact h1, by rw [hst]; simp only [e2]; omega, by simp only [e2]; omega, by simp only [e2]; omega⟩
  have hrd := C134_read_partial pre tf h disk hd d hh _ ps qs path n w (List.replicate tf.piece_length.toNat 0) (by rw [List.length_replicate]; simp only [e2]; omega)
  rw [hst] at hrd
  simp only [e2] at hrd
  have ht : ((content (parts tf) disk).drop (i.toNat * tf.piece_length.toNat)).take tf.piece_length.toNat = ((content (parts tf) disk).drop (i.toNat * tf.piece_length.toNat)).take l.toNat := by
    rw [lv]
    rcases Nat.le_total tf.piece_length.toNat (size (parts tf) - i.toNat * tf.piece_length.toNat) with c | c
    · rw [Nat.min_eq_left c]
    · rw [Nat.min_eq_right c, List.take_of_length_le (by rw [List.length_drop, hcl]; exact c), List.take_of_length_le (by rw [List.length_drop, hcl]; exact Nat.le_refl _)]
  rw [ht]
  generalize hpieceB : ((content (parts tf) disk).drop (i.toNat * tf.piece_length.toNat)).take l.toNat = piece at *
  have hpl : piece.length = l.toNat := by rw [← hpieceB, List.length_take, List.length_drop, hcl]; omega
  obtain ⟨dg, g1, g2, g3⟩ := C59_sha1_partial piece (by intro e; rw [e] at hpl; simp only [List.length_nil] at hpl; omega) (by omega) (by rw [Nat.mod_eq_of_lt (by omega)]; omega)
  refine ⟨dg, g2, g3, ?_⟩
  unfold check_piece
  rw [piecehash, if_pos hpc]
  simp only [Res.bind, hl, hrd]
  rw [if_neg (by rw [List.length_append, hpl]; omega)]
  have htk : List.take l.toNat (piece ++ List.drop l.toNat (List.replicate tf.piece_length.toNat (0 : UInt8))) = piece := by rw [← hpl, List.take_left]
  rw [htk, sha1_ok _ _ g1]
  refine congrArg Res.ok ?_
  rw [Bool.eq_iff_iff]
  simp

/-- A right piece over the end of a file is refused: the digest of 1 2 3 4 is compared to that of 4 2 3 0. -/
theorem C135_counterexample_two : (Sha1.digest ((content (parts two) letters).take 4) = .ok [18, 218, 218, 31, 255, 77, 71, 135, 173, 227, 51, 49, 71, 32, 44, 59, 68, 62, 55, 111]) ∧
    check_piece [112] { two with pieces := [18, 218, 218, 31, 255, 77, 71, 135, 173, 227, 51, 49, 71, 32, 44, 59, 68, 62, 55, 111] } 0 (fun p => some (letters (p.drop 2))) = .ok false := by
  constructor <;> decide +kernel

example : check_piece [112] { two with pieces := List.replicate 20 0 ++ [133, 217, 101, 29, 154, 57, 154, 103, 224, 21, 208, 71, 253, 158, 106, 148, 30, 107, 32, 187] } 1 (fun p => some (letters (p.drop 2))) = .ok true := by decide +kernel
end Che.Props
