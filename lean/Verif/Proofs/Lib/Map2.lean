import Verif.Proofs.Lib.Coll

namespace Che.Lib.Map2
open Che.Spec.Lib

/-- A slot that is empty or holds a value of the length expected for its key. -/
def SlotOk (L : Bytes → Nat) (s : Slot) : Prop :=
  (s.key = none ∧ s.val = none) ∨
    ∃ k v, s.key = some k ∧ k ≠ [] ∧ s.hash = hash k ∧ s.val = some v ∧ v.length = L k ∧ s.valsize = L k

/-- Slots have different keys. -/
def Distinct (ss : List Slot) : Prop :=
  ∀ (i j : Nat) (s t : Slot) (k : Bytes), ss[i]? = some s → ss[j]? = some t → s.key = some k → t.key = some k → i = j

/-- Number of slots in use. -/
def used (ss : List Slot) : Nat := ss.countP fun s => s.key.isSome

/-- The value for a key. -/
def lookL (ss : List Slot) (k : Bytes) : Option Bytes := (ss.find? fun s => s.key = some k).bind (·.val)

structure Inv (L : Bytes → Nat) (m : Inner) : Prop where
  nb : 0 < m.nbuckets
  bs : 0 < m.bucketsize
  len : m.slots.length = cap m
  ok : ∀ s ∈ m.slots, SlotOk L s
  distinct : Distinct m.slots
  size : m.size = used m.slots

theorem cap_pos {L : Bytes → Nat} {m : Inner} (h : Inv L m) : 0 < cap m := Nat.mul_pos h.nb h.bs

theorem start_lt {L : Bytes → Nat} {m : Inner} (h : Inv L m) (k : Bytes) :
    ((hash k).toNat % m.nbuckets) * m.bucketsize < cap m := by
  have := Nat.mod_lt (hash k).toNat h.nb
  exact Nat.mul_lt_mul_of_pos_right this h.bs

/-- Every position is reached. -/
theorem reach (n pos q : Nat) (hpos : pos < n) (hq : q < n) : ∃ j, j < n ∧ (pos + j) % n = q := by
  by_cases h : pos ≤ q
  · exact ⟨q - pos, by omega, by rw [Nat.add_sub_cancel' h, Nat.mod_eq_of_lt hq]⟩
  · refine ⟨n - pos + q, by omega, ?_⟩
    have : pos + (n - pos + q) = q + n := by omega
    rw [this, Nat.add_mod_right, Nat.mod_eq_of_lt hq]

theorem shift_mod (n pos j : Nat) : ((pos + 1) % n + j) % n = (pos + (j + 1)) % n := by
  rw [Nat.mod_add_mod]; congr 1; omega

theorem findLoop_some (ss : List Slot) (n : Nat) (h : UInt32) (key : Bytes) (i pos p : Nat) (hn : 0 < n) (hpos : pos < n)
    (hf : findLoop ss n h key i pos = some p) :
    p < n ∧ (ss.getD p emptySlot).hash = h ∧ slotHas (ss.getD p emptySlot) key = true := by
  induction i generalizing pos with
  | zero => simp [findLoop] at hf
  | succ i ih =>
    rw [findLoop] at hf
    split at hf
    · rename_i hc
      injection hf with hf
      subst hf
      simp only [Bool.and_eq_true, decide_eq_true_eq] at hc
      exact ⟨hpos, hc⟩
    · exact ih _ (Nat.mod_lt _ hn) hf

theorem findLoop_none (ss : List Slot) (n : Nat) (h : UInt32) (key : Bytes) (i pos : Nat)
    (hf : findLoop ss n h key i pos = none) (hpos : pos < n) :
    ∀ j < i, ¬ ((ss.getD ((pos + j) % n) emptySlot).hash = h ∧ slotHas (ss.getD ((pos + j) % n) emptySlot) key = true) := by
  induction i generalizing pos with
  | zero => intro j hj; omega
  | succ i ih =>
    rw [findLoop] at hf
    split at hf
    · simp at hf
    · rename_i hc
      intro j hj
      cases j with
      | zero =>
        simp only [Nat.add_zero, Nat.mod_eq_of_lt hpos]
        simpa using hc
      | succ j =>
        have := ih _ hf (Nat.mod_lt _ (by omega)) j (by omega)
        rwa [shift_mod] at this

theorem slot_match {L : Bytes → Nat} {s : Slot} (hs : SlotOk L s) (key : Bytes) (hk : key ≠ []) :
    (s.hash = hash key ∧ slotHas s key = true) ↔ s.key = some key := by
  rcases hs with ⟨h1, _⟩ | ⟨k, v, h1, _, h3, _⟩
  · simp only [h1, slotHas, Option.getD_none]
    constructor
    · rintro ⟨_, h⟩
      simp at h
      exact absurd h.2 hk
    · intro h; simp at h
  · simp only [h1, h3, slotHas, Option.getD_some, Option.some.injEq]
    constructor
    · rintro ⟨_, h⟩
      simp at h
      exact h.2
    · intro h; simp [h]

theorem getD_mem (ss : List Slot) (i : Nat) (h : i < ss.length) : ss.getD i emptySlot ∈ ss ∧ ss[i]? = some (ss.getD i emptySlot) := by
  have : ss[i]? = some ss[i] := List.getElem?_eq_getElem h
  rw [List.getD_eq_getElem?_getD, this]
  exact ⟨List.getElem_mem h, rfl⟩

theorem find_some {L : Bytes → Nat} {m : Inner} (h : Inv L m) (key : Bytes) (hk : key ≠ []) (p : Nat)
    (hf : find_slot m key = some p) : ∃ s, m.slots[p]? = some s ∧ s.key = some key := by
  obtain ⟨a, b⟩ := findLoop_some _ _ _ _ _ _ _ (cap_pos h) (start_lt h key) hf
  rw [← h.len] at a
  obtain ⟨g1, g2⟩ := getD_mem m.slots p a
  exact ⟨_, g2, (slot_match (h.ok _ g1) key hk).1 b⟩

theorem find_none {L : Bytes → Nat} {m : Inner} (h : Inv L m) (key : Bytes) (hk : key ≠ [])
    (hf : find_slot m key = none) : ∀ s ∈ m.slots, s.key ≠ some key := by
  intro s hs hkey
  obtain ⟨q, hq, rfl⟩ := List.getElem_of_mem hs
  have hlt : q < cap m := by rw [← h.len]; exact hq
  obtain ⟨j, hj, hjq⟩ := reach (cap m) _ q (start_lt h key) hlt
  have := findLoop_none _ _ _ _ _ _ hf (start_lt h key) j hj
  rw [hjq] at this
  have hg : m.slots.getD q emptySlot = m.slots[q] := by
    rw [List.getD_eq_getElem?_getD, List.getElem?_eq_getElem hq]; rfl
  rw [hg] at this
  exact this ((slot_match (h.ok _ hs) key hk).2 hkey)

theorem find_unique {L : Bytes → Nat} {m : Inner} (h : Inv L m) (key : Bytes) (i : Nat) (s : Slot)
    (hi : m.slots[i]? = some s) (hk : s.key = some key) : m.slots.find? (fun s => s.key = some key) = some s := by
  cases hf : m.slots.find? (fun s => s.key = some key) with
  | none =>
    have := List.find?_eq_none.1 hf s (List.mem_of_getElem? hi)
    simp [hk] at this
  | some t =>
    have h1 : t.key = some key := by simpa using List.find?_some hf
    obtain ⟨j, hj⟩ := List.mem_iff_getElem?.1 (List.mem_of_find?_eq_some hf)
    have := h.distinct i j s t key hi hj hk h1
    subst this
    rw [hi] at hj
    exact hj.symm

theorem get_spec {L : Bytes → Nat} {m : Inner} (h : Inv L m) (key : Bytes) (hk : key ≠ []) :
    get m key = lookL m.slots key := by
  unfold get inner_get
  cases hf : find_slot m key with
  | none =>
    have : m.slots.find? (fun s => s.key = some key) = none := by
      rw [List.find?_eq_none]
      intro s hs
      simpa using find_none h key hk hf s hs
    simp [lookL, this]
  | some p =>
    obtain ⟨s, h1, h2⟩ := find_some h key hk p hf
    have := find_unique h key p s h1 h2
    simp [lookL, this, h1]

theorem allocLoop_some (ss : List Slot) (n i pos p : Nat) (hn : 0 < n) (hpos : pos < n)
    (hf : allocLoop ss n i pos = some p) : p < n ∧ (ss.getD p emptySlot).key = none := by
  induction i generalizing pos with
  | zero => simp [allocLoop] at hf
  | succ i ih =>
    rw [allocLoop] at hf
    split at hf
    · rename_i hc
      injection hf with hf
      subst hf
      exact ⟨hpos, by simpa using hc⟩
    · exact ih _ (Nat.mod_lt _ hn) hf

theorem allocLoop_none (ss : List Slot) (n i pos : Nat) (hf : allocLoop ss n i pos = none) (hpos : pos < n) :
    ∀ j < i, (ss.getD ((pos + j) % n) emptySlot).key ≠ none := by
  induction i generalizing pos with
  | zero => intro j hj; omega
  | succ i ih =>
    rw [allocLoop] at hf
    split at hf
    · simp at hf
    · rename_i hc
      intro j hj
      cases j with
      | zero =>
        simp only [Nat.add_zero, Nat.mod_eq_of_lt hpos]
        simpa using hc
      | succ j =>
        have := ih _ hf (Nat.mod_lt _ (by omega)) j (by omega)
        rwa [shift_mod] at this

theorem alloc_ok {L : Bytes → Nat} {m : Inner} (h : Inv L m) (key : Bytes) (hroom : m.size < cap m) :
    ∃ i s, alloc_slot m key = .ok i ∧ m.slots[i]? = some s ∧ s.key = none := by
  unfold alloc_slot
  cases hf : allocLoop m.slots (cap m) (cap m) (((hash key).toNat % m.nbuckets) * m.bucketsize) with
  | some i =>
    obtain ⟨a, b⟩ := allocLoop_some _ _ _ _ _ (cap_pos h) (start_lt h key) hf
    rw [← h.len] at a
    exact ⟨i, _, rfl, (getD_mem m.slots i a).2, b⟩
  | none =>
    exfalso
    have hall : ∀ s ∈ m.slots, s.key.isSome = true := by
      intro s hs
      obtain ⟨q, hq, rfl⟩ := List.getElem_of_mem hs
      have hlt : q < cap m := by rw [← h.len]; exact hq
      obtain ⟨j, hj, hjq⟩ := reach (cap m) _ q (start_lt h key) hlt
      have := allocLoop_none _ _ _ _ hf (start_lt h key) j hj
      rw [hjq] at this
      have hg : m.slots.getD q emptySlot = m.slots[q] := by
        rw [List.getD_eq_getElem?_getD, List.getElem?_eq_getElem hq]; rfl
      rw [hg] at this
      cases hkk : m.slots[q].key with
      | none => exact absurd hkk this
      | some _ => rfl
    have : used m.slots = m.slots.length := List.countP_eq_length.2 hall
    have := h.size
    have := h.len
    omega

/-- Changing one slot. -/
theorem modify_get (ss : List Slot) (i : Nat) (s s' : Slot) (hi : ss[i]? = some s) (f : Slot → Slot) (hf : f s = s') (j : Nat) :
    (ss.modify i f)[j]? = if i = j then some s' else ss[j]? := by
  rw [List.getElem?_modify]
  by_cases h : i = j
  · subst h; simp [hi, hf]
  · simp [h]

theorem used_modify (ss : List Slot) (i : Nat) (s : Slot) (f : Slot → Slot) (hi : ss[i]? = some s) :
    used (ss.modify i f) + (if s.key.isSome then 1 else 0) = used ss + (if (f s).key.isSome then 1 else 0) := by
  induction ss generalizing i with
  | nil => simp at hi
  | cons a ss ih =>
    cases i with
    | zero =>
      simp at hi
      subst hi
      simp only [List.modify_zero_cons, used, List.countP_cons]
      split <;> split <;> omega
    | succ i =>
      have := ih i hi
      simp only [List.modify_succ_cons, used, List.countP_cons] at this ⊢
      omega

theorem look_of_get {L : Bytes → Nat} {m : Inner} (h : Inv L m) (k : Bytes) (v : Option Bytes) :
    (∃ (i : Nat) (s : Slot), m.slots[i]? = some s ∧ s.key = some k ∧ s.val = v) → lookL m.slots k = v := by
  rintro ⟨i, s, h1, h2, h3⟩
  rw [lookL, find_unique h k i s h1 h2]
  exact h3

theorem look_none_of (ss : List Slot) (k : Bytes) (h : ∀ s ∈ ss, s.key ≠ some k) : lookL ss k = none := by
  have : ss.find? (fun s => s.key = some k) = none := by
    rw [List.find?_eq_none]
    intro s hs
    simpa using h s hs
  rw [lookL, this]; rfl

theorem look_ne {L : Bytes → Nat} {m m' : Inner} (h : Inv L m) (h' : Inv L m') (k : Bytes)
    (hsame : ∀ (i : Nat) (s : Slot), m.slots[i]? = some s → s.key = some k → ∃ (j : Nat) (t : Slot), m'.slots[j]? = some t ∧ t.key = some k ∧ t.val = s.val)
    (hback : ∀ (i : Nat) (s : Slot), m'.slots[i]? = some s → s.key = some k → ∃ (j : Nat) (t : Slot), m.slots[j]? = some t ∧ t.key = some k) :
    lookL m'.slots k = lookL m.slots k := by
  by_cases hex : ∃ (i : Nat) (s : Slot), m.slots[i]? = some s ∧ s.key = some k
  · obtain ⟨i, s, h1, h2⟩ := hex
    obtain ⟨j, t, h3, h4, h5⟩ := hsame i s h1 h2
    rw [look_of_get h k s.val ⟨i, s, h1, h2, rfl⟩, look_of_get h' k s.val ⟨j, t, h3, h4, h5⟩]
  · rw [look_none_of m.slots, look_none_of m'.slots]
    · intro s hs hk
      obtain ⟨i, hi⟩ := List.mem_iff_getElem?.1 hs
      obtain ⟨j, t, h1, h2⟩ := hback i s hi hk
      exact hex ⟨j, t, h1, h2⟩
    · intro s hs hk
      obtain ⟨i, hi⟩ := List.mem_iff_getElem?.1 hs
      exact hex ⟨i, s, hi, hk⟩

/-- Assigning a value of the expected length. -/
theorem inner_set_spec {L : Bytes → Nat} {m : Inner} (h : Inv L m) (key val : Bytes) (hk : key ≠ []) (hv : val.length = L key)
    (hroom : m.size < cap m) :
    ∃ m', inner_set m key val (L key) = .ok m' ∧ Inv L m' ∧ cap m' = cap m ∧ m'.nbuckets = m.nbuckets ∧ m'.bucketsize = m.bucketsize ∧
      m'.size ≤ m.size + 1 ∧ ∀ k, lookL m'.slots k = if k = key then some val else lookL m.slots k := by
  have hclone : clone val (L key) = .ok val := by
    unfold clone
    rw [if_pos (by omega), ← hv, List.take_length]
  unfold inner_set
  cases hf : find_slot m key with
  | some i =>
    obtain ⟨s, h1, h2⟩ := find_some h key hk i hf
    rw [hclone]
    have hget := modify_get m.slots i s { s with val := some val } h1 (fun s => { s with val := some val }) rfl
    generalize hm' : m.slots.modify i (fun s => { s with val := some val }) = slots' at hget
    have hinv : Inv L { m with slots := slots' } := by
      refine ⟨h.nb, h.bs, ?_, ?_, ?_, ?_⟩
      · rw [← hm']; simp [List.length_modify]; exact h.len
      · intro t ht
        obtain ⟨j, hj⟩ := List.mem_iff_getElem?.1 ht
        simp only at hj
        rw [hget j] at hj
        by_cases hij : i = j
        · rw [if_pos hij] at hj
          injection hj with hj
          subst hj
          rcases h.ok s (List.mem_of_getElem? h1) with ⟨a, _⟩ | ⟨k', v', a1, a2, a3, a4, a5, a6⟩
          · rw [a] at h2; simp at h2
          · rw [a1] at h2
            injection h2 with h2
            subst h2
            exact Or.inr ⟨k', val, a1, a2, a3, rfl, hv, a6⟩
        · rw [if_neg hij] at hj
          exact h.ok t (List.mem_of_getElem? hj)
      · intro a b s1 t1 k ha hb hsk htk
        have key1 : ∀ (a : Nat) (s1 : Slot), slots'[a]? = some s1 → s1.key = some k → ∃ s2 : Slot, m.slots[a]? = some s2 ∧ s2.key = some k := by
          intro a s1 ha hsk
          rw [hget a] at ha
          by_cases hia : i = a
          · rw [if_pos hia] at ha
            injection ha with ha
            subst ha
            exact ⟨s, hia ▸ h1, hsk⟩
          · rw [if_neg hia] at ha
            exact ⟨s1, ha, hsk⟩
        obtain ⟨s2, e1, e2⟩ := key1 a s1 ha hsk
        obtain ⟨t2, e3, e4⟩ := key1 b t1 hb htk
        exact h.distinct a b s2 t2 k e1 e3 e2 e4
      · have hu := used_modify m.slots i s (fun s => { s with val := some val }) h1
        simp only at hu ⊢
        rw [hm'] at hu
        rw [h.size]; omega
    refine ⟨{ m with slots := slots' }, by simp only [bind, Res.bind, hm'], hinv, rfl, rfl, rfl, by simp only; omega, ?_⟩
    intro k
    by_cases hkk : k = key
    · subst hkk
      rw [if_pos rfl]
      exact look_of_get hinv k (some val) ⟨i, { s with val := some val }, by simp only; rw [hget i, if_pos rfl], h2, rfl⟩
    · rw [if_neg hkk]
      refine look_ne h hinv k ?_ ?_
      · intro a s1 ha hsk
        refine ⟨a, s1, ?_, hsk, rfl⟩
        simp only
        rw [hget a, if_neg, ha]
        intro hia
        subst hia
        rw [ha] at h1
        injection h1 with h1
        rw [h1, h2] at hsk
        injection hsk with hsk
        exact hkk hsk.symm
      · intro a s1 ha hsk
        simp only at ha
        rw [hget a] at ha
        by_cases hia : i = a
        · rw [if_pos hia] at ha
          injection ha with ha
          subst ha
          exact ⟨i, s, h1, hsk⟩
        · rw [if_neg hia] at ha
          exact ⟨a, s1, ha, hsk⟩
  | none =>
    have hnone := find_none h key hk hf
    obtain ⟨i, s, a1, h1, h2⟩ := alloc_ok h key hroom
    rw [a1, hclone]
    have hget := modify_get m.slots i s { hash := hash key, key := some key, val := some val, valsize := L key } h1
      (fun _ => { hash := hash key, key := some key, val := some val, valsize := L key }) rfl
    have hu := used_modify m.slots i s (fun _ => { hash := hash key, key := some key, val := some val, valsize := L key }) h1
    generalize hm' : m.slots.modify i (fun _ => ({ hash := hash key, key := some key, val := some val, valsize := L key } : Slot)) = slots'
      at hget hu
    have hinv : Inv L { m with size := m.size + 1, slots := slots' } := by
      refine ⟨h.nb, h.bs, ?_, ?_, ?_, ?_⟩
      · rw [← hm']; simp [List.length_modify]; exact h.len
      · intro t ht
        obtain ⟨j, hj⟩ := List.mem_iff_getElem?.1 ht
        simp only at hj
        rw [hget j] at hj
        by_cases hij : i = j
        · rw [if_pos hij] at hj
          injection hj with hj
          subst hj
          exact Or.inr ⟨key, val, rfl, hk, rfl, rfl, hv, rfl⟩
        · rw [if_neg hij] at hj
          exact h.ok t (List.mem_of_getElem? hj)
      · intro a b s1 t1 k ha hb hsk htk
        simp only at ha hb
        rw [hget a] at ha
        rw [hget b] at hb
        by_cases hia : i = a
        · by_cases hib : i = b
          · omega
          · rw [if_pos hia] at ha
            rw [if_neg hib] at hb
            injection ha with ha
            subst ha
            injection hsk with hsk
            subst hsk
            exact absurd htk (hnone t1 (List.mem_of_getElem? hb))
        · rw [if_neg hia] at ha
          by_cases hib : i = b
          · rw [if_pos hib] at hb
            injection hb with hb
            subst hb
            injection htk with htk
            subst htk
            exact absurd hsk (hnone s1 (List.mem_of_getElem? ha))
          · rw [if_neg hib] at hb
            exact h.distinct a b s1 t1 k ha hb hsk htk
      · simp only [h2, Option.isSome_none, Option.isSome_some, ↓reduceIte, Bool.false_eq_true] at hu ⊢
        rw [h.size]; omega
    refine ⟨{ m with size := m.size + 1, slots := slots' }, by simp only [bind, Res.bind, hm'], hinv, rfl, rfl, rfl,
      Nat.le_refl _, ?_⟩
    intro k
    by_cases hkk : k = key
    · subst hkk
      rw [if_pos rfl]
      exact look_of_get hinv k (some val) ⟨i, _, by simp only; rw [hget i, if_pos rfl], rfl, rfl⟩
    · rw [if_neg hkk]
      refine look_ne h hinv k ?_ ?_
      · intro a s1 ha hsk
        refine ⟨a, s1, ?_, hsk, rfl⟩
        simp only
        rw [hget a, if_neg, ha]
        intro hia
        subst hia
        rw [ha] at h1
        injection h1 with h1
        rw [h1, h2] at hsk
        simp at hsk
      · intro a s1 ha hsk
        simp only at ha
        rw [hget a] at ha
        by_cases hia : i = a
        · rw [if_pos hia] at ha
          injection ha with ha
          subst ha
          injection hsk with hsk
          exact absurd hsk.symm hkk
        · rw [if_neg hia] at ha
          exact ⟨a, s1, ha, hsk⟩

theorem inv_empty (L : Bytes → Nat) (nb bs : Nat) (h1 : 0 < nb) (h2 : 0 < bs) : Inv L (innermap nb bs) := by
  have hs : ∀ s ∈ (innermap nb bs).slots, s = emptySlot := fun s hs => (List.mem_replicate.1 hs).2
  refine ⟨h1, h2, by simp [innermap, cap], ?_, ?_, ?_⟩
  · intro s hm; rw [hs s hm]; exact Or.inl ⟨rfl, rfl⟩
  · intro i j s t k hi _ hk _
    rw [hs s (List.mem_of_getElem? hi)] at hk
    simp [emptySlot] at hk
  · have : used (innermap nb bs).slots = 0 := by
      rw [used, List.countP_eq_zero]
      intro s hm; rw [hs s hm]; simp [emptySlot]
    rw [this]; rfl

/-- Copying slots into a map that has none of their keys. -/
theorem copyLoop_spec {L : Bytes → Nat} (ss : List Slot) (dest : Inner) (hd : Inv L dest) (hok : ∀ s ∈ ss, SlotOk L s)
    (hroom : dest.size + used ss ≤ cap dest) :
    ∃ dest', copyLoop dest ss = .ok dest' ∧ Inv L dest' ∧ cap dest' = cap dest ∧ dest'.size ≤ dest.size + used ss ∧
      ∀ k, lookL dest'.slots k = (lookL ss.reverse k).or (lookL dest.slots k) := by
  induction ss generalizing dest with
  | nil => exact ⟨dest, rfl, hd, rfl, by omega, by intro k; simp [lookL]⟩
  | cons s ss ih =>
    have hrest : ∀ t ∈ ss, SlotOk L t := fun t ht => hok t (List.mem_cons_of_mem _ ht)
    have hrev : ∀ k, lookL (s :: ss).reverse k = (lookL ss.reverse k).or (if s.key = some k then s.val else none) := by
      intro k
      simp only [lookL, List.reverse_cons, List.find?_append, List.find?_cons, List.find?_nil]
      cases hf : ss.reverse.find? (fun s => s.key = some k) with
      | none => by_cases hs : s.key = some k <;> simp [hs]
      | some t =>
        have h1 : t.key = some k := by simpa using List.find?_some hf
        have h2 : t ∈ ss := List.mem_reverse.1 (List.mem_of_find?_eq_some hf)
        rcases hrest t h2 with ⟨a, _⟩ | ⟨_, v, _, _, _, a4, _⟩
        · rw [a] at h1; simp at h1
        · simp [a4]
    rw [copyLoop]
    rcases hok s List.mem_cons_self with ⟨a1, a2⟩ | ⟨k, v, a1, a2, a3, a4, a5, a6⟩
    · have hu : used (s :: ss) = used ss := by simp [used, a1]
      rw [hu] at hroom ⊢
      obtain ⟨d', b1, b2, b3, b4, b5⟩ := ih dest hd hrest hroom
      rw [a1]
      refine ⟨d', b1, b2, b3, b4, ?_⟩
      intro k
      rw [b5, hrev, a1]
      simp
    · have hu : used (s :: ss) = used ss + 1 := by simp [used, a1]
      rw [hu] at hroom ⊢
      obtain ⟨d1, c1, c2, c3, _, _, c6, c7⟩ := inner_set_spec hd k v a2 a5 (by omega)
      obtain ⟨d', b1, b2, b3, b4, b5⟩ := ih d1 c2 hrest (by omega)
      rw [a1, a4, a6]
      simp only [Option.getD_some, bind, Res.bind, c1]
      refine ⟨d', b1, b2, b3.trans c3, by omega, ?_⟩
      intro k'
      rw [b5, c7, hrev, a1, a4]
      by_cases hk' : k' = k
      · subst hk'; simp
      · have : k ≠ k' := fun e => hk' e.symm
        simp [hk', this]

theorem look_reverse {L : Bytes → Nat} {m : Inner} (h : Inv L m) (k : Bytes) : lookL m.slots.reverse k = lookL m.slots k := by
  cases hf : m.slots.reverse.find? (fun s => s.key = some k) with
  | none =>
    rw [lookL, hf, look_none_of]
    · rfl
    · intro s hs
      have := List.find?_eq_none.1 hf s (List.mem_reverse.2 hs)
      simpa using this
  | some t =>
    have h1 : t.key = some k := by simpa using List.find?_some hf
    have h2 : t ∈ m.slots := List.mem_reverse.1 (List.mem_of_find?_eq_some hf)
    obtain ⟨i, hi⟩ := List.mem_iff_getElem?.1 h2
    rw [lookL, lookL, hf, find_unique h k i t hi h1]

/-- `set` as a whole. -/
theorem set_spec {L : Bytes → Nat} {m : Inner} (h : Inv L m) (key val : Bytes) (hk : key ≠ []) (hv : val.length = L key)
    (hfull : m.size ≤ cap m) :
    ∃ m', set m key val = .ok m' ∧ Inv L m' ∧ m'.size ≤ cap m' ∧
      ∀ k, lookL m'.slots k = if k = key then some val else lookL m.slots k := by
  have hc := cap_pos h
  unfold set
  by_cases hbig : m.size * 100 / cap m > 75
  · rw [if_pos hbig]
    have hcap : cap (innermap (m.nbuckets * 2) m.bucketsize) = 2 * cap m := by
      simp only [cap, innermap]
      rw [Nat.mul_comm m.nbuckets 2, Nat.mul_assoc]
    have hinv0 := inv_empty L (m.nbuckets * 2) m.bucketsize (by have := h.nb; omega) h.bs
    obtain ⟨d, b1, b2, b3, b4, b5⟩ := copyLoop_spec m.slots (innermap (m.nbuckets * 2) m.bucketsize) hinv0 h.ok (by
      rw [← h.size, hcap]; simp only [innermap]; omega)
    have hcopy : inner_copy (innermap (m.nbuckets * 2) m.bucketsize) m = .ok d := by
      unfold inner_copy
      rw [if_neg (by rw [hcap]; omega), b1]
    have hds : d.size ≤ m.size := by
      rw [← h.size] at b4
      simpa [innermap] using b4
    rw [hcopy]
    obtain ⟨m', c1, c2, c3, _, _, c6, c7⟩ := inner_set_spec b2 key val hk hv (by rw [b3, hcap]; omega)
    rw [← hv] at c1
    refine ⟨m', by simp only [bind, Res.bind, c1], c2, by rw [c3, b3, hcap]; omega, ?_⟩
    intro k
    rw [c7, b5, look_reverse h]
    have : lookL (innermap (m.nbuckets * 2) m.bucketsize).slots k = none := by
      apply look_none_of
      intro s hs
      rw [(List.mem_replicate.1 hs).2]
      simp [emptySlot]
    rw [this]
    simp
  · rw [if_neg hbig]
    have hlt : m.size < cap m := by
      rcases Nat.lt_or_ge m.size (cap m) with h1 | h1
      · exact h1
      · exfalso
        have : m.size = cap m := by omega
        rw [this, Nat.mul_div_cancel_left _ hc] at hbig
        omega
    obtain ⟨m', c1, c2, c3, _, _, c6, c7⟩ := inner_set_spec h key val hk hv hlt
    rw [← hv] at c1
    exact ⟨m', by simp only [bind, Res.bind, c1], c2, by rw [c3]; omega, c7⟩

end Che.Lib.Map2
