import Verif.Proofs.Lib.Clip

/-!
C52: maps.  C54: string tables.  C55: byte queues.  C56: vectors and lists.
-/
namespace Che.Props
open Che.Lib Che.Spec.Lib

/-! ### C52: `clip/map.c` -/

/-- A map with values of `valsize` bytes after a series of assignments. -/
def mapAfter (valsize : Nat) (history : List (Bytes × Bytes)) : Map.T :=
  history.foldl (fun m op => Map.set m op.1 op.2) { cap := 16, entries := [], valsize := valsize }

example : Map.new 4 = .ok (mapAfter 4 []) := rfl

theorem map_run (valsize : Nat) (h8 : valsize ≤ 8) (history : List (Bytes × Bytes)) (hv : ∀ op ∈ history, op.2.length = valsize) :
    Map.Ok (mapAfter valsize history) ∧ (mapAfter valsize history).valsize = valsize ∧
    Map.ab (mapAfter valsize history) = table history := by
  induction history using List.reverseRecOn with
  | nil => exact ⟨⟨h8, by simp [mapAfter]⟩, rfl, rfl⟩
  | append_singleton h op ih =>
    obtain ⟨i1, i2, i3⟩ := ih (fun x hx => hv x (List.mem_append_left _ hx))
    have hop := hv op (List.mem_append_right _ (by simp))
    have e : mapAfter valsize (h ++ [op]) = Map.set (mapAfter valsize h) op.1 op.2 := by
      simp [mapAfter, List.foldl_append]
    obtain ⟨s1, s2, s3⟩ := Map.set_spec (mapAfter valsize h) op.1 op.2 i1 (by rw [i2]; exact hop)
    rw [e]
    exact ⟨s1, s2.trans i2, by rw [s3, i3, table_snoc]⟩

/-- C52: a key has the value last assigned to it, and no value if it was never
assigned. -/
theorem C52_get (valsize : Nat) (h8 : valsize ≤ 8) (history : List (Bytes × Bytes)) (hv : ∀ op ∈ history, op.2.length = valsize)
    (key : Bytes) :
    Map.get (mapAfter valsize history) key = lastValue history key ∧
    Map.has (mapAfter valsize history) key = (lastValue history key).isSome := by
  obtain ⟨_, _, h3⟩ := map_run valsize h8 history hv
  rw [Map.has_spec, Map.get_spec, h3, look_table]
  exact ⟨rfl, rfl⟩

/-- C52: the size is the number of different keys. -/
theorem C52_size (valsize : Nat) (h8 : valsize ≤ 8) (history : List (Bytes × Bytes)) (hv : ∀ op ∈ history, op.2.length = valsize) :
    Map.size (mapAfter valsize history) = (keysInOrder history).length := by
  obtain ⟨_, _, h3⟩ := map_run valsize h8 history hv
  have := congrArg List.length h3
  rw [← keys_table, List.length_map, ← this]
  simp [Map.ab, Map.size]

/-- The keys and values an iteration shows, with a buffer of `bufsize` bytes for keys. -/
def iterated (bufsize : Nat) : Nat → Map.Iter → List (Bytes × Bytes)
  | 0, _ => []
  | fuel + 1, it =>
    if (Map.next it).2 then
      ((Map.itkey (Map.next it).1 bufsize).2, Map.itval (Map.next it).1) :: iterated bufsize fuel (Map.next it).1
    else []

theorem iterated_spec (m : Map.T) (bufsize : Nat) (hk : ∀ e ∈ m.entries, e.key.length ≤ bufsize) (hlen : m.entries.length < 2 ^ 64)
    (fuel i : Nat) (it : Map.Iter) (hm : it.map = m) (hi : i ≤ m.entries.length) (hp : (it.pos + 1).toNat = i)
    (hf : m.entries.length < fuel + i) :
    iterated bufsize fuel it = (Map.ab m).drop i := by
  induction fuel generalizing i it with
  | zero => omega
  | succ fuel ih =>
    rw [iterated, Map.next, hm, hp]
    by_cases hge : i ≥ m.entries.length
    · rw [if_pos hge]
      simp only [Bool.false_eq_true, ↓reduceIte]
      rw [List.drop_of_length_le (by simp [Map.ab]; omega)]
    · rw [if_neg hge]
      simp only [↓reduceIte]
      have hlt : i < m.entries.length := by omega
      have hnext := ih (i + 1) { map := m, pos := it.pos + 1 } rfl hlt (by
        rw [UInt64.toNat_add, hp]
        have : (1 : UInt64).toNat = 1 := rfl
        rw [this, Nat.mod_eq_of_lt (by omega)]) (by omega)
      rw [hnext]
      have hget : m.entries[i]? = some m.entries[i] := List.getElem?_eq_getElem hlt
      rw [List.drop_eq_getElem_cons (l := Map.ab m) (i := i) (by simpa [Map.ab] using hlt)]
      congr 1
      simp only [Map.itkey, Map.itval, hm, hp, hget]
      rw [if_neg (by have := hk _ (List.getElem_mem hlt); omega)]
      simp [Map.ab]

/-- C52: an iteration shows every key once, in the order of first assignment, with its
current value (for buffers that are large enough for the keys). -/
theorem C52_iteration (valsize : Nat) (h8 : valsize ≤ 8) (history : List (Bytes × Bytes)) (hv : ∀ op ∈ history, op.2.length = valsize)
    (bufsize fuel : Nat) (hb : ∀ op ∈ history, op.1.length ≤ bufsize) (hlen : history.length < 2 ^ 64)
    (hf : history.length < fuel) :
    (iterated bufsize fuel (Map.iter (mapAfter valsize history))).map (fun x => (x.1, some x.2)) =
      (keysInOrder history).map fun k => (k, lastValue history k) := by
  obtain ⟨_, h2, h3⟩ := map_run valsize h8 history hv
  have hle : ∀ h : List (Bytes × Bytes), (keysInOrder h).length ≤ h.length := by
    intro h
    induction h using List.reverseRecOn with
    | nil => simp [keysInOrder]
    | append_singleton h op ih => rw [keysInOrder_snoc]; split <;> simp <;> omega
  have hsize := C52_size valsize h8 history hv
  have hl := hle history
  unfold Map.size at hsize
  rw [iterated_spec (mapAfter valsize history) bufsize ?_ (by omega) fuel 0 _ rfl (by omega)
    (show ((-1 : UInt64) + 1).toNat = 0 by decide) (by omega)]
  · rw [List.drop_zero, h3, table_eq]
  · intro e he
    have : (e.key, e.value.take (mapAfter valsize history).valsize) ∈ Map.ab (mapAfter valsize history) :=
      List.mem_map.2 ⟨e, he, rfl⟩
    rw [h3] at this
    have hm : e.key ∈ (table history).map (·.1) := List.mem_map.2 ⟨_, this, rfl⟩
    rw [keys_table, mem_keysInOrder] at hm
    obtain ⟨op, hop, hk⟩ := List.mem_map.1 hm
    rw [← hk]
    exact hb op hop

/-- C52: values of more than eight bytes are refused. -/
theorem C52_large (valsize : Nat) (h : 8 < valsize) : ∃ msg, Map.new valsize = .panic msg := by
  refine ⟨"value sizes > 8 bytes are not supported", ?_⟩
  rw [Map.new, if_pos h]

example : Map.get (mapAfter 1 [([1], [10]), ([2], [20]), ([1], [30])]) [1] = some [30] := by decide +kernel
example : iterated 4 9 (Map.iter (mapAfter 1 [([1], [10]), ([2], [20]), ([1], [30])])) = [([1], [30]), ([2], [20])] := by
  decide +kernel

/-! ### C54: `clip/stringtable.c` -/

/-- A table after a series of assignments. -/
def tableAfter (history : List (Bytes × Bytes)) : StringTable.T :=
  history.foldl (fun st op => StringTable.set st op.1 op.2) StringTable.new

/-- C54: a name has the string last assigned to it, and none if it was never assigned. -/
theorem C54_get (history : List (Bytes × Bytes)) (key : Bytes) :
    StringTable.get (tableAfter history) key = lastValue history key := by
  have : (tableAfter history).items = table history := by
    induction history using List.reverseRecOn with
    | nil => rfl
    | append_singleton h op ih =>
      have e : tableAfter (h ++ [op]) = StringTable.set (tableAfter h) op.1 op.2 := by
        simp [tableAfter, List.foldl_append]
      rw [e, StringTable.set_spec, ih, table_snoc]
  rw [StringTable.get_spec, this, look_table]

example : StringTable.get (tableAfter [([97], [1]), ([98], [2]), ([97], [3])]) [97] = some [3] := by decide +kernel

/-! ### C55: `clip/buffer.c` -/

/-- The bytes in a buffer. -/
def content (b : Buffer.T) : Bytes := b.flatMap fun c => c.data.drop c.pos

/-- No clip is used up. -/
def ClipsOk (b : Buffer.T) : Prop := ∀ c ∈ b, c.pos < c.data.length

theorem buffer_read (b : Buffer.T) (n : Nat) (h : ClipsOk b) :
    (Buffer.read b n).2 = (content b).take n ∧ content (Buffer.read b n).1 = (content b).drop n ∧ ClipsOk (Buffer.read b n).1 := by
  induction n generalizing b with
  | zero => cases b <;> simp [Buffer.read, h]
  | succ n ih =>
    cases b with
    | nil => exact ⟨rfl, rfl, h⟩
    | cons c rest =>
      have hc := h c List.mem_cons_self
      have hrest : ClipsOk rest := fun x hx => h x (List.mem_cons_of_mem _ hx)
      have hsplit : content (c :: rest) = c.data.getD c.pos 0 ::
          content (if c.pos + 1 = c.data.length then rest else { c with pos := c.pos + 1 } :: rest) := by
        have hd : c.data.drop c.pos = c.data.getD c.pos 0 :: c.data.drop (c.pos + 1) := by
          rw [List.drop_eq_getElem_cons hc, List.getD_eq_getElem?_getD, List.getElem?_eq_getElem hc]; rfl
        simp only [content, List.flatMap_cons, hd, List.cons_append, List.cons.injEq, true_and]
        split
        · rename_i he
          rw [List.drop_of_length_le (by omega)]; rfl
        · simp
      have hok : ClipsOk (if c.pos + 1 = c.data.length then rest else { c with pos := c.pos + 1 } :: rest) := by
        split
        · exact hrest
        · rename_i he
          intro x hx
          rcases List.mem_cons.1 hx with rfl | hx
          · simp only; omega
          · exact hrest x hx
      obtain ⟨i1, i2, i3⟩ := ih _ hok
      rw [Buffer.read, hsplit]
      simp only [List.take_succ_cons, List.drop_succ_cons]
      exact ⟨by rw [i1], i2, i3⟩

theorem buffer_write (b : Buffer.T) (bs : Bytes) (h : ClipsOk b) :
    content (Buffer.write b bs).1 = content b ++ bs ∧ ClipsOk (Buffer.write b bs).1 := by
  unfold Buffer.write
  split
  · rename_i he
    have : bs = [] := List.length_eq_zero_iff.1 he
    subst this
    exact ⟨by simp, h⟩
  · rename_i he
    refine ⟨by simp [content], ?_⟩
    intro x hx
    rcases List.mem_append.1 hx with hx | hx
    · exact h x hx
    · rw [List.mem_singleton] at hx
      subst hx
      simp only; omega

/-- What a buffer returns for each of the calls. -/
def bufferResults : Buffer.T → List QueueOp → List (List UInt8)
  | _, [] => []
  | b, .put bs :: ops => [] :: bufferResults (Buffer.write b bs).1 ops
  | b, .take n :: ops => (Buffer.read b n).2 :: bufferResults (Buffer.read b n).1 ops

theorem buffer_queue (b : Buffer.T) (h : ClipsOk b) (ops : List QueueOp) :
    bufferResults b ops = queueResults (content b) ops := by
  induction ops generalizing b with
  | nil => rfl
  | cons op ops ih =>
    cases op with
    | put bs =>
      obtain ⟨w1, w2⟩ := buffer_write b bs h
      rw [bufferResults, queueResults, ih _ w2, w1]
    | take n =>
      obtain ⟨r1, r2, r3⟩ := buffer_read b n h
      rw [bufferResults, queueResults, ih _ r3, r2, r1]

/-- C55: for every sequence of calls a buffer returns what a queue of bytes returns. -/
theorem C55_queue (ops : List QueueOp) : bufferResults Buffer.new ops = queueResults [] ops :=
  buffer_queue [] (fun _ hx => absurd hx List.not_mem_nil) ops

/-- C55: the reported size is the number of bytes inside. -/
theorem C55_size (b : Buffer.T) : Buffer.size b = (content b).length := by
  induction b with
  | nil => rfl
  | cons c rest ih => simp [Buffer.size, content, ih]

example : bufferResults Buffer.new [.put [1, 2, 3], .put [4], .take 2, .put [], .take 5, .take 1] =
    [[], [], [1, 2], [], [3, 4], []] := by decide +kernel

/-! ### C56: `clip/vec.c` and `clip/llist.c` -/

/-- Calls that add an item: with its bytes, or `none` for a fresh one. -/
def vecAfter (itemsize : Nat) (items : List (Option Bytes)) : Vec.T :=
  items.foldl (fun l x => match x with | some x => Vec.push l x | none => (Vec.alloc l).1) (Vec.new itemsize)

/-- What the vector should hold. -/
def vecItem (itemsize : Nat) : Option Bytes → Bytes
  | some x => x
  | none => List.replicate itemsize 0

/-- The vector holds `items`, and the rest of its memory is zero. -/
structure VecOk (l : Vec.T) (n : Nat) (items : List Bytes) : Prop where
  itemsize : l.itemsize = n
  len : l.len = items.length
  cap : l.len ≤ l.cap
  data : l.data = items.flatten ++ List.replicate (n * (l.cap - l.len)) 0
  each : ∀ x ∈ items, x.length = n

theorem flatten_length (items : List Bytes) (n : Nat) (h : ∀ x ∈ items, x.length = n) :
    items.flatten.length = n * items.length := by
  induction items with
  | nil => simp
  | cons a items ih =>
    rw [List.flatten_cons, List.length_append, ih (fun x hx => h x (List.mem_cons_of_mem _ hx)),
      h a List.mem_cons_self, List.length_cons, Nat.mul_succ, Nat.add_comm]

theorem vec_alloc (l : Vec.T) (n : Nat) (items : List Bytes) (h : VecOk l n items) :
    VecOk (Vec.alloc l).1 n (items ++ [List.replicate n 0]) ∧ (Vec.alloc l).2 = n * items.length := by
  obtain ⟨h1, h2, h3, h4, h5⟩ := h
  have hfl := flatten_length items n h5
  -- the vector with room for one more
  obtain ⟨cap', hcap', hgrown⟩ : ∃ cap', l.len < cap' ∧
      Vec.alloc l = (Vec.T.mk cap' (l.len + 1) l.itemsize (items.flatten ++ List.replicate (n * (cap' - l.len)) 0),
        l.itemsize * l.len) := by
    unfold Vec.alloc
    by_cases hc : l.len = l.cap
    · refine ⟨if l.cap * 2 = 0 then 16 else l.cap * 2, ?_, ?_⟩
      · rw [hc]; split <;> omega
      · simp only [hc, ↓reduceIte]
        rw [h1, h4]
        congr 2
        rw [← hc, List.take_append_of_le_length (by rw [hfl, h2]; omega), List.take_of_length_le (by rw [hfl, h2]; omega)]
    · refine ⟨l.cap, by omega, ?_⟩
      simp only [hc, ↓reduceIte]
      rw [← h4]
  rw [hgrown]
  refine ⟨⟨h1, by simp [h2], by simp only; omega, ?_, ?_⟩, by simp only; rw [h1, h2]⟩
  · simp only [List.flatten_append, List.flatten_cons, List.flatten_nil, List.append_nil, List.append_assoc,
      List.replicate_append_replicate]
    congr 2
    have : cap' - l.len = (cap' - (l.len + 1)) + 1 := by omega
    rw [this, Nat.mul_succ, Nat.add_comm]
  · intro x hx
    rcases List.mem_append.1 hx with hx | hx
    · exact h5 x hx
    · rw [List.mem_singleton] at hx
      subst hx; simp

theorem vec_push (l : Vec.T) (n : Nat) (items : List Bytes) (x : Bytes) (hx : x.length = n) (h : VecOk l n items) :
    VecOk (Vec.push l x) n (items ++ [x]) := by
  obtain ⟨a, ha⟩ := vec_alloc l n items h
  obtain ⟨a1, a2, a3, a4, a5⟩ := a
  have hfl := flatten_length items n h.each
  refine ⟨a1, ?_, a3, ?_, ?_⟩
  · simpa [Vec.push] using a2
  · simp only [Vec.push]
    rw [a1, ha, a4, ← hx, List.take_length, Vec.poke]
    rw [hx, ← hfl]
    simp only [List.flatten_append, List.flatten_cons, List.flatten_nil, List.append_nil, List.append_assoc]
    rw [List.take_left]
    congr 2
    rw [← List.append_assoc, List.drop_append]
    simp [hx]
  · intro y hy
    rcases List.mem_append.1 hy with hy | hy
    · exact h.each y hy
    · rw [List.mem_singleton] at hy
      subst hy; exact hx

theorem vec_item (l : Vec.T) (n : Nat) (items : List Bytes) (h : VecOk l n items) (i : Nat) (x : Bytes) (hi : items[i]? = some x) :
    Vec.item l i = x := by
  obtain ⟨h1, h2, h3, h4, h5⟩ := h
  obtain ⟨hlt, rfl⟩ := List.getElem?_eq_some_iff.1 hi
  have hsplit : items = items.take i ++ items[i] :: items.drop (i + 1) := by
    rw [← List.drop_eq_getElem_cons hlt, List.take_append_drop]
  have hpre : (items.take i).flatten.length = n * i := by
    rw [flatten_length _ n (fun y hy => h5 y (List.mem_of_mem_take hy)), List.length_take]
    congr 1; omega
  have hxl : items[i].length = n := h5 _ (List.getElem_mem hlt)
  have hflat : items.flatten = (items.take i).flatten ++ (items[i] ++ (items.drop (i + 1)).flatten) := by
    have := congrArg List.flatten hsplit
    simpa only [List.flatten_append, List.flatten_cons] using this
  rw [Vec.item, h4, h1, hflat, List.append_assoc, ← hpre, List.drop_left, List.append_assoc]
  conv => lhs; rw [← hxl]
  rw [List.take_left]

/-- C56: a vector holds the items in the order they were added; an item that was only
allocated is all zeros. -/
theorem C56_vector (itemsize : Nat) (items : List (Option Bytes)) (hx : ∀ x, some x ∈ items → x.length = itemsize) :
    (vecAfter itemsize items).len = items.length ∧
    ∀ i x, items[i]? = some x → Vec.item (vecAfter itemsize items) i = vecItem itemsize x := by
  have key : VecOk (vecAfter itemsize items) itemsize (items.map (vecItem itemsize)) := by
    induction items using List.reverseRecOn with
    | nil => exact ⟨rfl, rfl, Nat.le_refl _, by simp [vecAfter, Vec.new], by simp⟩
    | append_singleton l op ih =>
      have i := ih (fun x h => hx x (List.mem_append_left _ h))
      rw [List.map_append]
      cases op with
      | none =>
        have e : vecAfter itemsize (l ++ [none]) = (Vec.alloc (vecAfter itemsize l)).1 := by
          simp [vecAfter, List.foldl_append]
        rw [e]
        exact (vec_alloc _ _ _ i).1
      | some x =>
        have e : vecAfter itemsize (l ++ [some x]) = Vec.push (vecAfter itemsize l) x := by
          simp [vecAfter, List.foldl_append]
        rw [e]
        exact vec_push _ _ _ x (hx x (List.mem_append_right _ (by simp))) i
  refine ⟨by rw [key.len]; simp, ?_⟩
  intro i x hi
  exact vec_item _ _ _ key i _ (by simp [hi])

/-- C56: a linked list holds the (non-null) pointers in the order they were appended. -/
theorem C56_append (items : List Nat) (l : LList.T) :
    items.foldl LList.append l = l ++ items.filter (· ≠ 0) := by
  induction items generalizing l with
  | nil => simp
  | cons a items ih =>
    rw [List.foldl_cons, ih, LList.append]
    by_cases h : a = 0 <;> simp [h]

/-- C56: removing a pointer takes out the first node that has it, and nothing else. -/
theorem C56_remove (l : LList.T) (data : Nat) :
    (data ∉ l ∧ LList.remove l data = l) ∨
    ∃ a b, l = a ++ data :: b ∧ data ∉ a ∧ LList.remove l data = a ++ b := by
  induction l with
  | nil => exact Or.inl ⟨by simp, rfl⟩
  | cons x l ih =>
    rw [LList.remove]
    by_cases h : x = data
    · exact Or.inr ⟨[], l, by simp [h], by simp, by simp [h]⟩
    · rw [if_neg h]
      rcases ih with ⟨h1, h2⟩ | ⟨a, b, h1, h2, h3⟩
      · exact Or.inl ⟨by simp [h1]; exact fun e => h e.symm, by rw [h2]⟩
      · exact Or.inr ⟨x :: a, b, by simp [h1], by simp [h2]; exact fun e => h e.symm, by simp [h3]⟩

example : (List.range 3).map (Vec.item (vecAfter 2 [some [1, 2], none, some [3, 4]])) = [[1, 2], [0, 0], [3, 4]] := by
  decide +kernel

end Che.Props
