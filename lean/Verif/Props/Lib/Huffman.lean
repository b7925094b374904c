import Verif.Proofs.Lib.HuffmanCode
import Verif.Proofs.Lib.HuffmanCanon

/-!
C81-C84: `lib/compress/huffman.c` builds Huffman trees, and reads and writes with them.
-/
namespace Che.Props
open Che Che.Lib Che.Lib.Huffman Che.Spec.Lib Che.Spec.Lib.Huff Che.Proofs.Lib.Huff

/-! ## C81: what is written can be read -/

/-- C81: for a text of at least two different characters `buildtree` makes a tree, and if
no word of its code is longer than 16 bits, then every message over the characters of the
text, written to a file with the tree and closed, is read back from the file with the
tree.  The file holds the code of the message and fewer than eight zero bits. -/
theorem C81_round_trip (sort : List Node → List Node) (hs : SortsDown sort) (s : Bytes)
    (h2 : ∃ a ∈ s, ∃ b ∈ s, a ≠ b) :
    ∃ t, buildtree sort s = .ok t ∧ ((∀ c ∈ s, (wordFor t c).length ≤ 16) →
      ∀ msg : Bytes, (∀ c ∈ msg, c ∈ s) →
        ∃ hw, newwriter t Writer.toFile = .ok hw ∧ (writeChars hw msg).2 = true ∧
          ∃ out, closewriter (writeChars hw msg).1 = .ok out ∧
            (∃ k, k < 8 ∧ bitString false out.out = encode t msg ++ List.replicate k false) ∧
            ∃ br, readChars t msg.length (Bits.newreader (Reader.ofFile out.out) false) =
              .ok (br, msg.map (fun c => (c.toNat : Int)))) := by
  have hne : s ≠ [] := by
    obtain ⟨a, ha, _⟩ := h2
    rintro rfl
    simp at ha
  obtain ⟨t, h1, h3⟩ := buildtree_forest hs hne
  exact ⟨t, h1, fun h16 msg hm => (treeOf h3).round_trip h2 h16 hm⟩

/-! ## C82: no code is shorter -/

/-- C82: for every text the tree exists, and the text in its code is at most as long as in
any other code that can be decoded, whatever the order of `qsort` for equal counts. -/
theorem C82_optimal (sort : List Node → List Node) (hs : SortsDown sort) (s : Bytes) (hne : s ≠ []) :
    ∃ t, buildtree sort s = .ok t ∧ ∀ f : UInt8 → List Bool, Decodable s f → (encode t s).length ≤ (s.flatMap f).length := by
  obtain ⟨t, h1, h2⟩ := buildtree_forest hs hne
  refine ⟨t, h1, fun f hf => ?_⟩
  obtain ⟨t', h3, h4, h5⟩ := buildtree_cheap hs hne hf
  rw [h1] at h3
  injection h3 with h3
  subst h3
  rw [(treeOf h4).length]
  exact h5

/-- C82: with two different characters, the code of the tree is one that can be decoded. -/
theorem C82_decodable (sort : List Node → List Node) (hs : SortsDown sort) (s : Bytes)
    (h2 : ∃ a ∈ s, ∃ b ∈ s, a ≠ b) (t : Node) (ht : buildtree sort s = .ok t) : Decodable s (wordFor t) := by
  have hne : s ≠ [] := by
    obtain ⟨a, ha, _⟩ := h2
    rintro rfl
    simp at ha
  exact (treeOf_build hs hne ht).decodable h2

/-! ## C83: the lengths of words -/

/-- C83: a word of `n` bits takes a text of at least `fib (n + 2)` characters. -/
theorem C83_fib (sort : List Node → List Node) (hs : SortsDown sort) (s : Bytes) (t : Node)
    (ht : buildtree sort s = .ok t) (c : UInt8) (hc : c ∈ s) : Nat.fib ((wordFor t c).length + 2) ≤ s.length := by
  have hne : s ≠ [] := by rintro rfl; simp at hc
  have h := treeOf_build hs hne ht
  have h1 := word_le_height (h.wordFor hc)
  have h2 := h.fib
  rw [h.count] at h2
  exact Nat.le_trans (Nat.fib_mono (by simpa using h1)) h2

/-- C83: the words for a text of fewer than 4181 characters fit in the 16 places of the
writer's table. -/
theorem C83_fits (sort : List Node → List Node) (hs : SortsDown sort) (s : Bytes) (hl : s.length < 4181) (t : Node)
    (ht : buildtree sort s = .ok t) (c : UInt8) (hc : c ∈ s) : (wordFor t c).length ≤ 16 := by
  have h := C83_fib sort hs s t ht c hc
  apply Decidable.byContradiction
  intro hn
  have h19 : Nat.fib 19 ≤ Nat.fib ((wordFor t c).length + 2) := Nat.fib_mono (by omega)
  have : Nat.fib 19 = 4181 := by decide
  omega

/-- C81 without a condition on the tree. -/
theorem C81_short (sort : List Node → List Node) (hs : SortsDown sort) (s : Bytes) (hl : s.length < 4181)
    (h2 : ∃ a ∈ s, ∃ b ∈ s, a ≠ b) (msg : Bytes) (hm : ∀ c ∈ msg, c ∈ s) :
    ∃ t hw out br, buildtree sort s = .ok t ∧ newwriter t Writer.toFile = .ok hw ∧ (writeChars hw msg).2 = true ∧
      closewriter (writeChars hw msg).1 = .ok out ∧
      readChars t msg.length (Bits.newreader (Reader.ofFile out.out) false) = .ok (br, msg.map (fun c => (c.toNat : Int))) := by
  obtain ⟨t, h1, h3⟩ := C81_round_trip sort hs s h2
  obtain ⟨hw, a1, a2, out, a3, _, br, a4⟩ := h3 (C83_fits sort hs s hl t h1) msg hm
  exact ⟨t, hw, out, br, h1, a1, a2, a3, a4⟩

/-! ## Examples -/

/-- A sorting function. -/
def insertNode (x : Node) : List Node → List Node
  | [] => [x]
  | y :: l => if x.count < y.count then y :: insertNode x l else x :: y :: l

def sortNodes (l : List Node) : List Node := l.foldr insertNode []

theorem insertNode_perm (x : Node) : ∀ l, (insertNode x l).Perm (x :: l)
  | [] => .refl _
  | y :: l => by
    rw [insertNode]
    split
    · exact ((insertNode_perm x l).cons y).trans (.swap x y l)
    · exact .refl _

theorem insertNode_sorted (x : Node) : ∀ l : List Node, l.Pairwise (fun a b => b.count ≤ a.count) →
    (insertNode x l).Pairwise (fun a b => b.count ≤ a.count)
  | [], _ => by simp [insertNode]
  | y :: l, h => by
    rw [List.pairwise_cons] at h
    rw [insertNode]
    split
    · rename_i hle
      refine List.pairwise_cons.2 ⟨fun z hz => ?_, insertNode_sorted x l h.2⟩
      rcases List.mem_cons.1 ((insertNode_perm x l).mem_iff.1 hz) with rfl | hz
      · exact Nat.le_of_lt hle
      · exact h.1 z hz
    · rename_i hle
      refine List.pairwise_cons.2 ⟨fun z hz => ?_, List.pairwise_cons.2 h⟩
      rcases List.mem_cons.1 hz with rfl | hz
      · omega
      · have := h.1 z hz; omega

theorem sortNodes_sorts : SortsDown sortNodes := by
  intro l
  induction l with
  | nil => exact ⟨.refl _, .nil⟩
  | cons x l ih => exact ⟨(insertNode_perm x _).trans (ih.1.cons x), insertNode_sorted x _ ih.2⟩

/-- "abracadabra". -/
def abra : Bytes := [97, 98, 114, 97, 99, 97, 100, 97, 98, 114, 97]

/-- The code of a text with one sorting function, and its words. -/
def codeOf (s : Bytes) : Option (List (Nat × List Bool)) :=
  match buildtree sortNodes s with
  | .ok t => some (words t)
  | _ => none

example : ∃ a ∈ abra, ∃ b ∈ abra, a ≠ b := ⟨97, by decide, 98, by decide, by decide⟩

example : (match buildtree sortNodes abra with | .ok t => (encode t abra).length | _ => 0) = 23 := by decide +kernel

/-- What a program finds that writes `msg` with the tree for `s` and reads `n` characters. -/
def thereAndBack (s msg : Bytes) (n : Nat) : Res Empty (Bytes × List Int) := do
  let t ← buildtree sortNodes s
  let w ← newwriter t Writer.toFile
  let out ← closewriter (writeChars w msg).1
  let (_, cs) ← readChars t n (Bits.newreader (Reader.ofFile out.out) false)
  pure (out.out, cs)



example : thereAndBack abra [98, 97, 114] 3 = .ok ([156], [98, 97, 114]) := by decide +kernel

/-- C81 is false of a text with one character: nothing is written and the end is read. -/
theorem C81_counterexample_single : thereAndBack [97, 97, 97] [97, 97] 2 = .ok ([], [-1, -1]) := by
  decide +kernel

/-- C81 needs the number of characters: the filling of the last byte is read as
characters. -/
theorem C81_counterexample_end : thereAndBack abra [97] 5 = .ok ([0], [97, 97, 97, 97, 97]) := by
  decide +kernel

/-- For the empty text there is no tree. -/
theorem C81_counterexample_empty : thereAndBack [] [] 0 = .panic "undefined: null pointer" := by
  decide +kernel

/-- A text of 4181 characters, 18 of them different, whose numbers are 1 and the first 17
Fibonacci numbers. -/
def fibText : Bytes := ((97, 1) :: (List.range 17).map fun i => (UInt8.ofNat (98 + i), Nat.fib (i + 1))).flatMap
  fun p => List.replicate p.2 p.1

/-- `buildtree` after the counting. -/
def afterCount (sort : List Node → List Node) (counts : List Nat) : Res Empty Node := do
  let (pos, list) ← listLoop counts (List.range 256) 0 []
  let list ← mergeLoop sort list.length pos list
  pure (list.getD 0 .null)

theorem countLoop_run (c : UInt8) (s : Bytes) : ∀ (n : Nat) (counts : List Nat), counts.length = 256 →
    countLoop (List.replicate n c ++ s) counts = countLoop s (counts.set c.toNat (counts.getD c.toNat 0 + n))
  | 0, counts, h => by
    have hc : c.toNat < counts.length := by rw [h]; exact c.toNat_lt
    have : counts.set c.toNat (counts.getD c.toNat 0 + 0) = counts := by
      rw [Nat.add_zero, List.getD, List.getElem?_eq_getElem hc, Option.getD_some, List.set_getElem_self]
    rw [this]
    rfl
  | n + 1, counts, h => by
    have hc : c.toNat < counts.length := by rw [h]; exact c.toNat_lt
    rw [List.replicate_succ, List.cons_append, countLoop, countLoop_run c s n _ (by simp [h]), List.set_set]
    congr 2
    rw [List.getD, List.getElem?_set, if_pos rfl, if_pos hc, Option.getD_some]
    omega

theorem countLoop_runs : ∀ (runs : List (UInt8 × Nat)) (counts : List Nat), counts.length = 256 →
    countLoop (runs.flatMap fun p => List.replicate p.2 p.1) counts =
      runs.foldl (fun counts p => counts.set p.1.toNat (counts.getD p.1.toNat 0 + p.2)) counts
  | [], _, _ => rfl
  | p :: runs, counts, h => by
    rw [List.flatMap_cons, countLoop_run _ _ _ _ h, countLoop_runs runs _ (by simp [h]), List.foldl_cons]

/-- The bound of C83 is exact: a text of 4181 characters for which `newwriter` writes past
the end of its table. -/
theorem C83_counterexample : fibText.length = 4181 ∧
    ∃ t, buildtree sortNodes fibText = .ok t ∧ (wordFor t 98).length = 17 ∧
      newwriter t Writer.toFile = .panic "undefined: out of bounds" := by
  have e : buildtree sortNodes fibText = afterCount sortNodes (countLoop fibText (List.replicate 256 0)) := rfl
  rw [fibText, countLoop_runs _ _ List.length_replicate, ← fibText] at e
  rw [e]
  have h : (match afterCount sortNodes (((97, 1) :: (List.range 17).map fun i => (UInt8.ofNat (98 + i), Nat.fib (i + 1))).foldl
      (fun counts p => counts.set p.1.toNat (counts.getD p.1.toNat 0 + p.2)) (List.replicate 256 0)) with
    | .ok t => decide ((wordFor t 98).length = 17) && (match newwriter t Writer.toFile with
      | .panic m => m == "undefined: out of bounds"
      | _ => false)
    | _ => false) = true := by decide +kernel
  refine ⟨by rw [fibText, List.length_flatMap]; simp only [List.length_replicate]; decide +kernel, ?_⟩
  split at h
  · rename_i t ht
    refine ⟨t, ht, ?_⟩
    rw [Bool.and_eq_true, decide_eq_true_eq] at h
    refine ⟨h.1, ?_⟩
    have h2 := h.2
    split at h2
    · rename_i m hm
      rw [hm, beq_iff_eq.1 h2]
    · cases h2
  · cases h

/-! ## C84: trees from lengths -/

/-- C84: a tree that `treefrom` makes, with at least one value, has the canonical code: the
values in their order get the words of the given lengths, each the successor of the one
before.  It only makes a tree if there are as many values as the counts say and no number
is too large for its length. -/
theorem C84_canonical (lencounts vals : List UInt8) (t : Node) (h : treefrom lencounts vals = .ok t)
    (h0 : 0 < (lengths (lencounts.map (·.toNat))).length) :
    words t = List.zip (vals.map (·.toNat)) (canonical (lengths (lencounts.map (·.toNat)))) ∧
    (lengths (lencounts.map (·.toNat))).length ≤ vals.length ∧
    Fits (lengths (lencounts.map (·.toNat))) := by
  rw [treefrom] at h
  split at h
  · cases h
  · have hl : lensLoop 0 (lencounts.map (·.toNat)) (vals.map (·.toNat)) 1 fresh = .ok t := h
    have hge : ∀ x ∈ lengthsFrom 0 (lencounts.map (·.toNat)), 1 ≤ x := fun x hx => lengthsFrom_ge hx
    obtain ⟨a1, a2, a3, a4⟩ := lensLoop_sound _ 0 _ 1 fresh 0 t inv_start hl
    rw [lengths_from] at h0 ⊢
    rw [List.length_map] at a2
    have hc : cwords t = List.zip (vals.map (·.toNat)) (canonical (lengthsFrom 0 (lencounts.map (·.toNat)))) := by
      rw [a4, codeWords_canonical _ hge]; rfl
    refine ⟨?_, a2, ?_⟩
    · rcases a3 with hne | rfl
      · rw [words_cwords hne, hc]
      · have := congrArg List.length hc
        rw [show cwords fresh = [] from rfl] at this
        simp [canonical, canonicalFrom_length] at this
        omega
    · intro p hp
      rw [canonicalFrom_rescale (k := 0) (l := 0) (l' := 1) (by omega) hge, Nat.zero_mul] at hp
      exact a1 p hp

/-- C84: it does make the tree if that is so and 512 nodes are enough. -/
theorem C84_complete (lencounts vals : List UInt8) (h255 : lencounts.length ≤ 255)
    (hv : (lengths (lencounts.map (·.toNat))).length ≤ vals.length) (hf : Fits (lengths (lencounts.map (·.toNat))))
    (hn : 2 * (lengths (lencounts.map (·.toNat))).length + lencounts.length ≤ 512) :
    ∃ t, treefrom lencounts vals = .ok t := by
  rw [lengths_from] at hv hf hn
  have hge : ∀ x ∈ lengthsFrom 0 (lencounts.map (·.toNat)), 1 ≤ x := fun x hx => lengthsFrom_ge hx
  obtain ⟨t, ht⟩ := lensLoop_complete (lencounts.map (·.toNat)) 0 (vals.map (·.toNat)) 1 fresh 0 inv_start
    (by
      intro p hp
      refine hf p ?_
      rw [canonicalFrom_rescale (k := 0) (l := 0) (l' := 1) (by omega) hge, Nat.zero_mul]
      exact hp)
    (by rw [List.length_map]; exact hv)
    (by rw [show cwords fresh = [] from rfl, List.length_map]; simpa using hn)
  refine ⟨t, ?_⟩
  rw [treefrom, if_neg (by omega)]
  exact ht

/-- C84: with such a tree the words of the values are read as the values. -/
theorem C84_read (lencounts vals : List UInt8) (t : Node) (h : treefrom lencounts vals = .ok t)
    (ps : List (Nat × List Bool))
    (hp : ∀ p ∈ ps, p ∈ List.zip (vals.map (·.toNat)) (canonical (lengths (lencounts.map (·.toNat)))))
    (data : Bytes) (rest : List Bool) (hd : bitString false data = ps.flatMap (·.2) ++ rest) :
    ∃ br, readChars t ps.length (Bits.newreader (Reader.ofFile data) false) = .ok (br, ps.map (fun p => (p.1 : Int))) := by
  by_cases h0 : 0 < (lengths (lencounts.map (·.toNat))).length
  · obtain ⟨h1, _, _⟩ := C84_canonical lencounts vals t h h0
    rw [← h1] at hp
    have hne : ∀ p ∈ words t, p.2 ≠ [] := by
      intro p hp
      rw [h1] at hp
      have := (List.of_mem_zip (a := p.1) (b := p.2) hp).2
      rw [canonical, List.mem_map] at this
      obtain ⟨q, hq, he⟩ := this
      have hq1 := (List.of_mem_zip (a := q.1) (b := q.2) hq).1
      rw [lengths_from] at hq1
      have := lengthsFrom_ge hq1
      rw [← he]
      intro hb
      have hlen := congrArg List.length hb
      simp [bitsOfNat] at hlen
      omega
    obtain ⟨br, r1, _, _⟩ := read_chars (t := t) (ps := ps) (br := Bits.newreader (Reader.ofFile data) false) (rest := rest)
      (fun p hq => ⟨hp p hq, hne p (hp p hq)⟩) ⟨by simp [Bits.newreader], rfl⟩ (by
        rw [← hd]
        simp [Bits.leftBits, Bits.newreader, Reader.ofFile, Source.rest, List.drop_of_length_le, Bits.bitsOf_length])
    exact ⟨br, r1⟩
  · cases ps with
    | nil => exact ⟨_, rfl⟩
    | cons p ps =>
      have hl : lengths (lencounts.map (·.toNat)) = [] := by
        cases hc : lengths (lencounts.map (·.toNat)) with
        | nil => rfl
        | cons a b => rw [hc] at h0; simp at h0
      have := hp p (by simp)
      rw [hl] at this
      simp [canonical] at this

/-- The code of the example in `huffman.test.c`: one word of length 1, one of 2 and so on. -/
example : canonical (lengths [0, 2, 2, 3]) =
    [[false, false], [false, true], [true, false, false], [true, false, true], [true, true, false, false],
     [true, true, false, true], [true, true, true, false]] := by decide +kernel

example : (match treefrom [0, 2, 2, 3] [65, 66, 67, 68, 69, 70, 71] with | .ok t => words t | _ => []) =
    [(65, [false, false]), (66, [false, true]), (67, [true, false, false]), (68, [true, false, true]),
     (69, [true, true, false, false]), (70, [true, true, false, true]), (71, [true, true, true, false])] := by decide +kernel

/-- Too many words for their length: the program stops. -/
example : treefrom [3] [65, 66, 67] = .panic "huffman.c:49: failed to create a node" := by decide +kernel

/-- The number of nodes can be too small for a code that fits: 256 values. -/
theorem C84_counterexample_pool :
    treefrom (List.replicate 8 0 ++ [255, 1]) (List.replicate 256 7) = .panic "huffman.c:26: too many nodes" := by
  decide +kernel

end Che.Props
