import Verif.Proofs.Lib.HuffmanOpt

/-! The code of the tree that `buildtree` makes. -/
namespace Che.Proofs.Lib.Huff
open Che Che.Lib Che.Lib.Bits Che.Lib.Huffman Che.Spec.Lib Che.Spec.Lib.Huff

theorem buildtree_forest {sort} (hs : SortsDown sort) {s : Bytes} (hne : s ≠ []) :
    ∃ t, buildtree sort s = .ok t ∧ Forest (times s) (chars s) [t] :=
  buildtree_ind hs s hne _ (forest_start s) forest_step

theorem buildtree_cheap {sort} (hs : SortsDown sort) {s : Bytes} (hne : s ≠ []) {f} (h : Decodable s f) :
    ∃ t, buildtree sort s = .ok t ∧ Forest (times s) (chars s) [t] ∧ cost t ≤ (s.flatMap f).length := by
  obtain ⟨M, hM⟩ := cheap_start h
  obtain ⟨t, h1, h2, h3⟩ := buildtree_ind hs s hne
    (fun l => Forest (times s) (chars s) l ∧ Cheap (s.flatMap f).length M l) ⟨forest_start s, hM⟩
    (fun list pre a b hp hq hr => ⟨forest_step list pre a b hp.1 hq hr,
      cheap_step list pre a b (built_ne (hp.1.1 a (hq.mem_iff.2 (by simp)))) hp.2 hq hr⟩)
  refine ⟨t, h1, h2, ?_⟩
  obtain ⟨Q, _, _, _, h4⟩ := h3
  simp only [List.map_cons, List.map_nil, List.sum_cons, List.sum_nil] at h4
  omega

/-- What is known of the tree. -/
structure TreeOf (s : Bytes) (t : Node) : Prop where
  built : Built (times s) t
  perm : (vals t).Perm (chars s)
  fib : Nat.fib (height t + 2) ≤ t.count

theorem treeOf {s t} (h : Forest (times s) (chars s) [t]) : TreeOf s t :=
  ⟨h.1 t (by simp), by simpa using h.2.1, (h.2.2 t (by simp)).1⟩

theorem treeOf_build {sort} (hs : SortsDown sort) {s : Bytes} (hne : s ≠ []) {t} (h : buildtree sort s = .ok t) :
    TreeOf s t := by
  obtain ⟨t', h1, h2⟩ := buildtree_forest hs hne
  rw [h] at h1
  injection h1 with h1
  subst h1
  exact treeOf h2

theorem find_word {l : List (Nat × List Bool)} (hn : (l.map (·.1)).Nodup) {p} (hp : p ∈ l) :
    l.find? (fun q => q.1 == p.1) = some p := by
  induction l with
  | nil => cases hp
  | cons q l ih =>
    rw [List.map_cons, List.nodup_cons] at hn
    rcases List.mem_cons.1 hp with rfl | hp
    · rw [List.find?_cons_of_pos (by simp)]
    · rw [List.find?_cons_of_neg, ih hn.2 hp]
      simp only [beq_iff_eq]
      intro he
      exact hn.1 (he ▸ List.mem_map_of_mem hp)

theorem TreeOf.nodup {s t} (h : TreeOf s t) : ((words t).map (·.1)).Nodup :=
  h.perm.nodup_iff.2 (chars_nodup s)

theorem TreeOf.wordFor {s t} (h : TreeOf s t) {c : UInt8} (hc : c ∈ s) : (c.toNat, wordFor t c) ∈ words t := by
  have := h.perm.mem_iff.2 (mem_chars.2 hc)
  obtain ⟨p, hp, he⟩ := List.mem_map.1 this
  have := find_word h.nodup hp
  rw [he] at this
  rw [Spec.Lib.Huff.wordFor, this]
  rw [← he]
  exact hp

theorem TreeOf.wordFor_eq {s t} (h : TreeOf s t) {p} (hp : p ∈ words t) : Spec.Lib.Huff.wordFor t (UInt8.ofNat p.1) = p.2 := by
  have hlt : p.1 < 256 := chars_lt (h.perm.mem_iff.1 (List.mem_map_of_mem hp))
  rw [Spec.Lib.Huff.wordFor, UInt8.toNat_ofNat', Nat.mod_eq_of_lt hlt, find_word h.nodup hp]

theorem TreeOf.count {s t} (h : TreeOf s t) : t.count = s.length := by
  rw [built_count h.built]
  have e : ((words t).map (fun p => times s p.1)).sum = ((vals t).map (times s)).sum := by
    rw [vals, List.map_map]; rfl
  rw [e, (h.perm.map _).sum_nat]
  have := times_sum_chars (fun _ => 1) s
  simp only [Nat.mul_one] at this
  rw [← this]
  simp

theorem TreeOf.length {s t} (h : TreeOf s t) : (encode t s).length = cost t := by
  rw [encode, flatMap_length, built_cost h.built]
  have e : (words t).map (fun p => times s p.1 * p.2.length) =
      (vals t).map (fun i => times s i * (Spec.Lib.Huff.wordFor t (UInt8.ofNat i)).length) := by
    rw [vals, List.map_map]
    apply List.map_congr_left
    intro p hp
    simp only [Function.comp_apply, h.wordFor_eq hp]
  rw [e]
  exact ((h.perm.map _).sum_nat).symm

/-- With two different characters no word is empty. -/
theorem words_nonempty {t : Node} (h : 2 ≤ (words t).length) {p} (hp : p ∈ words t) : p.2 ≠ [] := by
  cases t with
  | null => simp [words] at hp
  | mk b v c l r =>
    by_cases hl : l = .null
    · subst hl; simp [words_leaf] at h
    · rw [words_inner hl, List.mem_append, List.mem_map, List.mem_map] at hp
      rcases hp with ⟨q, _, rfl⟩ | ⟨q, _, rfl⟩ <;> simp

/-- More than one character. -/
def Two (s : Bytes) : Prop := ∃ a ∈ s, ∃ b ∈ s, a ≠ b

theorem TreeOf.two {s t} (h : TreeOf s t) (h2 : Two s) : 2 ≤ (words t).length := by
  obtain ⟨a, ha, b, hb, hne⟩ := h2
  have e : (words t).length = (chars s).length := by rw [← h.perm.length_eq, vals, List.length_map]
  rw [e]
  have ma := mem_chars.2 ha
  have mb := mem_chars.2 hb
  generalize chars s = l at ma mb
  match l, ma, mb with
  | [x], ma, mb =>
    rw [List.mem_singleton] at ma mb
    exact absurd (UInt8.toNat_inj.1 (ma.trans mb.symm)) hne
  | x :: y :: l, _, _ => simp

/-- No word is the beginning of another. -/
theorem words_prefix : ∀ {t : Node} {p q : Nat × List Bool} {r r' : List Bool}, p ∈ words t → q ∈ words t →
    p.2 ++ r = q.2 ++ r' → ((words t).map (·.1)).Nodup → p = q
  | .null, p, q, r, r', hp, _, _, _ => by simp [words] at hp
  | .mk b v c l x, p, q, r, r', hp, hq, he, hn => by
    by_cases hl : l = .null
    · subst hl
      rw [words_leaf, List.mem_singleton] at hp hq
      rw [hp, hq]
    · rw [words_inner hl, List.mem_append, List.mem_map, List.mem_map] at hp hq
      rw [words_inner hl, List.map_append, List.map_map, List.map_map, List.nodup_append] at hn
      rcases hp with ⟨p', hp, rfl⟩ | ⟨p', hp, rfl⟩ <;> rcases hq with ⟨q', hq, rfl⟩ | ⟨q', hq, rfl⟩
      · have := words_prefix hp hq (List.cons.inj he).2 hn.1
        rw [this]
      · simp at he
      · simp at he
      · have := words_prefix hp hq (List.cons.inj he).2 hn.2.1
        rw [this]

theorem TreeOf.decodable {s t} (h : TreeOf s t) (h2 : Two s) : Decodable s (Spec.Lib.Huff.wordFor t) := by
  intro a
  induction a with
  | nil =>
    intro b _ hb he
    cases b with
    | nil => rfl
    | cons c b =>
      have := words_nonempty (h.two h2) (h.wordFor (hb c (by simp)))
      rw [List.flatMap_cons, List.flatMap_nil] at he
      exact absurd (List.append_eq_nil_iff.1 he.symm).1 this
  | cons c a ih =>
    intro b ha hb he
    cases b with
    | nil =>
      have := words_nonempty (h.two h2) (h.wordFor (ha c (by simp)))
      rw [List.flatMap_cons, List.flatMap_nil] at he
      exact absurd (List.append_eq_nil_iff.1 he).1 this
    | cons d b =>
      rw [List.flatMap_cons, List.flatMap_cons] at he
      have e := words_prefix (h.wordFor (ha c (by simp))) (h.wordFor (hb d (by simp))) he h.nodup
      have hcd : c = d := UInt8.toNat_inj.1 (congrArg Prod.fst e)
      subst hcd
      rw [ih b (fun x hx => ha x (by simp [hx])) (fun x hx => hb x (by simp [hx])) (List.append_cancel_left he)]

/-- What is written can be read. -/
theorem TreeOf.round_trip {s t} (h : TreeOf s t) (h2 : Two s) (h16 : ∀ c ∈ s, (Spec.Lib.Huff.wordFor t c).length ≤ 16)
    {msg : Bytes} (hm : ∀ c ∈ msg, c ∈ s) :
    ∃ hw, newwriter t Writer.toFile = .ok hw ∧ (writeChars hw msg).2 = true ∧
      ∃ out, closewriter (writeChars hw msg).1 = .ok out ∧
        (∃ k, k < 8 ∧ bitString false out.out = encode t msg ++ List.replicate k false) ∧
        ∃ br, readChars t msg.length (Bits.newreader (Reader.ofFile out.out) false) =
          .ok (br, msg.map (fun c => (c.toNat : Int))) := by
  have hlt : ∀ p ∈ words t, p.1 < 256 := fun p hp => chars_lt (h.perm.mem_iff.1 (List.mem_map_of_mem hp))
  have h16' : ∀ p ∈ words t, p.2.length ≤ 16 := by
    intro p hp
    have e := h.wordFor_eq hp
    rw [← e]
    refine h16 _ (mem_chars.1 ?_)
    rw [UInt8.toNat_ofNat', Nat.mod_eq_of_lt (hlt p hp)]
    exact h.perm.mem_iff.1 (List.mem_map_of_mem hp)
  obtain ⟨table, i1, i2, i3, _⟩ := inittable_spec (t := t) (pref := []) (table := List.replicate 256 [])
    (built_proper h.built) (fun p hp => by simpa using h16' p hp)
    (fun p hp => by rw [List.length_replicate]; exact hlt p hp) h.nodup
  refine ⟨{ table := table, w := Bits.newwriter Writer.toFile false }, ?_, ?_⟩
  · rw [Huffman.newwriter, i1]; rfl
  obtain ⟨w1, w2, w3⟩ := write_chars (f := Spec.Lib.Huff.wordFor t) (s := msg)
    (w := { table := table, w := Bits.newwriter Writer.toFile false }) (Bits.good_new _ _)
    (fun c hc => by
      have := i3 _ (h.wordFor (hm c hc))
      simpa using this) rfl
  generalize hW : writeChars { table := table, w := Bits.newwriter Writer.toFile false } msg = W at w1 w2 w3
  rcases w3 with ⟨_, w4⟩ | ⟨w3, w4, w5⟩
  · exact absurd rfl w4
  refine ⟨w3, ?_⟩
  rcases Bits.close_spec W.1.w w4 with ⟨_, c2⟩ | ⟨c1, k, hk, c2⟩
  · exact absurd w2 c2
  refine ⟨(Bits.closewriter W.1.w).1, ?_, ?_, ?_⟩
  · simp only [Huffman.closewriter, c1, if_true]; rfl
  · refine ⟨k, hk, ?_⟩
    rw [w1] at c2
    rw [c2, w5, Bits.written_new]
    rfl
  · have hl : Bits.leftBits (Bits.newreader (Reader.ofFile (Bits.closewriter W.1.w).1.out) false) =
        encode t msg ++ List.replicate k false := by
      rw [w1] at c2
      have e : Bits.leftBits (Bits.newreader (Reader.ofFile (Bits.closewriter W.1.w).1.out) false) =
          bitString false (Bits.closewriter W.1.w).1.out := by
        simp [Bits.leftBits, Bits.newreader, Reader.ofFile, Source.rest, List.drop_of_length_le, Bits.bitsOf_length]
      rw [e, c2, w5, Bits.written_new]
      rfl
    obtain ⟨br, r1, _, _⟩ := read_chars (t := t) (ps := msg.map (fun c => (c.toNat, Spec.Lib.Huff.wordFor t c)))
      (br := Bits.newreader (Reader.ofFile (Bits.closewriter W.1.w).1.out) false) (rest := List.replicate k false)
      (by
        intro p hp
        obtain ⟨c, hc, rfl⟩ := List.mem_map.1 hp
        have := h.wordFor (hm c hc)
        exact ⟨this, words_nonempty (h.two h2) this⟩)
      ⟨by simp [Bits.newreader], rfl⟩
      (by rw [hl, encode, List.flatMap_map])
    refine ⟨br, ?_⟩
    rw [List.length_map, List.map_map] at r1
    exact r1

end Che.Proofs.Lib.Huff
