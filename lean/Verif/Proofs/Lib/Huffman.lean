import Verif.Spec.Lib.Huffman
import Verif.Proofs.Lib.Bits

/-! Reading and writing with a Huffman tree. -/
namespace Che.Proofs.Lib.Huff
open Che Che.Lib Che.Lib.Bits Che.Lib.Huffman Che.Spec.Lib Che.Spec.Lib.Huff

theorem words_leaf (b v c r) : words (.mk b v c .null r) = [(v, [])] := rfl

theorem words_inner {b v c l r} (hl : l ≠ .null) : words (.mk b v c l r) =
    (words l).map (fun p => (p.1, false :: p.2)) ++ (words r).map (fun p => (p.1, true :: p.2)) := by
  cases l with
  | null => exact absurd rfl hl
  | mk => rfl

/-- A reader that works. -/
def ReadOk (s : BitReader) : Prop := s.rem ≤ 8 ∧ s.input.src.full = true

theorem read1_bit {s : BitReader} (h : ReadOk s) {b : Bool} {rest : List Bool} (hb : leftBits s = b :: rest) :
    ∃ s', read1 s = (s', if b then 1 else 0) ∧ leftBits s' = rest ∧ ReadOk s' := by
  rcases read1_spec s h.1 h.2 with ⟨b', h1, h2, h3, h4, h5⟩ | ⟨h1, _⟩
  · rw [hb] at h1
    injection h1 with h1 h6
    subst h1
    exact ⟨(read1 s).1, by rw [← h2], h6.symm, h5, h4⟩
  · rw [hb] at h1
    cases h1

/-- The word of a value leads to the value. -/
theorem readLoop_word : ∀ {t : Node} {c : Nat} {w : List Bool} {top : Bool} {br : BitReader} {rest : List Bool},
    (c, w) ∈ words t → w ≠ [] → ReadOk br → leftBits br = w ++ rest →
    ∃ br', readLoop t top br = .ok (br', (c : Int)) ∧ leftBits br' = rest ∧ ReadOk br'
  | .null, c, w, top, br, rest, h, _, _, _ => by simp [words] at h
  | .mk ic v n l r, c, w, top, br, rest, h, hw, hr, hb => by
    by_cases hl : l = .null
    · subst hl
      rw [words_leaf, List.mem_singleton] at h
      injection h with _ h
      exact absurd h hw
    · rw [words_inner hl, List.mem_append, List.mem_map, List.mem_map] at h
      rcases h with ⟨⟨c', w'⟩, hm, he⟩ | ⟨⟨c', w'⟩, hm, he⟩
      · injection he with he1 he2
        subst he1 he2
        obtain ⟨s', r1, r2, r3⟩ := read1_bit hr (rest := w' ++ rest) hb
        rw [readLoop]
        simp only [r1, EOF, Bool.false_eq_true, if_false]
        rw [if_neg (by decide), if_neg (by decide)]
        cases l with
        | null => exact absurd rfl hl
        | mk ic' v' n' l' r' =>
          cases l' with
          | null =>
            rw [words_leaf, List.mem_singleton] at hm
            injection hm with e1 e2
            subst e1 e2
            exact ⟨s', rfl, r2, r3⟩
          | mk a1 a2 a3 a4 a5 =>
            refine readLoop_word hm ?_ r3 r2
            rintro rfl
            rw [words_inner (by simp)] at hm
            simp at hm
      · injection he with he1 he2
        subst he1 he2
        obtain ⟨s', r1, r2, r3⟩ := read1_bit hr (rest := w' ++ rest) hb
        rw [readLoop]
        simp only [r1, EOF, if_true]
        rw [if_neg (by decide)]
        cases r with
        | null => simp [words] at hm
        | mk ic' v' n' l' r' =>
          cases l' with
          | null =>
            rw [words_leaf, List.mem_singleton] at hm
            injection hm with e1 e2
            subst e1 e2
            exact ⟨s', rfl, r2, r3⟩
          | mk a1 a2 a3 a4 a5 =>
            refine readLoop_word hm ?_ r3 r2
            rintro rfl
            rw [words_inner (by simp)] at hm
            simp at hm

/-- Read `n` characters. -/
def readChars (t : Node) : Nat → BitReader → Res Empty (BitReader × List Int)
  | 0, br => .ok (br, [])
  | n + 1, br => do
    let (br, c) ← read t br
    let (br, cs) ← readChars t n br
    pure (br, c :: cs)

theorem read_chars {t : Node} : ∀ {ps : List (Nat × List Bool)} {br : BitReader} {rest : List Bool},
    (∀ p ∈ ps, p ∈ words t ∧ p.2 ≠ []) → ReadOk br → leftBits br = ps.flatMap (·.2) ++ rest →
    ∃ br', readChars t ps.length br = .ok (br', ps.map (fun p => (p.1 : Int))) ∧ leftBits br' = rest ∧ ReadOk br'
  | [], br, rest, _, hr, hb => ⟨br, rfl, by simpa using hb, hr⟩
  | (c, w) :: ps, br, rest, h, hr, hb => by
    obtain ⟨h1, h2⟩ := h (c, w) (by simp)
    obtain ⟨br1, a1, a2, a3⟩ := readLoop_word (top := true) h1 h2 hr (rest := ps.flatMap (·.2) ++ rest) (by simpa using hb)
    obtain ⟨br2, b1, b2, b3⟩ := read_chars (fun p hp => h p (by simp [hp])) a3 a2
    refine ⟨br2, ?_, b2, b3⟩
    have a1 : read t br = .ok (br1, (c : Int)) := a1
    rw [List.length_cons, readChars, a1]
    show (readChars t ps.length br1).bind _ = _
    rw [b1]
    rfl

/-! ## Writing -/

/-- Every node has two children or none. -/
def Proper : Node → Prop
  | .null => False
  | .mk _ _ _ .null r => r = .null
  | .mk _ _ _ l r => Proper l ∧ Proper r

theorem proper_inner {b v c l r} (hl : l ≠ .null) : Proper (.mk b v c l r) ↔ Proper l ∧ Proper r := by
  cases l with
  | null => exact absurd rfl hl
  | mk => rfl

/-- A bit as a byte. -/
def bitByte (b : Bool) : UInt8 := if b then 1 else 0

theorem inittable_spec : ∀ {t : Node} {pref : Bytes} {table : Table}, Proper t →
    (∀ p ∈ words t, pref.length + p.2.length ≤ 16) → (∀ p ∈ words t, p.1 < table.length) →
    ((words t).map (·.1)).Nodup →
    ∃ table', inittable t pref table = .ok table' ∧ table'.length = table.length ∧
      (∀ p ∈ words t, table'.getD p.1 [] = pref ++ p.2.map bitByte) ∧
      ∀ i, i ∉ (words t).map (·.1) → table'.getD i [] = table.getD i []
  | .null, _, _, h, _, _, _ => by simp [Proper] at h
  | .mk ic v n l r, pref, table, h, hd, hv, hn => by
    by_cases hl : l = .null
    · subst hl
      have h1 := hd (v, []) (by simp [words_leaf])
      have h2 := hv (v, []) (by simp [words_leaf])
      simp only at h1 h2
      refine ⟨table.set v pref, ?_, by simp, ?_, ?_⟩
      · rw [inittable, if_neg (by simpa using h1), if_neg (by omega)]
        rfl
      · simp only [words_leaf, List.mem_singleton, forall_eq, List.map_nil, List.append_nil]
        simp [List.getD, h2]
      · intro i hi
        simp only [words_leaf, List.map_cons, List.map_nil, List.mem_singleton] at hi
        simp only [List.getD, List.getElem?_set]
        rw [if_neg (fun h => hi h.symm)]
    · rw [proper_inner hl] at h
      rw [words_inner hl] at hd hv hn ⊢
      simp only [List.mem_append, List.mem_map, or_imp, forall_and, forall_exists_index, and_imp,
        forall_apply_eq_imp_iff₂, List.length_cons] at hd hv
      rw [List.map_append, List.map_map, List.map_map, List.nodup_append] at hn
      have ef : ((fun p : Nat × List Bool => p.1) ∘ fun p : Nat × List Bool => (p.1, false :: p.2)) = (·.1) := rfl
      have et : ((fun p : Nat × List Bool => p.1) ∘ fun p : Nat × List Bool => (p.1, true :: p.2)) = (·.1) := rfl
      rw [ef, et] at hn
      obtain ⟨n1, n2, n3⟩ := hn
      have hne : ∃ p, p ∈ words l := by
        cases l with
        | null => exact absurd rfl hl
        | mk b1 b2 b3 b4 b5 =>
          have : ∀ {t}, Proper t → ∃ p, p ∈ words t := by
            intro t
            induction t with
            | null => simp [Proper]
            | mk q1 q2 q3 q4 q5 ih _ =>
              intro hp
              by_cases hq : q4 = .null
              · subst hq; exact ⟨(q2, []), by rw [words_leaf]; simp⟩
              · rw [proper_inner hq] at hp
                obtain ⟨p, hp⟩ := ih hp.1
                exact ⟨(p.1, false :: p.2), by
                  rw [words_inner hq]; exact List.mem_append_left _ (List.mem_map.2 ⟨p, hp, rfl⟩)⟩
          exact this h.1
      obtain ⟨q, hq⟩ := hne
      have hlt : ¬ 16 ≤ pref.length := by have := hd.1 q hq; omega
      obtain ⟨t1, a1, a2, a3, a4⟩ := inittable_spec (t := l) (pref := pref ++ [0]) (table := table) h.1
        (fun p hp => by have := hd.1 p hp; simp; omega) hv.1 n1
      obtain ⟨t2, b1, b2, b3, b4⟩ := inittable_spec (t := r) (pref := pref ++ [1]) (table := t1) h.2
        (fun p hp => by have := hd.2 p hp; simp; omega) (fun p hp => by rw [a2]; exact hv.2 p hp) n2
      refine ⟨t2, ?_, by rw [b2, a2], ?_, ?_⟩
      · cases l with
        | null => exact absurd rfl hl
        | mk =>
          rw [inittable, if_neg hlt, a1]
          exact b1
          simp
      · simp only [List.mem_append, List.mem_map, or_imp, forall_and, forall_exists_index, and_imp,
          forall_apply_eq_imp_iff₂, List.map_cons]
        constructor
        · intro p hp
          rw [b4 p.1 (fun hm => n3 p.1 (List.mem_map_of_mem hp) p.1 hm rfl), a3 p hp]
          simp [bitByte]
        · intro p hp
          rw [b3 p hp]
          simp [bitByte]
      · intro i hi
        rw [List.map_append, List.map_map, List.map_map, ef, et, List.mem_append, not_or] at hi
        rw [b4 i hi.2, a4 i hi.1]

/-- Write the characters of a text. -/
def writeChars : HWriter → Bytes → HWriter × Bool
  | w, [] => (w, true)
  | w, c :: s =>
    let (w, ok) := write w c
    if ok then writeChars w s else (w, false)

theorem write_chars {f : UInt8 → List Bool} : ∀ {s : Bytes} {w : HWriter}, Bits.Good w.w →
    (∀ c ∈ s, w.table.getD c.toNat [] = (f c).map bitByte) → w.w.reverse = false →
    (writeChars w s).1.w.reverse = false ∧ (writeChars w s).1.w.out.kind = w.w.out.kind ∧
    (((writeChars w s).2 = false ∧ w.w.out.kind ≠ .file none) ∨
      ((writeChars w s).2 = true ∧ Bits.Good (writeChars w s).1.w ∧
        Bits.written (writeChars w s).1.w = Bits.written w.w ++ s.flatMap f))
  | [], w, hg, _, hr => ⟨hr, rfl, .inr ⟨rfl, hg, by simp [writeChars]⟩⟩
  | c :: s, w, hg, hf, hr => by
    obtain ⟨a1, a2, a3⟩ := Bits.write_spec w.w (w.table.getD c.toNat []) hg
    have hc := hf c (by simp)
    have hbits : (w.table.getD c.toNat []).map (fun b => decide (b ≠ 0)) = f c := by
      rw [hc, List.map_map]
      conv => rhs; rw [← List.map_id (f c)]
      apply List.map_congr_left
      intro b _
      cases b <;> decide
    rcases a3 with ⟨b1, b2, b3⟩ | ⟨b1, b2, b3⟩
    · simp only [writeChars, Huffman.write, b1, Bool.false_eq_true, if_false]
      exact ⟨a1.trans hr, a2, .inl ⟨trivial, b3⟩⟩
    · have ih := write_chars (f := f) (s := s) (w := (write w c).1) b2 (fun d hd => hf d (by simp [hd]))
        (a1.trans hr)
      have e : writeChars w (c :: s) = writeChars (write w c).1 s := by
        simp only [writeChars, Huffman.write, b1, if_true]
      rw [e]
      refine ⟨ih.1, ih.2.1.trans a2, ?_⟩
      have hk : (write w c).1.w.out.kind = w.w.out.kind := a2
      rw [hk] at ih
      rcases ih.2.2 with h | ⟨h1, h2, h3⟩
      · exact .inl h
      · refine .inr ⟨h1, h2, ?_⟩
        have hw : Bits.written (write w c).1.w = Bits.written w.w ++ f c := by rw [← hbits]; exact b3
        rw [h3, hw]
        simp

end Che.Proofs.Lib.Huff
