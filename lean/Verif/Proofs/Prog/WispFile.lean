import Verif.Proofs.Prog.WispSafe

/-!
A file of printed values, read by `prog/wisp`.
-/
namespace Che.Prog.Wisp
open Che Che.Lib Che.Spec.Wisp

private theorem bind_ok {ε α β : Type} (a : α) (f : α → Res ε β) : ((Res.ok a : Res ε α) >>= f) = f a := rfl

theorem readN_ok (vs : List Val) (hv : ∀ v ∈ vs, readable v ∧ depth v ≤ 30) : ∀ (r : Reader) (cs : List Int), Ready r → r.eof = false → r.shebang ≠ -1 → inp r.eater = cs → Spells cs (lines vs) →
    ∃ r', readN vs.length r = .ok (vs, r') ∧ Ready r' ∧ r'.eof = false ∧ r'.shebang ≠ -1 ∧ inp r'.eater = [] := by
  induction vs with
  | nil =>
    intro r cs hr he hb hi hs
    exact ⟨r, rfl, hr, he, hb, hi.trans (spells_nil hs)⟩
  | cons v vs ih =>
    intro r cs hr he hb hi hs
    have e : lines (v :: vs) = print v ++ (10 :: lines vs) := by unfold lines; simp
    rw [e] at hs
    obtain ⟨x, y, rfl, hx, hy⟩ := spells_append hs
    obtain ⟨t, rfl, ht⟩ := spells_lit hy (by decide)
    have h10 : (((10 : UInt8).toNat : Nat) : Int) = 10 := rfl
    rw [h10] at hi
    obtain ⟨hv1, hv2⟩ := hv v (by simp)
    obtain ⟨r1, h1, k1, k2, _, k4, k5⟩ := read_print hv1 hv2 hr he hb hi hx (fun _ => .inr ⟨10, t, rfl, .inr (by decide)⟩)
    have k6 : inp r1.eater = t := k5.trans rfl
    obtain ⟨r', h2, j1, j2, j3, j4⟩ := ih (fun w hw => hv w (by simp [hw])) r1 t k1 k2 (by rw [k4]; exact hb) k6 ht
    refine ⟨r', ?_, j1, j2, j3, j4⟩
    show (read_sexp r >>= _) = _
    rw [h1, bind_ok]
    simp only
    rw [h2, bind_ok]

theorem read_end {r : Reader} (hr : Ready r) (hb : r.shebang ≠ -1) (hi : inp r.eater = []) : ∃ r', read_sexp r = .ok (r', nil) ∧ r'.eof = true ∧ r'.error = false := by
  rw [read_eq r hb hr.stack]
  by_cases he : r.eof = false
  · obtain ⟨e1, g1, i1, b1, f1⟩ := getc_nil hr.fits hi
    refine ⟨{ r with error := false, stack := [], eater := e1, eof := true }, ?_, rfl, rfl⟩
    obtain ⟨k, hk⟩ : ∃ k, 2 * r.eater.left = k + 2 := ⟨2 * r.eater.left - 2, by have := size_lt_left r.eater; omega⟩
    rw [hk, loop, if_neg (by simp), if_pos (by unfold goes topOf; simp [he]; rfl)]
    have : step { r with error := false, stack := [fresh] } = .ok { r with error := false, stack := [fresh], eater := e1, eof := true } := by
      unfold step
      rw [g1]
      rfl
    rw [this, bind_ok, loop, if_neg (by simp), if_neg (by unfold goes; simp), bind_ok]
    unfold finish
    rw [if_neg (by simp), bind_ok]
    rfl
  · have he : r.eof = true := by cases h : r.eof <;> simp_all
    refine ⟨{ r with error := false, stack := [] }, ?_, he, rfl⟩
    obtain ⟨k, hk⟩ : ∃ k, 2 * r.eater.left = k + 1 := ⟨2 * r.eater.left - 1, by have := size_lt_left r.eater; omega⟩
    rw [hk, loop, if_neg (by simp), if_neg (by unfold goes; simp [he]), bind_ok]
    unfold finish
    rw [if_neg (by simp [he]), bind_ok]
    rfl

/-- The first two characters, looked at and put back. -/
theorem shebang_back {r : Reader} (hr : Ready r) (hb : r.shebang = -1) {cs : List Int} {a b : UInt8} {bs : Bytes} (hi : inp r.eater = cs) (hs : Spells cs (a :: b :: bs))
    (h1 : ¬ (a = 35 ∧ b = 33)) (ha : a ≠ 255) (hb' : b ≠ 255) :
    ∃ r1 cs', shebang r = .ok r1 ∧ Ready r1 ∧ r1.eof = r.eof ∧ r1.shebang ≠ -1 ∧ inp r1.eater = cs' ∧ Spells cs' (a :: b :: bs) := by
  obtain ⟨c, t, rfl, c1, _, c3, c4, hs1⟩ := spells_cons hs
  obtain ⟨d, t, rfl, d1, _, d3, d4, hs2⟩ := spells_cons hs1
  obtain ⟨e1, g1, i1, b1, f1⟩ := getc_cons hr.fits hi
  obtain ⟨e2, g2, i2, b2, f2⟩ := getc_cons f1 i1
  unfold shebang
  rw [if_pos hb, g1]
  simp only
  rw [g2]
  simp only
  rw [c1, d1]
  have key : ∀ (x : UInt8) (n : Int), toChar x = n → x = toByte n := fun x n h => by rw [← h]; exact (toChar_range x).2.2.2.symm
  rw [if_neg (fun h => h1 ⟨key a 35 h.1, key b 33 h.2⟩)]
  obtain ⟨e3, a3, i3, b3, f3⟩ := putc_ok f2 (toChar b)
  obtain ⟨e4, a4, i4, b4, f4⟩ := putc_ok f3 (toChar a)
  rw [a3, bind_ok, a4, bind_ok]
  refine ⟨_, _, rfl, ⟨hr.stack, f4, b4.trans (b3.trans (b2.trans (b1.trans hr.buf)))⟩, rfl, by simp, rfl, ?_⟩
  show Spells (inp e4) _
  rw [i4, i3, i2]
  obtain ⟨p1, p2, p3, p4⟩ := toChar_range a
  obtain ⟨q1, q2, q3, q4⟩ := toChar_range b
  refine ⟨by rw [List.map_cons, List.map_cons, p4, q4, hs2.1], ?_⟩
  intro x hx
  simp only [List.mem_cons] at hx
  rcases hx with rfl | rfl | hx
  · exact ⟨fun h => ha (p3.mp h), p1, by omega⟩
  · exact ⟨fun h => hb' (q3.mp h), q1, by omega⟩
  · exact hs2.2 x hx

/-- The first line, skipped. -/
theorem shebang_skip {r : Reader} (hr : Ready r) (hb : r.shebang = -1) {l rest : List Int} (hi : inp r.eater = 35 :: 33 :: (l ++ 10 :: rest)) (h1 : (10 : Int) ∉ l) (h2 : (-1 : Int) ∉ l) :
    ∃ r1, shebang r = .ok r1 ∧ Ready r1 ∧ r1.eof = r.eof ∧ r1.shebang ≠ -1 ∧ inp r1.eater = rest := by
  obtain ⟨e1, g1, i1, b1, f1⟩ := getc_cons hr.fits hi
  obtain ⟨e2, g2, i2, b2, f2⟩ := getc_cons f1 i1
  obtain ⟨e3, a3, i3, b3, f3⟩ := consume_line_ok f2
  refine ⟨{ r with eater := e3, shebang := 1 }, ?_, ⟨hr.stack, f3, b3.trans (b2.trans (b1.trans hr.buf))⟩, rfl, by simp, ?_⟩
  · unfold shebang
    rw [if_pos hb, g1]
    simp only
    rw [g2]
    simp only
    rw [if_pos (by decide), a3, bind_ok]
  · show inp e3 = rest
    rw [i3, i2]
    unfold afterLine
    have : (l ++ 10 :: rest).dropWhile (fun c : Int => decide (c ≠ 10 ∧ c ≠ -1)) = 10 :: rest := by
      rw [List.dropWhile_append_of_pos (by
        intro x hx
        simp only [decide_eq_true_eq]
        exact ⟨fun e => h1 (e ▸ hx), fun e => h2 (e ▸ hx)⟩)]
      rfl
    rw [this]
    rfl

theorem read_unbalanced {r : Reader} (hr : Ready r) (he : r.eof = false) (hb : r.shebang ≠ -1) {c : Int} (hc : c = 41 ∨ c = 93) {g t : List Int} (hg : Gap g) (hi : inp r.eater = g ++ c :: t) :
    ∃ r', read_sexp r = .ok (r', .sym (cstr "wisp-error")) ∧ r'.error = true ∧ Ready r' := by
  have ho : Open { r with error := false, stack := [fresh] } fresh [] := ⟨rfl, he, rfl, .inl rfl, hr.fits, hr.buf⟩
  obtain ⟨m, e0, hm, h0, o0, i0⟩ := run_gap hg ho hi
  obtain ⟨e1, g1, i1, b1, f1⟩ := getc_cons o0.fits i0
  obtain ⟨r', k1, k2⟩ := read_error_ok (r := { r with error := false, stack := [fresh], eater := e1 }) f1 hb
  have hs : step { r with error := false, stack := [fresh], eater := e0 } = .ok r' := by
    unfold step
    simp only
    rw [show getc e0 = (c, e1) from g1]
    simp only
    rcases hc with rfl | rfl
    · rw [if_neg (by decide), if_neg (by decide), if_neg (by decide), if_neg (by decide), if_neg (by decide), if_pos rfl, if_neg (by exact (by decide : ¬ fresh.quote_mode = true)), if_neg (by exact (by decide : ¬ fresh.vector_mode = true))]
      exact k1
    · rw [if_neg (by decide), if_neg (by decide), if_neg (by decide), if_neg (by decide), if_neg (by decide), if_neg (by decide), if_neg (by decide), if_pos rfl, if_neg (by exact (by decide : ¬ fresh.quote_mode = true)), if_pos (by exact (by decide : fresh.vector_mode = false))]
      exact k1
  obtain ⟨k, hk⟩ : ∃ k, 2 * r.eater.left = (k + 1) + (m + 1) := by
    have := left_eq r.eater
    rw [hi, List.length_append, List.length_cons] at this
    exact ⟨2 * r.eater.left - m - 2, by omega⟩
  refine ⟨r', ?_, k2.error, ⟨k2.stack, k2.fits, k2.buf⟩⟩
  rw [read_eq r hb hr.stack, hk, h0.trans (o0.run hs) (k + 1), loop, if_neg (by rw [k2.error]; simp), if_neg (by unfold goes; simp [k2.error]), bind_ok]
  unfold finish
  rw [if_neg (by rw [k2.error]; simp), bind_ok]
  exact if_pos k2.error

end Che.Prog.Wisp
